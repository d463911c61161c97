import Verif.OverloadLemmas

/-!
# Which overload is chosen from each of the library's sets
-/

set_option autoImplicit false

namespace Verif.Overload

variable {T : Type} [DecidableEq T]

/-- The copy constructor for an argument. -/
def copyId (mode : Mode) (a : Arg T) : Ctor :=
  match mode.bestRef a with
  | (false, true) => .copyC
  | (false, false) => .copy
  | (true, true) => .moveC
  | (true, false) => .move

/-- The overload of `core::insert` for a value. -/
def valId (mode : Mode) (a : Arg T) : Ins :=
  match mode.bestRef a with
  | (false, true) => .valC
  | (false, false) => .val
  | (true, true) => .rvalC
  | (true, false) => .rval

theorem ctors_fw {mode : Mode} {W : World T} {Y : Types T} {a : Arg T} (ht : a.ty = Y.fw) (hl : W.list Y.fw = false) :
    resolve W (ctors mode Y) [a] =
      some (plain (copyId mode a) (.ref (mode.bestRef a).1 (mode.bestRef a).2 Y.fw)) := by
  unfold ctors
  apply resolve_exact ht
  · unfold copyId Mode.bestRef
    cases mode.rvalues <;> cases a.rv <;> cases a.cst <;> simp
  · intro m
    unfold copyId
    split <;> simp
  · obtain ⟨t, c, r⟩ := a
    subst ht
    unfold copyId Mode.bestRef
    cases mode.rvalues <;> cases r <;> cases c <;>
      simp [better, plain, Cand.conv, Cand.params, deduceAll, deduce, icsAll, ics, bindOk, hl, noWorse, someBetter, Ics.better]
  · unfold copyId Mode.bestRef
    cases mode.rvalues <;> cases a.rv <;> cases a.cst <;> simp [plain]

theorem inserts_val {mode : Mode} {W : World T} {Y : Types T} {a : Arg T} (ht : a.ty = Y.val) :
    resolve W (inserts mode Y) [a] =
      some (plain (valId mode a) (.ref (mode.bestRef a).1 (mode.bestRef a).2 Y.val)) := by
  unfold inserts
  apply resolve_exact ht
  · unfold valId Mode.bestRef
    cases mode.rvalues <;> cases a.rv <;> cases a.cst <;> simp
  · intro m
    unfold valId
    split <;> simp
  · obtain ⟨t, c, r⟩ := a
    subst ht
    unfold valId Mode.bestRef
    cases mode.rvalues <;> cases r <;> cases c <;>
      simp [better, plain, Cand.conv, Cand.params, deduceAll, deduce, icsAll, ics, bindOk, noWorse, someBetter, Ics.better]
  · unfold valId Mode.bestRef
    cases mode.rvalues <;> cases a.rv <;> cases a.cst <;> simp [plain]

/-- Other functions are not viable, or need a conversion that is not exact. -/
theorem plain_worse {I : Type} [DecidableEq I] {W : World T} {as : List (Arg T)} {i : I} {rv cst : Bool} {t : T}
    (h : ∀ a, as = [a] → a.ty ≠ t) :
    (plain i (.ref rv cst t)).conv W as = none ∨
    ∃ y, as.length = 1 ∧ (plain i (.ref rv cst t)).conv W as = some [y] ∧ 0 < y.rank := by
  by_cases hl : as.length = 1
  · match as, hl with
    | [a], _ =>
      rcases plain_rank (W := W) (i := i) (rv := rv) (cst := cst) (h a rfl) with h | ⟨y, h, hy⟩
      · exact Or.inl h
      · exact Or.inr ⟨y, rfl, h, hy⟩
  · exact Or.inl (plain_length hl)

theorem ctors_fwd {mode : Mode} {W : World T} {Y : Types T} {as : List (Arg T)} (hne : as ≠ [])
    (hf : mode.fits as.length = true) (h : ∀ a, as = [a] → a.ty ≠ Y.fw)
    (hl : mode.rvalues = true → ∀ a, as = [a] → W.list a.ty = false) :
    resolve W (ctors mode Y) as = some (fwdCand mode .fwd as) := by
  unfold ctors
  apply resolve_fwd (by intro m m' h; simpa using h) hf (Or.inr (Or.inl hne))
  have hd : ∀ d ∈ ([⟨.dflt, false, false, []⟩, plain .copyC (.ref false true Y.fw),
      plain .copy (.ref false false Y.fw)] : List (Cand Ctor T)), (∀ m, d.id ≠ .fwd m) ∧ (d.conv W as = none ∨
      ∃ y, as.length = 1 ∧ d.conv W as = some [y] ∧ 0 < y.rank) := by
    intro d hd
    simp only [List.mem_cons, List.not_mem_nil, or_false] at hd
    rcases hd with rfl | rfl | rfl
    · exact ⟨by simp, Or.inl (conv_length rfl (by simpa using hne))⟩
    · exact ⟨by simp [plain], plain_worse h⟩
    · exact ⟨by simp [plain], plain_worse h⟩
  intro d hd'
  rcases List.mem_append.1 hd' with hd' | hd'
  · exact hd d hd'
  · by_cases hr : mode.rvalues = true
    · simp only [hr, if_true, List.mem_cons, List.not_mem_nil, or_false] at hd'
      rcases hd' with rfl | rfl | rfl
      · refine ⟨by simp, Or.inl ?_⟩
        by_cases h1 : as.length = 1
        · match as, h1 with
          | [a], _ => simp [Cand.conv, Cand.params, deduceAll, deduce, hl hr a rfl]
        · exact conv_length rfl (by simpa using h1)
      · exact ⟨by simp [plain], plain_worse h⟩
      · exact ⟨by simp [plain], plain_worse h⟩
    · simp [hr] at hd'

theorem ctors_dflt {mode : Mode} {W : World T} {Y : Types T} :
    resolve W (ctors mode Y) [] = some ⟨.dflt, false, false, []⟩ := by
  apply resolve_eq
  · simp [ctors]
  · rfl
  · intro d hd hne hv
    have h0 : ∀ (d : Cand Ctor T), d.pack = false → d.pars ≠ [] → d.conv W [] = none := fun d hp h =>
      conv_length hp (by cases hq : d.pars <;> simp_all)
    simp only [ctors, List.mem_append] at hd
    rcases hd with hd | hd | hd
    · rcases mem_fwds hd with ⟨_, rfl⟩ | ⟨_, h, _⟩ | ⟨_, _, _, _, rfl⟩ | ⟨_, m, _, hm, _, rfl⟩
      · simp [better, Cand.conv, Cand.params, deduceAll, icsAll, noWorse, someBetter]
      · cases h
      · rw [h0 _ rfl (by simp)] at hv; cases hv
      · rw [h0 _ rfl (by simpa [maskPars] using hm)] at hv; cases hv
    · simp only [List.mem_cons, List.not_mem_nil, or_false] at hd
      rcases hd with rfl | rfl | rfl
      · exact absurd rfl hne
      · rw [h0 _ rfl (by simp [plain])] at hv; cases hv
      · rw [h0 _ rfl (by simp [plain])] at hv; cases hv
    · by_cases hr : mode.rvalues = true
      · simp only [hr, if_true, List.mem_cons, List.not_mem_nil, or_false] at hd
        rcases hd with rfl | rfl | rfl
        · rw [h0 _ rfl (by simp)] at hv; cases hv
        · rw [h0 _ rfl (by simp [plain])] at hv; cases hv
        · rw [h0 _ rfl (by simp [plain])] at hv; cases hv
      · simp [hr] at hd
  · intro d hd he
    simp only [ctors, List.mem_append] at hd
    rcases hd with hd | hd | hd
    · rcases mem_fwds hd with ⟨_, rfl⟩ | ⟨_, h, _⟩ | ⟨_, _, _, _, rfl⟩ | ⟨_, m, _, hm, _, rfl⟩ <;> simp_all
    · simp only [List.mem_cons, List.not_mem_nil, or_false] at hd
      rcases hd with rfl | rfl | rfl
      · rfl
      · simp [plain] at he
      · simp [plain] at he
    · by_cases hr : mode.rvalues = true
      · simp only [hr, if_true, List.mem_cons, List.not_mem_nil, or_false] at hd
        rcases hd with rfl | rfl | rfl <;> simp [plain] at he
      · simp [hr] at hd

theorem ctors_list {mode : Mode} {W : World T} {Y : Types T} {a : Arg T} (hr : mode.rvalues = true)
    (h : a.ty ≠ Y.fw) (hl : W.list a.ty = true) :
    resolve W (ctors mode Y) [a] = some ⟨.list, true, false, [.list]⟩ := by
  have hc : (⟨.list, true, false, [.list]⟩ : Cand Ctor T).conv W [a] = some [⟨0, false, false, false, a.ty⟩] := by
    simp [Cand.conv, Cand.params, deduceAll, deduce, hl, icsAll, ics]
  have hp : ∀ (i : Ctor) (rv cst : Bool), ((plain i (.ref rv cst Y.fw)).conv W [a]).isSome = true →
      better W [a] (⟨.list, true, false, [.list]⟩ : Cand Ctor T) (plain i (.ref rv cst Y.fw)) = true := by
    intro i rv cst hv
    rcases plain_rank (W := W) (i := i) (rv := rv) (cst := cst) h with h | ⟨y, h, hy⟩
    · rw [h] at hv; cases hv
    · obtain ⟨h1, h2⟩ := exact_better (xs := [(⟨0, false, false, false, a.ty⟩ : Ics T)]) rfl (by simp) hy
      unfold better
      rw [hc, h]
      simp [h1, h2]
  apply resolve_eq
  · simp [ctors, hr]
  · rw [hc]; rfl
  · intro d hd hne hv
    simp only [ctors, hr, if_true, List.mem_append, List.mem_cons, List.not_mem_nil, or_false] at hd
    rcases hd with hd | (rfl | rfl | rfl) | (rfl | rfl | rfl)
    · obtain ⟨htm, rv, cst, hc', _⟩ := fwds_one hd hv
      have hs : moreSpec (⟨.list, true, false, [.list]⟩ : Cand Ctor T) d = true := by
        rcases mem_fwds hd with ⟨_, rfl⟩ | ⟨_, h, _⟩ | ⟨l, n, _, _, rfl⟩ | ⟨_, m, hm, _⟩
        · rfl
        · cases h
        · by_cases hn : n = 0
          · subst hn; rfl
          · rw [conv_length rfl (by simp; omega)] at hv; cases hv
        · subst hm; cases hr
      unfold better
      rw [hc, hc']
      simp [noWorse, someBetter, Ics.better, htm, hs]
    · rw [conv_length rfl (by simp)] at hv; cases hv
    · exact hp _ _ _ hv
    · exact hp _ _ _ hv
    · exact absurd rfl hne
    · exact hp _ _ _ hv
    · exact hp _ _ _ hv
  · intro d hd he
    simp only [ctors, hr, if_true, List.mem_append, List.mem_cons, List.not_mem_nil, or_false] at hd
    rcases hd with hd | (rfl | rfl | rfl) | (rfl | rfl | rfl)
    · rcases mem_fwds hd with ⟨_, rfl⟩ | ⟨_, h, _⟩ | ⟨_, _, _, _, rfl⟩ | ⟨_, m, _, hm, _, rfl⟩ <;> simp_all
    all_goals first | rfl | simp [plain] at he

theorem inserts_fwd {mode : Mode} {W : World T} {Y : Types T} {as : List (Arg T)}
    (hf : mode.fits as.length = true) (h : ∀ a, as = [a] → a.ty ≠ Y.val) :
    resolve W (inserts mode Y) as = some (fwdCand mode .fwd as) := by
  unfold inserts
  apply resolve_fwd (by intro m m' h; simpa using h) hf (Or.inl rfl)
  intro d hd
  simp only [List.mem_append, List.mem_cons, List.not_mem_nil, or_false] at hd
  rcases hd with (rfl | rfl) | hd
  · exact ⟨by simp [plain], plain_worse h⟩
  · exact ⟨by simp [plain], plain_worse h⟩
  · by_cases hr : mode.rvalues = true
    · simp only [hr, if_true, List.mem_cons, List.not_mem_nil, or_false] at hd
      rcases hd with rfl | rfl
      · exact ⟨by simp [plain], plain_worse h⟩
      · exact ⟨by simp [plain], plain_worse h⟩
    · simp [hr] at hd

theorem reps_fwd {mode : Mode} {W : World T} {Y : Types T} {pol : Pol} {as : List (Arg T)}
    (hf : mode.fits as.length = true) (hr : ∀ a, as = [a] → a.ty ≠ Y.rep)
    (h : pol ≠ .dflt → ∀ a, as = [a] → a.ty ≠ Y.val) :
    resolve W (repCtors mode Y pol) as = some (fwdCand mode .fwd as) := by
  unfold repCtors
  apply resolve_fwd (by intro m m' h; simpa using h) hf (Or.inl rfl)
  intro d hd
  simp only [List.mem_append, List.mem_cons] at hd
  rcases hd with rfl | hd | hd
  · exact ⟨by simp [plain], plain_worse hr⟩
  · by_cases hv : mode.rvalues = true
    · simp only [hv, if_true, List.mem_singleton] at hd
      subst hd
      exact ⟨by simp [plain], plain_worse hr⟩
    · simp [hv] at hd
  · by_cases hp : pol = .dflt
    · simp [hp] at hd
    · simp only [hp, if_false, List.mem_cons] at hd
      rcases hd with rfl | hd
      · exact ⟨by simp [plain], plain_worse (h hp)⟩
      · by_cases hv : mode.rvalues = true
        · simp only [hv, if_true, List.mem_singleton] at hd
          subst hd
          exact ⟨by simp [plain], plain_worse (h hp)⟩
        · simp [hv] at hd

/-- Values given to `insert_value`. -/
theorem insertValues_val {mode : Mode} {W : World T} {Y : Types T} {a : Arg T} (ht : a.ty = Y.val) :
    resolve W (insertValues mode Y) [a] =
      some (if mode.rvalues && a.rv && !a.cst then plain true (.ref true false Y.val)
        else plain false (.ref false true Y.val)) := by
  obtain ⟨t, c, r⟩ := a
  subst ht
  unfold insertValues
  cases mode.rvalues <;> cases r <;> cases c <;>
    simp [resolve, better, plain, Cand.conv, Cand.params, deduceAll, deduce, icsAll, ics, bindOk, noWorse, someBetter,
      Ics.better]

/-- Values given to `rep_type`'s constructor (`const` lvalues, and rvalues if there are rvalue references). -/
theorem reps_val {mode : Mode} {W : World T} {Y : Types T} {pol : Pol} {a : Arg T} (hp : pol ≠ .dflt)
    (ht : a.ty = Y.val) (hv : Y.val ≠ Y.rep) (ha : a.cst = true ∧ a.rv = false ∨ mode.rvalues = true ∧ a.cst = false ∧ a.rv = true) :
    ∃ p, resolve W (repCtors mode Y pol) [a] = some (plain (if a.rv then .rval else .val) p) := by
  have hb : mode.bestRef a = (a.rv, a.cst) := by
    unfold Mode.bestRef
    rcases ha with ⟨h1, h2⟩ | ⟨h0, h1, h2⟩
    · cases mode.rvalues <;> simp [h1, h2]
    · simp [h0]
  refine ⟨.ref (mode.bestRef a).1 (mode.bestRef a).2 Y.val, ?_⟩
  unfold repCtors
  have hrep : ∀ (i : RepCtor) (rv cst : Bool), ((plain i (.ref rv cst Y.rep)).conv W [a]).isSome = true →
      better W [a] (plain (if a.rv then .rval else .val) (.ref (mode.bestRef a).1 (mode.bestRef a).2 Y.val))
        (plain i (.ref rv cst Y.rep)) = true := by
    intro i rv cst hs
    rcases plain_rank (W := W) (i := i) (rv := rv) (cst := cst) (ht ▸ hv : a.ty ≠ Y.rep) with h | ⟨y, h, hy⟩
    · rw [h] at hs; cases hs
    · obtain ⟨h1, h2⟩ := exact_better (xs := [(⟨0, true, a.rv, a.cst, a.ty⟩ : Ics T)]) rfl (by simp) hy
      unfold better
      rw [hb, ← ht, plain_exact, if_pos (bindOk_self a), h]
      simp [h1, h2]
  apply resolve_exact ht
  · rw [hb]
    rcases ha with ⟨h1, h2⟩ | ⟨h0, h1, h2⟩
    · simp [h1, h2, hp]
    · simp [h0, h1, h2, hp]
  · intro m
    split <;> simp
  · intro d hd hne hs
    simp only [List.mem_append, List.mem_cons, hp, if_false] at hd
    rcases hd with rfl | hd | rfl | hd
    · exact hrep _ _ _ hs
    · by_cases hr : mode.rvalues = true
      · simp only [hr, if_true, List.mem_singleton] at hd
        subst hd
        exact hrep _ _ _ hs
      · simp [hr] at hd
    · rcases ha with ⟨h1, h2⟩ | ⟨h0, h1, h2⟩
      · simp [h2, plain] at hne
      · rw [hb]
        obtain ⟨t, c, r⟩ := a
        simp only at h1 h2 ht
        subst h1 h2 ht
        simp [better, plain, Cand.conv, Cand.params, deduceAll, deduce, icsAll, ics, bindOk, noWorse, someBetter,
          Ics.better]
    · by_cases hr : mode.rvalues = true
      · simp only [hr, if_true, List.mem_singleton] at hd
        subst hd
        rcases ha with ⟨h1, h2⟩ | ⟨h0, h1, h2⟩
        · rw [← ht, plain_exact] at hs
          simp [bindOk, h2] at hs
        · simp [h2, plain] at hne
      · simp [hr] at hd
  · intro d hd he
    rw [hb]
    simp only [List.mem_append, List.mem_cons, hp, if_false] at hd
    rcases hd with rfl | hd | rfl | hd
    · simp only [plain] at he
      split at he <;> cases he
    · by_cases hr : mode.rvalues = true
      · simp only [hr, if_true, List.mem_singleton] at hd
        subst hd
        simp only [plain] at he
        split at he <;> cases he
      · simp [hr] at hd
    · rcases ha with ⟨h1, h2⟩ | ⟨h0, h1, h2⟩
      · simp [h1, h2]
      · simp [h2, plain] at he
    · by_cases hr : mode.rvalues = true
      · simp only [hr, if_true, List.mem_singleton] at hd
        subst hd
        rcases ha with ⟨h1, h2⟩ | ⟨h0, h1, h2⟩
        · simp [h2, plain] at he
        · simp [h1, h2]
      · simp [hr] at hd

/-! ## Outcomes -/

omit [DecidableEq T] in
theorem passed_ty (mode : Mode) (a : Arg T) : (mode.passed a).ty = a.ty := by
  unfold Mode.passed; split <;> rfl

omit [DecidableEq T] in
theorem passed_passed (mode : Mode) (a : Arg T) : mode.passed (mode.passed a) = mode.passed a := by
  unfold Mode.passed; split <;> simp

omit [DecidableEq T] in
theorem map_passed (mode : Mode) (as : List (Arg T)) :
    (as.map mode.passed).map mode.passed = as.map mode.passed := by
  simp [Function.comp_def, passed_passed]

omit [DecidableEq T] in
/-- A single argument among forwarded ones. -/
theorem passed_one {mode : Mode} {as : List (Arg T)} {P : T → Prop} (h : ∀ a, as = [a] → P a.ty) :
    ∀ a, as.map mode.passed = [a] → P a.ty := by
  intro a ha
  match as with
  | [] => simp at ha
  | [b] =>
    simp only [List.map_cons, List.map_nil, List.cons.injEq, and_true] at ha
    rw [← ha, passed_ty]
    exact h b rfl
  | b :: c :: l => simp at ha

theorem makeRep_key {mode : Mode} {W : World T} {Y : Types T} {pol : Pol} {moved : Bool} {as : List (Arg T)}
    (hf : mode.fits as.length = true) (hr : ∀ a, as = [a] → a.ty ≠ Y.rep)
    (h : pol ≠ .dflt → ∀ a, as = [a] → a.ty ≠ Y.val) :
    makeRep mode W Y pol moved as = .key (as.map mode.passed) := by
  obtain ⟨ps, h1, h2⟩ := fwdCand_params mode W RepCtor.fwd as
  unfold makeRep
  rw [reps_fwd hf hr h]
  simp only [fwdCand_id, h1, h2]

theorem insert_key {mode : Mode} {W : World T} {Y : Types T} {pol : Pol} {as : List (Arg T)}
    (hf : mode.fits as.length = true) (hr : ∀ a, as = [a] → a.ty ≠ Y.rep) (h : ∀ a, as = [a] → a.ty ≠ Y.val) :
    insert mode W Y pol as = .key (as.map mode.passed) := by
  obtain ⟨ps, h1, h2⟩ := fwdCand_params mode W Ins.fwd as
  unfold insert
  rw [inserts_fwd hf h]
  simp only [fwdCand_id, h1, h2]
  rw [makeRep_key (by simpa using hf) (passed_one (P := fun t => t ≠ Y.rep) hr)
    (fun _ => passed_one (P := fun t => t ≠ Y.val) h), map_passed]

/-- What becomes of a value: `moved` if it is a non-`const` rvalue. -/
def valueMade (Y : Types T) (pol : Pol) (moved : Bool) : Made T :=
  match pol with
  | .dflt => .key [⟨Y.val, !moved, moved⟩]
  | .variant => .value moved
  | .product => .error

theorem insertValue_val {mode : Mode} {W : World T} {Y : Types T} {pol : Pol} {a : Arg T} (ht : a.ty = Y.val)
    (hv : Y.val ≠ Y.rep) (hf : mode.fits 1 = true) :
    insertValue mode W Y pol a = valueMade Y pol (mode.rvalues && a.rv && !a.cst) := by
  have hrep : ∀ moved, (moved = true → mode.rvalues = true) →
      makeRep mode W Y pol moved [⟨Y.val, !moved, moved⟩] = valueMade Y pol moved := by
    intro moved hm
    by_cases hp : pol = .dflt
    · subst hp
      rw [makeRep_key hf (by simpa using hv) (by simp)]
      cases moved
      · simp [valueMade, Mode.passed]
      · simp [valueMade, Mode.passed, hm rfl]
    · obtain ⟨p, h⟩ := reps_val (mode := mode) (W := W) (Y := Y) (a := ⟨Y.val, !moved, moved⟩) hp rfl hv
        (by cases moved <;> simp [hm])
      unfold makeRep
      rw [h]
      cases pol with
      | dflt => exact absurd rfl hp
      | variant => cases moved <;> simp [plain, valueMade]
      | product => cases moved <;> simp [plain, valueMade]
  unfold insertValue
  rw [insertValues_val ht]
  by_cases h : (mode.rvalues && a.rv && !a.cst) = true
  · have hm : mode.rvalues = true := by simp only [Bool.and_eq_true] at h; exact h.1.1
    rw [if_pos h, h]
    simpa [plain, Cand.params, deduceAll, deduce, Par.forward] using hrep true fun _ => hm
  · have h' : (mode.rvalues && a.rv && !a.cst) = false := by simpa using h
    rw [if_neg h, h']
    simpa [plain, Cand.params, deduceAll, deduce, Par.name] using hrep false (by simp)

theorem insert_val {mode : Mode} {W : World T} {Y : Types T} {pol : Pol} {a : Arg T} (ht : a.ty = Y.val)
    (hv : Y.val ≠ Y.rep) (hf : mode.fits 1 = true) :
    insert mode W Y pol [a] = valueMade Y pol (mode.rvalues && a.rv && !a.cst) := by
  have h1 : ∀ b : Arg T, b.ty = Y.val → (mode.rvalues && b.rv && !b.cst) = (mode.rvalues && a.rv && !a.cst) →
      insertValue mode W Y pol b = valueMade Y pol (mode.rvalues && a.rv && !a.cst) := by
    intro b hb he
    rw [insertValue_val hb hv hf, he]
  unfold insert
  rw [inserts_val ht]
  unfold valId Mode.bestRef
  cases hm : mode.rvalues <;> cases ha : a.rv <;> cases hc : a.cst <;>
    (rw [hm, ha, hc] at h1
     simp only [Bool.or_false, Bool.or_true, Bool.or_self, Bool.false_eq_true, if_false, if_true, plain, Cand.params,
       deduceAll, deduce]
     exact h1 _ rfl (by simp [Par.name, Par.forward]))

theorem construct_copied {mode : Mode} {W : World T} {Y : Types T} {pol : Pol} {a : Arg T} (ht : a.ty = Y.fw)
    (hl : W.list Y.fw = false) : construct mode W Y pol [a] = .copied := by
  unfold construct
  rw [ctors_fw ht hl]
  unfold copyId
  cases h : mode.bestRef a with
  | mk r c => cases r <;> cases c <;> simp [plain]

theorem construct_fwd {mode : Mode} {W : World T} {Y : Types T} {pol : Pol} {as : List (Arg T)}
    (hf : mode.fits as.length = true) (h : ∀ a, as = [a] → a.ty ≠ Y.fw)
    (hl : mode.rvalues = true → ∀ a, as = [a] → W.list a.ty = false) :
    construct mode W Y pol as = insert mode W Y pol (as.map mode.passed) := by
  by_cases hne : as = []
  · subst hne
    unfold construct
    rw [ctors_dflt]
    rfl
  · obtain ⟨ps, h1, h2⟩ := fwdCand_params mode W Ctor.fwd as
    unfold construct
    rw [ctors_fwd hne hf h hl]
    simp only [fwdCand_id, h1, h2]

theorem construct_list {mode : Mode} {W : World T} {Y : Types T} {pol : Pol} {a : Arg T} (hr : mode.rvalues = true)
    (h : a.ty ≠ Y.fw) (hl : W.list a.ty = true) :
    construct mode W Y pol [a] = insert mode W Y pol [⟨a.ty, false, false⟩] := by
  unfold construct
  rw [ctors_list hr h hl]
  simp [Cand.params, deduceAll, deduce, hl, Par.name]

theorem construct_long {mode : Mode} {W : World T} {Y : Types T} {pol : Pol} {as : List (Arg T)}
    (h2 : 2 ≤ as.length) (hf : mode.fits as.length = false) : construct mode W Y pol as = .error := by
  unfold construct
  rw [resolve_none]
  intro d hd
  simp only [ctors, List.mem_append, List.mem_cons, List.not_mem_nil, or_false] at hd
  rcases hd with hd | (rfl | rfl | rfl) | hd
  · exact fwds_long hf hd
  · exact conv_length rfl (show as.length ≠ 0 by omega)
  · exact plain_length (by omega)
  · exact plain_length (by omega)
  · by_cases hr : mode.rvalues = true
    · simp only [hr, if_true, List.mem_cons, List.not_mem_nil, or_false] at hd
      rcases hd with rfl | rfl | rfl
      · exact conv_length rfl (by simp; omega)
      · exact plain_length (by omega)
      · exact plain_length (by omega)
    · simp [hr] at hd

/-! ## Assignment -/

theorem assigns_val {mode : Mode} {W : World T} {Y : Types T} {a : Arg T} (ha : a.ty = Y.val) (hne : Y.val ≠ Y.fw)
    (hl : W.list Y.val = false) :
    resolve W (assigns mode Y) [a] =
      some (if mode.rvalues && (a.rv && !a.cst) then plain .rval (.ref true false Y.val)
        else plain .val (.ref false true Y.val)) := by
  have hfw : a.ty ≠ Y.fw := ha ▸ hne
  have hlist : (⟨.list, true, false, [.list]⟩ : Cand Asg T).conv W [a] = none := by
    simp [Cand.conv, Cand.params, deduceAll, deduce, ha, hl]
  by_cases hm : (mode.rvalues && (a.rv && !a.cst)) = true
  · rw [if_pos hm]
    simp only [Bool.and_eq_true, Bool.not_eq_true'] at hm
    obtain ⟨hr, h1, h2⟩ := hm
    have hc : (plain Asg.rval (.ref true false Y.val)).conv W [a] = some [⟨0, true, true, false, Y.val⟩] := by
      rw [← ha, plain_exact, if_pos (by simp [bindOk, h1, h2])]
    apply resolve_eq
    · simp [assigns, hr]
    · rw [hc]; rfl
    · intro d hd hi hv
      simp only [assigns, hr, if_true, List.mem_append, List.mem_cons, List.not_mem_nil, or_false] at hd
      rcases hd with (rfl | rfl) | (rfl | rfl)
      · exact exact_beats hc rfl hfw hv
      · unfold better
        rw [hc, ← ha, plain_exact, if_pos (by simp [bindOk])]
        simp [noWorse, someBetter, Ics.better]
      · rw [hlist] at hv; cases hv
      · exact absurd rfl hi
    · intro d hd he
      simp only [assigns, hr, if_true, List.mem_append, List.mem_cons, List.not_mem_nil, or_false] at hd
      rcases hd with (rfl | rfl) | (rfl | rfl) <;> first | rfl | simp [plain] at he
  · rw [if_neg hm]
    have hc : (plain Asg.val (.ref false true Y.val)).conv W [a] = some [⟨0, true, false, true, Y.val⟩] := by
      rw [← ha, plain_exact, if_pos (by simp [bindOk])]
    apply resolve_eq
    · simp [assigns]
    · rw [hc]; rfl
    · intro d hd hi hv
      simp only [assigns, List.mem_append, List.mem_cons, List.not_mem_nil, or_false] at hd
      rcases hd with (rfl | rfl) | hd
      · exact exact_beats hc rfl hfw hv
      · exact absurd rfl hi
      · by_cases hr : mode.rvalues = true
        · simp only [hr, if_true, List.mem_cons, List.not_mem_nil, or_false] at hd
          rcases hd with rfl | rfl
          · rw [hlist] at hv; cases hv
          · rw [← ha, plain_exact] at hv
            simp only [hr, Bool.true_and] at hm
            cases h1 : a.rv <;> cases h2 : a.cst <;> simp_all [bindOk]
        · simp [hr] at hd
    · intro d hd he
      simp only [assigns, List.mem_append, List.mem_cons, List.not_mem_nil, or_false] at hd
      rcases hd with (rfl | rfl) | hd
      · simp [plain] at he
      · rfl
      · by_cases hr : mode.rvalues = true
        · simp only [hr, if_true, List.mem_cons, List.not_mem_nil, or_false] at hd
          rcases hd with rfl | rfl <;> simp [plain] at he
        · simp [hr] at hd

end Verif.Overload

import Verif.Overload

/-!
# Lemmas about overload resolution
-/

set_option autoImplicit false
set_option linter.unusedSectionVars false

namespace Verif.Overload

variable {T I : Type} [DecidableEq T] [DecidableEq I]

theorem someBetter_noWorse : ∀ {xs ys : List (Ics T)}, someBetter xs ys = true → noWorse ys xs = false
  | [], _, h => by simp [someBetter] at h
  | _ :: _, [], h => by simp [someBetter] at h
  | x :: xs, y :: ys, h => by
    simp only [someBetter, Bool.or_eq_true] at h
    simp only [noWorse]
    rcases h with h | h
    · simp [h]
    · simp [someBetter_noWorse h]

theorem moreSpec_asymm {c d : Cand I T} (h : moreSpec c d = true) : moreSpec d c = false := by
  unfold moreSpec at h ⊢
  by_cases hc : c.pack = true <;> by_cases hd : d.pack = true <;> simp_all

theorem better_asymm {W : World T} {as : List (Arg T)} {c d : Cand I T} (h : better W as c d = true) :
    better W as d c = false := by
  unfold better at h ⊢
  cases hc : c.conv W as with
  | none => simp [hc] at h
  | some xs =>
    cases hd : d.conv W as with
    | none => simp [hc, hd] at h
    | some ys =>
      simp only [hc, hd, Bool.and_eq_true] at h
      obtain ⟨h1, h2⟩ := h
      by_cases hn : noWorse ys xs = true
      · have hb : someBetter xs ys = false := by
          by_cases hb : someBetter xs ys = true
          · rw [someBetter_noWorse hb] at hn; cases hn
          · simpa using hb
        have hb' : someBetter ys xs = false := by
          by_cases hb : someBetter ys xs = true
          · rw [someBetter_noWorse hb] at h1; cases h1
          · simpa using hb
        rw [hb] at h2
        simp only [hn, hb', Bool.false_or, Bool.true_and]
        by_cases ht : c.tmpl = true <;> by_cases ht' : d.tmpl = true <;> simp_all
        exact moreSpec_asymm h2
      · simp [hn]

/-- The candidate that is better than all others is chosen. -/
theorem resolve_eq {W : World T} {cs : List (Cand I T)} {as : List (Arg T)} {c : Cand I T} (hm : c ∈ cs)
    (hv : (c.conv W as).isSome = true)
    (hb : ∀ d ∈ cs, d.id ≠ c.id → (d.conv W as).isSome = true → better W as c d = true)
    (hu : ∀ d ∈ cs, d.id = c.id → d = c) : resolve W cs as = some c := by
  unfold resolve
  have hc : (cs.all fun d => d.id == c.id || !(d.conv W as).isSome || better W as c d) = true := by
    rw [List.all_eq_true]
    intro d hd
    by_cases h1 : d.id = c.id
    · simp [h1]
    · by_cases h2 : (d.conv W as).isSome = true
      · simp [hb d hd h1 h2]
      · simp [h2]
  cases hf : (cs.filter fun c => (c.conv W as).isSome).find? fun c =>
      cs.all fun d => d.id == c.id || !(d.conv W as).isSome || better W as c d with
  | none =>
    rw [List.find?_eq_none] at hf
    exact absurd hc (hf c (List.mem_filter.2 ⟨hm, hv⟩))
  | some e =>
    have he := List.find?_some hf
    have hem := List.mem_filter.1 (List.mem_of_find?_eq_some hf)
    by_cases h : e.id = c.id
    · rw [hu e hem.1 h]
    · have h1 := hb e hem.1 h hem.2
      have h2 := List.all_eq_true.1 he c hm
      rw [better_asymm h1] at h2
      simp only [Bool.or_false, Bool.or_eq_true, beq_iff_eq, Bool.not_eq_true'] at h2
      rcases h2 with h2 | h2
      · exact absurd h2.symm h
      · rw [hv] at h2; cases h2

/-- Nothing is chosen if no candidate is viable. -/
theorem resolve_none {W : World T} {cs : List (Cand I T)} {as : List (Arg T)}
    (h : ∀ c ∈ cs, c.conv W as = none) : resolve W cs as = none := by
  unfold resolve
  rw [List.find?_eq_none]
  intro c hc
  have := List.mem_filter.1 hc
  rw [h c this.1] at this
  simp at this

/-! ## Forwarding templates -/

omit [DecidableEq T] in
theorem bindOk_self (a : Arg T) : bindOk a.rv a.cst a = true := by
  unfold bindOk; cases a.rv <;> cases a.cst <;> rfl

theorem masks_mem : ∀ (m : List Bool), m ∈ masks m.length
  | [] => by simp [masks]
  | b :: m => by
    have := masks_mem m
    cases b <;> simp [masks, this]

theorem masks_length : ∀ {n : Nat} {m : List Bool}, m ∈ masks n → m.length = n
  | 0, m, h => by simp [masks] at h; simp [h]
  | n + 1, m, h => by
    simp only [masks, List.mem_append, List.mem_map] at h
    rcases h with ⟨k, hk, rfl⟩ | ⟨k, hk, rfl⟩ <;> simp [masks_length hk]

/-- Parameters of the template with `Tn&&`. -/
def fwdPars (as : List (Arg T)) : List (Par T) := as.map fun a => .ref a.rv a.cst a.ty

/-- Conversions to them. -/
def fwdIcs (as : List (Arg T)) : List (Ics T) := as.map fun a => ⟨0, true, a.rv, a.cst, a.ty⟩

theorem deduce_fwd (W : World T) : ∀ as : List (Arg T),
    deduceAll W as (as.map fun _ => .fwd) = some (fwdPars as)
  | [] => rfl
  | a :: as => by simp [deduceAll, deduce, deduce_fwd W as, fwdPars]

theorem ics_fwd (W : World T) : ∀ as : List (Arg T), icsAll W as (fwdPars as) = some (fwdIcs as)
  | [] => rfl
  | a :: as => by
    have h := ics_fwd W as
    simp only [fwdPars, fwdIcs] at h
    simp [icsAll, fwdPars, fwdIcs, ics, bindOk_self, h]

/-- The number of arguments must be right. -/
theorem deduce_length (W : World T) : ∀ {as : List (Arg T)} {ps : List (Tp T)} {qs : List (Par T)},
    deduceAll W as ps = some qs → as.length = ps.length
  | [], [], _, _ => rfl
  | [], _ :: _, _, h => by simp [deduceAll] at h
  | _ :: _, [], _, h => by simp [deduceAll] at h
  | a :: as, p :: ps, qs, h => by
    simp only [deduceAll] at h
    split at h
    · next h2 => simp [deduce_length W h2]
    · cases h

theorem conv_length {W : World T} {c : Cand I T} {as : List (Arg T)} (hp : c.pack = false)
    (h : as.length ≠ c.pars.length) : c.conv W as = none := by
  unfold Cand.conv Cand.params
  simp only [hp, Bool.false_eq_true, if_false]
  cases hd : deduceAll W as c.pars with
  | none => rfl
  | some qs => exact absurd (deduce_length W hd) h

/-- Which mask the arguments select: `const` for `const` objects and rvalues. -/
def maskOf (as : List (Arg T)) : List Bool := as.map fun a => a.cst || a.rv

/-- Parameters for a mask. -/
def maskRefs : List (Arg T) → List Bool → List (Par T)
  | a :: as, b :: m => .ref false (b || a.cst) a.ty :: maskRefs as m
  | _, _ => []

theorem deduce_mask (W : World T) : ∀ {as : List (Arg T)} {m : List Bool}, as.length = m.length →
    deduceAll W as (maskPars m) = some (maskRefs as m)
  | [], [], _ => rfl
  | [], _ :: _, h => by simp at h
  | _ :: _, [], h => by simp at h
  | a :: as, b :: m, h => by
    have ih := deduce_mask W (as := as) (m := m) (by simpa using h)
    unfold maskPars at ih ⊢
    cases b <;> simp [deduceAll, deduce, ih, maskRefs]

/-- Conversions for a mask. -/
def maskIcs : List (Arg T) → List Bool → List (Ics T)
  | a :: as, b :: m => ⟨0, true, false, b || a.cst, a.ty⟩ :: maskIcs as m
  | _, _ => []

/-- A mask's overload is viable if no non-`const` rvalue meets `Tn&`. -/
def maskOk : List (Arg T) → List Bool → Bool
  | a :: as, b :: m => (b || a.cst || !a.rv) && maskOk as m
  | _, _ => true

theorem ics_mask (W : World T) : ∀ {as : List (Arg T)} {m : List Bool}, as.length = m.length →
    icsAll W as (maskRefs as m) = if maskOk as m then some (maskIcs as m) else none
  | [], [], _ => rfl
  | [], _ :: _, h => by simp at h
  | _ :: _, [], h => by simp at h
  | a :: as, b :: m, h => by
    have ih := ics_mask W (as := as) (m := m) (by simpa using h)
    obtain ⟨t, c, r⟩ := a
    simp only [maskRefs, icsAll, ih, maskOk, maskIcs, ics, if_true, bindOk]
    by_cases hk : maskOk as m = true <;> cases b <;> cases c <;> cases r <;> simp [hk]

theorem maskOk_maskOf : ∀ as : List (Arg T), maskOk as (maskOf as) = true
  | [] => rfl
  | a :: as => by
    have := maskOk_maskOf as
    simp only [maskOf] at this
    simp only [maskOf, List.map_cons, maskOk, this, Bool.and_true]
    cases a.cst <;> cases a.rv <;> rfl

theorem mask_noWorse : ∀ {as : List (Arg T)} {m : List Bool}, as.length = m.length → maskOk as m = true →
    noWorse (maskIcs as (maskOf as)) (maskIcs as m) = true
  | [], [], _, _ => rfl
  | [], _ :: _, h, _ => by simp at h
  | _ :: _, [], h, _ => by simp at h
  | a :: as, b :: m, h, hk => by
    simp only [maskOk, Bool.and_eq_true] at hk
    have ih := mask_noWorse (as := as) (m := m) (by simpa using h) hk.2
    have h1 := hk.1
    simp only [maskOf] at ih
    simp only [maskOf, List.map_cons, maskIcs, noWorse, ih, Bool.and_true, Ics.better]
    revert h1
    cases b <;> cases a.cst <;> cases a.rv <;> simp

theorem mask_spec : ∀ {as : List (Arg T)} {m : List Bool}, as.length = m.length → maskOk as m = true →
    m ≠ maskOf as → someBetter (maskIcs as (maskOf as)) (maskIcs as m) = false →
    atLeast (maskPars (T := T) (maskOf as)) (maskPars m) = true ∧
      atLeast (maskPars (T := T) m) (maskPars (maskOf as)) = false
  | [], [], _, _, hne, _ => absurd rfl hne
  | [], _ :: _, h, _, _, _ => by simp at h
  | _ :: _, [], h, _, _, _ => by simp at h
  | a :: as, b :: m, h, hk, hne, hs => by
    simp only [maskOk, Bool.and_eq_true] at hk
    obtain ⟨hk1, hk2⟩ := hk
    simp only [maskOf, List.map_cons, maskIcs, someBetter, Bool.or_eq_false_iff] at hs
    obtain ⟨hs1, hs2⟩ := hs
    have hl : as.length = m.length := by simpa using h
    have hle : atLeast (maskPars (T := T) (maskOf as)) (maskPars m) = true := by
      by_cases he : m = maskOf as
      · subst he
        generalize maskOf as = k
        induction k with
        | nil => rfl
        | cons x k ih => cases x <;> simpa [maskPars, atLeast, Tp.atLeast] using ih
      · exact (mask_spec hl hk2 he hs2).1
    have hne' : b ≠ (a.cst || a.rv) ∨ m ≠ maskOf as := by
      by_cases hb : b = (a.cst || a.rv)
      · right
        intro he
        exact hne (by simp [maskOf, hb, he])
      · exact Or.inl hb
    have hrest : b ≠ (a.cst || a.rv) ∨ atLeast (maskPars (T := T) m) (maskPars (maskOf as)) = false :=
      hne'.imp_right fun he => (mask_spec hl hk2 he hs2).2
    simp only [maskPars, maskOf] at hle hrest
    simp only [maskPars, maskOf, List.map_cons, atLeast]
    simp only [Ics.better] at hs1
    revert hk1 hs1 hrest hle
    cases b <;> cases a.cst <;> cases a.rv <;> simp (config := { contextual := true }) [Tp.atLeast]

/-- The name of the forwarding overload that the arguments select. -/
def fwdId (mode : Mode) (as : List (Arg T)) : List Bool :=
  match mode with
  | .variadic => []
  | .nary _ => as.map fun _ => false
  | .masks _ => maskOf as

/-- The forwarding overload that the arguments select. -/
def fwdCand (mode : Mode) (mk : List Bool → I) (as : List (Arg T)) : Cand I T :=
  match mode with
  | .variadic => ⟨mk [], true, true, []⟩
  | .nary _ => ⟨mk (as.map fun _ => false), !as.isEmpty, false, as.map fun _ => .fwd⟩
  | .masks _ => ⟨mk (maskOf as), !as.isEmpty, false, maskPars (maskOf as)⟩

/-- The number of arguments is within the limit. -/
def Mode.fits (mode : Mode) (n : Nat) : Bool :=
  match mode with
  | .variadic => true
  | .nary l => decide (n ≤ l)
  | .masks l => decide (n ≤ l)

/-- What forwarding hands on: the argument itself, or without rvalue references an lvalue that is `const` for rvalues. -/
def Mode.passed (mode : Mode) (a : Arg T) : Arg T := if mode.rvalues then a else ⟨a.ty, a.cst || a.rv, false⟩

theorem fwdCand_id (mode : Mode) (mk : List Bool → I) (as : List (Arg T)) :
    (fwdCand mode mk as).id = mk (fwdId mode as) := by cases mode <;> rfl

theorem fwdCand_mem {mode : Mode} {zero : Bool} {mk : List Bool → I} {as : List (Arg T)}
    (hf : mode.fits as.length = true) (hz : zero = true ∨ as ≠ [] ∨ mode = .variadic) :
    fwdCand mode mk as ∈ fwds mode zero mk := by
  cases mode with
  | variadic => simp [fwds, fwdCand]
  | nary l =>
    cases as with
    | nil =>
      have : zero = true := by simpa using hz
      simp [fwds, fwdCand, this]
    | cons a as =>
      simp only [Mode.fits, List.length_cons, decide_eq_true_eq] at hf
      simp only [fwds, List.mem_append, List.mem_map, List.mem_range]
      refine Or.inr ⟨as.length, by omega, ?_⟩
      simp [fwdCand, List.map_const', List.replicate_succ]
  | masks l =>
    cases as with
    | nil =>
      have : zero = true := by simpa using hz
      simp [fwds, fwdCand, this, maskOf, maskPars]
    | cons a as =>
      simp only [Mode.fits, List.length_cons, decide_eq_true_eq] at hf
      simp only [fwds, List.mem_append, List.mem_flatMap, List.mem_map, List.mem_range]
      refine Or.inr ⟨as.length, by omega, maskOf (a :: as), ?_, rfl⟩
      have := masks_mem (maskOf (a :: as))
      simpa [maskOf] using this

theorem fwdCand_params (mode : Mode) (W : World T) (mk : List Bool → I) (as : List (Arg T)) :
    ∃ ps, (fwdCand mode mk as).params W as = some ps ∧ ps.map mode.pass = as.map mode.passed := by
  cases mode with
  | variadic =>
    exact ⟨fwdPars as, by simp [fwdCand, Cand.params, deduce_fwd],
      by
        simp only [fwdPars, List.map_map]
        exact List.map_congr_left fun a _ => rfl⟩
  | nary l =>
    exact ⟨fwdPars as, by simp [fwdCand, Cand.params, deduce_fwd],
      by
        simp only [fwdPars, List.map_map]
        exact List.map_congr_left fun a _ => rfl⟩
  | masks l =>
    refine ⟨maskRefs as (maskOf as), by simp [fwdCand, Cand.params, deduce_mask W (as := as) (m := maskOf as) (by simp [maskOf])], ?_⟩
    induction as with
    | nil => rfl
    | cons a as ih =>
      simp only [maskOf] at ih
      simp only [maskOf, List.map_cons, maskRefs, ih]
      simp only [Mode.pass, Mode.passed, Mode.rvalues, Par.name]
      cases a.cst <;> cases a.rv <;> rfl

/-- All conversions of a forwarding overload are exact. -/
def Exact (as : List (Arg T)) (xs : List (Ics T)) : Prop :=
  xs.length = as.length ∧ ∀ x ∈ xs, x.rank = 0

theorem fwdCand_conv (mode : Mode) (W : World T) (mk : List Bool → I) (as : List (Arg T)) :
    (fwdCand mode mk as).conv W as =
      some (match mode with | .masks _ => maskIcs as (maskOf as) | _ => fwdIcs as) := by
  cases mode with
  | variadic => simp [fwdCand, Cand.conv, Cand.params, deduce_fwd, ics_fwd]
  | nary l => simp [fwdCand, Cand.conv, Cand.params, deduce_fwd, ics_fwd]
  | masks l =>
    have hl : as.length = (maskOf as).length := by simp [maskOf]
    simp [fwdCand, Cand.conv, Cand.params, deduce_mask W hl, ics_mask W hl, maskOk_maskOf]

/-- What the overloads are that forward. -/
theorem mem_fwds {mode : Mode} {zero : Bool} {mk : List Bool → I} {d : Cand I T} (h : d ∈ fwds mode zero mk) :
    (mode = .variadic ∧ d = ⟨mk [], true, true, []⟩) ∨
    (mode ≠ .variadic ∧ zero = true ∧ d = ⟨mk [], false, false, []⟩) ∨
    (∃ l n, mode = .nary l ∧ n < l ∧ d = ⟨mk (List.replicate (n + 1) false), true, false, List.replicate (n + 1) .fwd⟩) ∨
    (∃ l m, mode = .masks l ∧ m ≠ [] ∧ m.length ≤ l ∧ d = ⟨mk m, true, false, maskPars m⟩) := by
  cases mode with
  | variadic => left; simpa [fwds] using h
  | nary l =>
    simp only [fwds, List.mem_append, List.mem_map, List.mem_range] at h
    rcases h with h | ⟨n, hn, rfl⟩
    · right; left
      by_cases hz : zero = true
      · simp only [hz, if_true, List.mem_singleton] at h
        exact ⟨by simp, hz, h⟩
      · simp [hz] at h
    · exact Or.inr (Or.inr (Or.inl ⟨l, n, rfl, hn, rfl⟩))
  | masks l =>
    simp only [fwds, List.mem_append, List.mem_flatMap, List.mem_map, List.mem_range] at h
    rcases h with h | ⟨n, hn, m, hm, rfl⟩
    · right; left
      by_cases hz : zero = true
      · simp only [hz, if_true, List.mem_singleton] at h
        exact ⟨by simp, hz, h⟩
      · simp [hz] at h
    · have := masks_length hm
      refine Or.inr (Or.inr (Or.inr ⟨l, m, rfl, ?_, by omega, rfl⟩))
      intro he; simp [he] at this

/-- Too many arguments: no forwarding overload is viable. -/
theorem fwds_long {mode : Mode} {zero : Bool} {mk : List Bool → I} {W : World T} {as : List (Arg T)} {d : Cand I T}
    (hf : mode.fits as.length = false) (h : d ∈ fwds mode zero mk) : d.conv W as = none := by
  rcases mem_fwds h with ⟨rfl, _⟩ | ⟨hm, _, rfl⟩ | ⟨l, n, rfl, hn, rfl⟩ | ⟨l, m, rfl, _, hm, rfl⟩
  · cases hf
  · refine conv_length rfl ?_
    intro he
    cases mode <;> simp_all [Mode.fits]
  · simp only [Mode.fits, decide_eq_false_iff_not] at hf
    exact conv_length rfl (by simp; omega)
  · simp only [Mode.fits, decide_eq_false_iff_not] at hf
    exact conv_length rfl (by simp [maskPars]; omega)

/-- Among the forwarding overloads the selected one is best. -/
theorem fwds_best {mode : Mode} {zero : Bool} {mk : List Bool → I} {W : World T} {as : List (Arg T)} {d : Cand I T}
    (h : d ∈ fwds mode zero mk) (hne : d.id ≠ (fwdCand mode mk as).id) (hv : (d.conv W as).isSome = true) :
    better W as (fwdCand mode mk as) d = true := by
  rw [fwdCand_id] at hne
  rcases mem_fwds h with ⟨rfl, rfl⟩ | ⟨hm, _, rfl⟩ | ⟨l, n, rfl, hn, rfl⟩ | ⟨l, m, rfl, hm0, hm, rfl⟩
  · exact absurd rfl hne
  · exfalso
    cases as with
    | nil => cases mode <;> first | exact hm rfl | exact hne rfl
    | cons a as => rw [conv_length rfl (by simp)] at hv; cases hv
  · exfalso
    by_cases hl : as.length = n + 1
    · apply hne
      simp [fwdId, List.map_const', hl]
    · rw [conv_length rfl (by simpa using hl)] at hv; cases hv
  · by_cases hl : as.length = m.length
    · have hne' : m ≠ maskOf as := fun he => hne (by simp [fwdId, he])
      have hc : (⟨mk m, true, false, maskPars m⟩ : Cand I T).conv W as =
          if maskOk as m then some (maskIcs as m) else none := by
        simp [Cand.conv, Cand.params, deduce_mask W hl, ics_mask W hl]
      by_cases hk : maskOk as m = true
      · have hnil : as.isEmpty = false := by
          cases as with
          | nil => cases m <;> simp_all
          | cons _ _ => rfl
        unfold better
        rw [fwdCand_conv, hc, hk]
        simp only [if_true, mask_noWorse hl hk, Bool.true_and]
        by_cases hs : someBetter (maskIcs as (maskOf as)) (maskIcs as m) = true
        · simp [hs]
        · have hs' : someBetter (maskIcs as (maskOf as)) (maskIcs as m) = false := by simpa using hs
          obtain ⟨h1, h2⟩ := mask_spec hl hk hne' hs'
          simp [fwdCand, moreSpec, h1, h2, hnil]
      · rw [hc, if_neg hk] at hv; cases hv
    · rw [conv_length rfl (by simpa [maskPars] using hl)] at hv; cases hv

/-- A forwarding overload is known by its name. -/
theorem fwds_unique {mode : Mode} {zero : Bool} {mk : List Bool → I} {as : List (Arg T)} {d : Cand I T}
    (hmk : ∀ m m', mk m = mk m' → m = m') (h : d ∈ fwds mode zero mk) (he : d.id = (fwdCand mode mk as).id) :
    d = fwdCand mode mk as := by
  rw [fwdCand_id] at he
  rcases mem_fwds h with ⟨rfl, rfl⟩ | ⟨hm, _, rfl⟩ | ⟨l, n, rfl, hn, rfl⟩ | ⟨l, m, rfl, hm0, hm, rfl⟩
  · rfl
  · have := hmk _ _ he
    cases mode with
    | variadic => exact absurd rfl hm
    | nary l =>
      have : as = [] := by simpa [fwdId] using this.symm
      simp [fwdCand, this]
    | masks l =>
      have : as = [] := by simpa [fwdId, maskOf] using this.symm
      simp [fwdCand, this, maskOf, maskPars]
  · have := hmk _ _ he
    simp only [fwdId, List.map_const'] at this
    have hl : n + 1 = as.length := by simpa using congrArg List.length this
    have hnil : as ≠ [] := by intro h; simp [h] at hl
    simp [fwdCand, List.map_const', ← hl, hnil]
  · have := hmk _ _ he
    simp only [fwdId] at this
    subst this
    have hnil : as ≠ [] := by intro h; simp [h, maskOf] at hm0
    simp [fwdCand, hnil]

theorem exact_better : ∀ {xs : List (Ics T)}, xs.length = 1 → (∀ x ∈ xs, x.rank = 0) →
    ∀ {y : Ics T}, 0 < y.rank → noWorse xs [y] = true ∧ someBetter xs [y] = true := by
  intro xs h hx y hy
  match xs, h with
  | [x], _ =>
    have h0 := hx x (by simp)
    have : x.rank ≠ y.rank := by omega
    have h' : ¬ y.rank < x.rank := by omega
    refine ⟨?_, ?_⟩
    · have h2 : ¬ y.rank = x.rank := by omega
      simp [noWorse, Ics.better, h', h2]
    · simp [someBetter, Ics.better, h0, hy]

theorem fwdCand_exact (mode : Mode) (W : World T) (mk : List Bool → I) (a : Arg T) :
    ∃ x, (fwdCand mode mk [a]).conv W [a] = some [x] ∧ x.rank = 0 := by
  rw [fwdCand_conv]
  cases mode <;> simp [fwdIcs, maskIcs, maskOf]

/-- A plain function of one parameter: conversion to a type that is not the argument's own is not exact. -/
theorem plain_rank {W : World T} {a : Arg T} {i : I} {rv cst : Bool} {t : T} (h : a.ty ≠ t) :
    (plain i (.ref rv cst t)).conv W [a] = none ∨
    ∃ y, (plain i (.ref rv cst t)).conv W [a] = some [y] ∧ 0 < y.rank := by
  simp only [plain, Cand.conv, Cand.params, Bool.false_eq_true, if_false, deduceAll, deduce, icsAll, ics, if_neg h]
  by_cases hd : W.derives a.ty t = true
  · by_cases hb : bindOk rv cst a = true
    · exact Or.inr ⟨⟨1, true, rv, cst, t⟩, by simp [hd, hb], by simp⟩
    · exact Or.inl (by simp [hd, hb])
  · by_cases hb : (if rv then W.convR a.ty t else cst && (W.convR a.ty t || W.convL a.ty t)) = true
    · exact Or.inr ⟨⟨2, true, rv, cst, t⟩, by simp only [if_neg hd, if_pos hb], by simp⟩
    · exact Or.inl (by simp only [if_neg hd, if_neg hb])

/-- The forwarding overload is chosen unless another one is an exact match. -/
theorem resolve_fwd {mode : Mode} {zero : Bool} {mk : List Bool → I} {W : World T} {as : List (Arg T)}
    {rest : List (Cand I T)} (hmk : ∀ m m', mk m = mk m' → m = m') (hf : mode.fits as.length = true)
    (hz : zero = true ∨ as ≠ [] ∨ mode = .variadic)
    (hr : ∀ d ∈ rest, (∀ m, d.id ≠ mk m) ∧ (d.conv W as = none ∨
      ∃ y, as.length = 1 ∧ d.conv W as = some [y] ∧ 0 < y.rank)) :
    resolve W (fwds mode zero mk ++ rest) as = some (fwdCand mode mk as) := by
  apply resolve_eq (List.mem_append_left _ (fwdCand_mem hf hz))
  · rw [fwdCand_conv]; rfl
  · intro d hd hne hv
    rcases List.mem_append.1 hd with hd | hd
    · exact fwds_best hd hne hv
    · rcases (hr d hd).2 with h | ⟨y, hl, h, hy⟩
      · rw [h] at hv; cases hv
      · match as, hl with
        | [a], _ =>
          obtain ⟨x, hx, h0⟩ := fwdCand_exact mode W mk a
          obtain ⟨h1, h2⟩ := exact_better (xs := [x]) rfl (by simpa using h0) hy
          unfold better
          rw [hx, h]
          simp [h1, h2]
  · intro d hd he
    rcases List.mem_append.1 hd with hd | hd
    · exact fwds_unique hmk hd he
    · rw [fwdCand_id] at he
      exact absurd he ((hr d hd).1 _)

/-- What a forwarding overload's conversion is for one argument. -/
theorem fwds_one {mode : Mode} {zero : Bool} {mk : List Bool → I} {W : World T} {a : Arg T} {d : Cand I T}
    (h : d ∈ fwds mode zero mk) (hv : (d.conv W [a]).isSome = true) :
    d.tmpl = true ∧ ∃ rv cst, d.conv W [a] = some [⟨0, true, rv, cst, a.ty⟩] ∧
      ((mode.rvalues = true ∧ rv = a.rv ∧ cst = a.cst) ∨
       (mode.rvalues = false ∧ rv = false ∧ (cst = true ∨ cst = a.cst ∧ a.rv = false))) := by
  rcases mem_fwds h with ⟨rfl, rfl⟩ | ⟨hm, _, rfl⟩ | ⟨l, n, rfl, hn, rfl⟩ | ⟨l, m, rfl, hm0, hm, rfl⟩
  · refine ⟨rfl, a.rv, a.cst, ?_, Or.inl ⟨rfl, rfl, rfl⟩⟩
    simp [Cand.conv, Cand.params, deduceAll, deduce, icsAll, ics, bindOk_self]
  · rw [conv_length rfl (by simp)] at hv; cases hv
  · by_cases h0 : n = 0
    · subst h0
      refine ⟨rfl, a.rv, a.cst, ?_, Or.inl ⟨rfl, rfl, rfl⟩⟩
      simp [Cand.conv, Cand.params, deduceAll, deduce, icsAll, ics, bindOk_self]
    · rw [conv_length rfl (by simp; omega)] at hv; cases hv
  · match m, hm0 with
    | [b], _ =>
      have hc : (⟨mk [b], true, false, maskPars [b]⟩ : Cand I T).conv W [a] =
          if maskOk [a] [b] then some (maskIcs [a] [b]) else none := by
        simp [Cand.conv, Cand.params, deduce_mask W (as := [a]) (m := [b]) rfl,
          ics_mask W (as := [a]) (m := [b]) rfl]
      by_cases hk : maskOk [a] [b] = true
      · refine ⟨rfl, false, b || a.cst, by rw [hc, if_pos hk]; rfl, Or.inr ⟨rfl, rfl, ?_⟩⟩
        revert hk
        simp only [maskOk]
        cases b <;> cases a.cst <;> cases a.rv <;> simp
      · rw [hc, if_neg hk] at hv; cases hv
    | b :: b' :: m, _ => rw [conv_length rfl (by simp [maskPars])] at hv; cases hv

/-- A plain function whose parameter is the argument's own type. -/
theorem plain_exact {W : World T} {a : Arg T} {i : I} {rv cst : Bool} :
    (plain i (.ref rv cst a.ty)).conv W [a] = if bindOk rv cst a then some [⟨0, true, rv, cst, a.ty⟩] else none := by
  simp only [plain, Cand.conv, Cand.params, Bool.false_eq_true, if_false, deduceAll, deduce, icsAll, ics, if_true]
  by_cases h : bindOk rv cst a = true <;> simp [h]

/-- A plain function with the right number of parameters only. -/
theorem plain_length {W : World T} {as : List (Arg T)} {i : I} {p : Par T} (h : as.length ≠ 1) :
    (plain i p).conv W as = none := conv_length rfl (by simpa [plain] using h)

/-- The reference that a value of the wanted type is best bound to: as it is, or without rvalue references a `const` one for
rvalues. -/
def Mode.bestRef (mode : Mode) (a : Arg T) : Bool × Bool :=
  if mode.rvalues then (a.rv, a.cst) else (false, a.cst || a.rv)

/-- A plain function that takes the argument as it is beats forwarding overloads. -/
theorem resolve_exact {mode : Mode} {zero : Bool} {mk : List Bool → I} {W : World T} {a : Arg T}
    {rest : List (Cand I T)} {i : I} {t : T} (ht : a.ty = t)
    (hm : plain i (.ref (mode.bestRef a).1 (mode.bestRef a).2 t) ∈ rest) (hmk : ∀ m, i ≠ mk m)
    (hb : ∀ d ∈ rest, d.id ≠ i → (d.conv W [a]).isSome = true →
      better W [a] (plain i (.ref (mode.bestRef a).1 (mode.bestRef a).2 t)) d = true)
    (hu : ∀ d ∈ rest, d.id = i → d = plain i (.ref (mode.bestRef a).1 (mode.bestRef a).2 t)) :
    resolve W (fwds mode zero mk ++ rest) [a] = some (plain i (.ref (mode.bestRef a).1 (mode.bestRef a).2 t)) := by
  subst ht
  have hk : bindOk (mode.bestRef a).1 (mode.bestRef a).2 a = true := by
    unfold Mode.bestRef bindOk
    cases mode.rvalues <;> cases a.rv <;> cases a.cst <;> rfl
  apply resolve_eq (List.mem_append_right _ hm)
  · rw [plain_exact, if_pos hk]; rfl
  · intro d hd hne hv
    rcases List.mem_append.1 hd with hd | hd
    · obtain ⟨htm, rv, cst, hc, hor⟩ := fwds_one hd hv
      unfold better
      rw [plain_exact, if_pos hk, hc]
      simp only [noWorse, someBetter, htm, plain, Ics.better, Mode.bestRef]
      rcases hor with ⟨h1, rfl, rfl⟩ | ⟨h1, rfl, h2⟩
      · simp [h1]
      · rcases h2 with rfl | ⟨rfl, h2⟩
        · simp [h1]
        · simp [h1, h2]
    · exact hb d hd hne hv
  · intro d hd he
    rcases List.mem_append.1 hd with hd | hd
    · rcases mem_fwds hd with ⟨_, rfl⟩ | ⟨_, _, rfl⟩ | ⟨_, _, _, _, rfl⟩ | ⟨_, _, _, _, _, rfl⟩ <;>
        exact absurd he.symm (hmk _)
    · exact hu d hd he

/-- An exact match beats conversions to another type. -/
theorem exact_beats {W : World T} {a : Arg T} {c : Cand I T} {x : Ics T} {i : I} {rv cst : Bool} {t : T}
    (hc : c.conv W [a] = some [x]) (hx : x.rank = 0) (h : a.ty ≠ t)
    (hv : ((plain i (.ref rv cst t)).conv W [a]).isSome = true) :
    better W [a] c (plain i (.ref rv cst t)) = true := by
  rcases plain_rank (W := W) (i := i) (rv := rv) (cst := cst) h with h' | ⟨y, h', hy⟩
  · rw [h'] at hv; cases hv
  · obtain ⟨h1, h2⟩ := exact_better (xs := [x]) rfl (by simpa using hx) hy
    unfold better
    rw [hc, h']
    simp [h1, h2]

/-- The reference that is exactly what the argument is beats other references to its type. -/
theorem best_beats {W : World T} {a : Arg T} {i j : I} {rv cst : Bool} {t : T} (h : a.ty = t)
    (hne : (rv, cst) ≠ (a.rv, a.cst)) (hv : ((plain j (.ref rv cst t)).conv W [a]).isSome = true) :
    better W [a] (plain i (.ref a.rv a.cst t)) (plain j (.ref rv cst t)) = true := by
  subst h
  have hk : bindOk rv cst a = true := by
    rw [plain_exact] at hv
    by_cases h : bindOk rv cst a = true
    · exact h
    · rw [if_neg h] at hv; cases hv
  unfold better
  rw [plain_exact, plain_exact, if_pos hk, if_pos (bindOk_self a)]
  obtain ⟨t, c, r⟩ := a
  cases c <;> cases r <;> cases rv <;> cases cst <;> simp_all [bindOk, noWorse, someBetter, Ics.better, plain]

end Verif.Overload

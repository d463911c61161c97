import Verif.CFacStep
import Verif.Linger

/-!
# The model of `concurrent_factory` refines the atomic specification with lingering values
-/

set_option autoImplicit false

namespace Verif.CFac
open Verif.Conc (Fw Cfg CfgOk pick acquire unlock fwCount tot fwCount_pos tot_pos tot_le exists_of_tot tot_perm
  tot_eq_zero tot_nil tot_cons tot_append split set_self nsum_pos)
open Verif.Linger (Val Call drops setVal)
variable {K : Type} {cfg : Cfg K}

/-- What an entry stands for.  (No code of its own: used in statements and proofs.) -/
def valOf (x : Ent K) : Val K := ⟨x.core, x.key, x.kids, x.cted⟩

/-- The frame has destroyed entry `e` and is going to unlink it.  (No code of its own: used in statements and proofs.) -/
def unlF (e : Nat) : Frame K → Nat
  | .gcUnlink _ h => if h = e then 1 else 0
  | _ => 0

/-- Calls that a frame stands for.  (No code of its own: used in statements and proofs.) -/
def absF (ents : Nat → Option (Ent K)) : Frame K → List (Call K)
  | .insLock c k loc _ => [.create c k loc]
  | .insHash c k loc _ => [.create c k loc]
  | .insFind c k loc _ => [.create c k loc]
  | .insVisit c k e loc => if (ents e).any Ent.cted then [.made ⟨e, c, k⟩ loc] else [.build c k e loc]
  | .insUser c k e loc => [.build c k e loc]
  | .insDone c k e loc => [.built c k e loc]
  | .insAddRef c k e loc => [.made ⟨e, c, k⟩ loc]
  | .insLeave c k e loc => [.made ⟨e, c, k⟩ loc]
  | .insFail _ _ loc => drops loc
  | .insUnwind _ => []
  | .insTrack c k e => [.made ⟨e, c, k⟩ []]
  | .insUnlock c k e => [.made ⟨e, c, k⟩ []]
  | .rel w => [.destroy w.h]
  | .relLock w => [.destroy w.h]
  | .relCheck w => [.destroy w.h]
  | .relUnlock w => [.destroy w.h]
  | .relDec w => [.destroy w.h]
  | .gcIdle c => [.collector c]
  | .gcPass c _ _ => [.collector c]
  | .gcTest _ _ => []
  | .gcErase _ _ => []
  | .gcUnlink _ _ => []
  | .gcLeave _ _ => []

/-- Calls that a stack stands for.  (No code of its own: used in statements and proofs.) -/
def absS (ents : Nat → Option (Ent K)) (st : List (Frame K)) : List (Call K) := st.flatMap (absF ents)

/-- Values: those of the entries that have not been destroyed.  (No code of its own: used in statements and proofs.) -/
def absV (ents : Nat → Option (Ent K)) (L : List (Frame K)) (e : Nat) : Option (Val K) :=
  if 0 < tot (unlF e) L then none else (ents e).map valOf

/-- The state of the specification that a state of the model stands for.  (No code of its own: used in statements and proofs.) -/
def abs (s : St K) : Linger.St K := ⟨absV s.ents (frames s), s.objs, s.thr.map (absS s.ents)⟩

/-! ## General lemmas -/

@[simp] theorem absS_nil (ents : Nat → Option (Ent K)) : absS ents [] = [] := rfl
@[simp] theorem absS_cons (ents : Nat → Option (Ent K)) (f : Frame K) (st : List (Frame K)) :
    absS ents (f :: st) = absF ents f ++ absS ents st := by simp [absS]
@[simp] theorem absS_append (ents : Nat → Option (Ent K)) (l l' : List (Frame K)) :
    absS ents (l ++ l') = absS ents l ++ absS ents l' := by simp [absS]
@[simp] theorem absS_rel (ents : Nat → Option (Ent K)) (l : List (Fw K)) : absS ents (l.map .rel) = drops l := by
  induction l with
  | nil => rfl
  | cons w l ih => simp only [List.map_cons, absS_cons, ih]; rfl
@[simp] theorem unl_rel (e : Nat) (l : List (Fw K)) : tot (unlF e) (l.map .rel) = 0 := tot_rel _ _ fun _ => rfl

theorem absF_congr {ents ents' : Nat → Option (Ent K)} {f : Frame K}
    (h : ∀ e, elemOf f = some e → (ents' e).any Ent.cted = (ents e).any Ent.cted) : absF ents' f = absF ents f := by
  cases f <;> simp only [absF]
  rw [h _ rfl]

theorem absS_congr {ents ents' : Nat → Option (Ent K)} {st : List (Frame K)}
    (h : ∀ f ∈ st, ∀ e, elemOf f = some e → (ents' e).any Ent.cted = (ents e).any Ent.cted) :
    absS ents' st = absS ents st := by
  induction st with
  | nil => rfl
  | cons f st ih =>
    rw [absS_cons, absS_cons, absF_congr (h f (by simp)), ih fun g hg => h g (by simp [hg])]

theorem frames_perm {thr : List (List (Frame K))} {t : Nat} {st : List (Frame K)} (h : thr[t]? = some st)
    (new rest : List (Frame K)) :
    (thr.set t (new ++ rest)).flatten.Perm (new ++ (thr.set t rest).flatten) := by
  obtain ⟨A, B, _, h2, _⟩ := split h
  rw [h2, h2]
  rw [List.append_assoc, List.append_assoc, ← List.append_assoc, ← List.append_assoc, ← List.append_assoc]
  refine List.Perm.append_right B ?_
  rw [← List.append_assoc]
  exact (List.perm_append_comm).append_right rest

theorem unl_elem {e : Nat} {f : Frame K} (h : 0 < unlF e f) : elemOf f = some e := by
  cases f <;> simp only [unlF] at h <;> try omega
  split at h
  · rename_i he; rw [← he]; rfl
  · omega

/-- A frame with exclusive access to an element. -/
theorem Inv.vis_of {s : St K} (h : Inv cfg s) {f : Frame K} (hf : f ∈ frames s) {e : Nat} (he : elemOf f = some e) :
    ∃ t st, s.thr[t]? = some st ∧ f ∈ st ∧ s.vis e = some t := by
  obtain ⟨st, h1, h2⟩ := List.mem_flatten.1 hf
  obtain ⟨t, ht⟩ := List.mem_iff_getElem?.1 h1
  have h3 := h.locks.elem t st ht e
  have h4 := tot_pos (g := elemF e) h2 (by simp [elemF, he])
  refine ⟨t, st, ht, h2, ?_⟩
  by_cases h5 : s.vis e = some t
  · exact h5
  · rw [if_neg h5] at h3; omega

/-- At most one frame has exclusive access. -/
theorem Inv.elem_le {s : St K} (h : Inv cfg s) (e : Nat) : tot (elemF e) (frames s) ≤ 1 := by
  have key : ∀ (l : List (List (Frame K))) (n : Nat),
      (∀ (t : Nat) (st : List (Frame K)), l[t]? = some st → tot (elemF e) st = if s.vis e = some (n + t) then 1 else 0) →
      tot (elemF e) l.flatten ≤ 1 ∧ (0 < tot (elemF e) l.flatten → ∃ m, n ≤ m ∧ s.vis e = some m) := by
    intro l
    induction l with
    | nil => intro n _; simp
    | cons st l ih =>
      intro n hl
      obtain ⟨h1, h2⟩ := ih (n + 1) fun t st' ht => by
        have := hl (t + 1) st' (by simpa using ht)
        rwa [show n + (t + 1) = n + 1 + t by omega] at this
      have h3 := hl 0 st rfl
      rw [List.flatten_cons, tot_append]
      by_cases h4 : s.vis e = some n
      · rw [Nat.add_zero, if_pos h4] at h3
        have h5 : tot (elemF e) l.flatten = 0 := by
          rcases Nat.eq_zero_or_pos (tot (elemF e) l.flatten) with h5 | h5
          · exact h5
          · obtain ⟨m, h6, h7⟩ := h2 h5
            rw [h4] at h7
            cases h7
            omega
        exact ⟨by omega, fun _ => ⟨n, Nat.le_refl _, h4⟩⟩
      · rw [Nat.add_zero, if_neg h4] at h3
        refine ⟨by omega, fun h5 => ?_⟩
        obtain ⟨m, h6, h7⟩ := h2 (by omega)
        exact ⟨m, by omega, h7⟩
  exact (key s.thr 0 fun t st ht => by rw [h.locks.elem t st ht e, Nat.zero_add]).1

theorem frames_cons {s : St K} {t : Nat} {f : Frame K} {rest : List (Frame K)} (h : s.thr[t]? = some (f :: rest)) :
    (frames s).Perm (f :: (s.thr.set t rest).flatten) := by
  have := frames_perm h [f] rest
  rwa [show [f] ++ rest = f :: rest from rfl, set_self h] at this

theorem Inv.excl {s : St K} (h : Inv cfg s) {t : Nat} {f : Frame K} {rest : List (Frame K)}
    (ht : s.thr[t]? = some (f :: rest)) {e : Nat} (he : elemOf f = some e) :
    ∀ g ∈ (s.thr.set t rest).flatten, elemOf g ≠ some e := by
  intro g hg h1
  have h2 := h.elem_le e
  rw [tot_perm (frames_cons ht), tot_cons] at h2
  have h3 := tot_pos (g := elemF e) hg (by simp [elemF, h1])
  have h4 : elemF e f = 1 := by simp [elemF, he]
  omega

/-- An entry is not being unlinked if some other frame has access to it, ... -/
theorem Inv.shown {s : St K} (h : Inv cfg s) {f : Frame K} (hf : f ∈ frames s) {e : Nat} (he : elemOf f = some e)
    (hu : unlF e f = 0) : tot (unlF e) (frames s) = 0 := by
  rcases Nat.eq_zero_or_pos (tot (unlF e) (frames s)) with h1 | h1
  · exact h1
  obtain ⟨g, hg, h2⟩ := exists_of_tot h1
  obtain ⟨A, B, hAB⟩ := List.append_of_mem hf
  have h3 := h.elem_le e
  rw [hAB] at hg h3
  rw [tot_append, tot_cons] at h3
  have h4 : elemF e f = 1 := by simp [elemF, he]
  have h5 := unl_elem h2
  rcases List.mem_append.1 hg with hg | hg
  · have := tot_pos (g := elemF e) hg (by simp [elemF, h5])
    omega
  · rcases List.mem_cons.1 hg with rfl | hg
    · omega
    · have := tot_pos (g := elemF e) hg (by simp [elemF, h5])
      omega

/-- ... if no frame has access to it, ... -/
theorem Inv.shown_vis {s : St K} (h : Inv cfg s) {e : Nat} (hv : s.vis e = none) : tot (unlF e) (frames s) = 0 := by
  rcases Nat.eq_zero_or_pos (tot (unlF e) (frames s)) with h1 | h1
  · exact h1
  obtain ⟨g, hg, h2⟩ := exists_of_tot h1
  obtain ⟨t, _, _, _, h3⟩ := h.vis_of hg (unl_elem h2)
  rw [hv] at h3
  cases h3

/-- ... or if it is referred to. -/
theorem Inv.shown_ref {s : St K} (h : Inv cfg s) {e : Nat} (hv : 0 < refOf s.ents e) : tot (unlF e) (frames s) = 0 := by
  rcases Nat.eq_zero_or_pos (tot (unlF e) (frames s)) with h1 | h1
  · exact h1
  obtain ⟨g, hg, h2⟩ := exists_of_tot h1
  have h3 := unl_elem h2
  have h4 := h.core.frames g hg
  cases g <;> simp only [unlF] at h2 <;> try omega
  cases h3
  obtain ⟨x, hx, _, hr, _⟩ := h4
  simp [refOf, hx, hr] at hv

theorem abs_val {s : St K} {e : Nat} {x : Ent K} (hx : s.ents e = some x) (h : tot (unlF e) (frames s) = 0) :
    (abs s).vals e = some (valOf x) := by
  simp [abs, absV, hx, h]

theorem of_absV {ents : Nat → Option (Ent K)} {L : List (Frame K)} {e : Nat} {v : Val K} (h : absV ents L e = some v) :
    ∃ x, ents e = some x ∧ v = valOf x := by
  unfold absV at h
  split at h
  · cases h
  · cases hx : ents e with
    | none => rw [hx] at h; cases h
    | some x => rw [hx] at h; cases h; exact ⟨x, rfl, rfl⟩

theorem abs_top {s : St K} {t : Nat} {st : List (Frame K)} (h : s.thr[t]? = some st) :
    (abs s).thr[t]? = some (absS s.ents st) := by simp [abs, h]

theorem abs_thr {thr : List (List (Frame K))} {t : Nat} {rest : List (Frame K)} (new : List (Frame K))
    {E E' : Nat → Option (Ent K)} (hlt : t < thr.length)
    (h : ∀ g ∈ (thr.set t rest).flatten, absF E' g = absF E g) :
    (thr.set t (new ++ rest)).map (absS E') = (thr.map (absS E)).set t (absS E' new ++ absS E rest) := by
  have cong : ∀ st ∈ thr.set t rest, absS E' st = absS E st := by
    intro st hst
    have : ∀ l : List (Frame K), (∀ g ∈ l, absF E' g = absF E g) → absS E' l = absS E l := by
      intro l hl
      induction l with
      | nil => rfl
      | cons g l ih =>
        rw [absS_cons, absS_cons, hl g List.mem_cons_self, ih fun g' hg' => hl g' (List.mem_cons_of_mem _ hg')]
    exact this st fun g hg => h g (List.mem_flatten.2 ⟨st, hst, hg⟩)
  have key : (thr.set t rest).map (absS E') = (thr.set t rest).map (absS E) := List.map_congr_left cong
  refine List.ext_getElem? fun i => ?_
  by_cases hi : i = t
  · subst hi
    rw [List.getElem?_map, List.getElem?_set_self hlt, List.getElem?_set_self (by simpa using hlt)]
    have hm : rest ∈ thr.set i rest := List.mem_of_getElem? (List.getElem?_set_self hlt)
    simp only [Option.map_some, absS_append]
    rw [cong rest hm]
  · have := congrArg (·[i]?) key
    simp only [List.getElem?_map, List.getElem?_set_ne (Ne.symm hi)] at this
    rw [List.getElem?_map, List.getElem?_set_ne (Ne.symm hi), List.getElem?_set_ne (Ne.symm hi), List.getElem?_map]
    exact this

/-- Steps that change nothing of the entries but counts. -/
theorem abs_same {s : St K} {t : Nat} {old new rest : List (Frame K)} (ht : s.thr[t]? = some (old ++ rest))
    {ents : Nat → Option (Ent K)} {next : Nat} {objs : List (Fw K)} {vis : Nat → Option Nat} {lock : Nat → Option (Nat × Nat)}
    (hE : ∀ e, (ents e).map valOf = (s.ents e).map valOf) (hu : ∀ e, tot (unlF e) new = tot (unlF e) old) :
    abs ⟨ents, next, vis, lock, s.thr.set t (new ++ rest), objs⟩ =
      { (abs s).go t (absS s.ents new ++ absS s.ents rest) with objs := objs } := by
  have hlt : t < s.thr.length := (List.getElem?_eq_some_iff.1 ht).1
  have hany : ∀ e, (ents e).any Ent.cted = (s.ents e).any Ent.cted := by
    intro e
    have h1 := hE e
    cases hx : s.ents e with
    | none => rw [hx] at h1; cases hy : ents e with
      | none => rfl
      | some y => rw [hy] at h1; cases h1
    | some x => rw [hx] at h1; cases hy : ents e with
      | none => rw [hy] at h1; cases h1
      | some y =>
        rw [hy] at h1
        simp only [Option.map_some, Option.some.injEq] at h1
        exact congrArg Val.full h1
  unfold abs Linger.St.go frames
  dsimp only
  congr 1
  · funext e
    unfold absV
    rw [hE, tot_perm (frames_perm ht new rest)]
    have := tot_perm (g := unlF e) (frames_perm ht old rest)
    rw [set_self ht] at this
    rw [this, tot_append, tot_append, hu]
  · rw [abs_thr new hlt fun g _ => absF_congr fun e _ => hany e, absS_congr fun g _ e _ => hany e]

/-- Steps that change an entry to which no other frame has access. -/
theorem abs_chg {s : St K} {t : Nat} {old new rest : List (Frame K)} (ht : s.thr[t]? = some (old ++ rest)) {e : Nat}
    {x : Option (Ent K)} {next : Nat} {objs : List (Fw K)} {vis : Nat → Option Nat} {lock : Nat → Option (Nat × Nat)}
    (hex : ∀ g ∈ (s.thr.set t rest).flatten, elemOf g ≠ some e) (hu : ∀ i, i ≠ e → tot (unlF i) new = tot (unlF i) old) :
    abs ⟨setEnt s.ents e x, next, vis, lock, s.thr.set t (new ++ rest), objs⟩ =
      { (abs s).go t (absS (setEnt s.ents e x) new ++ absS s.ents rest) with
        vals := setVal (abs s).vals e (if 0 < tot (unlF e) new then none else x.map valOf)
        objs := objs } := by
  have hlt : t < s.thr.length := (List.getElem?_eq_some_iff.1 ht).1
  unfold abs Linger.St.go frames
  dsimp only
  congr 1
  · funext i
    unfold absV setVal
    rw [tot_perm (frames_perm ht new rest), tot_append]
    have h1 := tot_perm (g := unlF i) (frames_perm ht old rest)
    rw [set_self ht, tot_append] at h1
    by_cases hi : i = e
    · subst hi
      have h2 : tot (unlF i) (s.thr.set t rest).flatten = 0 := tot_eq_zero fun g hg => by
        rcases Nat.eq_zero_or_pos (unlF i g) with h2 | h2
        · exact h2
        · exact absurd (unl_elem h2) (hex g hg)
      rw [if_pos rfl, h2, setEnt_same, Nat.add_zero]
    · rw [if_neg hi, setEnt_ne _ _ hi, hu i hi, ← h1]
  · refine abs_thr new hlt fun g hg => absF_congr fun i hi => ?_
    rw [setEnt_ne]
    rintro rfl
    exact hex g hg hi

/-- A thread changes frames that stand for the same calls. -/
theorem go_self {a : Linger.St K} {t : Nat} {st : List (Call K)} (h : a.thr[t]? = some st) : a.go t st = a := by
  unfold Linger.St.go
  rw [show a.thr.set t st = a.thr from by
    refine List.ext_getElem? fun i => ?_
    by_cases hi : i = t
    · subst hi
      rw [List.getElem?_set_self (List.getElem?_eq_some_iff.1 h).1, h]
    · rw [List.getElem?_set_ne (Ne.symm hi)]]

theorem map_val {ents : Nat → Option (Ent K)} {e : Nat} {x x' : Ent K} (hx : ents e = some x) (h : valOf x' = valOf x) :
    ∀ i, (setEnt ents e (some x') i).map valOf = (ents i).map valOf := by
  intro i
  by_cases hi : i = e
  · subst hi
    rw [setEnt_same, hx, Option.map_some, Option.map_some, h]
  · rw [setEnt_ne _ _ hi]

/-- References of a frame. -/
theorem absF_ref {ents : Nat → Option (Ent K)} {f : Frame K} {g : Call K} (hg : g ∈ absF ents f) {h : Nat} (hr : h ∈ g.refs) :
    0 < refF h f ∨ elemOf f = some h ∧ ∀ c, f ≠ .gcErase c h := by
  have cnt : ∀ loc : List (Fw K), h ∈ loc.map Fw.h → 0 < fwCount h loc := by
    intro loc hm
    obtain ⟨w, hw, he⟩ := List.mem_map.1 hm
    exact fwCount_pos hw he
  have one : ∀ {a b : Call K}, a ∈ [b] → h ∈ a.refs → h ∈ b.refs := by
    intro a b h1 h2
    rwa [← List.mem_singleton.1 h1]
  cases f with
  | insVisit c k e loc =>
    simp only [absF] at hg
    split at hg
    · rcases List.mem_cons.1 (one hg hr) with rfl | h1
      · exact .inr ⟨rfl, fun c h => by cases h⟩
      · exact .inl (cnt _ h1)
    · rcases List.mem_cons.1 (one hg hr) with rfl | h1
      · exact .inr ⟨rfl, fun c h => by cases h⟩
      · exact .inl (cnt _ h1)
  | insUser c k e loc =>
    rcases List.mem_cons.1 (one hg hr) with rfl | h1
    · exact .inr ⟨rfl, fun c h => by cases h⟩
    · exact .inl (cnt _ h1)
  | insDone c k e loc =>
    rcases List.mem_cons.1 (one hg hr) with rfl | h1
    · exact .inr ⟨rfl, fun c h => by cases h⟩
    · exact .inl (cnt _ h1)
  | insAddRef c k e loc =>
    rcases List.mem_cons.1 (one hg hr) with rfl | h1
    · exact .inr ⟨rfl, fun c h => by cases h⟩
    · exact .inl (cnt _ h1)
  | insLeave c k e loc =>
    rcases List.mem_cons.1 (one hg hr) with rfl | h1
    · exact .inr ⟨rfl, fun c h => by cases h⟩
    · have := cnt _ h1
      exact .inl (by simp only [refF]; omega)
  | insFail c e loc =>
    obtain ⟨w, hw, rfl⟩ := List.mem_map.1 hg
    refine .inl (cnt _ (List.mem_map.2 ⟨w, hw, ?_⟩))
    exact (List.mem_singleton.1 hr).symm
  | insLock c k loc pre => exact .inl (cnt _ (one hg hr))
  | insHash c k loc pre => exact .inl (cnt _ (one hg hr))
  | insFind c k loc pre => exact .inl (cnt _ (one hg hr))
  | insTrack c k e =>
    have := one hg hr
    simp only [Linger.Call.refs, List.map_nil, List.mem_singleton] at this
    exact .inl (by simp [refF, this])
  | insUnlock c k e =>
    have := one hg hr
    simp only [Linger.Call.refs, List.map_nil, List.mem_singleton] at this
    exact .inl (by simp [refF, this])
  | rel w => exact .inl (by simp [refF, List.mem_singleton.1 (one hg hr)])
  | relLock w => exact .inl (by simp [refF, List.mem_singleton.1 (one hg hr)])
  | relCheck w => exact .inl (by simp [refF, List.mem_singleton.1 (one hg hr)])
  | relUnlock w => exact .inl (by simp [refF, List.mem_singleton.1 (one hg hr)])
  | relDec w => exact .inl (by simp [refF, List.mem_singleton.1 (one hg hr)])
  | gcIdle c => cases one hg hr
  | gcPass c a b => cases one hg hr
  | insUnwind c => cases hg
  | gcTest c e => cases hg
  | gcErase c e => cases hg
  | gcUnlink c e => cases hg
  | gcLeave c e => cases hg

/-- What the specification counts as references. -/
theorem Inv.abs_ref {s : St K} (h : Inv cfg s) {e : Nat} (hr : (abs s).Referenced e) :
    0 < refOf s.ents e ∨ ∃ f ∈ frames s, elemOf f = some e ∧ ∀ c, f ≠ .gcErase c e := by
  rcases hr with ⟨w, hw, rfl⟩ | ⟨i, v, hv, w, hw, rfl⟩ | ⟨st, hst, g, hg, hr⟩
  · exact .inl (h.core.ref_pos_obj hw)
  · obtain ⟨x, hx, rfl⟩ := of_absV hv
    exact .inl (h.core.ref_pos_kid hx hw)
  · obtain ⟨st', hst', rfl⟩ := List.mem_map.1 hst
    obtain ⟨f, hf, hgf⟩ := List.mem_flatMap.1 hg
    have hfr : f ∈ frames s := List.mem_flatten.2 ⟨st', hst', hf⟩
    rcases absF_ref hgf hr with h1 | h1
    · exact .inl (h.core.ref_pos_frame hfr h1)
    · exact .inr ⟨f, hfr, h1⟩

theorem elem_ent {ents : Nat → Option (Ent K)} {f : Frame K} (h : FrameOk cfg ents f) {e : Nat} (he : elemOf f = some e) :
    ∃ x, ents e = some x := by
  cases f with
  | insVisit c k i loc => cases he; obtain ⟨⟨x, hx, _⟩, _⟩ := h; exact ⟨x, hx⟩
  | insUser c k i loc => cases he; obtain ⟨⟨x, hx, _⟩, _⟩ := h; exact ⟨x, hx⟩
  | insDone c k i loc => cases he; obtain ⟨⟨x, hx, _⟩, _⟩ := h; exact ⟨x, hx⟩
  | insAddRef c k i loc => cases he; obtain ⟨⟨x, hx, _⟩, _⟩ := h; exact ⟨x, hx⟩
  | insLeave c k i loc => cases he; obtain ⟨⟨x, hx, _⟩, _⟩ := h; exact ⟨x, hx⟩
  | insFail c i loc => cases he; obtain ⟨⟨x, hx, _⟩, _⟩ := h; exact ⟨x, hx⟩
  | gcTest c i => cases he; obtain ⟨x, hx, _⟩ := h; exact ⟨x, hx⟩
  | gcErase c i => cases he; obtain ⟨x, hx, _⟩ := h; exact ⟨x, hx⟩
  | gcUnlink c i => cases he; obtain ⟨x, hx, _⟩ := h; exact ⟨x, hx⟩
  | gcLeave c i => cases he; obtain ⟨x, hx, _⟩ := h; exact ⟨x, hx⟩
  | _ => cases he

/-- Entries that are not there are not referred to. -/
theorem Inv.fresh {s : St K} (h : Inv cfg s) {e : Nat} (he : s.ents e = none) : ¬ (abs s).Referenced e := by
  intro hr
  rcases h.abs_ref hr with h1 | ⟨f, hf, h1, _⟩
  · simp [refOf, he] at h1
  · obtain ⟨x, hx⟩ := elem_ent (h.core.frames f hf) h1
    rw [he] at hx
    cases hx

/-- Entries without value are referred to only by frames with access to them. -/
theorem Core.uncted {ents : Nat → Option (Ent K)} {next : Nat} {objs : List (Fw K)} {L : List (Frame K)}
    (h : Core cfg ents next objs L) {e : Nat} {x : Ent K} (hx : ents e = some x) (hc : x.cted = false) :
    ∀ f ∈ L, 0 < refF e f → elemOf f = some e := by
  have bad : ∀ {w : Fw K}, FwOk cfg ents w → w.h = e → False := by
    rintro w ⟨y, hy, _, hyc, _⟩ rfl
    rw [hx] at hy
    cases hy
    rw [hc] at hyc
    cases hyc
  have lst : ∀ {l : List (Fw K)}, (∀ w ∈ l, FwOk cfg ents w) → fwCount e l = 0 := by
    intro l hl
    rcases Nat.eq_zero_or_pos (fwCount e l) with h1 | h1
    · exact h1
    · obtain ⟨w, hw, he⟩ := Conc.exists_of_fwCount h1
      exact (bad (hl w hw) he).elim
  intro f hf hr
  have hok := h.frames f hf
  cases f with
  | insLock c k loc pre => simp [refF, lst hok] at hr
  | insHash c k loc pre => simp [refF, lst hok] at hr
  | insFind c k loc pre => simp [refF, lst hok] at hr
  | insVisit c k i loc => simp [refF, lst hok.2] at hr
  | insUser c k i loc => simp [refF, lst hok.2] at hr
  | insDone c k i loc => simp [refF, lst hok.2] at hr
  | insAddRef c k i loc => simp [refF, lst hok.2] at hr
  | insLeave c k i loc =>
    simp only [refF, lst hok.2] at hr
    split at hr
    · rename_i he; rw [← he]; rfl
    · omega
  | insFail c i loc => simp [refF, lst hok.2] at hr
  | insTrack c k i => simp only [refF] at hr; split at hr <;> first | omega | exact (bad hok (by assumption)).elim
  | insUnlock c k i => simp only [refF] at hr; split at hr <;> first | omega | exact (bad hok (by assumption)).elim
  | rel w => simp only [refF] at hr; split at hr <;> first | omega | exact (bad hok (by assumption)).elim
  | relLock w => simp only [refF] at hr; split at hr <;> first | omega | exact (bad hok (by assumption)).elim
  | relCheck w => simp only [refF] at hr; split at hr <;> first | omega | exact (bad hok (by assumption)).elim
  | relUnlock w => simp only [refF] at hr; split at hr <;> first | omega | exact (bad hok (by assumption)).elim
  | relDec w => simp only [refF] at hr; split at hr <;> first | omega | exact (bad hok (by assumption)).elim
  | _ => simp [refF] at hr

/-- A key left behind is not referred to. -/
theorem Inv.left {s : St K} (h : Inv cfg s) {e : Nat} {x : Ent K} (hx : s.ents e = some x) (hc : x.cted = false)
    (hv : s.vis e = none) : ¬ (abs s).Referenced e := by
  have noelem : ∀ f ∈ frames s, elemOf f ≠ some e := by
    intro f hf he
    obtain ⟨t, _, _, _, h1⟩ := h.vis_of hf he
    rw [hv] at h1
    cases h1
  intro hr
  rcases h.abs_ref hr with h1 | ⟨f, hf, h1, _⟩
  · rw [h.core.refs e] at h1
    have bad : ∀ {w : Fw K}, FwOk cfg s.ents w → w.h ≠ e := by
      rintro w ⟨y, hy, _, hyc, _⟩ rfl
      rw [hx] at hy
      cases hy
      rw [hc] at hyc
      cases hyc
    have h2 : fwCount e s.objs = 0 := by
      rcases Nat.eq_zero_or_pos (fwCount e s.objs) with h1 | h1
      · exact h1
      · obtain ⟨w, hw, he⟩ := Conc.exists_of_fwCount h1
        exact (bad (h.core.objsOk w hw) he).elim
    have h3 : kidsTo s.ents s.next e = 0 := by
      rcases Nat.eq_zero_or_pos (kidsTo s.ents s.next e) with h1 | h1
      · exact h1
      · obtain ⟨i, _, h4⟩ := Conc.exists_of_nsum h1
        cases hy : s.ents i with
        | none => rw [hy] at h4; simp [kidsOf] at h4
        | some y =>
          rw [hy] at h4
          obtain ⟨w, hw, he⟩ := Conc.exists_of_fwCount (l := y.kids) h4
          exact (bad (h.core.kids i y hy w hw) he).elim
    obtain ⟨f, hf, h4⟩ := exists_of_tot (g := refF e) (l := frames s) (by omega)
    exact noelem f hf (h.core.uncted hx hc f hf h4)
  · exact noelem f hf h1

/-- An entry about to be erased is not referred to. -/
theorem Inv.garbage {s : St K} (h : Inv cfg s) {t c e : Nat} {rest : List (Frame K)} {x : Ent K}
    (ht : s.thr[t]? = some (.gcErase c e :: rest)) (hx : s.ents e = some x) (hr : x.ref = 0) : ¬ (abs s).Referenced e := by
  intro h1
  rcases h.abs_ref h1 with h2 | ⟨f, hf, h2, h3⟩
  · simp [refOf, hx, hr] at h2
  · rcases List.mem_cons.1 ((frames_cons ht).mem_iff.1 hf) with rfl | hf
    · exact h3 c rfl
    · exact h.excl ht (e := e) rfl f hf h2

theorem inUser_abs {ents : Nat → Option (Ent K)} {st : List (Frame K)} (h : inUser st = true) :
    Linger.inUser (absS ents st) = true := by
  cases st with
  | nil => rfl
  | cons f st =>
    cases f with
    | insUser c k e => rfl
    | _ => cases h

theorem start_abs (n : Nat) (gcs : List Nat) : abs (start n gcs : St K) = Linger.start n gcs := by
  unfold abs start Linger.start
  congr 1
  · funext e
    unfold absV
    split <;> rfl
  · simp [absF]

end Verif.CFac

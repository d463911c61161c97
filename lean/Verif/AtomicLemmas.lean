import Verif.Atomic

/-!
# Flyweights with atomic operations: what holds in all states

Values exist exactly as long as they are referred to; there is one per key; flyweights refer to values with equivalent
keys.
-/

set_option autoImplicit false

namespace Verif.Atomic
open Verif.Conc (Fw Act pick)
variable {K : Type} {eqv : Nat → K → K → Bool}

/-- Flyweights in the hands of a call.  (No code of its own: used in statements and proofs.) -/
def Call.fws : Call K → List (Fw K)
  | .create _ _ loc => loc
  | .build _ _ kids => kids
  | .built _ _ kids => kids
  | .made w loc => w :: loc
  | .destroy _ => []

/-- The flyweight is an object, inside a value, or in the hands of a call.  (No code of its own: used in statements and proofs.) -/
def St.Held (a : St K) (w : Fw K) : Prop :=
  w ∈ a.objs ∨ (∃ i v, a.vals i = some v ∧ w ∈ v.kids) ∨ ∃ st ∈ a.thr, ∃ f ∈ st, w ∈ f.fws

theorem mem_pick {m : List Bool} {l : List (Fw K)} {w : Fw K} :
    w ∈ l ↔ w ∈ (pick m l).1 ∨ w ∈ (pick m l).2 := by
  induction l generalizing m with
  | nil => cases m <;> simp [pick]
  | cons a l ih =>
    cases m with
    | nil => simp [pick]
    | cons b m =>
      unfold pick
      rw [List.mem_cons, ih (m := m)]
      cases b <;> simp
      · exact or_left_comm
      · exact or_assoc.symm

/-- A property of some stack, one of which is known. -/
theorem exists_thr {thr : List (List (Call K))} {t : Nat} {st : List (Call K)} (ht : thr[t]? = some st)
    (Q : List (Call K) → Prop) (new : List (Call K)) :
    (∃ st ∈ thr.set t new, Q st) ↔ Q new ∨ ∃ j st', j ≠ t ∧ thr[j]? = some st' ∧ Q st' := by
  have hlt : t < thr.length := (List.getElem?_eq_some_iff.1 ht).1
  constructor
  · rintro ⟨st', h1, h2⟩
    obtain ⟨j, hj⟩ := List.mem_iff_getElem?.1 h1
    by_cases he : j = t
    · subst he
      rw [List.getElem?_set_self hlt] at hj
      cases hj
      exact Or.inl h2
    · rw [List.getElem?_set_ne (Ne.symm he)] at hj
      exact Or.inr ⟨j, st', he, hj, h2⟩
  · rintro (h | ⟨j, st', he, hj, h⟩)
    · exact ⟨new, List.mem_of_getElem? (List.getElem?_set_self hlt), h⟩
    · exact ⟨st', List.mem_of_getElem? ((List.getElem?_set_ne (Ne.symm he)).trans hj), h⟩

theorem exists_thr' {thr : List (List (Call K))} {t : Nat} {st : List (Call K)} (ht : thr[t]? = some st)
    (Q : List (Call K) → Prop) :
    (∃ st ∈ thr, Q st) ↔ Q st ∨ ∃ j st', j ≠ t ∧ thr[j]? = some st' ∧ Q st' := by
  have := exists_thr ht Q st
  rwa [show thr.set t st = thr from by
    refine List.ext_getElem? fun i => ?_
    by_cases hi : i = t
    · subst hi
      rw [List.getElem?_set_self (List.getElem?_eq_some_iff.1 ht).1, ht]
    · rw [List.getElem?_set_ne (Ne.symm hi)]] at this

/-- Values refer to `i`.  (No code of its own: used in proofs.) -/
def Inside (vals : Nat → Option (Val K)) (i : Nat) : Prop := ∃ j v, vals j = some v ∧ ∃ w ∈ v.kids, w.h = i

/-- Some call of the stack refers to `i`.  (No code of its own: used in proofs.) -/
def InStack (i : Nat) (st : List (Call K)) : Prop := ∃ f ∈ st, i ∈ f.refs

/-- Some call of another stack refers to `i`.  (No code of its own: used in proofs.) -/
def Other (thr : List (List (Call K))) (t i : Nat) : Prop := ∃ j st', j ≠ t ∧ thr[j]? = some st' ∧ InStack i st'

theorem ref_eq {a : St K} {t : Nat} {st : List (Call K)} (ht : a.thr[t]? = some st) (i : Nat) :
    a.Referenced i ↔ i ∈ a.objs.map Fw.h ∨ Inside a.vals i ∨ InStack i st ∨ Other a.thr t i := by
  unfold St.Referenced
  rw [exists_thr' ht fun st => ∃ f ∈ st, i ∈ f.refs, List.mem_map]
  rfl

theorem ref_set {a : St K} {t : Nat} {st : List (Call K)} (ht : a.thr[t]? = some st) (vals : Nat → Option (Val K))
    (objs : List (Fw K)) (new : List (Call K)) (i : Nat) :
    (St.mk vals objs (a.thr.set t new)).Referenced i ↔
      i ∈ objs.map Fw.h ∨ Inside vals i ∨ InStack i new ∨ Other a.thr t i := by
  unfold St.Referenced
  rw [exists_thr ht (fun st => ∃ f ∈ st, i ∈ f.refs) new, List.mem_map]
  rfl

@[simp] theorem inStack_cons (i : Nat) (f : Call K) (st : List (Call K)) :
    InStack i (f :: st) ↔ i ∈ f.refs ∨ InStack i st := by simp [InStack]
@[simp] theorem inStack_append (i : Nat) (l st : List (Call K)) :
    InStack i (l ++ st) ↔ InStack i l ∨ InStack i st := by simp [InStack, or_and_right, exists_or]
@[simp] theorem inStack_nil (i : Nat) : ¬ InStack i ([] : List (Call K)) := by simp [InStack]
@[simp] theorem inStack_drops (i : Nat) (l : List (Fw K)) : InStack i (drops l) ↔ i ∈ l.map Fw.h := by
  simp only [InStack, drops, List.mem_map]
  constructor
  · rintro ⟨f, ⟨w, hw, rfl⟩, h⟩
    exact ⟨w, hw, (List.mem_singleton.1 h).symm⟩
  · rintro ⟨w, hw, rfl⟩
    exact ⟨_, ⟨w, hw, rfl⟩, List.mem_singleton.2 rfl⟩

theorem mem_pick_h {m : List Bool} {l : List (Fw K)} {i : Nat} :
    i ∈ l.map Fw.h ↔ i ∈ (pick m l).1.map Fw.h ∨ i ∈ (pick m l).2.map Fw.h := by
  simp only [List.mem_map]
  constructor
  · rintro ⟨w, hw, rfl⟩
    exact (mem_pick.1 hw).imp (⟨w, ·, rfl⟩) (⟨w, ·, rfl⟩)
  · rintro (⟨w, hw, rfl⟩ | ⟨w, hw, rfl⟩)
    · exact ⟨w, mem_pick.2 (Or.inl hw), rfl⟩
    · exact ⟨w, mem_pick.2 (Or.inr hw), rfl⟩

theorem swap_mem {l : List (Fw K)} {i j : Nat} {v w u : Fw K} (hi : l[i]? = some v) (hj : l[j]? = some w) :
    u ∈ (l.set i w).set j v ↔ u ∈ l := by
  have hil := (List.getElem?_eq_some_iff.1 hi).1
  have hjl := (List.getElem?_eq_some_iff.1 hj).1
  have hjl' : j < (l.set i w).length := by simpa using hjl
  constructor
  · intro h
    obtain ⟨n, hn⟩ := List.mem_iff_getElem?.1 h
    by_cases h1 : n = j
    · subst h1
      rw [List.getElem?_set_self hjl'] at hn
      cases hn
      exact List.mem_of_getElem? hi
    · rw [List.getElem?_set_ne (Ne.symm h1)] at hn
      by_cases h2 : n = i
      · subst h2
        rw [List.getElem?_set_self hil] at hn
        cases hn
        exact List.mem_of_getElem? hj
      · rw [List.getElem?_set_ne (Ne.symm h2)] at hn
        exact List.mem_of_getElem? hn
  · intro h
    obtain ⟨n, hn⟩ := List.mem_iff_getElem?.1 h
    by_cases h1 : n = i
    · subst h1
      rw [hi] at hn
      cases hn
      exact List.mem_of_getElem? (List.getElem?_set_self hjl')
    · by_cases h2 : n = j
      · subst h2
        rw [hj] at hn
        cases hn
        by_cases h3 : n = i
        · exact absurd h3 h1
        · refine List.mem_of_getElem? (i := i) ?_
          rw [List.getElem?_set_ne h3, List.getElem?_set_self hil]
      · refine List.mem_of_getElem? (i := n) ?_
        rw [List.getElem?_set_ne (Ne.symm h2), List.getElem?_set_ne (Ne.symm h1), hn]

theorem inside_store {vals : Nat → Option (Val K)} {h i c : Nat} {k : K} {kids : List (Fw K)} (hn : vals h = none) :
    Inside (setVal vals h (some ⟨c, k, kids⟩)) i ↔ Inside vals i ∨ i ∈ kids.map Fw.h := by
  unfold Inside setVal
  constructor
  · rintro ⟨j, v, h1, h2⟩
    split at h1
    · cases h1
      exact Or.inr (List.mem_map.2 h2)
    · exact Or.inl ⟨j, v, h1, h2⟩
  · rintro (⟨j, v, h1, h2⟩ | h2)
    · refine ⟨j, v, ?_, h2⟩
      rw [if_neg]
      · exact h1
      · rintro rfl
        rw [hn] at h1
        cases h1
    · exact ⟨h, _, if_pos rfl, List.mem_map.1 h2⟩

theorem inside_last {vals : Nat → Option (Val K)} {h i : Nat} {v : Val K} (hv : vals h = some v) :
    Inside vals i ↔ Inside (setVal vals h none) i ∨ i ∈ v.kids.map Fw.h := by
  unfold Inside setVal
  constructor
  · rintro ⟨j, u, h1, h2⟩
    by_cases hj : j = h
    · subst hj
      rw [hv] at h1
      cases h1
      exact Or.inr (List.mem_map.2 h2)
    · exact Or.inl ⟨j, u, by rw [if_neg hj]; exact h1, h2⟩
  · rintro (⟨j, u, h1, h2⟩ | h2)
    · split at h1
      · cases h1
      · exact ⟨j, u, h1, h2⟩
    · exact ⟨h, v, hv, List.mem_map.1 h2⟩

/-- Values exist exactly as long as they are referred to.  (No code of its own: used in statements and proofs.) -/
def Exact (a : St K) : Prop := ∀ i, (a.vals i).isSome ↔ a.Referenced i

theorem Exact.step {a a' : St K} (hE : Exact a) {t : Nat} {act : Act K} (hs : Step eqv a t act a') : Exact a' := by
  intro i
  have hEi := hE i
  cases hs with
  | @share c k loc rest h v ht hv hc hk =>
    have h1 := ref_set ht a.vals a.objs (.made ⟨h, c, k⟩ loc :: rest) i
    rw [ref_eq ht i] at hEi
    have h2 : i = h → (a.vals i).isSome := by rintro rfl; rw [hv]; rfl
    simp only [St.go, inStack_cons, Call.refs, List.mem_cons] at *
    grind
  | @keep c k loc rest ht hf =>
    have h1 := ref_set ht a.vals a.objs (.built c k loc :: rest) i
    rw [ref_eq ht i] at hEi
    simp only [St.go, inStack_cons, Call.refs] at *
    grind
  | @start c k loc rest ht hf =>
    have h1 := ref_set ht a.vals a.objs (.build c k loc :: rest) i
    rw [ref_eq ht i] at hEi
    simp only [St.go, inStack_cons, Call.refs] at *
    grind
  | @store c k kids rest h ht hf hn hr =>
    have h1 := ref_set ht (setVal a.vals h (some ⟨c, k, kids⟩)) a.objs (.made ⟨h, c, k⟩ [] :: rest) i
    rw [ref_eq ht i] at hEi
    rw [inside_store hn] at h1
    have h2 : (setVal a.vals h (some ⟨c, k, kids⟩) i).isSome ↔ i = h ∨ (a.vals i).isSome := by
      unfold setVal; split <;> simp_all
    simp only [St.go, inStack_cons, Call.refs, List.mem_cons, List.map_nil, List.not_mem_nil, or_false] at *
    grind
  | @ret w loc rest ht =>
    have h1 := ref_set ht a.vals (w :: a.objs) (drops loc ++ rest) i
    rw [ref_eq ht i] at hEi
    simp only [St.go, inStack_cons, inStack_append, inStack_drops, Call.refs, List.map_cons, List.mem_cons] at *
    grind
  | @drop h rest ht hr =>
    have h1 := ref_set ht a.vals a.objs rest i
    have h3 := ref_set ht a.vals a.objs rest h
    rw [ref_eq ht i] at hEi
    have h2 : i = h → (a.go t rest).Referenced i := by rintro rfl; exact hr
    simp only [St.go, inStack_cons, Call.refs, List.mem_singleton] at *
    grind
  | @last h v rest ht hr hv =>
    have h1 := ref_set ht (setVal a.vals h none) a.objs (drops v.kids ++ rest) i
    have h3 := ref_set ht a.vals a.objs rest i
    rw [ref_eq ht i] at hEi
    have h4 := inside_last (i := i) hv
    have h2 : (setVal a.vals h none i).isSome ↔ i ≠ h ∧ (a.vals i).isSome := by
      unfold setVal; split <;> simp_all
    have h5 : i = h → ¬ (a.go t rest).Referenced i := by rintro rfl; exact hr
    simp only [St.go, inStack_cons, inStack_append, inStack_drops, Call.refs, List.mem_singleton] at *
    grind
  | @create st c k mask pre ht hu =>
    have h1 := ref_set ht a.vals (pick mask a.objs).2 (.create c k (pick mask a.objs).1 :: st) i
    rw [ref_eq ht i, mem_pick_h (m := mask)] at hEi
    simp only [St.go, inStack_cons, Call.refs] at *
    grind
  | @destroy st mask ht hu =>
    have h1 := ref_set ht a.vals (pick mask a.objs).2 (drops (pick mask a.objs).1 ++ st) i
    rw [ref_eq ht i, mem_pick_h (m := mask)] at hEi
    simp only [St.go, inStack_append, inStack_drops] at *
    grind
  | @copy st j w v ht hu hj hv =>
    have h1 := ref_eq (a := { a with objs := w :: a.objs }) ht i
    rw [ref_eq ht i] at hEi
    have h2 : i = w.h → i ∈ a.objs.map Fw.h := by rintro rfl; exact List.mem_map.2 ⟨w, List.mem_of_getElem? hj, rfl⟩
    simp only [List.map_cons, List.mem_cons] at *
    grind
  | @copyKid st j n w v u ht hu hj hv hn =>
    have h1 := ref_eq (a := { a with objs := u :: a.objs }) ht i
    rw [ref_eq ht i] at hEi
    have h2 : i = u.h → Inside a.vals i := by rintro rfl; exact ⟨w.h, v, hv, u, List.mem_of_getElem? hn, rfl⟩
    simp only [List.map_cons, List.mem_cons] at *
    grind
  | @swap st j n v w ht hu hj hn =>
    have h1 := ref_eq (a := { a with objs := (a.objs.set j w).set n v }) ht i
    rw [ref_eq ht i] at hEi
    have h2 : i ∈ ((a.objs.set j w).set n v).map Fw.h ↔ i ∈ a.objs.map Fw.h := by
      simp only [List.mem_map, swap_mem hj hn]
    rw [h2] at h1
    exact hEi.trans h1.symm
  | read ht hu hj hv => exact hEi
  | @finish c k kids rest mask dr ht =>
    have h1 := ref_set ht a.vals (pick mask a.objs).2 ((if dr then drops kids else []) ++
            .built c k (if dr then (pick mask a.objs).1 else kids ++ (pick mask a.objs).1) :: rest) i
    rw [ref_eq ht i, mem_pick_h (m := mask)] at hEi
    cases dr with
    | true =>
      simp only [St.go, inStack_cons, inStack_append, inStack_drops, Call.refs, if_true] at *
      grind
    | false =>
      simp only [St.go, inStack_cons, inStack_append, inStack_nil, Call.refs, List.map_append, List.mem_append,
        Bool.false_eq_true, if_false] at *
      grind
  | @throwBuild c k kids rest ht =>
    have h1 := ref_set ht a.vals a.objs (drops kids ++ rest) i
    rw [ref_eq ht i] at hEi
    simp only [St.go, inStack_cons, inStack_append, inStack_drops, Call.refs] at *
    grind
  | @throwFind c k loc rest ht =>
    have h1 := ref_set ht a.vals a.objs (drops loc ++ rest) i
    rw [ref_eq ht i] at hEi
    simp only [St.go, inStack_cons, inStack_append, inStack_drops, Call.refs] at *
    grind

/-! ## Flyweights held -/

/-- Some call of the stack has `w` in its hands.  (No code of its own: used in proofs.) -/
def HasFw (w : Fw K) (st : List (Call K)) : Prop := ∃ f ∈ st, w ∈ f.fws

@[simp] theorem hasFw_cons (w : Fw K) (f : Call K) (st : List (Call K)) :
    HasFw w (f :: st) ↔ w ∈ f.fws ∨ HasFw w st := by simp [HasFw]
@[simp] theorem hasFw_append (w : Fw K) (l st : List (Call K)) :
    HasFw w (l ++ st) ↔ HasFw w l ∨ HasFw w st := by simp [HasFw, or_and_right, exists_or]
@[simp] theorem hasFw_nil (w : Fw K) : ¬ HasFw w ([] : List (Call K)) := by simp [HasFw]
@[simp] theorem hasFw_drops (w : Fw K) (l : List (Fw K)) : ¬ HasFw w (drops l) := by
  rintro ⟨f, hf, h⟩
  obtain ⟨u, _, rfl⟩ := List.mem_map.1 hf
  cases h

theorem held_of {a : St K} {t : Nat} {st : List (Call K)} (ht : a.thr[t]? = some st) {w : Fw K}
    (h : w ∈ a.objs ∨ (∃ i v, a.vals i = some v ∧ w ∈ v.kids) ∨ HasFw w st) : a.Held w :=
  h.imp id (Or.imp id fun h => ⟨st, List.mem_of_getElem? ht, h⟩)

/-- What is held after a change of the stack of `t`. -/
theorem of_held {a : St K} {t : Nat} {st : List (Call K)} (ht : a.thr[t]? = some st) {vals : Nat → Option (Val K)}
    {objs : List (Fw K)} {new : List (Call K)} {w : Fw K} (h : (St.mk vals objs (a.thr.set t new)).Held w)
    (h1 : w ∈ objs → a.Held w) (h2 : ∀ i v, vals i = some v → w ∈ v.kids → a.Held w)
    (h3 : HasFw w new → a.Held w) : a.Held w := by
  rcases h with h | ⟨i, v, hv, hw⟩ | h
  · exact h1 h
  · exact h2 i v hv hw
  · rcases (exists_thr ht (fun st => ∃ f ∈ st, w ∈ f.fws) new).1 h with h | ⟨j, st', _, hj, h⟩
    · exact h3 h
    · exact Or.inr (Or.inr ⟨st', List.mem_of_getElem? hj, h⟩)

/-- The flyweight made by a step, if any: it refers to a value of its type with an equivalent key.  (No code of its own: used in
proofs.) -/
def Fresh (eqv : Nat → K → K → Bool) (a' : St K) (w : Fw K) : Prop :=
  ∃ v, a'.vals w.h = some v ∧ v.core = w.c ∧ eqv w.c v.key w.k = true

theorem Step.held (refl : ∀ c k, eqv c k k = true) {a a' : St K} {t : Nat} {act : Act K} (hs : Step eqv a t act a')
    {w : Fw K} (hw : a'.Held w) : a.Held w ∨ Fresh eqv a' w := by
  have vals : ∀ i v, a.vals i = some v → w ∈ v.kids → a.Held w := fun i v h1 h2 => Or.inr (Or.inl ⟨i, v, h1, h2⟩)
  have objs : w ∈ a.objs → a.Held w := Or.inl
  cases hs with
  | @share c k loc rest h v ht hv hc hk =>
    by_cases he : w = ⟨h, c, k⟩
    · subst he
      exact Or.inr ⟨v, hv, hc, hk⟩
    · refine Or.inl (of_held ht hw objs vals fun hn => held_of ht (Or.inr (Or.inr ?_)))
      simp only [hasFw_cons, Call.fws, List.mem_cons, he, false_or] at *
      exact hn
  | @keep c k loc rest ht hf =>
    refine Or.inl (of_held ht hw objs vals fun hn => held_of ht (Or.inr (Or.inr ?_)))
    simpa [Call.fws] using hn
  | @start c k loc rest ht hf =>
    refine Or.inl (of_held ht hw objs vals fun hn => held_of ht (Or.inr (Or.inr ?_)))
    simpa [Call.fws] using hn
  | @store c k kids rest h ht hf hn hr =>
    by_cases he : w = ⟨h, c, k⟩
    · subst he
      exact Or.inr ⟨⟨c, k, kids⟩, by simp [setVal], rfl, refl c k⟩
    · refine Or.inl (of_held ht hw objs ?_ fun hn => held_of ht (Or.inr (Or.inr ?_)))
      · intro i v hv hw
        unfold setVal at hv
        split at hv
        · cases hv
          exact held_of ht (Or.inr (Or.inr (by simp only [hasFw_cons, Call.fws]; exact Or.inl hw)))
        · exact vals i v hv hw
      · simp only [hasFw_cons, Call.fws, List.mem_cons, he, List.not_mem_nil, or_false, false_or] at *
        exact Or.inr hn
  | @ret u loc rest ht =>
    refine Or.inl (of_held ht hw (fun h => ?_) vals fun hn => held_of ht (Or.inr (Or.inr ?_)))
    · rcases List.mem_cons.1 h with rfl | h
      · exact held_of ht (Or.inr (Or.inr (by simp [Call.fws])))
      · exact objs h
    · simp only [hasFw_append, hasFw_drops, false_or] at hn
      simp [hn]
  | @drop h rest ht hr =>
    refine Or.inl (of_held ht hw objs vals fun hn => held_of ht (Or.inr (Or.inr ?_)))
    simp [hn]
  | @last h v rest ht hr hv =>
    refine Or.inl (of_held ht hw objs ?_ fun hn => held_of ht (Or.inr (Or.inr ?_)))
    · intro i u hu hw
      unfold setVal at hu
      split at hu
      · cases hu
      · exact vals i u hu hw
    · simp only [hasFw_append, hasFw_drops, false_or] at hn
      simp [hn]
  | @create st c k mask pre ht hu =>
    refine Or.inl (of_held ht hw (fun h => objs (mem_pick.2 (Or.inr h))) vals fun hn => ?_)
    simp only [hasFw_cons, Call.fws] at hn
    rcases hn with hn | hn
    · exact objs (mem_pick.2 (Or.inl hn))
    · exact held_of ht (Or.inr (Or.inr hn))
  | @destroy st mask ht hu =>
    refine Or.inl (of_held ht hw (fun h => objs (mem_pick.2 (Or.inr h))) vals fun hn => ?_)
    simp only [hasFw_append, hasFw_drops, false_or] at hn
    exact held_of ht (Or.inr (Or.inr hn))
  | @copy st j u v ht hu hj hv =>
    rcases hw with h | h
    · rcases List.mem_cons.1 h with rfl | h
      · exact Or.inl (objs (List.mem_of_getElem? hj))
      · exact Or.inl (objs h)
    · exact Or.inl (Or.inr h)
  | @copyKid st j n u v u' ht hu hj hv hn =>
    rcases hw with h | h
    · rcases List.mem_cons.1 h with rfl | h
      · exact Or.inl (vals _ v hv (List.mem_of_getElem? hn))
      · exact Or.inl (objs h)
    · exact Or.inl (Or.inr h)
  | @swap st j n v u ht hu hj hn =>
    rcases hw with h | h
    · exact Or.inl (objs ((swap_mem hj hn).1 h))
    · exact Or.inl (Or.inr h)
  | read ht hu hj hv => exact Or.inl hw
  | @finish c k kids rest mask dr ht =>
    refine Or.inl (of_held ht hw (fun h => objs (mem_pick.2 (Or.inr h))) vals fun hn => ?_)
    simp only [hasFw_append, hasFw_cons, Call.fws] at hn
    rcases hn with hn | hn | hn
    · cases dr <;> simp at hn
    · cases dr with
      | true => exact objs (mem_pick.2 (Or.inl (by simpa using hn)))
      | false =>
        rcases List.mem_append.1 (by simpa using hn) with hn | hn
        · exact held_of ht (Or.inr (Or.inr (by simp only [hasFw_cons, Call.fws]; exact Or.inl hn)))
        · exact objs (mem_pick.2 (Or.inl hn))
    · exact held_of ht (Or.inr (Or.inr (by simp [hn])))
  | @throwBuild c k kids rest ht =>
    refine Or.inl (of_held ht hw objs vals fun hn => held_of ht (Or.inr (Or.inr ?_)))
    simp only [hasFw_append, hasFw_drops, false_or] at hn
    simp [hn]
  | @throwFind c k loc rest ht =>
    refine Or.inl (of_held ht hw objs vals fun hn => held_of ht (Or.inr (Or.inr ?_)))
    simp only [hasFw_append, hasFw_drops, false_or] at hn
    simp [hn]

/-- What is in the hands of somebody is referred to. -/
theorem Held.ref {a : St K} {w : Fw K} (h : a.Held w) : a.Referenced w.h := by
  rcases h with h | ⟨i, v, hv, h⟩ | ⟨st, hst, f, hf, h⟩
  · exact Or.inl ⟨w, h, rfl⟩
  · exact Or.inr (Or.inl ⟨i, v, hv, w, h, rfl⟩)
  · refine Or.inr (Or.inr ⟨st, hst, f, hf, ?_⟩)
    cases f with
    | create c k loc => exact List.mem_map.2 ⟨w, h, rfl⟩
    | build c k loc => exact List.mem_map.2 ⟨w, h, rfl⟩
    | built c k loc => exact List.mem_map.2 ⟨w, h, rfl⟩
    | made u loc =>
      rcases List.mem_cons.1 h with rfl | h
      · exact List.mem_cons_self
      · exact List.mem_cons_of_mem _ (List.mem_map.2 ⟨w, h, rfl⟩)
    | destroy h => cases h

/-- How values change. -/
theorem Step.vals {a a' : St K} {t : Nat} {act : Act K} (hs : Step eqv a t act a') {i : Nat} {v : Val K}
    (hv : a'.vals i = some v) : a.vals i = some v ∨ (a.vals i = none ∧ a.Free eqv v.core v.key) := by
  cases hs with
  | @store c k kids rest h ht hf hn hr =>
    by_cases hi : i = h
    · subst hi
      simp only [setVal, if_true] at hv
      cases hv
      exact Or.inr ⟨hn, hf⟩
    · simp only [setVal, if_neg hi] at hv
      exact Or.inl hv
  | @last h v' rest ht hr hv' =>
    by_cases hi : i = h
    · subst hi
      simp only [setVal, if_true] at hv
      cases hv
    · simp only [setVal, if_neg hi] at hv
      exact Or.inl hv
  | _ => exact Or.inl hv

/-- What holds in every state that can be reached.  (No code of its own: used in statements and proofs.) -/
structure Sound (eqv : Nat → K → K → Bool) (a : St K) : Prop where
  exact : Exact a
  held : ∀ w, a.Held w → ∃ v, a.vals w.h = some v ∧ v.core = w.c ∧ eqv w.c v.key w.k = true
  one : ∀ i j u v, a.vals i = some u → a.vals j = some v → u.core = v.core → eqv u.core u.key v.key = true → i = j

theorem Sound.step (refl : ∀ c k, eqv c k k = true) (symm : ∀ c k l, eqv c k l = true → eqv c l k = true) {a a' : St K}
    (h : Sound eqv a) {t : Nat} {act : Act K} (hs : Step eqv a t act a') : Sound eqv a' := by
  have hE := h.exact.step hs
  refine ⟨hE, fun w hw => ?_, ?_⟩
  · rcases hs.held refl hw with h1 | h1
    · obtain ⟨v, hv, hc, hk⟩ := h.held w h1
      have h2 := (hE w.h).2 (Held.ref hw)
      cases hv' : a'.vals w.h with
      | none => rw [hv'] at h2; cases h2
      | some v' =>
        rcases hs.vals hv' with h3 | ⟨h3, _⟩
        · rw [hv] at h3
          cases h3
          exact ⟨v, rfl, hc, hk⟩
        · rw [hv] at h3
          cases h3
    · exact h1
  · intro i j u v hu hv hc hk
    rcases hs.vals hu with h1 | ⟨h1, h1'⟩ <;> rcases hs.vals hv with h2 | ⟨h2, h2'⟩
    · exact h.one i j u v h1 h2 hc hk
    · have := h2' i u h1 hc
      rw [hc] at hk
      rw [hk] at this
      cases this
    · have := h1' j v h2 hc.symm
      rw [symm _ _ _ hk] at this
      cases this
    · -- both are new: only one value is added by a step
      cases hs with
      | @store c k kids rest x ht hf hn hr =>
        have key : ∀ n w, setVal a.vals x (some ⟨c, k, kids⟩) n = some w → a.vals n = none → n = x := by
          intro n w hw hn
          unfold setVal at hw
          split at hw
          · assumption
          · rw [hn] at hw
            cases hw
        rw [key i u hu h1, key j v hv h2]
      | @last x v' rest ht hr hv' =>
        simp only [setVal] at hu
        split at hu
        · cases hu
        · rw [h1] at hu
          cases hu
      | _ => exact absurd (h1.symm.trans hu) (by simp)

theorem start_sound (n : Nat) : Sound eqv (start n : St K) where
  exact := by
    intro i
    constructor
    · intro h; cases h
    · rintro (⟨w, hw, _⟩ | ⟨j, v, hv, _⟩ | ⟨st, hst, f, hf, _⟩)
      · cases hw
      · cases hv
      · rw [(List.mem_replicate.1 hst).2] at hf
        cases hf
  held := by
    rintro w (hw | ⟨j, v, hv, _⟩ | ⟨st, hst, f, hf, _⟩)
    · cases hw
    · cases hv
    · rw [(List.mem_replicate.1 hst).2] at hf
      cases hf
  one := by
    intro i j u v hu
    cases hu

theorem Run.sound (refl : ∀ c k, eqv c k k = true) (symm : ∀ c k l, eqv c k l = true → eqv c l k = true) {n : Nat}
    {l : List (Nat × Act K)} {a : St K} (h : Run eqv (start n) l a) : Sound eqv a := by
  generalize hb : (start n : St K) = b at h
  induction h with
  | nil => exact hb ▸ start_sound n
  | snoc _ hs ih => exact ih.step refl symm hs

end Verif.Atomic

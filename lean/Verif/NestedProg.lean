import Verif.NestedRef

/-!
# Programs over values that contain flyweights of their own type
-/

set_option autoImplicit false

namespace Verif.Nest

open Assoc

set_option linter.unusedSectionVars false

variable {L : Type} [DecidableEq L]

/-- What a program does with its flyweights, which it keeps in a list of
variables; places outside of the list are skipped.  (Clients, e.g.
/repo/example/composite.cpp:133-152.) -/
inductive Op (L : Type) where
  /-- A flyweight of a label and copies of the flyweights at `is`; `fail`: the
  insertion throws. -/
  | make (l : L) (is : List Nat) (fail : Bool)
  | copy (i : Nat)
  | drop (i : Nat)
  /-- A copy of the `j`-th flyweight inside the value of the `i`-th. -/
  | sub (i j : Nat)
  | assign (i j : Nat)

/-- The program: its flyweights and the factory.  (No code of its own: the variables of a
program.) -/
structure Prog (L : Type) where
  vars : List Nat
  heap : Heap L

/-- One statement; `none` is undefined behaviour.  `make`: fill a local vector with
copies, construct, destroy the local vector
(/repo/example/composite.cpp:134-151).  Copy: /repo/include/boost/flyweight/refcounted.hpp:118-122.
Assignment: copy, swap and destroy, ibid. 124-128.
Destruction: ibid. 130-135.  Access to a value: flyweight.hpp:250-253. -/
def Prog.step (s : Prog L) : Op L → Option (Prog L)
  | .make l is fail =>
    let hs := is.filterMap fun i => s.vars[i]?
    match addRefs hs s.heap with
    | none => none
    | some H =>
      match make ⟨l, hs⟩ fail H with
      | .ub => none
      | .exc H => (Nest.drop hs H).map fun H => ⟨s.vars, H⟩
      | .ok h H => (Nest.drop hs H).map fun H => ⟨s.vars ++ [h], H⟩
  | .copy i =>
    match s.vars[i]? with
    | none => some s
    | some h => (addRef h s.heap).map fun H => ⟨s.vars ++ [h], H⟩
  | .drop i =>
    match s.vars[i]? with
    | none => some s
    | some h => (Nest.drop [h] s.heap).map fun H => ⟨s.vars.eraseIdx i, H⟩
  | .sub i j =>
    match s.vars[i]? with
    | none => some s
    | some h =>
      match s.heap.val h with
      | none => none
      | some v =>
        match v.subs[j]? with
        | none => some s
        | some x => (addRef x s.heap).map fun H => ⟨s.vars ++ [x], H⟩
  | .assign i j =>
    match s.vars[i]?, s.vars[j]? with
    | some h, some x => ((addRef x s.heap).bind (Nest.drop [h])).map fun H => ⟨s.vars.set i x, H⟩
    | _, _ => some s

/-- A program from its beginning. (No code of its own.) -/
def Prog.run (alloc : Nat → List Nat → Nat) : List (Op L) → Option (Prog L)
  | [] => some ⟨[], ⟨[], alloc, 0⟩⟩
  | op :: ops => (Prog.run alloc ops).bind fun s => s.step op

/-! ## Specification: trees are plain values -/

/-- A tree is a label and a forest.  (No code of its own: used in statements and proofs.) -/
abbrev Tree (L : Type) := L × Forest L

/-- The trees of a forest.  (No code of its own: used in statements and proofs.) -/
def Forest.toList : Forest L → List (Tree L)
  | .nil => []
  | .cons l f g => (l, f) :: g.toList

/-- The forest of some trees.  (No code of its own: used in statements and proofs.) -/
def Forest.ofList : List (Tree L) → Forest L
  | [] => .nil
  | t :: ts => .cons t.1 t.2 (.ofList ts)

/-- One statement on plain values.  (No code of its own: used in statements and proofs.) -/
def specStep (ts : List (Tree L)) : Op L → List (Tree L)
  | .make l is fail => if fail then ts else ts ++ [(l, .ofList (is.filterMap fun i => ts[i]?))]
  | .copy i => ts ++ ts[i]?.toList
  | .drop i => ts.eraseIdx i
  | .sub i j => ts ++ (ts[i]?.bind fun t => t.2.toList[j]?).toList
  | .assign i j =>
    match ts[j]? with
    | some t => ts.set i t
    | none => ts

/-- A program on plain values; the last statement comes first, as in `Prog.run`.  (No code of
its own: used in statements and proofs.) -/
def specRun : List (Op L) → List (Tree L)
  | [] => []
  | op :: ops => specStep (specRun ops) op

/-- `t` occurs in `r`.  (No code of its own: used in statements and proofs.) -/
inductive Subtree (t : Tree L) : Tree L → Prop
  | self : Subtree t t
  | child {c r : Tree L} : Subtree t c → c ∈ r.2.toList → Subtree t r

/-! ## The program agrees with the specification -/

/-- Handle `h` stands for tree `t`.  (No code of its own: used in statements and proofs.) -/
def Is (H : Heap L) (t : Tree L) (h : Nat) : Prop :=
  ∃ sub, H.val h = some ⟨t.1, sub⟩ ∧ Means H t.2 sub

theorem is_iff {H : Heap L} {t : Tree L} {h : Nat} :
    Is H t h ↔ Means H (.tree t.1 t.2) [h] := by
  constructor
  · rintro ⟨sub, h1, h2⟩; exact ⟨h, sub, [], rfl, h1, h2, rfl⟩
  · rintro ⟨x, sub, rest, e, h1, h2, _⟩; cases e; exact ⟨sub, h1, h2⟩

theorem means_iff {H : Heap L} : ∀ {f : Forest L} {hs : List Nat},
    Means H f hs ↔ List.Forall₂ (Is H) f.toList hs
  | .nil, hs => by
    constructor
    · intro h; change hs = [] at h; subst h; exact .nil
    · intro h; cases h; rfl
  | .cons l f g, hs => by
    constructor
    · rintro ⟨h, sub, rest, rfl, h1, h2, h3⟩
      exact .cons ⟨sub, h1, h2⟩ (means_iff.1 h3)
    · intro h
      cases h with
      | cons h1 h2 =>
        obtain ⟨sub, h1, h2'⟩ := h1
        exact ⟨_, sub, _, rfl, h1, h2', means_iff.2 h2⟩

theorem toList_ofList : ∀ (ts : List (Tree L)), (Forest.ofList ts).toList = ts
  | [] => rfl
  | t :: ts => by simp [Forest.ofList, Forest.toList, toList_ofList ts]

theorem forall₂_get {α β : Type} {R : α → β → Prop} {l : List α} {l' : List β}
    (h : List.Forall₂ R l l') (i : Nat) :
    (l[i]? = none ∧ l'[i]? = none) ∨ ∃ a b, l[i]? = some a ∧ l'[i]? = some b ∧ R a b := by
  induction h generalizing i with
  | nil => left; simp
  | cons h1 _ ih =>
    cases i with
    | zero => right; exact ⟨_, _, rfl, rfl, h1⟩
    | succ i => simpa using ih i

theorem forall₂_mono {α β : Type} {R R' : α → β → Prop} {l : List α} {l' : List β}
    (h : List.Forall₂ R l l') (hR : ∀ a b, b ∈ l' → R a b → R' a b) : List.Forall₂ R' l l' := by
  induction h with
  | nil => exact .nil
  | cons h1 _ ih => exact .cons (hR _ _ (by simp) h1) (ih fun a b hb => hR a b (by simp [hb]))

theorem forall₂_append {α β : Type} {R : α → β → Prop} {l m : List α} {l' m' : List β}
    (h : List.Forall₂ R l l') (h' : List.Forall₂ R m m') : List.Forall₂ R (l ++ m) (l' ++ m') := by
  induction h with
  | nil => exact h'
  | cons h1 _ ih => exact .cons h1 ih

theorem forall₂_eraseIdx {α β : Type} {R : α → β → Prop} {l : List α} {l' : List β}
    (h : List.Forall₂ R l l') (i : Nat) : List.Forall₂ R (l.eraseIdx i) (l'.eraseIdx i) := by
  induction h generalizing i with
  | nil => exact .nil
  | cons h1 h2 ih =>
    cases i with
    | zero => exact h2
    | succ i => exact .cons h1 (ih i)

theorem forall₂_set {α β : Type} {R : α → β → Prop} {l : List α} {l' : List β}
    (h : List.Forall₂ R l l') (i : Nat) {a : α} {b : β} (hab : R a b) :
    List.Forall₂ R (l.set i a) (l'.set i b) := by
  induction h generalizing i with
  | nil => exact .nil
  | cons h1 h2 ih =>
    cases i with
    | zero => exact .cons hab h2
    | succ i => exact .cons h1 (ih i)

theorem forall₂_pick {α β : Type} {R : α → β → Prop} {l : List α} {l' : List β}
    (h : List.Forall₂ R l l') : ∀ is : List Nat,
    List.Forall₂ R (is.filterMap fun i => l[i]?) (is.filterMap fun i => l'[i]?)
  | [] => .nil
  | i :: is => by
    rcases forall₂_get h i with ⟨h1, h2⟩ | ⟨a, b, h1, h2, h3⟩
    · rw [List.filterMap_cons_none h1, List.filterMap_cons_none h2]
      exact forall₂_pick h is
    · rw [List.filterMap_cons_some h1, List.filterMap_cons_some h2]
      exact .cons h3 (forall₂_pick h is)

theorem mem_pick {l : List Nat} {is : List Nat} {x : Nat}
    (h : x ∈ is.filterMap fun i => l[i]?) : x ∈ l := by
  obtain ⟨i, _, hi⟩ := List.mem_filterMap.1 h
  exact List.mem_of_getElem? hi

/-- The invariant of programs.  (No code of its own: used in statements and proofs.) -/
structure Agree (s : Prog L) (ts : List (Tree L)) : Prop where
  inv : Inv s.vars s.heap
  vars : List.Forall₂ (Is s.heap) ts s.vars

theorem Is.mono {H H' : Heap L} {t : Tree L} {h : Nat}
    (hm : Means H (.tree t.1 t.2) [h] → Means H' (.tree t.1 t.2) [h]) (hi : Is H t h) :
    Is H' t h := is_iff.2 (hm (is_iff.1 hi))

theorem perm_eraseIdx {l : List Nat} {i h : Nat} (hi : l[i]? = some h) :
    l.Perm (h :: l.eraseIdx i) := by
  induction l generalizing i with
  | nil => simp at hi
  | cons a l ih =>
    cases i with
    | zero => simp at hi; subst hi; exact List.Perm.refl _
    | succ i =>
      simp only [List.getElem?_cons_succ] at hi
      exact ((ih hi).cons a).trans (List.Perm.swap _ _ _)

theorem perm_set {l : List Nat} {i h x : Nat} (hi : l[i]? = some h) :
    (x :: l).Perm (h :: l.set i x) := by
  induction l generalizing i with
  | nil => simp at hi
  | cons a l ih =>
    cases i with
    | zero => simp at hi; subst hi; exact List.Perm.swap _ _ _
    | succ i =>
      simp only [List.getElem?_cons_succ] at hi
      refine (List.Perm.swap _ _ _).trans (((ih hi).cons a).trans (List.Perm.swap _ _ _))

theorem step_agree {s : Prog L} {ts : List (Tree L)} (h : Agree s ts) (op : Op L) :
    ∃ s', s.step op = some s' ∧ Agree s' (specStep ts op) := by
  obtain ⟨I, hv⟩ := h
  cases op with
  | make l is fail =>
    unfold Prog.step
    simp only
    generalize hhs : is.filterMap (fun i => s.vars[i]?) = hs
    have hroot : ∀ x ∈ hs, x ∈ s.vars := fun x hx => by subst hhs; exact mem_pick hx
    obtain ⟨H1, e1, I1, v1, _, _⟩ := addRefs_ok (hs := hs) I fun x hx => I.root (hroot x hx)
    have m1 : ∀ {g : Forest L} {hs : List Nat}, Means s.heap g hs → Means H1 g hs := fun h =>
      h.mono fun x u hu => by rw [v1]; exact hu
    have hf : Means H1 (.ofList (is.filterMap fun i => ts[i]?)) hs := by
      apply m1
      rw [means_iff, toList_ofList, ← hhs]
      exact forall₂_pick hv is
    simp only [e1]
    rcases make_ok I1 (v := ⟨l, hs⟩) (f := .ofList (is.filterMap fun i => ts[i]?))
      (fun x hx => by simp at hx ⊢; exact .inl hx) hf fail with
      ⟨rfl, H2, e2, I2, L2⟩ | ⟨rfl, x, H2, e2, I2, mx, m2⟩
    · obtain ⟨H3, e3, I3, L3⟩ := drop_ok I2
      refine ⟨⟨s.vars, H3⟩, by simp [e2, e3], I3, ?_⟩
      simp only [specStep, if_true]
      refine forall₂_mono hv fun t x hx hi => hi.mono fun hm => ?_
      refine L3.keep (by simpa using hx) (L2.keep ?_ (m1 hm))
      intro y hy
      simp at hy ⊢
      exact .inr (hy ▸ hx)
    · obtain ⟨H3, e3, I3, L3⟩ := drop_ok (hs := hs) (roots := x :: s.vars)
        (I2.perm List.perm_middle.symm)
      refine ⟨⟨s.vars ++ [x], H3⟩, by simp [e2, e3],
        I3.perm (List.perm_append_singleton x s.vars).symm, ?_⟩
      simp only [specStep, Bool.false_eq_true, if_false]
      refine forall₂_append ?_ ?_
      · refine forall₂_mono hv fun t y hy hi => hi.mono fun hm => ?_
        refine L3.keep (by simp [hy]) (m2 ?_ (m1 hm))
        intro z hz
        simp at hz ⊢
        exact .inr (hz ▸ hy)
      · refine .cons (is_iff.2 (L3.keep (by simp) mx)) .nil
  | copy i =>
    unfold Prog.step
    rcases forall₂_get hv i with ⟨h1, h2⟩ | ⟨t, x, h1, h2, h3⟩
    · refine ⟨s, by simp [h2], I, ?_⟩
      simp [specStep, h1]; exact hv
    · obtain ⟨v, hx, _⟩ := h3
      obtain ⟨H1, e1, I1, v1, _, _⟩ := addRef_ok I hx
      refine ⟨⟨s.vars ++ [x], H1⟩, by simp [h2, e1],
        I1.perm (List.perm_append_singleton x s.vars).symm, ?_⟩
      simp only [specStep, h1, Option.toList_some]
      have hm : ∀ t y, Is s.heap t y → Is H1 t y := fun t y hi => hi.mono fun hm =>
        hm.mono fun x u hu => by rw [v1]; exact hu
      exact forall₂_append (forall₂_mono hv fun t y _ hi => hm t y hi)
        (.cons (hm t x ⟨v, hx, by assumption⟩) .nil)
  | drop i =>
    unfold Prog.step
    rcases forall₂_get hv i with ⟨h1, h2⟩ | ⟨t, x, h1, h2, h3⟩
    · refine ⟨s, by simp [h2], I, ?_⟩
      simp only [specStep]
      rw [List.eraseIdx_of_length_le (by simpa using h1)]
      exact hv
    · obtain ⟨H1, e1, I1, L1⟩ := drop_ok (hs := [x]) (roots := s.vars.eraseIdx i)
        (I.perm (perm_eraseIdx h2))
      refine ⟨⟨s.vars.eraseIdx i, H1⟩, by simp [h2, e1], I1, ?_⟩
      refine forall₂_mono (forall₂_eraseIdx hv i) fun t y hy hi => hi.mono fun hm => ?_
      exact L1.keep (by simpa using hy) hm
  | sub i j =>
    unfold Prog.step
    rcases forall₂_get hv i with ⟨h1, h2⟩ | ⟨t, x, h1, h2, h3⟩
    · refine ⟨s, by simp [h2], I, ?_⟩
      simp [specStep, h1]; exact hv
    · obtain ⟨sub, hx, hsub⟩ := h3
      rcases forall₂_get (means_iff.1 hsub) j with ⟨g1, g2⟩ | ⟨c, y, g1, g2, g3⟩
      · refine ⟨s, by simp [h2, hx, g2], I, ?_⟩
        simp [specStep, h1, g1]; exact hv
      · obtain ⟨v, hy, hyv⟩ := g3
        obtain ⟨H1, e1, I1, v1, _, _⟩ := addRef_ok I hy
        refine ⟨⟨s.vars ++ [y], H1⟩, by simp [h2, hx, g2, e1],
          I1.perm (List.perm_append_singleton y s.vars).symm, ?_⟩
        simp only [specStep, h1, Option.bind_some, g1, Option.toList_some]
        have hm : ∀ t y, Is s.heap t y → Is H1 t y := fun t y hi => hi.mono fun hm =>
          hm.mono fun x u hu => by rw [v1]; exact hu
        exact forall₂_append (forall₂_mono hv fun t y _ hi => hm t y hi)
          (.cons (hm c y ⟨v, hy, hyv⟩) .nil)
  | assign i j =>
    unfold Prog.step
    rcases forall₂_get hv j with ⟨h1, h2⟩ | ⟨t, x, h1, h2, h3⟩
    · refine ⟨s, ?_, I, ?_⟩
      · simp only [h2]; cases s.vars[i]? <;> rfl
      · simp [specStep, h1]; exact hv
    · rcases forall₂_get hv i with ⟨g1, g2⟩ | ⟨t', h, g1, g2, g3⟩
      · refine ⟨s, by simp [g2], I, ?_⟩
        simp only [specStep, h1]
        rw [List.set_eq_of_length_le (by simpa using g1)]
        exact hv
      · obtain ⟨v, hx, hxv⟩ := h3
        obtain ⟨H1, e1, I1, v1, _, _⟩ := addRef_ok I hx
        have hm : ∀ t y, Is s.heap t y → Is H1 t y := fun t y hi => hi.mono fun hm =>
          hm.mono fun x u hu => by rw [v1]; exact hu
        obtain ⟨H2, e2, I2, L2⟩ := drop_ok (hs := [h]) (roots := s.vars.set i x)
          (I1.perm (perm_set g2))
        refine ⟨⟨s.vars.set i x, H2⟩, by simp [g2, h2, e1, e2], I2, ?_⟩
        simp only [specStep, h1]
        refine forall₂_mono (forall₂_set (forall₂_mono hv fun t y _ hi => hm t y hi) i
          (hm t x ⟨v, hx, hxv⟩)) fun t y hy hi => hi.mono fun hm => ?_
        exact L2.keep (by simpa using hy) hm

theorem run_agree {alloc : Nat → List Nat → Nat} (ha : ∀ t l, alloc t l ∉ l) (ops : List (Op L)) :
    ∃ s, Prog.run alloc ops = some s ∧ Agree s (specRun ops) := by
  induction ops with
  | nil => exact ⟨_, rfl, inv_empty alloc ha, .nil⟩
  | cons op ops ih =>
    obtain ⟨s, h1, h2⟩ := ih
    obtain ⟨s', h3, h4⟩ := step_agree h2 op
    exact ⟨s', by simp [Prog.run, h1, h3], h4⟩

theorem Subtree.trans {t c r : Tree L} (h : Subtree t c) (h' : Subtree c r) : Subtree t r := by
  induction h' with
  | self => exact h
  | child _ hm ih => exact .child ih hm

theorem Is.below {H : Heap L} {t r : Tree L} (hs : Subtree t r) :
    ∀ {y : Nat}, Is H r y → ∃ x, Is H t x := by
  induction hs with
  | self => exact fun h => ⟨_, h⟩
  | child _ hm ih =>
    rintro y ⟨sub, _, hsub⟩
    obtain ⟨j, hj⟩ := List.getElem?_of_mem hm
    rcases forall₂_get (means_iff.1 hsub) j with ⟨g, _⟩ | ⟨c, z, g1, g2, g3⟩
    · rw [hj] at g; cases g
    · rw [hj] at g1
      cases g1
      exact ih g3

/-- The entries are exactly the trees that occur in the program's. -/
theorem Agree.exact {s : Prog L} {ts : List (Tree L)} (h : Agree s ts) (t : Tree L) :
    (∃ x, Is s.heap t x) ↔ ∃ r ∈ ts, Subtree t r := by
  obtain ⟨I, hv⟩ := h
  constructor
  · rintro ⟨x, hx⟩
    have hr := I.reach (h := x) hx.choose_spec.1
    suffices H : ∀ x, Reach s.heap s.vars x → ∀ t, Is s.heap t x → ∃ r ∈ ts, Subtree t r from
      H x hr t hx
    intro x hr
    induction hr with
    | root hm =>
      intro t ht
      obtain ⟨i, hi⟩ := List.getElem?_of_mem hm
      rcases forall₂_get hv i with ⟨_, h2⟩ | ⟨t', y, h1, h2, h3⟩
      · rw [hi] at h2; cases h2
      · rw [hi] at h2
        cases h2
        have he := Means.unique (is_iff.1 ht) (is_iff.1 h3)
        have : t = t' := by
          cases t; cases t'; cases he; rfl
        exact ⟨t', List.mem_of_getElem? h1, this ▸ .self⟩
    | @sub p x v _ hp hxv ih =>
      intro t ht
      obtain ⟨f, hf⟩ := I.ground p v hp
      obtain ⟨i, hi⟩ := List.getElem?_of_mem hxv
      rcases forall₂_get (means_iff.1 hf) i with ⟨_, h2⟩ | ⟨t', y, h1, h2, h3⟩
      · rw [hi] at h2; cases h2
      · rw [hi] at h2
        cases h2
        have he := Means.unique (is_iff.1 ht) (is_iff.1 h3)
        have : t = t' := by
          cases t; cases t'; cases he; rfl
        subst this
        obtain ⟨r, hr, hs⟩ := ih (v.label, f) ⟨v.subs, hp, hf⟩
        exact ⟨r, hr, (Subtree.child .self (List.mem_of_getElem? h1)).trans hs⟩
  · rintro ⟨r, hr, hs⟩
    obtain ⟨i, hi⟩ := List.getElem?_of_mem hr
    rcases forall₂_get hv i with ⟨h2, _⟩ | ⟨t', y, h1, h2, h3⟩
    · rw [hi] at h2; cases h2
    · rw [hi] at h1
      cases h1
      exact Is.below hs h3

end Verif.Nest

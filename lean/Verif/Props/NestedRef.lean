import Verif.NestedProg
import Verif.Sample

/-!
# C47: values that contain flyweights of their own type, reference counted
-/

set_option autoImplicit false

namespace Verif.Props

open Verif.Nest

variable {L : Type} [DecidableEq L]

/-- The allocator of the examples never returns a used identity. -/
theorem sum_succ_fresh (l : List Nat) : l.sum + 1 ∉ l := by
  intro h
  have : ∀ (l : List Nat) (x : Nat), x ∈ l → x ≤ l.sum := by
    intro l
    induction l with
    | nil => simp
    | cons a l ih =>
      intro x hx
      rcases List.mem_cons.1 hx with rfl | hx
      · simp
      · have := ih x hx; simp; omega
  have := this l _ h
  omega

/-- Two equal trees (1 (2) (2)) built apart and a throwing construction; statements from last to first.  (No code of its own: used
to state an example.) -/
def trees : List (Nest.Op Nat) :=
  [.make 1 [2, 0] false, .make 9 [0] true, .make 2 [] false, .make 1 [0, 0] false, .make 2 [] false]

/-- However a program builds, copies, takes apart, assigns and destroys nested
flyweights, with any exceptions, there is no undefined behaviour and
its flyweights have the trees they would have as plain values. -/
theorem C47_refines (alloc : Nat → List Nat → Nat) (ha : ∀ t l, alloc t l ∉ l)
    (ops : List (Nest.Op L)) :
    ∃ s, Prog.run alloc ops = some s ∧ List.Forall₂ (Is s.heap) (specRun ops) s.vars := by
  obtain ⟨s, h1, h2⟩ := run_agree ha ops
  exact ⟨s, h1, h2.vars⟩

example : (∃ s, Prog.run (fun _ l => l.sum + 1) trees = some s ∧ List.Forall₂ (Is s.heap) (specRun trees) s.vars) ∧
    specRun trees = [(2, .nil), (1, .cons 2 .nil (.cons 2 .nil .nil)), (2, .nil), (1, .cons 2 .nil (.cons 2 .nil .nil))] :=
  ⟨C47_refines (fun _ l => l.sum + 1) (fun _ => sum_succ_fresh) trees, rfl⟩

/-- Structurally equal trees, at top level or anywhere inside, are one entry,
and different trees are different entries. -/
theorem C47_shared (alloc : Nat → List Nat → Nat) (ha : ∀ t l, alloc t l ∉ l)
    (ops : List (Nest.Op L)) (s : Prog L) (h : Prog.run alloc ops = some s) (t t' : Tree L)
    (x x' : Nat) (hx : Is s.heap t x) (hx' : Is s.heap t' x') : x = x' ↔ t = t' := by
  obtain ⟨s', h1, h2⟩ := run_agree ha ops
  rw [h] at h1
  cases h1
  constructor
  · rintro rfl
    have := Means.unique (is_iff.1 hx) (is_iff.1 hx')
    cases t; cases t'; cases this; rfl
  · rintro rfl
    have := Means.shared h2.inv.canon (is_iff.1 hx) (is_iff.1 hx')
    simpa using this

/-- The first and the third flyweight. -/
example : ∃ s, Prog.run (fun _ l => l.sum + 1) trees = some s ∧ ∃ x, s.vars[0]? = some x ∧ s.vars[2]? = some x := by
  obtain ⟨s, h1, h2⟩ := C47_refines (fun _ l => l.sum + 1) (fun _ => sum_succ_fresh) trees
  refine ⟨s, h1, ?_⟩
  obtain ⟨h, _⟩ | ⟨t, x, ht, hx, hi⟩ := forall₂_get h2 0
  · cases h
  obtain ⟨h, _⟩ | ⟨t', x', ht', hx', hi'⟩ := forall₂_get h2 2
  · cases h
  have : t = t' := Option.some.inj (ht.symm.trans ht')
  rw [(C47_shared (fun _ l => l.sum + 1) (fun _ => sum_succ_fresh) trees s h1 t t' x x' hi hi').2 this] at hx
  exact ⟨x', hx, hx'⟩

/-- The factory holds one entry for each tree occurring in the program's, and
no others: destroying a flyweight destroys everything inside that is not used
elsewhere. -/
theorem C47_exact (alloc : Nat → List Nat → Nat) (ha : ∀ t l, alloc t l ∉ l)
    (ops : List (Nest.Op L)) (s : Prog L) (h : Prog.run alloc ops = some s) :
    (∀ t, (∃ x, Is s.heap t x) ↔ ∃ r ∈ specRun ops, Subtree t r) ∧
    (s.heap.ents.map Prod.fst).Nodup ∧
    ∀ x ∈ s.heap.ents.map Prod.fst, ∃ t, Is s.heap t x := by
  obtain ⟨s', h1, h2⟩ := run_agree ha ops
  rw [h] at h1
  cases h1
  refine ⟨h2.exact, h2.inv.nodup, fun x hx => ?_⟩
  obtain ⟨n, hn⟩ := Option.isSome_iff_exists.1 ((Assoc.mem_names).1 hx)
  have hv : s.heap.val x = some n.val := val_of_node hn
  obtain ⟨f, hf⟩ := h2.inv.ground x _ hv
  exact ⟨(n.val.label, f), n.val.subs, hv, hf⟩

/-- There is an entry for the inner tree, none for the one whose construction threw. -/
example : ∃ s, Prog.run (fun _ l => l.sum + 1) trees = some s ∧ (∃ x, Is s.heap (2, .nil) x) ∧
    s.heap.ents.map Prod.fst = [2, 1] := by
  refine ⟨_, rfl, (C47_exact (fun _ l => l.sum + 1) (fun _ => sum_succ_fresh) trees _ rfl).1 _ |>.2 ⟨(2, .nil), ?_, .self⟩, rfl⟩
  simp [trees, specRun, specStep]
  rfl

/-- With no flyweights left the factory is empty. -/
theorem C47_empty (alloc : Nat → List Nat → Nat) (ha : ∀ t l, alloc t l ∉ l)
    (ops : List (Nest.Op L)) (s : Prog L) (h : Prog.run alloc ops = some s)
    (hn : specRun ops = []) : s.heap.ents = [] := by
  obtain ⟨h1, _, h3⟩ := C47_exact alloc ha ops s h
  cases he : s.heap.ents with
  | nil => rfl
  | cons p l =>
    obtain ⟨t, ht⟩ := h3 p.1 (by simp [he])
    obtain ⟨r, hr, _⟩ := (h1 t).1 ⟨_, ht⟩
    rw [hn] at hr
    cases hr

/-- All four flyweights are destroyed. -/
example : ∃ s, Prog.run (fun _ l => l.sum + 1) ([.drop 0, .drop 0, .drop 0, .drop 0] ++ trees) = some s ∧ s.heap.ents = [] := by
  refine ⟨_, rfl, ?_⟩
  exact C47_empty (fun _ l => l.sum + 1) (fun _ => sum_succ_fresh) ([.drop 0, .drop 0, .drop 0, .drop 0] ++ trees) _ rfl rfl

/-- The counts are exact: an entry's count is the number of flyweights that
refer to it, in the program and inside stored values. -/
theorem C47_counts (alloc : Nat → List Nat → Nat) (ha : ∀ t l, alloc t l ∉ l)
    (ops : List (Nest.Op L)) (s : Prog L) (h : Prog.run alloc ops = some s) (x : Nat) (n : Node L)
    (hx : s.heap.ents.lookup x = some n) :
    n.ref = s.vars.count x + (s.heap.ents.map fun p => p.2.val.subs.count x).sum ∧ 0 < n.ref := by
  obtain ⟨s', h1, h2⟩ := run_agree ha ops
  rw [h] at h1
  cases h1
  refine ⟨?_, h2.inv.pos x n hx⟩
  have := h2.inv.refs x
  rw [show s.heap.node x = some n from hx, List.count_append] at this
  simp only [Option.map_some, Option.getD_some, Heap.inner, List.count_flatMap] at this
  have hc : (List.count x ∘ fun (p : Nat × Node L) => p.2.val.subs) =
      fun p => p.2.val.subs.count x := rfl
  rw [hc] at this
  omega

/-- Two equal trees (1 (2) (2)) built apart, a throwing construction, and the inner
tree kept when the outer ones are gone; statements from last to first. -/
example : (Prog.run (fun _ l => l.sum + 1)
    [.drop 0, .drop 0, .drop 0, .drop 0, .sub 3 1, .make 1 [2, 0] false, .make 9 [0] true,
      .make 2 [] false, .make 1 [0, 0] false, .make 2 [] false]).map
      (fun s => (s.vars, s.heap.ents.map fun p => (p.1, p.2.val, p.2.ref))) =
    some ([1], [(1, ⟨2, []⟩, 1)]) := by
  decide +kernel

/-- Before the drops: both outer trees are one entry, as are the inner ones. -/
example : (Prog.run (fun _ l => l.sum + 1)
    [.make 1 [2, 0] false, .make 9 [0] true,
      .make 2 [] false, .make 1 [0, 0] false, .make 2 [] false]).map
      (fun s => (s.vars, s.heap.ents.map fun p => (p.1, p.2.val, p.2.ref))) =
    some ([1, 2, 1, 2], [(2, ⟨1, [1, 1]⟩, 2), (1, ⟨2, []⟩, 4)]) := by
  decide +kernel

end Verif.Props

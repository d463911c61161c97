import Verif.Assoc
import Mathlib.Data.List.Nodup

/-!
# Values that contain flyweights of their own type, with reference counting

A value is a label and a list of flyweights of the same type, as the lists of
/repo/example/composite.cpp:37-46.  Destroying a value destroys the flyweights in
it, which may erase further entries.  `none` is undefined behaviour.
-/

set_option autoImplicit false

namespace Verif.Nest

open Assoc

set_option linter.unusedSectionVars false

variable {L : Type} [DecidableEq L]

/-- A value: a label and the handles of the flyweights it contains.  (User type,
e.g. /repo/example/composite.cpp:37-44.)  Flyweights compare by identity
(/repo/include/boost/flyweight/flyweight.hpp:257-274), so two values are equal if
label and handles are. -/
structure Val (L : Type) where
  label : L
  subs : List Nat
deriving DecidableEq

/-- An entry with its reference count, `refcounted_value`
(/repo/include/boost/flyweight/refcounted.hpp:53-106).  Simplification: the second
counter, of deleters, is not represented here (see `Verif.Core` and
`Verif.Conc`). -/
structure Node (L : Type) where
  val : Val L
  ref : Nat

/-- The factory: entries and their identities, newest first; the allocator is
arbitrary and may reuse identities. (/repo/include/boost/flyweight/hashed_factory.hpp:43-91.) -/
structure Heap (L : Type) where
  ents : List (Nat × Node L)
  alloc : Nat → List Nat → Nat
  tick : Nat

/-- The entry a handle refers to. (/repo/include/boost/flyweight/hashed_factory.hpp:86-89.) -/
def Heap.node (H : Heap L) (h : Nat) : Option (Node L) := H.ents.lookup h

/-- The stored value.  (Accessor.  No code of its own.) -/
def Heap.val (H : Heap L) (h : Nat) : Option (Val L) := (H.node h).map Node.val

/-- Lookup by value, /repo/include/boost/flyweight/hashed_factory.hpp:74-79. -/
def Heap.find (H : Heap L) (v : Val L) : Option Nat :=
  (H.ents.find? fun p => decide (p.2.val = v)).map Prod.fst

/-- All flyweights inside stored values.  (No code of its own.) -/
def Heap.inner (H : Heap L) : List Nat := H.ents.flatMap fun p => p.2.val.subs

/-- Copy of a flyweight, /repo/include/boost/flyweight/refcounted.hpp:118-122; undefined
if its entry is gone. -/
def addRef (h : Nat) (H : Heap L) : Option (Heap L) :=
  match H.node h with
  | none => none
  | some _ => some { H with ents := modifyAt H.ents h fun n => { n with ref := n.ref + 1 } }

/-- Copy of a sequence of flyweights (copy constructor of `std::vector`).  Calls
/repo/include/boost/flyweight/refcounted.hpp:119-124 for each. -/
def addRefs : List Nat → Heap L → Option (Heap L)
  | [], H => some H
  | h :: hs, H => (addRef h H).bind (addRefs hs)

/-- Destruction of flyweights, one after another: drop the reference, erase the
entry if that was the last (/repo/include/boost/flyweight/refcounted.hpp:130-135,
/repo/include/boost/flyweight/hashed_factory.hpp:81-84), which
destroys the flyweights of its value before going on.  Undefined if the entry is
gone or has no reference.  The first argument bounds the number of steps, for the
definition to be total; running out of it is undefined too.  Simplification: the
container has removed the entry by the time its value is destroyed. -/
def dropN : Nat → List Nat → Heap L → Option (Heap L)
  | _, [], H => some H
  | 0, _ :: _, _ => none
  | n + 1, h :: hs, H =>
    match H.node h with
    | none => none
    | some x =>
      if x.ref = 0 then none
      else if x.ref = 1 then
        dropN n (x.val.subs ++ hs) { H with ents := H.ents.filter fun p => p.1 ≠ h }
      else dropN n hs { H with ents := modifyAt H.ents h fun n => { n with ref := n.ref - 1 } }

/-- Destruction of the flyweights `hs`, in order. (As `dropN`.)  Calls
/repo/include/boost/flyweight/refcounted.hpp:130-135 for each. -/
def drop (hs : List Nat) (H : Heap L) : Option (Heap L) := dropN (hs.length + H.inner.length) hs H

/-- Result of constructing a flyweight. (No code of its own.) -/
inductive Made (L : Type) where
  | ub
  | exc (H : Heap L)
  | ok (h : Nat) (H : Heap L)

/-- Construction of a flyweight from a value,
/repo/include/boost/flyweight/flyweight.hpp:193-219 and
/repo/include/boost/flyweight/detail/flyweight_core.hpp:167-184, 261-312, with the default
value policy: the value is copied into an entry
(/repo/include/boost/flyweight/detail/default_value_policy.hpp:47-49), the entry inserted
(moved into the factory if new); the copy left over is destroyed at the end, its
flyweights with it.  `fail`: the insertion throws.  Simplification: no other step throws. -/
def make (v : Val L) (fail : Bool) (H : Heap L) : Made L :=
  match addRefs v.subs H with
  | none => .ub
  | some H =>
    if fail then
      match drop v.subs H with
      | none => .ub
      | some H => .exc H
    else
      match H.find v with
      | some h =>
        match (addRef h H).bind (drop v.subs) with
        | none => .ub
        | some H => .ok h H
      | none =>
        let h := H.alloc H.tick (H.ents.map Prod.fst)
        .ok h { H with ents := (h, ⟨v, 1⟩) :: H.ents, tick := H.tick + 1 }

/-! ## Meaning -/

/-- Sequences of finite trees.  (Specification.) -/
inductive Forest (L : Type) where
  | nil
  | cons (label : L) (sub next : Forest L)
deriving DecidableEq

/-- A forest of one tree.  (No code of its own: used in statements and proofs.) -/
abbrev Forest.tree (l : L) (f : Forest L) : Forest L := .cons l f .nil

/-- The trees that the handles stand for.  (No code of its own: used in statements and proofs.) -/
def Means (H : Heap L) : Forest L → List Nat → Prop
  | .nil, hs => hs = []
  | .cons l f g, hs =>
    ∃ h sub rest, hs = h :: rest ∧ H.val h = some ⟨l, sub⟩ ∧ Means H f sub ∧ Means H g rest

/-- The consistent states; `roots` are the handles held outside of the factory.  (No code of its
own: used in statements and proofs.) -/
structure Inv (roots : List Nat) (H : Heap L) : Prop where
  nodup : (H.ents.map Prod.fst).Nodup
  refs : ∀ h, (H.inner ++ roots).count h = ((H.node h).map Node.ref).getD 0
  pos : ∀ h n, H.node h = some n → 0 < n.ref
  canon : ∀ h h' v, H.val h = some v → H.val h' = some v → h = h'
  ground : ∀ h v, H.val h = some v → ∃ f, Means H f v.subs
  alloc : ∀ t l, H.alloc t l ∉ l

theorem Means.mono {H H' : Heap L} (h : ∀ x v, H.val x = some v → H'.val x = some v) :
    ∀ {f : Forest L} {hs : List Nat}, Means H f hs → Means H' f hs
  | .nil, _, hm => hm
  | .cons _ _ _, _, ⟨x, sub, rest, e, hv, h1, h2⟩ =>
    ⟨x, sub, rest, e, h x _ hv, Means.mono h h1, Means.mono h h2⟩

/-- A handle stands for one tree. -/
theorem Means.unique {H : Heap L} : ∀ {f f' : Forest L} {hs : List Nat},
    Means H f hs → Means H f' hs → f = f'
  | .nil, .nil, _, _, _ => rfl
  | .nil, .cons _ _ _, _, h, h' => by
    obtain ⟨x, sub, rest, e, _⟩ := h'
    change _ = [] at h
    rw [h] at e; cases e
  | .cons _ _ _, .nil, _, h, h' => by
    obtain ⟨x, sub, rest, e, _⟩ := h
    change _ = [] at h'
    rw [h'] at e; cases e
  | .cons l f g, .cons l' f' g', _, h, h' => by
    obtain ⟨x, sub, rest, e, hv, h1, h2⟩ := h
    obtain ⟨x', sub', rest', e', hv', h1', h2'⟩ := h'
    rw [e] at e'
    cases e'
    rw [hv] at hv'
    cases hv'
    rw [Means.unique h1 h1', Means.unique h2 h2']

/-- A tree is stood for by one handle. -/
theorem Means.shared {H : Heap L}
    (canon : ∀ h h' v, H.val h = some v → H.val h' = some v → h = h') :
    ∀ {f : Forest L} {hs hs' : List Nat}, Means H f hs → Means H f hs' → hs = hs'
  | .nil, _, _, h, h' => by
    change _ = [] at h h'
    rw [h, h']
  | .cons l f g, _, _, h, h' => by
    obtain ⟨x, sub, rest, e, hv, h1, h2⟩ := h
    obtain ⟨x', sub', rest', e', hv', h1', h2'⟩ := h'
    have hs := Means.shared canon h1 h1'
    have hr := Means.shared canon h2 h2'
    subst hs hr e e'
    rw [canon x x' _ hv hv']

/-- Handles that stand for trees have entries. -/
theorem Means.mem {H : Heap L} : ∀ {f : Forest L} {hs : List Nat}, Means H f hs →
    ∀ h ∈ hs, ∃ v, H.val h = some v
  | .nil, _, hm, h, hh => by
    change _ = [] at hm
    rw [hm] at hh; cases hh
  | .cons _ _ _, _, ⟨x, sub, rest, e, hv, h1, h2⟩, h, hh => by
    subst e
    rcases List.mem_cons.1 hh with rfl | hh
    · exact ⟨_, hv⟩
    · exact Means.mem h2 h hh

theorem val_of_node {H : Heap L} {h : Nat} {n : Node L} (e : H.node h = some n) :
    H.val h = some n.val := by simp [Heap.val, e]

theorem node_of_val {H : Heap L} {h : Nat} {v : Val L} (e : H.val h = some v) :
    ∃ n, H.node h = some n ∧ n.val = v := by
  unfold Heap.val at e
  cases hn : H.node h with
  | none => rw [hn] at e; cases e
  | some n => rw [hn] at e; exact ⟨n, rfl, by simpa using e⟩

theorem mem_inner {H : Heap L} (hn : (H.ents.map Prod.fst).Nodup) {x : Nat} :
    x ∈ H.inner ↔ ∃ h v, H.val h = some v ∧ x ∈ v.subs := by
  unfold Heap.inner
  rw [List.mem_flatMap]
  constructor
  · rintro ⟨⟨h, n⟩, hm, hx⟩
    refine ⟨h, n.val, ?_, hx⟩
    simp [Heap.val, Heap.node, lookup_of_mem hn hm]
  · rintro ⟨h, v, hv, hx⟩
    obtain ⟨n, hn', rfl⟩ := node_of_val hv
    exact ⟨(h, n), lookup_mem hn', hx⟩

/-- Handles held by anyone have entries. -/
theorem Inv.has {roots : List Nat} {H : Heap L} (I : Inv roots H) {h : Nat}
    (hh : h ∈ H.inner ++ roots) : ∃ n, H.node h = some n := by
  have := I.refs h
  cases hn : H.node h with
  | some n => exact ⟨n, rfl⟩
  | none =>
    rw [hn] at this
    exact absurd hh (List.count_eq_zero.1 this)

/-- Handles with entries stand for trees. -/
theorem Inv.means {roots : List Nat} {H : Heap L} (I : Inv roots H) :
    ∀ {hs : List Nat}, (∀ h ∈ hs, ∃ v, H.val h = some v) → ∃ f, Means H f hs
  | [], _ => ⟨.nil, rfl⟩
  | h :: hs, hh => by
    obtain ⟨⟨l, sub⟩, hv⟩ := hh h (by simp)
    obtain ⟨f, hf⟩ := I.ground h _ hv
    obtain ⟨g, hg⟩ := I.means (hs := hs) fun x hx => hh x (by simp [hx])
    exact ⟨.cons l f g, h, sub, hs, rfl, hv, hf, hg⟩

theorem Inv.root {roots : List Nat} {H : Heap L} (I : Inv roots H) {h : Nat} (hh : h ∈ roots) :
    ∃ v, H.val h = some v := by
  obtain ⟨n, hn⟩ := I.has (h := h) (by simp [hh])
  exact ⟨_, val_of_node hn⟩

theorem Inv.perm {roots roots' : List Nat} {H : Heap L} (I : Inv roots H)
    (h : roots.Perm roots') : Inv roots' H :=
  ⟨I.nodup, fun x => by rw [← I.refs x, List.count_append, List.count_append, h.count_eq],
    I.pos, I.canon, I.ground, I.alloc⟩

/-! ## Changing a count -/

theorem node_modify (H : Heap L) (h : Nat) (g : Node L → Node L) (x : Nat) :
    ({ H with ents := modifyAt H.ents h g } : Heap L).node x =
      if x = h then (H.node h).map g else H.node x := by
  show List.lookup x (modifyAt _ _ _) = _
  rw [lookup_modifyAt]
  split
  · rename_i e; subst e; rfl
  · rfl

theorem inner_modify (H : Heap L) (h : Nat) (g : Node L → Node L) (hg : ∀ n, (g n).val = n.val) :
    ({ H with ents := modifyAt H.ents h g } : Heap L).inner = H.inner := by
  unfold Heap.inner modifyAt
  simp only [List.flatMap_map]
  congr 1
  funext p
  split <;> simp [hg]

theorem val_modify (H : Heap L) (h : Nat) (g : Node L → Node L) (hg : ∀ n, (g n).val = n.val)
    (x : Nat) : ({ H with ents := modifyAt H.ents h g } : Heap L).val x = H.val x := by
  unfold Heap.val
  rw [node_modify]
  split
  · rename_i e; subst e
    cases H.node x <;> simp [hg]
  · rfl

theorem addRef_ok {roots : List Nat} {H : Heap L} (I : Inv roots H) {h : Nat} {v : Val L}
    (hv : H.val h = some v) :
    ∃ H', addRef h H = some H' ∧ Inv (h :: roots) H' ∧ (∀ x, H'.val x = H.val x) ∧
      H'.inner = H.inner ∧ H'.ents.map Prod.fst = H.ents.map Prod.fst := by
  obtain ⟨n, hn, _⟩ := node_of_val hv
  have hval := val_modify H h (fun n => { n with ref := n.ref + 1 }) (fun _ => rfl)
  have hin := inner_modify H h (fun n => { n with ref := n.ref + 1 }) (fun _ => rfl)
  refine ⟨_, by unfold addRef; rw [hn], ?_, hval, hin,
    modifyAt_names H.ents h fun n => { n with ref := n.ref + 1 }⟩
  exact {
    nodup := by rw [modifyAt_names]; exact I.nodup
    refs := fun x => by
      rw [hin, node_modify]
      have := I.refs x
      rw [List.count_append] at this ⊢
      rw [List.count_cons]
      by_cases hx : x = h
      · subst hx
        rw [hn] at this ⊢
        simp at this ⊢
        omega
      · rw [if_neg hx]
        have hx' : ¬ h = x := fun e => hx e.symm
        simp only [beq_iff_eq, hx', if_false]
        omega
    pos := fun x m hm => by
      rw [node_modify] at hm
      split at hm
      · rw [hn] at hm; cases hm; exact Nat.succ_pos _
      · exact I.pos x m hm
    canon := fun x y w hx hy => by
      rw [hval] at hx hy
      exact I.canon x y w hx hy
    ground := fun x w hx => by
      rw [hval] at hx
      obtain ⟨f, hf⟩ := I.ground x w hx
      exact ⟨f, hf.mono fun y u hu => by rw [hval]; exact hu⟩
    alloc := I.alloc }

theorem addRefs_ok : ∀ {hs roots : List Nat} {H : Heap L}, Inv roots H →
    (∀ h ∈ hs, ∃ v, H.val h = some v) →
    ∃ H', addRefs hs H = some H' ∧ Inv (hs ++ roots) H' ∧ (∀ x, H'.val x = H.val x) ∧
      H'.inner = H.inner ∧ H'.ents.map Prod.fst = H.ents.map Prod.fst
  | [], _, H, I, _ => ⟨H, rfl, I, fun _ => rfl, rfl, rfl⟩
  | h :: hs, roots, H, I, hh => by
    obtain ⟨v, hv⟩ := hh h (by simp)
    obtain ⟨H1, e1, I1, v1, in1, k1⟩ := addRef_ok I hv
    obtain ⟨H2, e2, I2, v2, in2, k2⟩ := addRefs_ok (hs := hs) I1 fun x hx => by
      rw [v1]; exact hh x (by simp [hx])
    refine ⟨H2, by simp [addRefs, e1, e2], ?_, fun x => by rw [v2, v1], by rw [in2, in1],
      by rw [k2, k1]⟩
    refine I2.perm ?_
    exact List.perm_middle

/-! ## Destruction -/

theorem node_filter (H : Heap L) (h x : Nat) :
    ({ H with ents := H.ents.filter fun p => p.1 ≠ h } : Heap L).node x =
      if x = h then none else H.node x := by
  show List.lookup x (List.filter _ _) = _
  rw [lookup_filter]
  rfl

theorem inner_filter {H : Heap L} (hn : (H.ents.map Prod.fst).Nodup) {h : Nat} {n : Node L}
    (e : H.node h = some n) :
    H.inner.Perm (n.val.subs ++
      ({ H with ents := H.ents.filter fun p => p.1 ≠ h } : Heap L).inner) := by
  unfold Heap.inner Heap.node at *
  simp only
  generalize H.ents = l at *
  induction l with
  | nil => cases e
  | cons p l ih =>
    obtain ⟨y, m⟩ := p
    simp only [List.map_cons, List.nodup_cons] at hn
    by_cases hy : h = y
    · subst hy
      rw [lookup_head] at e
      cases e
      have : l.filter (fun p => p.1 ≠ h) = l := filter_fresh hn.1
      rw [List.filter_cons_of_neg (by simp), this]
      exact List.Perm.refl _
    · rw [lookup_tail _ _ hy] at e
      have := ih hn.2 e
      have hy' : ¬ y = h := fun e => hy e.symm
      simp only [List.flatMap_cons, List.filter_cons, ne_eq, hy', not_false_eq_true, decide_true, if_true]
      refine (List.Perm.append_left _ this).trans ?_
      rw [← List.append_assoc, ← List.append_assoc]
      exact List.Perm.append_right _ List.perm_append_comm

/-- Trees that do not mention an entry survive its removal. -/
theorem Means.erase {H : Heap L} {h : Nat} (hno : ∀ x v, H.val x = some v → x ≠ h → h ∉ v.subs) :
    ∀ {f : Forest L} {hs : List Nat}, Means H f hs → h ∉ hs →
      Means ({ H with ents := H.ents.filter fun p => p.1 ≠ h } : Heap L) f hs
  | .nil, _, hm, _ => hm
  | .cons _ _ _, _, ⟨x, sub, rest, e, hv, h1, h2⟩, hh => by
    subst e
    simp only [List.mem_cons, not_or] at hh
    have hx : x ≠ h := fun e => hh.1 e.symm
    refine ⟨x, sub, rest, rfl, ?_, Means.erase hno h1 (hno x _ hv hx), Means.erase hno h2 hh.2⟩
    unfold Heap.val
    rw [node_filter, if_neg hx]
    exact hv

/-- Forests have a size, and what is below is smaller.  (No code of its own: used in statements
and proofs.) -/
def Forest.size : Forest L → Nat
  | .nil => 0
  | .cons _ f g => f.size + g.size + 1

theorem Means.sub_size {H : Heap L} : ∀ {f g : Forest L} {hs : List Nat} {h : Nat} {l : L}
    {sub : List Nat}, Means H f hs → h ∈ hs → H.val h = some ⟨l, sub⟩ → Means H g sub →
    g.size < f.size
  | .nil, _, _, h, _, _, hm, hh, _, _ => by
    change _ = [] at hm
    rw [hm] at hh; cases hh
  | .cons l' f f', g, _, h, l, sub, ⟨x, s, rest, e, hv, h1, h2⟩, hh, hv', hg => by
    subst e
    rcases List.mem_cons.1 hh with rfl | hh
    · rw [hv] at hv'
      cases hv'
      rw [Means.unique hg h1]
      simp only [Forest.size]; omega
    · have := Means.sub_size h2 hh hv' hg
      simp only [Forest.size]; omega

/-- No value contains itself. -/
theorem Inv.irrefl {roots : List Nat} {H : Heap L} (I : Inv roots H) {h : Nat} {v : Val L}
    (hv : H.val h = some v) : h ∉ v.subs := by
  intro hh
  obtain ⟨f, hf⟩ := I.ground h v hv
  exact Nat.lt_irrefl _ (Means.sub_size (l := v.label) (sub := v.subs) hf hh hv hf)

/-- What is guaranteed about a later state: values still held are unchanged, nothing is new.
(No code of its own: used in statements and proofs.) -/
structure Less (roots : List Nat) (H H' : Heap L) : Prop where
  keep : ∀ {f : Forest L} {hs : List Nat}, (∀ h ∈ hs, h ∈ roots) → Means H f hs → Means H' f hs
  old : ∀ x v, H'.val x = some v → H.val x = some v
  inner : H'.inner.length ≤ H.inner.length

theorem dropN_ok : ∀ (n : Nat) (hs roots : List Nat) (H : Heap L), Inv (hs ++ roots) H →
    hs.length + H.inner.length ≤ n →
    ∃ H', dropN n hs H = some H' ∧ Inv roots H' ∧ Less roots H H' := by
  intro n
  induction n with
  | zero =>
    intro hs roots H I hn
    cases hs with
    | nil => exact ⟨H, rfl, I, fun _ h => h, fun _ _ h => h, Nat.le_refl _⟩
    | cons h hs => simp at hn
  | succ n ih =>
    intro hs roots H I hn
    cases hs with
    | nil => exact ⟨H, rfl, I, fun _ h => h, fun _ _ h => h, Nat.le_refl _⟩
    | cons h hs =>
      obtain ⟨x, hx⟩ := I.has (h := h) (by simp)
      have hpos := I.pos h x hx
      have hrefs := I.refs h
      rw [hx] at hrefs
      simp only [Option.map_some, Option.getD_some, List.cons_append, List.count_append,
        List.count_cons_self] at hrefs
      simp only [List.length_cons] at hn
      unfold dropN
      simp only [hx]
      rw [if_neg (by omega)]
      by_cases h1 : x.ref = 1
      · rw [if_pos h1]
        have hc : H.inner.count h = 0 ∧ hs.count h = 0 ∧ roots.count h = 0 := by omega
        have hno : ∀ y v, H.val y = some v → y ≠ h → h ∉ v.subs := by
          intro y v hv _ hh
          exact List.count_eq_zero.1 hc.1 ((mem_inner I.nodup).2 ⟨y, v, hv, hh⟩)
        have hp := inner_filter I.nodup hx
        have hval : ∀ y v, ({ H with ents := H.ents.filter fun p => p.1 ≠ h } : Heap L).val y =
            some v ↔ y ≠ h ∧ H.val y = some v := by
          intro y v
          unfold Heap.val
          rw [node_filter]
          split <;> simp_all
        have I' : Inv ((x.val.subs ++ hs) ++ roots)
            ({ H with ents := H.ents.filter fun p => p.1 ≠ h } : Heap L) := {
          nodup := (List.filter_sublist.map _).nodup I.nodup
          refs := fun y => by
            have hy := I.refs y
            rw [node_filter]
            have hpc := hp.count_eq y
            simp only [List.count_append, List.cons_append, List.count_cons] at hy hpc ⊢
            split
            · rename_i e; subst e
              have hs0 : x.val.subs.count y = 0 := List.count_eq_zero.2
                (I.irrefl (val_of_node hx))
              simp only [Option.map_none, Option.getD_none]
              omega
            · rename_i e
              have e' : ¬ h = y := fun e' => e e'.symm
              simp only [beq_iff_eq, e', if_false] at hy
              omega
          pos := fun y m hm => by
            rw [node_filter] at hm
            split at hm
            · cases hm
            · exact I.pos y m hm
          canon := fun y z v hy hz => I.canon y z v ((hval _ _).1 hy).2 ((hval _ _).1 hz).2
          ground := fun y v hy => by
            obtain ⟨hne, hv⟩ := (hval _ _).1 hy
            obtain ⟨f, hf⟩ := I.ground y v hv
            exact ⟨f, hf.erase hno (hno y v hv hne)⟩
          alloc := I.alloc }
        have hlen := hp.length_eq
        rw [List.length_append] at hlen
        obtain ⟨H', e', IH, LH⟩ := ih _ roots _ I' (by rw [List.length_append]; omega)
        refine ⟨H', e', IH, ?_, ?_, ?_⟩
        · intro f gs hg hm
          refine LH.keep hg (hm.erase hno fun hh => ?_)
          exact List.count_eq_zero.1 hc.2.2 (hg h hh)
        · intro y v hy
          exact ((hval _ _).1 (LH.old y v hy)).2
        · have := LH.inner; omega
      · rw [if_neg h1]
        have hval := val_modify H h (fun n => { n with ref := n.ref - 1 }) (fun _ => rfl)
        have hin := inner_modify H h (fun n => { n with ref := n.ref - 1 }) (fun _ => rfl)
        have I' : Inv (hs ++ roots)
            ({ H with ents := modifyAt H.ents h fun n => { n with ref := n.ref - 1 } } : Heap L) := {
          nodup := by rw [modifyAt_names]; exact I.nodup
          refs := fun y => by
            have hy := I.refs y
            rw [hin, node_modify]
            simp only [List.count_append, List.cons_append, List.count_cons] at hy ⊢
            split
            · rename_i e; subst e
              rw [hx] at hy ⊢
              simp only [beq_self_eq_true, if_true, Option.map_some, Option.getD_some] at hy ⊢
              omega
            · rename_i e
              have e' : ¬ h = y := fun e' => e e'.symm
              simp only [beq_iff_eq, e', if_false] at hy
              omega
          pos := fun y m hm => by
            rw [node_modify] at hm
            split at hm
            · rw [hx] at hm; cases hm; simp only; omega
            · exact I.pos y m hm
          canon := fun y z w hy hz => by
            rw [hval] at hy hz
            exact I.canon y z w hy hz
          ground := fun y w hy => by
            rw [hval] at hy
            obtain ⟨f, hf⟩ := I.ground y w hy
            exact ⟨f, hf.mono fun z u hu => by rw [hval]; exact hu⟩
          alloc := I.alloc }
        obtain ⟨H', e', IH, LH⟩ := ih _ roots _ I' (by rw [hin]; omega)
        refine ⟨H', e', IH, ?_, ?_, ?_⟩
        · intro f gs hg hm
          exact LH.keep hg (hm.mono fun z u hu => by rw [hval]; exact hu)
        · intro y v hy
          have := LH.old y v hy
          rw [hval] at this; exact this
        · have := LH.inner; rw [hin] at this; exact this

theorem drop_ok {hs roots : List Nat} {H : Heap L} (I : Inv (hs ++ roots) H) :
    ∃ H', drop hs H = some H' ∧ Inv roots H' ∧ Less roots H H' :=
  dropN_ok _ hs roots H I (Nat.le_refl _)

/-! ## Construction -/

theorem find_some {H : Heap L} (hn : (H.ents.map Prod.fst).Nodup) {v : Val L} {h : Nat}
    (e : H.find v = some h) : H.val h = some v := by
  unfold Heap.find at e
  cases hf : H.ents.find? fun p => decide (p.2.val = v) with
  | none => rw [hf] at e; cases e
  | some p =>
    rw [hf] at e
    cases e
    have h1 := List.find?_some hf
    have h2 := List.mem_of_find?_eq_some hf
    simp [Heap.val, Heap.node, lookup_of_mem hn h2]
    simpa using h1

theorem find_none {H : Heap L} {v : Val L} (e : H.find v = none) (h : Nat) : H.val h ≠ some v := by
  intro hv
  obtain ⟨n, hn, hv⟩ := node_of_val hv
  unfold Heap.find at e
  rw [Option.map_eq_none_iff, List.find?_eq_none] at e
  have := e _ (lookup_mem hn)
  simp [hv] at this

/-- Copying the flyweights of the value and inserting it: all cases. -/
theorem make_ok {roots : List Nat} {H : Heap L} (I : Inv roots H) {v : Val L} {f : Forest L}
    (hv : ∀ h ∈ v.subs, h ∈ roots) (hf : Means H f v.subs) (fail : Bool) :
    (fail = true ∧ ∃ H', make v fail H = .exc H' ∧ Inv roots H' ∧ Less roots H H') ∨
    (fail = false ∧ ∃ h H', make v fail H = .ok h H' ∧ Inv (h :: roots) H' ∧
      Means H' (.tree v.label f) [h] ∧
      (∀ {g : Forest L} {hs : List Nat}, (∀ x ∈ hs, x ∈ roots) → Means H g hs → Means H' g hs)) := by
  obtain ⟨H1, e1, I1, v1, in1, k1⟩ := addRefs_ok (hs := v.subs) I fun h hh => I.root (hv h hh)
  have m1 : ∀ {g : Forest L} {hs : List Nat}, Means H g hs → Means H1 g hs := fun h =>
    h.mono fun x u hu => by rw [v1]; exact hu
  unfold make
  simp only [e1]
  cases fail with
  | true =>
    left
    obtain ⟨H2, e2, I2, L2⟩ := drop_ok I1
    refine ⟨rfl, H2, ?_, I2, ?_, ?_, ?_⟩
    · simp [e2]
    · intro g hs hg hm; exact L2.keep hg (m1 hm)
    · intro x u hu; rw [← v1]; exact L2.old x u hu
    · rw [← in1]; exact L2.inner
  | false =>
    right
    refine ⟨rfl, ?_⟩
    simp only [Bool.false_eq_true, if_false]
    cases hfind : H1.find v with
    | some h =>
      have hval := find_some I1.nodup hfind
      obtain ⟨H2, e2, I2, v2, in2, k2⟩ := addRef_ok I1 hval
      obtain ⟨H3, e3, I3, L3⟩ := drop_ok (hs := v.subs) (roots := h :: roots) (I2.perm (by
        exact (List.perm_middle (l₁ := v.subs) (l₂ := roots) (a := h)).symm))
      refine ⟨h, H3, ?_, I3, ?_, ?_⟩
      · simp [e2, e3]
      · refine L3.keep (by simp) ⟨h, v.subs, [], rfl, ?_, ?_, rfl⟩
        · rw [v2, hval]
        · exact (m1 hf).mono fun x u hu => by rw [v2]; exact hu
      · intro g hs hg hm
        refine L3.keep (fun x hx => List.mem_cons_of_mem _ (hg x hx)) ?_
        exact (m1 hm).mono fun x u hu => by rw [v2]; exact hu
    | none =>
      simp only
      have hfresh := I1.alloc H1.tick (H1.ents.map Prod.fst)
      generalize hh : H1.alloc H1.tick (H1.ents.map Prod.fst) = h at hfresh
      have hnone : H1.node h = none := lookup_none hfresh
      have hnode : ∀ x, ({ H1 with ents := (h, ⟨v, 1⟩) :: H1.ents, tick := H1.tick + 1 } :
          Heap L).node x = if x = h then some ⟨v, 1⟩ else H1.node x := by
        intro x
        unfold Heap.node
        simp only
        by_cases hx : x = h
        · subst hx; rw [lookup_head, if_pos rfl]
        · rw [lookup_tail _ _ hx, if_neg hx]
      have hgrow : ∀ x u, H1.val x = some u →
          ({ H1 with ents := (h, ⟨v, 1⟩) :: H1.ents, tick := H1.tick + 1 } : Heap L).val x =
            some u := by
        intro x u hu
        unfold Heap.val at hu ⊢
        rw [hnode]
        split
        · rename_i e; subst e; rw [hnone] at hu; cases hu
        · exact hu
      have hcases : ∀ x u,
          ({ H1 with ents := (h, ⟨v, 1⟩) :: H1.ents, tick := H1.tick + 1 } : Heap L).val x =
            some u → (x = h ∧ u = v) ∨ H1.val x = some u := by
        intro x u hu
        unfold Heap.val at hu ⊢
        rw [hnode] at hu
        split at hu
        · rename_i e; subst e; left; simp at hu; exact ⟨rfl, hu.symm⟩
        · exact .inr hu
      have hcount : (H1.inner ++ (v.subs ++ roots)).count h = 0 := by
        rw [I1.refs, hnone]; rfl
      refine ⟨h, _, rfl, ?_, ?_, ?_⟩
      · exact {
          nodup := by simp only [List.map_cons, List.nodup_cons]; exact ⟨hfresh, I1.nodup⟩
          refs := fun x => by
            have := I1.refs x
            rw [hnode]
            have hin : ({ H1 with ents := (h, ⟨v, 1⟩) :: H1.ents, tick := H1.tick + 1 } :
              Heap L).inner = v.subs ++ H1.inner := rfl
            rw [hin]
            simp only [List.count_append, List.count_cons] at this hcount ⊢
            by_cases e : x = h
            · subst e
              simp only [beq_self_eq_true, if_true, Option.map_some, Option.getD_some]
              omega
            · have e' : ¬ h = x := fun e' => e e'.symm
              simp only [beq_iff_eq, e', e, if_false]
              omega
          pos := fun x m hm => by
            rw [hnode] at hm
            split at hm
            · cases hm; exact Nat.one_pos
            · exact I1.pos x m hm
          canon := fun x y u hx hy => by
            rcases hcases x u hx with ⟨rfl, rfl⟩ | hx'
            · rcases hcases y u hy with ⟨rfl, _⟩ | hy
              · rfl
              · exact absurd hy (find_none hfind y)
            · rcases hcases y u hy with ⟨_, e⟩ | hy
              · exact absurd (e ▸ hx') (find_none hfind x)
              · exact I1.canon x y u hx' hy
          ground := fun x u hx => by
            rcases hcases x u hx with ⟨rfl, rfl⟩ | hx
            · exact ⟨f, (m1 hf).mono hgrow⟩
            · obtain ⟨g, hg⟩ := I1.ground x u hx
              exact ⟨g, hg.mono hgrow⟩
          alloc := I1.alloc }
      · refine ⟨h, v.subs, [], rfl, ?_, (m1 hf).mono hgrow, rfl⟩
        unfold Heap.val
        rw [hnode, if_pos rfl]
        rfl
      · intro g hs _ hm
        exact (m1 hm).mono hgrow

/-! ## Nothing is left behind -/

/-- Entries reachable from the handles held.  (No code of its own: used in statements and
proofs.) -/
inductive Reach (H : Heap L) (roots : List Nat) : Nat → Prop
  | root {h : Nat} : h ∈ roots → Reach H roots h
  | sub {p h : Nat} {v : Val L} : Reach H roots p → H.val p = some v → h ∈ v.subs →
      Reach H roots h

theorem bounded {roots : List Nat} {H : Heap L} (I : Inv roots H) :
    ∃ M, ∀ h v f, H.val h = some v → Means H f v.subs → f.size ≤ M := by
  have hall : ∀ (l : List (Nat × Node L)), (∀ p ∈ l, p ∈ H.ents) →
      ∃ M, ∀ p ∈ l, ∀ f, Means H f p.2.val.subs → f.size ≤ M := by
    intro l
    induction l with
    | nil => intro _; exact ⟨0, by simp⟩
    | cons p l ih =>
      intro hl
      obtain ⟨M, hM⟩ := ih fun q hq => hl q (by simp [hq])
      have hp := lookup_of_mem I.nodup (hl p (by simp))
      obtain ⟨f, hf⟩ := I.ground p.1 p.2.val (val_of_node hp)
      refine ⟨max M f.size, fun q hq g hg => ?_⟩
      rcases List.mem_cons.1 hq with rfl | hq
      · rw [Means.unique hg hf]; exact Nat.le_max_right _ _
      · exact Nat.le_trans (hM q hq g hg) (Nat.le_max_left _ _)
  obtain ⟨M, hM⟩ := hall H.ents fun _ h => h
  refine ⟨M, fun h v f hv hf => ?_⟩
  obtain ⟨n, hn, rfl⟩ := node_of_val hv
  exact hM (h, n) (lookup_mem hn) f hf

/-- Every entry is reachable from the handles held. -/
theorem Inv.reach {roots : List Nat} {H : Heap L} (I : Inv roots H) {h : Nat} {v : Val L}
    (hv : H.val h = some v) : Reach H roots h := by
  obtain ⟨M, hM⟩ := bounded I
  have hmain : ∀ (d h : Nat) (v : Val L) (f : Forest L), H.val h = some v → Means H f v.subs →
      M - f.size = d → Reach H roots h := by
    intro d
    induction d using Nat.strongRecOn with
    | _ d ih =>
      intro h v f hv hf hd
      obtain ⟨n, hn, rfl⟩ := node_of_val hv
      have hpos := I.pos h n hn
      have hr := I.refs h
      rw [hn] at hr
      simp only [Option.map_some, Option.getD_some] at hr
      have hm : h ∈ H.inner ++ roots := by
        rw [← List.count_pos_iff]; omega
      rcases List.mem_append.1 hm with hm | hm
      · obtain ⟨p, w, hw, hh⟩ := (mem_inner I.nodup).1 hm
        obtain ⟨g, hg⟩ := I.ground p w hw
        have hlt := Means.sub_size (l := n.val.label) (sub := n.val.subs) hg hh hv hf
        have hle := hM p w g hw hg
        exact .sub (ih (M - g.size) (by omega) p w g hw hg rfl) hw hh
      · exact .root hm
  obtain ⟨f, hf⟩ := I.ground h v hv
  exact hmain _ h v f hv hf rfl

theorem inv_empty (alloc : Nat → List Nat → Nat) (h : ∀ t l, alloc t l ∉ l) :
    Inv [] (⟨[], alloc, 0⟩ : Heap L) where
  nodup := List.nodup_nil
  refs _ := rfl
  pos h n hn := by cases hn
  canon h h' v hv := by cases hv
  ground h v hv := by cases hv
  alloc := h

end Verif.Nest

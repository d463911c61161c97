import Verif.Factory
import Verif.Assoc

/-!
# The factories of the library

The containers themselves (Boost.MultiIndex, `std::set`, `std::list`) are not
part of /repo; what is modelled is the behaviour the factories obtain from them.
-/

set_option autoImplicit false

namespace Verif
open Assoc

/-! ## hashed_factory -/

/-- State of the hash container of `hashed_factory_class`,
/repo/include/boost/flyweight/hashed_factory.hpp:43-69: number of buckets minus one and
nodes (identity, hash computed when the node was last placed in a bucket, entry).
Simplification: the nodes are kept in one list; bucket `b` consists of those whose
hash modulo the number of buckets is `b`. -/
structure Hashed (E : Type) where
  size : Nat
  nodes : List (Nat × (Nat × E))

/-- Bucket number of a hash. (Boost.MultiIndex, as used by
/repo/include/boost/flyweight/hashed_factory.hpp:43-69.) -/
def Hashed.bucket {E : Type} (f : Hashed E) (h : Nat) : Nat := h % (f.size + 1)

/-- Rehashing into `n + 1` buckets: the hash of every node is computed again.
(Boost.MultiIndex, as used by /repo/include/boost/flyweight/hashed_factory.hpp:43-69.) -/
def Hashed.rehash {E : Type} (hash : E → Nat) (f : Hashed E) (n : Nat) : Hashed E :=
  ⟨n, f.nodes.map fun p => (p.1, (hash p.2.2, p.2.2))⟩

/-- `hashed_factory_class`, /repo/include/boost/flyweight/hashed_factory.hpp:74-91.  Lookup
only compares the entries in the bucket of the hash of the argument.  `grow`
is the container's policy for the number of buckets, arbitrary. -/
def Hashed.factory {E : Type} (hash : E → Nat) (pred : E → E → Bool) (grow : Nat → Nat) :
    Factory (Hashed E) E where
  empty := ⟨grow 0, []⟩
  lookup f e := (f, (f.nodes.find? fun p =>
    f.bucket p.2.1 == f.bucket (hash e) && pred p.2.2 e).map Prod.fst)
  link f i e :=
    let f := if f.nodes.length ≤ f.size then f else f.rehash hash (grow f.nodes.length)
    { f with nodes := (i, (hash e, e)) :: f.nodes }
  erase f i := { f with nodes := f.nodes.filter fun p => p.1 ≠ i }
  entry f i := (f.nodes.lookup i).map Prod.snd
  update f i e := { f with nodes := modifyAt f.nodes i fun p => (p.1, e) }
  ids f := f.nodes.map Prod.fst

/-- What the user must guarantee about `Hash` and `Pred`.  Requirements on the arguments of
/repo/include/boost/flyweight/hashed_factory.hpp:43-61. -/
structure HashOk {E : Type} (hash : E → Nat) (pred : E → E → Bool) : Prop where
  refl : ∀ a, pred a a = true
  symm : ∀ a b, pred a b = true → pred b a = true
  trans : ∀ a b c, pred a b = true → pred b c = true → pred a c = true
  compat : ∀ a b, pred a b = true → hash a = hash b

theorem Hashed.rehash_lookup {E : Type} (hash : E → Nat) (f : Hashed E) (n i : Nat) :
    ((f.rehash hash n).nodes.lookup i).map Prod.snd = (f.nodes.lookup i).map Prod.snd := by
  unfold Hashed.rehash
  rw [lookup_mapVal f.nodes (fun q => (hash q.2, q.2)) i, Option.map_map]
  rfl

theorem Hashed.rehash_names {E : Type} (hash : E → Nat) (f : Hashed E) (n : Nat) :
    (f.rehash hash n).nodes.map Prod.fst = f.nodes.map Prod.fst := by
  unfold Hashed.rehash
  rw [List.map_map]
  rfl

/-- `hashed_factory` satisfies the laws of factories.  (No code of its own: used in statements
and proofs.) -/
def Hashed.lawful {E : Type} {hash : E → Nat} {pred : E → E → Bool} (grow : Nat → Nat)
    (ok : HashOk hash pred) :
    (Hashed.factory hash pred grow).Lawful (fun e e' => pred e e' = true) where
  Inv f := (f.nodes.map Prod.fst).Nodup ∧ ∀ p ∈ f.nodes, p.2.1 = hash p.2.2
  inv_empty := by simp [Hashed.factory]
  entry_empty _ := rfl
  lookup_inv _ h := h
  lookup_entry _ _ _ := rfl
  lookup_some := by
    intro f e i ⟨hn, _⟩ h
    simp only [Hashed.factory, Option.map_eq_some_iff] at h
    obtain ⟨p, hp, rfl⟩ := h
    have h1 := List.mem_of_find?_eq_some hp
    have h2 := List.find?_some hp
    simp only [Bool.and_eq_true] at h2
    refine ⟨p.2.2, ?_, h2.2⟩
    show (f.nodes.lookup p.1).map Prod.snd = _
    rw [lookup_of_mem hn h1]
    rfl
  lookup_none := by
    intro f e ⟨hn, hh⟩ h i e' he' hp
    simp only [Hashed.factory, Option.map_eq_none_iff, List.find?_eq_none] at h
    simp only [Hashed.factory, Option.map_eq_some_iff] at he'
    obtain ⟨q, hq, rfl⟩ := he'
    have hm := lookup_mem hq
    have := h _ hm
    apply this
    simp only [Bool.and_eq_true]
    refine ⟨?_, hp⟩
    rw [show q.1 = hash q.2 from hh _ hm, ok.compat _ _ hp]
    simp
  link_inv := by
    intro f i e ⟨hn, hh⟩ he _
    have he' : f.nodes.lookup i = none := by simpa [Hashed.factory] using he
    have key : ∀ f' : Hashed E, (f'.nodes.map Prod.fst) = f.nodes.map Prod.fst →
        (∀ p ∈ f'.nodes, p.2.1 = hash p.2.2) →
        ((((i, (hash e, e)) :: f'.nodes).map Prod.fst).Nodup ∧
          ∀ p ∈ (i, (hash e, e)) :: f'.nodes, p.2.1 = hash p.2.2) := by
      intro f' h1 h2
      refine ⟨?_, ?_⟩
      · rw [List.map_cons, h1, List.nodup_cons]
        exact ⟨not_mem_names he', hn⟩
      · intro p hp
        rcases List.mem_cons.1 hp with rfl | hp
        · rfl
        · exact h2 p hp
    show ((((i, (hash e, e)) :: (if f.nodes.length ≤ f.size then f
      else f.rehash hash (grow f.nodes.length)).nodes).map Prod.fst).Nodup ∧ _)
    by_cases hl : f.nodes.length ≤ f.size
    · simp only [Hashed.factory, hl, if_true]
      exact key f rfl hh
    · simp only [Hashed.factory, hl, if_false]
      refine key _ (f.rehash_names hash _) ?_
      intro p hp
      obtain ⟨q, hq, rfl⟩ := List.mem_map.1 hp
      rfl
  link_entry := by
    intro f i e j ⟨hn, hh⟩ he
    have key : ∀ f' : Hashed E, (f'.nodes.lookup j).map Prod.snd = (f.nodes.lookup j).map Prod.snd →
        (((i, (hash e, e)) :: f'.nodes).lookup j).map Prod.snd =
          if j = i then some e else (f.nodes.lookup j).map Prod.snd := by
      intro f' h1
      by_cases hj : j = i
      · rw [hj, lookup_head, if_pos rfl]; rfl
      · rw [lookup_tail _ _ hj, if_neg hj, h1]
    show (((i, (hash e, e)) :: (if f.nodes.length ≤ f.size then f
      else f.rehash hash (grow f.nodes.length)).nodes).lookup j).map Prod.snd = _
    by_cases hl : f.nodes.length ≤ f.size
    · rw [if_pos hl]; exact key f rfl
    · rw [if_neg hl]; exact key _ (f.rehash_lookup hash _ j)
  erase_inv := by
    intro f i ⟨hn, hh⟩
    refine ⟨hn.sublist (filter_names _ _), ?_⟩
    intro p hp
    exact hh p (List.mem_filter.1 hp).1
  erase_entry := by
    intro f i j _
    show ((f.nodes.filter fun p => p.1 ≠ i).lookup j).map Prod.snd = _
    rw [lookup_filter]
    by_cases hj : j = i
    · simp [hj]
    · simp [hj, Hashed.factory]
  update_inv := by
    intro f i e e' ⟨hn, hh⟩ he h1 h2
    refine ⟨?_, ?_⟩
    · show ((modifyAt f.nodes i fun p => (p.1, e')).map Prod.fst).Nodup
      rw [modifyAt_names]; exact hn
    · intro p hp
      rcases mem_modifyAt (l := f.nodes) (x := i) (g := fun p => (p.1, e')) hp with hp | ⟨q, hq, hqi, rfl⟩
      · exact hh p hp
      · have := hh q hq
        simp only
        rw [this]
        simp only [Hashed.factory, Option.map_eq_some_iff] at he
        obtain ⟨r, hr, rfl⟩ := he
        have : (i, q.2) ∈ f.nodes := by rw [← hqi]; exact hq
        rw [lookup_of_mem hn this] at hr
        cases hr
        exact ok.compat _ _ h1
  update_entry := by
    intro f i e e' j ⟨hn, hh⟩ he h1 h2
    show ((modifyAt f.nodes i fun p => (p.1, e')).lookup j).map Prod.snd = _
    rw [lookup_modifyAt]
    by_cases hj : j = i
    · rw [if_pos hj, if_pos hj, Option.map_map]
      simp only [Hashed.factory, Option.map_eq_some_iff] at he
      obtain ⟨r, hr, _⟩ := he
      rw [hr]
      rfl
    · rw [if_neg hj, if_neg hj]; rfl
  ids_nodup h := h.1
  mem_ids := by
    intro f i _
    show i ∈ f.nodes.map Prod.fst ↔ ((f.nodes.lookup i).map Prod.snd).isSome
    rw [mem_names]
    simp

/-! ## set_factory -/

/-- Insertion in the ordered sequence, at the first position whose entry is not
less than `e`.  (`std::set`, as used by
/repo/include/boost/flyweight/assoc_container_factory.hpp:59-69; simplification: the
balanced tree is represented by its in-order sequence.) -/
def insertSorted {E : Type} (lt : E → E → Bool) (i : Nat) (e : E) : List (Nat × E) → List (Nat × E)
  | [] => [(i, e)]
  | p :: l => if lt p.2 e then p :: insertSorted lt i e l else (i, e) :: p :: l

/-- `set_factory_class`, /repo/include/boost/flyweight/set_factory.hpp:32-57 and
/repo/include/boost/flyweight/assoc_container_factory.hpp:59-76: lookup finds the first
entry not less than the argument (`lower_bound`) and checks that the argument is
not less than it. -/
def setFactory {E : Type} (lt : E → E → Bool) : Factory (List (Nat × E)) E where
  empty := []
  lookup f e := (f, match f.find? fun p => !lt p.2 e with
    | none => none
    | some p => if lt e p.2 then none else some p.1)
  link f i e := insertSorted lt i e f
  erase f i := f.filter fun p => p.1 ≠ i
  entry f i := f.lookup i
  update f i e := modifyAt f i fun _ => e
  ids f := f.map Prod.fst

/-- What the user must guarantee about `Compare`: a strict weak ordering.  Requirements on the
arguments of /repo/include/boost/flyweight/set_factory.hpp:36-51. -/
structure OrderOk {E : Type} (lt : E → E → Bool) : Prop where
  irrefl : ∀ a, lt a a = false
  trans : ∀ a b c, lt a b = true → lt b c = true → lt a c = true
  incomp : ∀ a b c, lt a b = false → lt b a = false → lt b c = false → lt c b = false →
    lt a c = false ∧ lt c a = false

/-- Equivalence induced by an ordering.  (No code of its own: used in statements and proofs.) -/
def incomparable {E : Type} (lt : E → E → Bool) (a b : E) : Bool := !lt a b && !lt b a

theorem OrderOk.lt_right {E : Type} {lt : E → E → Bool} (ok : OrderOk lt) {a b b' : E}
    (h : lt a b = true) (he : incomparable lt b b' = true) : lt a b' = true := by
  simp only [incomparable, Bool.and_eq_true, Bool.not_eq_true'] at he
  by_cases h1 : lt a b' = true
  · exact h1
  · simp only [Bool.not_eq_true] at h1
    cases h2 : lt b' a with
    | true =>
      have := ok.trans b' a b h2 h
      rw [he.2] at this; cases this
    | false =>
      have := (ok.incomp a b' b h1 h2 he.2 he.1).1
      rw [h] at this; cases this

theorem OrderOk.lt_left {E : Type} {lt : E → E → Bool} (ok : OrderOk lt) {a a' b : E}
    (h : lt a b = true) (he : incomparable lt a a' = true) : lt a' b = true := by
  simp only [incomparable, Bool.and_eq_true, Bool.not_eq_true'] at he
  by_cases h1 : lt a' b = true
  · exact h1
  · simp only [Bool.not_eq_true] at h1
    cases h2 : lt b a' with
    | true =>
      have := ok.trans a b a' h h2
      rw [he.1] at this; cases this
    | false =>
      have := (ok.incomp a a' b he.1 he.2 h1 h2).1
      rw [h] at this; cases this

theorem insertSorted_perm {E : Type} (lt : E → E → Bool) (i : Nat) (e : E) (l : List (Nat × E)) :
    (insertSorted lt i e l).Perm ((i, e) :: l) := by
  induction l with
  | nil => exact .refl _
  | cons p l ih =>
    unfold insertSorted
    by_cases h : lt p.2 e = true
    · rw [if_pos h]
      exact (ih.cons p).trans (.swap ..)
    · rw [if_neg h]

/-- `std::set` keeps its entries ordered. -/
theorem insertSorted_sorted {E : Type} {lt : E → E → Bool} (ok : OrderOk lt) (i : Nat) (e : E)
    {l : List (Nat × E)} (hs : l.Pairwise fun p q => lt p.2 q.2 = true)
    (hne : ∀ p ∈ l, ¬ incomparable lt p.2 e = true) :
    (insertSorted lt i e l).Pairwise fun p q => lt p.2 q.2 = true := by
  induction l with
  | nil => simp [insertSorted]
  | cons p l ih =>
    unfold insertSorted
    rw [List.pairwise_cons] at hs
    by_cases h : lt p.2 e = true
    · rw [if_pos h, List.pairwise_cons]
      refine ⟨?_, ih hs.2 fun q hq => hne q (List.mem_cons_of_mem _ hq)⟩
      intro q hq
      rcases List.mem_cons.1 ((insertSorted_perm lt i e l).mem_iff.1 hq) with rfl | hq
      · exact h
      · exact hs.1 q hq
    · rw [if_neg h, List.pairwise_cons]
      have hep : lt e p.2 = true := by
        have := hne p (List.mem_cons_self ..)
        simp only [incomparable, Bool.and_eq_true, Bool.not_eq_true'] at this
        simp only [Bool.not_eq_true] at h
        cases h' : lt e p.2 with
        | true => rfl
        | false => exact absurd ⟨h, h'⟩ this
      refine ⟨?_, List.pairwise_cons.2 hs⟩
      intro q hq
      rcases List.mem_cons.1 hq with rfl | hq
      · exact hep
      · exact ok.trans _ _ _ hep (hs.1 q hq)

theorem modify_sorted {E : Type} {lt : E → E → Bool} (ok : OrderOk lt) {i : Nat} {e e' : E}
    {l : List (Nat × E)} (hn : (l.map Prod.fst).Nodup)
    (hs : l.Pairwise fun p q => lt p.2 q.2 = true) (he : l.lookup i = some e)
    (hee : incomparable lt e e' = true) :
    (modifyAt l i fun _ => e').Pairwise fun p q => lt p.2 q.2 = true := by
  have hval : ∀ p ∈ l, p.1 = i → p.2 = e := by
    intro p hp hpi
    have : (i, p.2) ∈ l := by rw [← hpi]; exact hp
    rw [lookup_of_mem hn this] at he
    exact Option.some.inj he
  unfold modifyAt
  rw [List.pairwise_map]
  refine List.Pairwise.imp_of_mem ?_ hs
  intro p q hp hq hpq
  by_cases h1 : p.1 = i <;> by_cases h2 : q.1 = i
  · rw [hval p hp h1, hval q hq h2, ok.irrefl] at hpq; cases hpq
  · simp only [h1, h2, if_true, if_false]
    rw [hval p hp h1] at hpq
    exact ok.lt_left hpq hee
  · simp only [h1, h2, if_true, if_false]
    rw [hval q hq h2] at hpq
    exact ok.lt_right hpq hee
  · simp only [h1, h2, if_false]
    exact hpq

/-- `set_factory` satisfies the laws of factories.  (No code of its own: used in statements and
proofs.) -/
def setFactory.lawful {E : Type} {lt : E → E → Bool} (ok : OrderOk lt) :
    (setFactory lt).Lawful (fun e e' => incomparable lt e e' = true) where
  Inv f := (f.map Prod.fst).Nodup ∧ f.Pairwise fun p q => lt p.2 q.2 = true
  inv_empty := ⟨List.nodup_nil, .nil⟩
  entry_empty _ := rfl
  lookup_inv _ h := h
  lookup_entry _ _ _ := rfl
  lookup_some := by
    intro f e i ⟨hn, _⟩ h
    simp only [setFactory] at h
    cases hf : f.find? fun p => !lt p.2 e with
    | none => rw [hf] at h; cases h
    | some p =>
      rw [hf] at h
      simp only at h
      by_cases hl : lt e p.2 = true
      · rw [if_pos hl] at h; cases h
      · rw [if_neg hl] at h
        cases h
        have h1 := List.find?_some hf
        refine ⟨p.2, lookup_of_mem hn (List.mem_of_find?_eq_some hf), ?_⟩
        simp only [Bool.not_eq_true] at hl
        simp only [Bool.not_eq_true'] at h1
        simp [incomparable, hl, h1]
  lookup_none := by
    intro f e ⟨hn, hs⟩ h i e' he' heq
    simp only [incomparable, Bool.and_eq_true, Bool.not_eq_true'] at heq
    have hm : (i, e') ∈ f := lookup_mem he'
    simp only [setFactory] at h
    cases hf : f.find? fun p => !lt p.2 e with
    | none =>
      rw [List.find?_eq_none] at hf
      have := hf _ hm
      simp [heq.1] at this
    | some p =>
      rw [hf] at h
      simp only at h
      by_cases hl : lt e p.2 = true
      · obtain ⟨_, as, bs, rfl, hall⟩ := List.find?_eq_some_iff_append.1 hf
        rcases List.mem_append.1 hm with hm | hm
        · have := hall _ hm
          simp [heq.1] at this
        · rcases List.mem_cons.1 hm with hm | hm
          · rw [← hm] at hl
            simp only at hl
            rw [heq.2] at hl; cases hl
          · rw [List.pairwise_append, List.pairwise_cons] at hs
            have h1 := hs.2.1.1 _ hm
            have h2 := ok.trans _ _ _ hl h1
            simp only at h2
            rw [heq.2] at h2; cases h2
      · rw [if_neg hl] at h; cases h
  link_inv := by
    intro f i e ⟨hn, hs⟩ he hne
    refine ⟨?_, ?_⟩
    · have := ((insertSorted_perm lt i e f).map Prod.fst).nodup_iff
      refine this.2 ?_
      rw [List.map_cons, List.nodup_cons]
      exact ⟨not_mem_names he, hn⟩
    · refine insertSorted_sorted ok i e hs fun p hp => ?_
      exact hne p.1 p.2 (lookup_of_mem hn hp)
  link_entry := by
    intro f i e j ⟨hn, _⟩ he
    show (insertSorted lt i e f).lookup j = _
    have hn' : (((i, e) :: f).map Prod.fst).Nodup := by
      rw [List.map_cons, List.nodup_cons]; exact ⟨not_mem_names he, hn⟩
    rw [lookup_perm (insertSorted_perm lt i e f).symm hn']
    by_cases hj : j = i
    · rw [hj, lookup_head, if_pos rfl]
    · rw [lookup_tail _ _ hj, if_neg hj]; rfl
  erase_inv := by
    intro f i ⟨hn, hs⟩
    exact ⟨hn.sublist (filter_names _ _), hs.sublist List.filter_sublist⟩
  erase_entry := by
    intro f i j _
    exact lookup_filter f i j
  update_inv := by
    intro f i e e' ⟨hn, hs⟩ he h1 _
    refine ⟨?_, modify_sorted ok hn hs he h1⟩
    show ((modifyAt f i fun _ => e').map Prod.fst).Nodup
    rw [modifyAt_names]; exact hn
  update_entry := by
    intro f i e e' j _ he _ _
    show (modifyAt f i fun _ => e').lookup j = _
    rw [lookup_modifyAt]
    by_cases hj : j = i
    · rw [if_pos hj, if_pos hj, show f.lookup i = some e from he]; rfl
    · rw [if_neg hj, if_neg hj]; rfl
  ids_nodup h := h.1
  mem_ids := fun i _ => mem_names

/-! ## The list-update factory of the tests -/

/-- `lu_factory_class`, /repo/test/test_custom_factory.cpp:28-68: nodes are an
identity, the count of accesses and the entry; the tenth access to a node moves it
to the front. -/
def luFactory {E : Type} (pred : E → E → Bool) : Factory (List (Nat × (Nat × E))) E where
  empty := []
  lookup f e := match f.find? fun p => pred p.2.2 e with
    | none => (f, none)
    | some p =>
      if p.2.1 + 1 = 10 then ((p.1, (0, p.2.2)) :: f.filter (fun q => q.1 ≠ p.1), some p.1)
      else (modifyAt f p.1 fun q => (q.1 + 1, q.2), some p.1)
  link f i e := f ++ [(i, (0, e))]
  erase f i := f.filter fun p => p.1 ≠ i
  entry f i := (f.lookup i).map Prod.snd
  update f i e := modifyAt f i fun p => (p.1, e)
  ids f := f.map Prod.fst
  take := .copiesMoves

/-- The list-update factory satisfies the laws of factories (for any `pred`).  (No code of its
own: used in statements and proofs.) -/
def luFactory.lawful {E : Type} (pred : E → E → Bool) :
    (luFactory pred).Lawful (fun e e' => pred e e' = true) where
  Inv f := (f.map Prod.fst).Nodup
  inv_empty := List.nodup_nil
  entry_empty _ := rfl
  lookup_inv := by
    intro f e hn
    simp only [luFactory]
    cases hf : f.find? fun p => pred p.2.2 e with
    | none => exact hn
    | some p =>
      simp only
      by_cases h10 : p.2.1 + 1 = 10
      · rw [if_pos h10]
        simp only [List.map_cons, List.nodup_cons]
        refine ⟨?_, hn.sublist (filter_names _ _)⟩
        apply not_mem_names
        rw [lookup_filter, if_pos rfl]
      · rw [if_neg h10]
        simp only
        rw [modifyAt_names]; exact hn
  lookup_entry := by
    intro f e i hn
    simp only [luFactory]
    cases hf : f.find? fun p => pred p.2.2 e with
    | none => rfl
    | some p =>
      have hm := List.mem_of_find?_eq_some hf
      have hl : f.lookup p.1 = some p.2 := lookup_of_mem hn hm
      simp only
      by_cases h10 : p.2.1 + 1 = 10
      · rw [if_pos h10]
        simp only
        by_cases hi : i = p.1
        · rw [hi, lookup_head, hl]; rfl
        · rw [lookup_tail _ _ hi, lookup_filter, if_neg hi]
      · rw [if_neg h10]
        simp only
        rw [lookup_modifyAt]
        by_cases hi : i = p.1
        · rw [if_pos hi, hi, hl]; rfl
        · rw [if_neg hi]
  lookup_some := by
    intro f e i hn h
    simp only [luFactory] at h
    cases hf : f.find? fun p => pred p.2.2 e with
    | none => rw [hf] at h; cases h
    | some p =>
      rw [hf] at h
      have hm := List.mem_of_find?_eq_some hf
      have hp := List.find?_some hf
      have hi : i = p.1 := by
        simp only at h
        by_cases h10 : p.2.1 + 1 = 10
        · rw [if_pos h10] at h; exact (Option.some.inj h).symm
        · rw [if_neg h10] at h; exact (Option.some.inj h).symm
      subst hi
      refine ⟨p.2.2, ?_, hp⟩
      show (f.lookup p.1).map Prod.snd = _
      rw [lookup_of_mem hn hm]; rfl
  lookup_none := by
    intro f e hn h i e' he' hp
    simp only [luFactory] at h
    cases hf : f.find? fun p => pred p.2.2 e with
    | none =>
      rw [List.find?_eq_none] at hf
      simp only [luFactory, Option.map_eq_some_iff] at he'
      obtain ⟨q, hq, rfl⟩ := he'
      exact hf _ (lookup_mem hq) hp
    | some p =>
      rw [hf] at h
      simp only at h
      by_cases h10 : p.2.1 + 1 = 10
      · rw [if_pos h10] at h; cases h
      · rw [if_neg h10] at h; cases h
  link_inv := by
    intro f i e hn he _
    show ((f ++ [(i, (0, e))]).map Prod.fst).Nodup
    have he' : f.lookup i = none := by simpa [luFactory] using he
    rw [List.map_append, List.nodup_append]
    refine ⟨hn, by simp, ?_⟩
    intro a ha b hb hab
    simp at hb
    subst hb
    subst hab
    exact not_mem_names he' ha
  link_entry := by
    intro f i e j hn he
    have he' : f.lookup i = none := by simpa [luFactory] using he
    show ((f ++ [(i, (0, e))]).lookup j).map Prod.snd = _
    rw [lookup_snoc _ he']
    by_cases hj : j = i
    · rw [if_pos hj, if_pos hj]; rfl
    · rw [if_neg hj, if_neg hj]; rfl
  erase_inv := by
    intro f i hn
    exact hn.sublist (filter_names _ _)
  erase_entry := by
    intro f i j _
    show ((f.filter fun p => p.1 ≠ i).lookup j).map Prod.snd = _
    rw [lookup_filter]
    by_cases hj : j = i
    · simp [hj]
    · simp [hj, luFactory]
  update_inv := by
    intro f i e e' hn _ _ _
    show ((modifyAt f i fun p => (p.1, e')).map Prod.fst).Nodup
    rw [modifyAt_names]; exact hn
  update_entry := by
    intro f i e e' j _ he _ _
    show ((modifyAt f i fun p => (p.1, e')).lookup j).map Prod.snd = _
    rw [lookup_modifyAt]
    by_cases hj : j = i
    · rw [if_pos hj, if_pos hj, Option.map_map]
      simp only [luFactory, Option.map_eq_some_iff] at he
      obtain ⟨r, hr, _⟩ := he
      rw [hr]
      rfl
    · rw [if_neg hj, if_neg hj]; rfl
  ids_nodup h := h
  mem_ids := by
    intro f i _
    show i ∈ f.map Prod.fst ↔ ((f.lookup i).map Prod.snd).isSome
    rw [mem_names]
    simp

/-! ## The verbose factory of the examples -/

/-- What `verbose_factory_class` prints, /repo/example/custom_factory.cpp:56,59,67. -/
inductive Note (E : Type) where
  | new (e : E)
  | hit (e : E)
  | del (e : E)

/-- `verbose_factory_class`, /repo/example/custom_factory.cpp:36-74: a `std::set` that
prints a note on each insertion and erasure.  The printed notes are part of the
state. -/
def verboseFactory {E : Type} (lt : E → E → Bool) : Factory (List (Nat × E) × List (Note E)) E where
  empty := ([], [])
  lookup f e := match (setFactory lt).lookup f.1 e with
    | (g, none) => ((g, f.2), none)
    | (g, some i) => ((g, f.2 ++ [.hit e]), some i)
  link f i e := ((setFactory lt).link f.1 i e, f.2 ++ [.new e])
  erase f i := ((setFactory lt).erase f.1 i, match f.1.lookup i with
    | none => f.2
    | some e => f.2 ++ [.del e])
  entry f i := f.1.lookup i
  update f i e := ((setFactory lt).update f.1 i e, f.2)
  ids f := f.1.map Prod.fst
  take := .copies

/-- Printing does not affect the laws.  (No code of its own: used in statements and proofs.) -/
def verboseFactory.lawful {E : Type} {lt : E → E → Bool} (ok : OrderOk lt) :
    (verboseFactory lt).Lawful (fun e e' => incomparable lt e e' = true) := by
  have L := setFactory.lawful ok
  have hl : ∀ (f : List (Nat × E) × List (Note E)) e, ((verboseFactory lt).lookup f e).1.1 = f.1 ∧
      ((verboseFactory lt).lookup f e).2 = ((setFactory lt).lookup f.1 e).2 := by
    intro f e
    have h1 : ((setFactory lt).lookup f.1 e).1 = f.1 := rfl
    simp only [verboseFactory]
    cases h : (setFactory lt).lookup f.1 e with
    | mk g o =>
      rw [h] at h1
      cases o <;> exact ⟨h1, rfl⟩
  exact
  { Inv := fun f => L.Inv f.1
    inv_empty := L.inv_empty
    entry_empty := fun i => L.entry_empty i
    lookup_inv := fun {f} e h => by rw [(hl f e).1]; exact h
    lookup_entry := fun {f} e i h => by
      show ((verboseFactory lt).lookup f e).1.1.lookup i = f.1.lookup i
      rw [(hl f e).1]
    lookup_some := fun {f} e i h h' => L.lookup_some e i h ((hl f e).2 ▸ h')
    lookup_none := fun {f} e h h' => L.lookup_none e h ((hl f e).2 ▸ h')
    link_inv := fun i e h => L.link_inv i e h
    link_entry := fun i e j h => L.link_entry i e j h
    erase_inv := fun i h => L.erase_inv i h
    erase_entry := fun i j h => L.erase_entry i j h
    update_inv := fun i e e' h => L.update_inv i e e' h
    update_entry := fun i e e' j h => L.update_entry i e e' j h
    ids_nodup := fun h => L.ids_nodup h
    mem_ids := fun i h => L.mem_ids i h }

end Verif

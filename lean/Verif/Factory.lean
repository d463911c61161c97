import Verif.Api

/-!
# Factories: interface and laws

Models the factory concept of /repo/doc/reference/factories.html as used by
/repo/include/boost/flyweight/detail/flyweight_core.hpp:62-117.
-/

set_option autoImplicit false

namespace Verif

/-- How `insert` makes the entry of a new node from its argument.  `moves`: the overload taking
`Entry&&` (/repo/include/boost/flyweight/assoc_container_factory.hpp:63-66,
/repo/include/boost/flyweight/hashed_factory.hpp:74-84) or the rvalue insertion of a container.
`copies`: `insert(const Entry&)` that hands its argument to the container
(/repo/example/custom_factory.cpp:50-54).  `copiesMoves`: the argument is copied to a temporary
that the container moves from (/repo/test/test_custom_factory.cpp:31-33, 55). -/
inductive Take where
  | moves
  | copies
  | copiesMoves
  deriving DecidableEq

/-- Operations of a factory with representation type `F` holding entries of
type `E`.  Handles are identities of container nodes.
`insert` of the C++ concept (e.g.
/repo/include/boost/flyweight/hashed_factory.hpp:74-84) is split into `lookup`,
which returns the handle of an equivalent entry if there is one (and may
reorganise the container, as the list-update factory of
/repo/test/test_custom_factory.cpp does), and `link`, which adds a node with a
given identity.  `erase` and `entry` are the functions of the same name
(e.g. /repo/include/boost/flyweight/hashed_factory.hpp:86-91).  `update` models
in-place changes to the `mutable` parts of a stored entry, `ids` lists the
handles of the stored entries, and `take` tells how the entry of a new node is made. -/
structure Factory (F E : Type) where
  empty : F
  lookup : F → E → F × Option Nat
  link : F → Nat → E → F
  erase : F → Nat → F
  entry : F → Nat → Option E
  update : F → Nat → E → F
  ids : F → List Nat
  take : Take := .moves

/-- Laws of a factory with respect to an equivalence `eqv` between entries.  (No code of its
own: used in statements and proofs.) -/
structure Factory.Lawful {F E : Type} (Fa : Factory F E) (eqv : E → E → Prop) where
  Inv : F → Prop
  inv_empty : Inv Fa.empty
  entry_empty : ∀ i, Fa.entry Fa.empty i = none
  lookup_inv : ∀ {f} e, Inv f → Inv (Fa.lookup f e).1
  lookup_entry : ∀ {f} e i, Inv f → Fa.entry (Fa.lookup f e).1 i = Fa.entry f i
  lookup_some : ∀ {f} e i, Inv f → (Fa.lookup f e).2 = some i →
    ∃ e', Fa.entry f i = some e' ∧ eqv e' e
  lookup_none : ∀ {f} e, Inv f → (Fa.lookup f e).2 = none →
    ∀ i e', Fa.entry f i = some e' → ¬ eqv e' e
  link_inv : ∀ {f} i e, Inv f → Fa.entry f i = none →
    (∀ j e', Fa.entry f j = some e' → ¬ eqv e' e) → Inv (Fa.link f i e)
  link_entry : ∀ {f} i e j, Inv f → Fa.entry f i = none →
    Fa.entry (Fa.link f i e) j = if j = i then some e else Fa.entry f j
  erase_inv : ∀ {f} i, Inv f → Inv (Fa.erase f i)
  erase_entry : ∀ {f} i j, Inv f → Fa.entry (Fa.erase f i) j = if j = i then none else Fa.entry f j
  update_inv : ∀ {f} i e e', Inv f → Fa.entry f i = some e → eqv e e' → eqv e' e →
    Inv (Fa.update f i e')
  update_entry : ∀ {f} i e e' j, Inv f → Fa.entry f i = some e → eqv e e' → eqv e' e →
    Fa.entry (Fa.update f i e') j = if j = i then some e' else Fa.entry f j
  ids_nodup : ∀ {f}, Inv f → (Fa.ids f).Nodup
  mem_ids : ∀ {f} i, Inv f → (i ∈ Fa.ids f ↔ (Fa.entry f i).isSome)

end Verif

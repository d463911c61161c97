import Verif.Cpp
import Verif.Api

/-!
# Value policies

Models /repo/include/boost/flyweight/detail/default_value_policy.hpp and
/repo/include/boost/flyweight/key_value.hpp.  A policy's `rep_type` is the part
of a factory entry that holds the key and/or the value.  Raw storage is modelled
by `Option`: `none` is storage without a live object, and reading it,
destroying it or constructing over a live object is undefined behaviour.
-/

set_option autoImplicit false

namespace Verif

/-- What happens to objects of the user's types inside `rep_type` objects: a key is constructed
from the arguments given by the caller, from what the key extractor returns, by copy or by move, or
is destroyed; likewise a value (which no extractor makes).  Not code of the library: these are the
special members of the user's types that
/repo/include/boost/flyweight/detail/default_value_policy.hpp:50-67 and
/repo/include/boost/flyweight/key_value.hpp:61-101, 136-162, 216-236, 264-270 call. -/
inductive Act where
  | keyArgs
  | keyExtracted
  | keyCopy
  | keyMove
  | keyGone
  | valArgs
  | valCopy
  | valMove
  | valGone
  deriving DecidableEq

/-- Bookkeeping of user-visible object lifetimes, and the oracle deciding which
user operations throw (the n-th operation that may throw does so iff
`faults n`).  Not code of the library: `keys`/`vals` count the `key_type` and
`value_type` objects constructed and not yet destroyed inside `rep_type`
objects, `made` counts all `value_type` constructions, `srcMoved` records
whether the rvalue a flyweight is built from has been moved from, and `acts` lists what has happened
to keys and values inside `rep_type` objects, the latest first.  (No code of its own: used in
statements and proofs.) -/
structure Env where
  faults : Nat → Bool
  tick : Nat
  keys : Int
  vals : Int
  made : Nat
  srcMoved : Bool
  acts : List Act

/-- A user-supplied operation (constructor, hash, comparison, allocation) that
may throw.  (No code of its own.) -/
def mayThrow : M Env Unit := fun e =>
  if e.faults e.tick then .exc { e with tick := e.tick + 1 }
  else .ok () { e with tick := e.tick + 1 }

/-- The operations of a value policy that the core uses.  Models the concept
implemented by `default_value_policy`
(/repo/include/boost/flyweight/detail/default_value_policy.hpp:30-76),
`variant_key_value` and `product_key_value`
(/repo/include/boost/flyweight/key_value.hpp:50-295).
`ofSrc` is the `rep_type` constructor selected by the source; `move` is
`rep_type(rep_type&&)`, returning the new object and the moved-from one;
`copy` is `rep_type(const rep_type&)`; `destroy` is `~rep_type`; `toKey` and
`toValue` are the conversions (`none`: undefined behaviour); `visit` is
`{key,copy,move}_construct_value`. -/
structure Policy (K V Rep : Type) where
  ofSrc : Src K V → M Env Rep
  copy : Rep → M Env Rep
  move : Rep → M Env (Rep × Rep)
  destroy : Rep → M Env Unit
  toKey : Rep → Option K
  toValue : Rep → Option V
  visit : Src K V → Rep → M Env Rep

/-! ## variant_key_value -/

/-- `variant_key_value::rep_type`: separate raw storage for key and value and
the flag `value_cted`, /repo/include/boost/flyweight/key_value.hpp:165-173. -/
structure VRep (K V : Type) where
  key : Option K
  val : Option V
  cted : Bool

namespace VRep
variable {K V : Type}

/-- Storage with no object in it, `value_cted(false)`,
/repo/include/boost/flyweight/key_value.hpp:62,73,79,85,91. -/
def raw : VRep K V := ⟨none, none, false⟩

/-- `new(key_ptr())key_type(...)`, e.g.
/repo/include/boost/flyweight/key_value.hpp:64,75,81,87. -/
def newKey (a : Act) (r : VRep K V) (k : K) : M Env (VRep K V) := do
  mayThrow
  match r.key with
  | some _ => M.undef
  | none => do
    M.update fun e => { e with keys := e.keys + 1, acts := a :: e.acts }
    pure { r with key := some k }

/-- `key_ptr()->~key_type()`, /repo/include/boost/flyweight/key_value.hpp:100,140. -/
def delKey (r : VRep K V) : M Env (VRep K V) :=
  match r.key with
  | none => M.undef
  | some _ => do
    M.update fun e => { e with keys := e.keys - 1, acts := .keyGone :: e.acts }
    pure { r with key := none }

/-- `new(value_ptr())value_type(...)`,
/repo/include/boost/flyweight/key_value.hpp:139,148,158. -/
def newVal (a : Act) (r : VRep K V) (v : V) : M Env (VRep K V) := do
  mayThrow
  match r.val with
  | some _ => M.undef
  | none => do
    M.update fun e => { e with vals := e.vals + 1, made := e.made + 1, acts := a :: e.acts }
    pure { r with val := some v }

/-- `value_ptr()->~value_type()`, /repo/include/boost/flyweight/key_value.hpp:99. -/
def delVal (r : VRep K V) : M Env (VRep K V) :=
  match r.val with
  | none => M.undef
  | some _ => do
    M.update fun e => { e with vals := e.vals - 1, acts := .valGone :: e.acts }
    pure { r with val := none }

/-- `operator const key_type&`, /repo/include/boost/flyweight/key_value.hpp:103-109. -/
def toKey (u : UserFns K V) (r : VRep K V) : Option K :=
  if r.cted then r.val.map u.kfv else r.key

/-- `operator const value_type&`, with its assertion,
/repo/include/boost/flyweight/key_value.hpp:111-115. -/
def toValue (r : VRep K V) : Option V :=
  if r.cted then r.val else none

/-- Constructors from perfectly forwarded arguments (61-71), from
`const value_type&` (79-82) and from `value_type&&` (91-94; it extracts the key
without moving from the value), /repo/include/boost/flyweight/key_value.hpp. -/
def ofSrc (u : UserFns K V) : Src K V → M Env (VRep K V)
  | .key k => newKey .keyArgs raw k
  | .copy v => newKey .keyExtracted raw (u.kfv v)
  | .move v => newKey .keyExtracted raw (u.kfv v)

/-- Copy constructor, /repo/include/boost/flyweight/key_value.hpp:73-77. -/
def copy (u : UserFns K V) (x : VRep K V) : M Env (VRep K V) :=
  if x.cted then
    match x.val with
    | none => M.undef
    | some v => newKey .keyExtracted raw (u.kfv v)
  else
    match x.key with
    | none => M.undef
    | some k => newKey .keyCopy raw k

/-- Move constructor, /repo/include/boost/flyweight/key_value.hpp:85-89. -/
def move (u : UserFns K V) (x : VRep K V) : M Env (VRep K V × VRep K V) :=
  if x.cted then
    match x.val with
    | none => M.undef
    | some v => do
      let r ← newKey .keyExtracted raw (u.kfv v)
      pure (r, x)
  else
    match x.key with
    | none => M.undef
    | some k => do
      let r ← newKey .keyMove raw k
      pure (r, { x with key := some (u.movedK k) })

/-- Destructor, /repo/include/boost/flyweight/key_value.hpp:97-101. -/
def destroy (x : VRep K V) : M Env Unit := do
  if x.cted then
    let _ ← delVal x
    pure ()
  else
    let _ ← delKey x
    pure ()

/-- `key_construct_value`, `copy_construct_value`, `move_construct_value`,
/repo/include/boost/flyweight/key_value.hpp:136-162. -/
def visit (u : UserFns K V) (s : Src K V) (r : VRep K V) : M Env (VRep K V) :=
  if r.cted then pure r
  else do
    let r1 ← (match s with
      | .key _ => match r.key with
        | none => M.undef
        | some k => newVal .valArgs r (u.ctor k)
      | .copy v => newVal .valCopy r v
      | .move v => do
        let r' ← newVal .valMove r v
        M.update fun e => { e with srcMoved := true }
        pure r')
    let r2 ← delKey r1
    pure { r2 with cted := true }

/-- `variant_key_value` as a policy, /repo/include/boost/flyweight/key_value.hpp:50-192. -/
def policy (u : UserFns K V) : Policy K V (VRep K V) where
  ofSrc := ofSrc u
  copy := copy u
  move := move u
  destroy := destroy
  toKey := toKey u
  toValue := toValue
  visit := visit u

end VRep

/-! ## product_key_value -/

/-- `product_key_value::rep_type`: a key member, raw storage for the value and
the flag `value_cted`, /repo/include/boost/flyweight/key_value.hpp:272-277. -/
structure PRep (K V : Type) where
  key : K
  val : Option V
  cted : Bool

namespace PRep
variable {K V : Type}

/-- Constructor of the member `key`, /repo/include/boost/flyweight/key_value.hpp:217,225,229. -/
def newRep (a : Act) (k : K) : M Env (PRep K V) := do
  mayThrow
  M.update fun e => { e with keys := e.keys + 1, acts := a :: e.acts }
  pure ⟨k, none, false⟩

/-- Constructor from perfectly forwarded arguments,
/repo/include/boost/flyweight/key_value.hpp:216-223.  Construction from a value
does not compile (226, 230, 254-262); it is `undef` here and excluded by
`SrcSpec.supports`. -/
def ofSrc : Src K V → M Env (PRep K V)
  | .key k => newRep .keyArgs k
  | .copy _ => M.undef
  | .move _ => M.undef

/-- Copy constructor, /repo/include/boost/flyweight/key_value.hpp:225. -/
def copy (x : PRep K V) : M Env (PRep K V) := newRep .keyCopy x.key

/-- Move constructor, /repo/include/boost/flyweight/key_value.hpp:229. -/
def move (u : UserFns K V) (x : PRep K V) : M Env (PRep K V × PRep K V) := do
  let r ← newRep .keyMove x.key
  pure (r, { x with key := u.movedK x.key })

/-- Destructor body (233-236) followed by destruction of the member `key`,
/repo/include/boost/flyweight/key_value.hpp. -/
def destroy (x : PRep K V) : M Env Unit := do
  if x.cted then
    match x.val with
    | none => M.undef
    | some _ => M.update fun e => { e with vals := e.vals - 1, acts := .valGone :: e.acts }
  M.update fun e => { e with keys := e.keys - 1, acts := .keyGone :: e.acts }

/-- `operator const key_type&`, /repo/include/boost/flyweight/key_value.hpp:238. -/
def toKey (r : PRep K V) : Option K := some r.key

/-- `operator const value_type&`, with its assertion,
/repo/include/boost/flyweight/key_value.hpp:240-244. -/
def toValue (r : PRep K V) : Option V := if r.cted then r.val else none

/-- `key_construct_value` (264-270) and the no-op `copy_construct_value`,
`move_construct_value` (290-294), /repo/include/boost/flyweight/key_value.hpp. -/
def visit (u : UserFns K V) (s : Src K V) (r : PRep K V) : M Env (PRep K V) :=
  match s with
  | .key _ =>
    if r.cted then pure r
    else do
      mayThrow
      match r.val with
      | some _ => M.undef
      | none => do
        M.update fun e => { e with vals := e.vals + 1, made := e.made + 1, acts := .valArgs :: e.acts }
        pure { r with val := some (u.ctor r.key), cted := true }
  | .copy _ => pure r
  | .move _ => pure r

/-- `product_key_value` as a policy, /repo/include/boost/flyweight/key_value.hpp:194-295. -/
def policy (u : UserFns K V) : Policy K V (PRep K V) where
  ofSrc := ofSrc
  copy := copy
  move := move u
  destroy := destroy
  toKey := toKey
  toValue := toValue
  visit := visit u

end PRep

/-! ## default_value_policy -/

/-- `default_value_policy::rep_type`: just the value,
/repo/include/boost/flyweight/detail/default_value_policy.hpp:36-68. -/
structure DRep (V : Type) where
  x : V

namespace DRep
variable {V : Type}

/-- Construction of the member `x`,
/repo/include/boost/flyweight/detail/default_value_policy.hpp:50-63. -/
def newRep (a : Act) (v : V) : M Env (DRep V) := do
  mayThrow
  M.update fun e => { e with vals := e.vals + 1, made := e.made + 1, acts := a :: e.acts }
  pure ⟨v⟩

/-- Constructor from perfectly forwarded arguments, which also serves for
lvalue and rvalue values,
/repo/include/boost/flyweight/detail/default_value_policy.hpp:50-57. -/
def ofSrc : Src V V → M Env (DRep V)
  | .key k => newRep .valArgs k
  | .copy v => newRep .valCopy v
  | .move v => do
    let r ← newRep .valMove v
    M.update fun e => { e with srcMoved := true }
    pure r

/-- Copy constructor, /repo/include/boost/flyweight/detail/default_value_policy.hpp:59. -/
def copy (x : DRep V) : M Env (DRep V) := newRep .valCopy x.x

/-- Move constructor, /repo/include/boost/flyweight/detail/default_value_policy.hpp:62. -/
def move (u : UserFns V V) (x : DRep V) : M Env (DRep V × DRep V) := do
  let r ← newRep .valMove x.x
  pure (r, ⟨u.movedV x.x⟩)

/-- Implicit destructor, /repo/include/boost/flyweight/detail/default_value_policy.hpp:67. -/
def destroy (_ : DRep V) : M Env Unit :=
  M.update fun e => { e with vals := e.vals - 1, acts := .valGone :: e.acts }

/-- `operator const value_type&` (key and value are the same type),
/repo/include/boost/flyweight/detail/default_value_policy.hpp:65. -/
def toVal (r : DRep V) : Option V := some r.x

/-- `{key,copy,move}_construct_value` do nothing,
/repo/include/boost/flyweight/detail/default_value_policy.hpp:70-75. -/
def visit (_ : Src V V) (r : DRep V) : M Env (DRep V) := pure r

/-- `default_value_policy` as a policy,
/repo/include/boost/flyweight/detail/default_value_policy.hpp:30-76. -/
def policy (u : UserFns V V) : Policy V V (DRep V) where
  ofSrc := ofSrc
  copy := copy
  move := move u
  destroy := destroy
  toKey := toVal
  toValue := toVal
  visit := visit

end DRep

end Verif

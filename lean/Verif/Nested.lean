import Verif.CoreInsert

/-!
# Values whose constructors use flyweights of the same type

`Core` treats the construction of a value from its key as one step of the user.
Here the constructor is a program that asks for other flyweights of the same
type, as in /repo/example/fibonacci.cpp; these requests run while the mutex is
held and the new entry is in the factory without its value.
-/

set_option autoImplicit false

namespace Verif

/-- What the constructor of a value does: finish with a value, ask for the
value of the flyweight with some key and go on, or run into undefined behaviour.
The temporary flyweight asked for lives until the constructor ends.  (The
constructor is the user's, e.g. /repo/example/fibonacci.cpp:42-44.) -/
inductive Body (K V : Type) where
  | ret (v : V)
  | ub
  | ask (k : K) (f : V → Body K V)

namespace Nested
variable {K V F : Type}

/-- `fw.get()` on a handle, /repo/include/boost/flyweight/flyweight.hpp:250-253 and
/repo/include/boost/flyweight/key_value.hpp:240-244. -/
def valueOf (Fa : Factory F (Ent (PRep K V))) (h : Nat) : M (St (PRep K V) F) V := do
  let e ← Core.entry Fa h
  match PRep.toValue e.rep with
  | none => M.undef
  | some v => pure v

/-- Run the constructor; `req` creates a temporary flyweight, whose handle is
destroyed at the end (/repo/include/boost/flyweight/refcounted.hpp:130-135).
(The constructor is the user's.) -/
def runBody (P : Policy K V (PRep K V)) (Fa : Factory F (Ent (PRep K V))) (trk : Tracking)
    (req : K → M (St (PRep K V) F) Nat) : Body K V → M (St (PRep K V) F) V
  | .ret v => pure v
  | .ub => M.undef
  | .ask k f => do
    let h ← req k
    M.scope (do
      let v ← valueOf Fa h
      runBody P Fa trk req (f v)) (Core.handleDtor P Fa trk h)

/-- `key_construct_value` of `product_key_value`,
/repo/include/boost/flyweight/key_value.hpp:264-270, through the visitor of
/repo/include/boost/flyweight/detail/flyweight_core.hpp:226-231.  The constructor
may leave by an exception of its own (`mayThrow`).  If the storage holds a value
by the time the constructor ends, a live object would be overwritten: undefined. -/
def visit (P : Policy K V (PRep K V)) (Fa : Factory F (Ent (PRep K V))) (trk : Tracking)
    (body : K → Body K V) (req : K → M (St (PRep K V) F) Nat) (h : Nat) :
    M (St (PRep K V) F) Unit := do
  let e ← Core.entry Fa h
  if e.rep.cted then pure ()
  else do
    let v ← runBody P Fa trk req (body e.rep.key)
    Core.env mayThrow
    let e' ← Core.entry Fa h
    match e'.rep.val with
    | some _ => M.undef
    | none => do
      Core.env (M.update fun n => { n with vals := n.vals + 1, made := n.made + 1, acts := .valArgs :: n.acts })
      Core.setEntry Fa h { e' with rep := { e'.rep with val := some v, cted := true } }

/-- Construction of a flyweight from a key,
/repo/include/boost/flyweight/detail/flyweight_core.hpp:167-177, 291-300 and 100-117
(cf. `Core.insert`, `Core.insertLocked` and `Core.insertAndVisit`, with the visitor
above).  `fuel` bounds the depth of nested constructions: with the stack
exhausted, behaviour is undefined. -/
def request (P : Policy K V (PRep K V)) (Fa : Factory F (Ent (PRep K V))) (trk : Tracking)
    (body : K → Body K V) : Nat → K → M (St (PRep K V) F) Nat
  | 0, _ => M.undef
  | fuel + 1, k => do
    let x ← Core.env (P.ofSrc (.key k))
    Core.withLocal P x (do
      Core.init
      let p ← Core.env (P.move x)
      Core.setTop p.2
      Core.withLocal P p.1 (do
        Core.lock
        M.scope (do
          let h ← Core.facInsert P Fa
          M.onExc (visit P Fa trk body (request P Fa trk body fuel) h) (Core.facErase P Fa h)
          Core.handleCtor Fa trk h
          pure h) Core.unlock))

/-- A program making requests `fw(k).get()` one after another, each temporary
being destroyed at the end of its statement, as the loop of
/repo/example/fibonacci.cpp:53-55; an exception is caught (`none`) and the program
carries on. -/
def requests (P : Policy K V (PRep K V)) (Fa : Factory F (Ent (PRep K V))) (trk : Tracking)
    (body : K → Body K V) (fuel : Nat) :
    List K → St (PRep K V) F → Option (List (Option V) × St (PRep K V) F)
  | [], s => some ([], s)
  | k :: ks, s =>
    match (do
      let h ← request P Fa trk body fuel k
      M.scope (valueOf Fa h) (Core.handleDtor P Fa trk h) : M (St (PRep K V) F) V) s with
    | .ok v s' => (requests P Fa trk body fuel ks s').map fun p => (some v :: p.1, p.2)
    | .exc s' => (requests P Fa trk body fuel ks s').map fun p => (none :: p.1, p.2)
    | .ub => none

end Nested

/-! ## What a constructor is meant to compute -/

namespace Body
variable {K V : Type}

/-- The result of the constructor if the flyweights it asks for have the values
`val`.  (No code of its own: used in statements and proofs.) -/
def value (val : K → V) : Body K V → Option V
  | .ret v => some v
  | .ub => none
  | .ask k f => (f (val k)).value val

/-- The keys it asks for.  (No code of its own: used in statements and proofs.) -/
def asks (val : K → V) : Body K V → List K
  | .ret _ => []
  | .ub => []
  | .ask k f => k :: (f (val k)).asks val

end Body

/-- Keys whose values are needed for that of `k`, including `k`.  (No code of its own: used in
statements and proofs.) -/
inductive Needs {K V : Type} (body : K → Body K V) (val : K → V) : K → K → Prop
  | self (k : K) : Needs body val k k
  | step {k k' k'' : K} : k' ∈ (body k).asks val → Needs body val k' k'' → Needs body val k k''

end Verif

import Verif.CoreSim

/-!
# Tracking policies of the user's own

Models how the library calls a tracking policy as documented in /repo/doc/reference/tracking.html and
/repo/doc/tutorial/extension.html: `flyweight_core_tracking_helper`
(/repo/include/boost/flyweight/detail/flyweight_core.hpp:50-75), the construction of handles
(/repo/include/boost/flyweight/detail/flyweight_core.hpp:261-311) and their use by the members of
class template `flyweight` (/repo/include/boost/flyweight/flyweight.hpp:193-278).  The policy itself is
arbitrary code of the user.
-/

set_option autoImplicit false

namespace Verif

/-- What a member function of the user's handle type does: it computes with the policy's data `T` and
calls `TrackingHelper::erase(h,chk)` any number of times, each call depending on what happened
before.  (The user's program, no code of the library.)  Simplifications: the data that the policy keeps in
the entries is part of `T`, so that reading it through `TrackingHelper::entry` is not represented.  Code does not throw;
for the constructor from the factory's handle, which may, see `Tracker`. -/
inductive Code (T : Type) where
  | ret (t : T)
  | erase (t : T) (h : Nat) (chk : T → T × Bool) (next : T → Code T)

/-- A tracking policy: its data when the program starts, whether `entry_type` is a class of its own rather than the
`rep_type` itself, what the constructor of an entry in a new node and its destructor do to the data, and the
member functions of `handle_type`: construction from the factory's handle, copy, assignment (old and new
target), swap, and destruction.  Construction from the factory's handle may throw: `fails t h` is what it does to data `t`
before it does so, if it does.  The other functions do not throw: /repo/doc/reference/tracking.html asks for the nothrow
guarantee for copy and assignment.  (The user's program, no code of the library.) -/
structure Tracker (T : Type) where
  start : T
  wraps : Bool
  made : T → Nat → T
  gone : T → Nat → T
  fails : T → Nat → Option (Code T)
  ctor : T → Nat → Code T
  copy : T → Nat → Code T
  assign : T → Nat → Nat → Code T
  swap : T → Nat → Nat → Code T
  dtor : T → Nat → Code T

/-- A factory whose entries belong to the policy: adding and removing a node also constructs and destroys the
policy's entry, e.g. /repo/include/boost/flyweight/hashed_factory.hpp:74-91 with
`Entry` = `TrackingPolicy::entry_type`
(/repo/include/boost/flyweight/detail/flyweight_core.hpp:130-139).  Simplification: entries that are not in
a node, i.e. the local objects of `insert_rep` and `insert_value`, do not change the policy's data. -/
def Tracker.factory {T F E : Type} (tr : Tracker T) (Fa : Factory F E) : Factory (F × T) E where
  empty := (Fa.empty, tr.start)
  lookup f e := (((Fa.lookup f.1 e).1, f.2), (Fa.lookup f.1 e).2)
  link f i e := (Fa.link f.1 i e, tr.made f.2 i)
  erase f i := (Fa.erase f.1 i, tr.gone f.2 i)
  entry f i := Fa.entry f.1 i
  update f i e := (Fa.update f.1 i e, f.2)
  ids f := Fa.ids f.1
  take := Fa.take

namespace Track
variable {K V Rep F T : Type}

/-- A `throw` expression.  (No code of its own: C++ language.) -/
def raise {σ : Type} : M σ Unit := fun s => .exc s

/-- The policy's data change.  (The user's program, no code of the library.) -/
def setData (t : T) : M (St Rep (F × T)) Unit :=
  M.update fun s => { s with fac := (s.fac.1, t) }

/-- `flyweight_core_tracking_helper::erase(h,chk)`,
/repo/include/boost/flyweight/detail/flyweight_core.hpp:67-74. -/
def helperErase (P : Policy K V Rep) (Fa : Factory (F × T) (Ent Rep)) (h : Nat) (chk : T → T × Bool) :
    M (St Rep (F × T)) Unit := do
  Core.init
  Core.lock
  M.scope (do
    let s ← M.read
    setData (chk s.fac.2).1
    if (chk s.fac.2).2 then Core.facErase P Fa h else pure ()) Core.unlock

/-- A member function of the handle type is executed; its calls of the helper are those of
/repo/include/boost/flyweight/detail/flyweight_core.hpp:67-74. -/
def runCode (P : Policy K V Rep) (Fa : Factory (F × T) (Ent Rep)) : Code T → M (St Rep (F × T)) Unit
  | .ret t => setData t
  | .erase t h chk next => do
    setData t
    helperErase P Fa h chk
    let s ← M.read
    runCode P Fa (next s.fac.2)

/-- A member function is called on the policy's data as they are now.  (No code of its own.) -/
def call (P : Policy K V Rep) (Fa : Factory (F × T) (Ent Rep)) (c : T → Code T) : M (St Rep (F × T)) Unit := do
  let s ← M.read
  runCode P Fa (c s.fac.2)

/-- `static_cast<handle_type>` of the factory's handle,
/repo/include/boost/flyweight/detail/flyweight_core.hpp:268, 283, 298, 308.  If the constructor throws, nothing
is done about the entry. -/
def construct (P : Policy K V Rep) (Fa : Factory (F × T) (Ent Rep)) (tr : Tracker T) (h : Nat) :
    M (St Rep (F × T)) Unit := do
  let s ← M.read
  match tr.fails s.fac.2 h with
  | none => runCode P Fa (tr.ctor s.fac.2 h)
  | some c => do
    runCode P Fa c
    raise

/-- The locked part of `insert_rep` and `insert_value`: the handle is constructed before the lock is
released, /repo/include/boost/flyweight/detail/flyweight_core.hpp:265-269, 279-283, 296-299, 306-310. -/
def insertLocked (P : Policy K V Rep) (Fa : Factory (F × T) (Ent Rep)) (tr : Tracker T) (src : Src K V) :
    M (St Rep (F × T)) Nat := do
  Core.lock
  M.scope (do
    let h ← Core.insertAndVisit P Fa src
    construct P Fa tr h
    pure h) Core.unlock

/-- `insert(args...)`, /repo/include/boost/flyweight/detail/flyweight_core.hpp:167-184, 275-311.  If
`entry_type` is a class of its own, it is made from a temporary, as with `refcounted`. -/
def insert (P : Policy K V Rep) (Fa : Factory (F × T) (Ent Rep)) (tr : Tracker T) (src : Src K V) :
    M (St Rep (F × T)) Nat :=
  match src with
  | .key _ => do
    let x ← Core.env (P.ofSrc src)
    Core.withLocal P x (do
      Core.init
      let p ← Core.env (P.move x)
      Core.setTop p.2
      Core.withLocal P p.1 (insertLocked P Fa tr src))
  | _ => do
    Core.init
    let e ← Core.entryOf P (if tr.wraps then .refcounted else .noTracking) src
    Core.withLocal P e (insertLocked P Fa tr src)

/-- Constructors from arguments, values or an initializer list,
/repo/include/boost/flyweight/flyweight.hpp:193-212. -/
def make (P : Policy K V Rep) (Fa : Factory (F × T) (Ent Rep)) (tr : Tracker T) (x : Nat) (src : Src K V) :
    M (St Rep (F × T)) Unit := do
  let h ← insert P Fa tr src
  Core.newObj x h

/-- Copy constructors and move constructors, which all copy the handle,
/repo/include/boost/flyweight/flyweight.hpp:214-219. -/
def copy (P : Policy K V Rep) (Fa : Factory (F × T) (Ent Rep)) (tr : Tracker T) (x y : Nat) :
    M (St Rep (F × T)) Unit := do
  let h ← Core.handleOf y
  call P Fa fun t => tr.copy t h
  Core.newObj x h

/-- `h=x.h`, /repo/include/boost/flyweight/flyweight.hpp:231-239. -/
def assignHandle (P : Policy K V Rep) (Fa : Factory (F × T) (Ent Rep)) (tr : Tracker T) (x h : Nat) :
    M (St Rep (F × T)) Unit := do
  let old ← Core.handleOf x
  Core.setHandle x h
  call P Fa fun t => tr.assign t old h

/-- `operator=(const flyweight&)`, /repo/include/boost/flyweight/flyweight.hpp:231. -/
def assign (P : Policy K V Rep) (Fa : Factory (F × T) (Ent Rep)) (tr : Tracker T) (x y : Nat) :
    M (St Rep (F × T)) Unit := do
  let h ← Core.handleOf y
  assignHandle P Fa tr x h

/-- `operator=(value)`: assignment from a temporary flyweight, which is then destroyed,
/repo/include/boost/flyweight/flyweight.hpp:221-239. -/
def assignVal (P : Policy K V Rep) (Fa : Factory (F × T) (Ent Rep)) (tr : Tracker T) (x : Nat) (src : Src K V) :
    M (St Rep (F × T)) Unit := do
  let h ← insert P Fa tr src
  assignHandle P Fa tr x h
  call P Fa fun t => tr.dtor t h

/-- `swap`, /repo/include/boost/flyweight/flyweight.hpp:278. -/
def swap (P : Policy K V Rep) (Fa : Factory (F × T) (Ent Rep)) (tr : Tracker T) (x y : Nat) :
    M (St Rep (F × T)) Unit := do
  let h ← Core.handleOf x
  let h' ← Core.handleOf y
  Core.setHandle x h'
  Core.setHandle y h
  call P Fa fun t => tr.swap t h h'

/-- Implicit destructor of `flyweight`: destroys the handle,
/repo/include/boost/flyweight/flyweight.hpp:281. -/
def destroy (P : Policy K V Rep) (Fa : Factory (F × T) (Ent Rep)) (tr : Tracker T) (x : Nat) :
    M (St Rep (F × T)) Unit := do
  let h ← Core.handleOf x
  M.update fun s => { s with objs := s.objs.filter fun p => p.1 ≠ x }
  call P Fa fun t => tr.dtor t h

/-- One operation of the program. (Dispatch to the functions above.)  Models the calls of
/repo/include/boost/flyweight/flyweight.hpp:181-278 by the program. -/
def step (P : Policy K V Rep) (Fa : Factory (F × T) (Ent Rep)) (tr : Tracker T) (hp : Nat → Nat) :
    Op K V → M (St Rep (F × T)) (Out K V)
  | .init => do Core.init; pure .done
  | .make x s => do make P Fa tr x s; pure .done
  | .copy x y => do copy P Fa tr x y; pure .done
  | .move x y => do copy P Fa tr x y; pure .done
  | .assign x y => do assign P Fa tr x y; pure .done
  | .assignVal x s => do assignVal P Fa tr x s; pure .done
  | .swap x y => do swap P Fa tr x y; pure .done
  | .destroy x => do destroy P Fa tr x; pure .done
  | .get x => do let a ← Core.get P Fa x; pure (.val a.1 a.2)
  | .getKey x => do let k ← Core.getKey P Fa x; pure (.key k)
  | .eq x y => do let b ← Core.eq P Fa x y; pure (.bool b)
  | .hash x => do let n ← Core.hash P Fa hp x; pure (.num n)

/-- A program: each valid operation is executed, and an exception is caught by the program, which carries on with
the next operation; invalid operations are skipped.  `none`: undefined behaviour.  (The user's program, no
code of the library.) -/
def exec (P : Policy K V Rep) (Fa : Factory (F × T) (Ent Rep)) (tr : Tracker T) (hp : Nat → Nat)
    (sp : SrcSpec K V) : List (Op K V) → St Rep (F × T) → Option (List (Out K V) × St Rep (F × T))
  | [], s => some ([], s)
  | op :: ops, s =>
    if op.valid sp (s.objs.map Prod.fst) then
      match step P Fa tr hp op s with
      | .ok o s' => (exec P Fa tr hp sp ops s').map fun p => (o :: p.1, p.2)
      | .exc s' => (exec P Fa tr hp sp ops s').map fun p => (.threw :: p.1, p.2)
      | .ub => none
    else (exec P Fa tr hp sp ops s).map fun p => (.skipped :: p.1, p.2)

end Track

/-! ## What is asked of the policy -/

/-- One flyweight more with handle `h`.  (No code of its own: used in statements and proofs.) -/
abbrev more (r : Nat → Nat) (h : Nat) : Nat → Nat := fun i => if i = h then r i + 1 else r i

/-- One flyweight less with handle `h`.  (No code of its own: used in statements and proofs.) -/
abbrev fewer (r : Nat → Nat) (h : Nat) : Nat → Nat := fun i => if i = h then r i - 1 else r i

/-- Value `h` is stored as well.  (No code of its own: used in statements and proofs.) -/
abbrev storing (p : Nat → Bool) (h : Nat) : Nat → Bool := fun i => if i = h then true else p i

/-- Value `h` is not stored any more.  (No code of its own: used in statements and proofs.) -/
abbrev removing (p : Nat → Bool) (h : Nat) : Nat → Bool := fun i => if i = h then false else p i

/-- Code that removes values only if they are stored and no flyweight has them (`r i` flyweights have value
`i`, `p i` tells whether it is stored), and ends with `J`.  (No code of its own: used in statements and
proofs.) -/
def Code.Ok {T : Type} (tr : Tracker T) (J : T → (Nat → Nat) → (Nat → Bool) → Prop) (r : Nat → Nat) :
    Code T → (Nat → Bool) → Prop
  | .ret t, p => J t r p
  | .erase t h chk next, p =>
    if (chk t).2 = true then
      p h = true ∧ r h = 0 ∧ Code.Ok tr J r (next (tr.gone (chk t).1 h)) (removing p h)
    else Code.Ok tr J r (next (chk t).1) p

/-- A policy that never removes a value that a flyweight has: there is a relation `J` between its data, the number
of flyweights with each value and the values stored, which all its functions maintain; `N h` is the relation
while value `h` has just been stored and no handle to it has been made yet.  (No code of its own: used in statements and
proofs.) -/
structure Tracker.Sound {T : Type} (tr : Tracker T) (J : T → (Nat → Nat) → (Nat → Bool) → Prop)
    (N : Nat → T → (Nat → Nat) → (Nat → Bool) → Prop) : Prop where
  start : J tr.start (fun _ => 0) (fun _ => false)
  made : ∀ t r p h, J t r p → p h = false → r h = 0 → N h (tr.made t h) r (storing p h)
  gone : ∀ t r p h, N h t r p → J (tr.gone t h) r (removing p h)
  first : ∀ t r p h, N h t r p → p h = true → r h = 0 → tr.fails t h = none → (tr.ctor t h).Ok tr J (more r h) p
  ctor : ∀ t r p h, J t r p → p h = true → tr.fails t h = none → (tr.ctor t h).Ok tr J (more r h) p
  firstFails : ∀ t r p h c, N h t r p → p h = true → r h = 0 → tr.fails t h = some c → c.Ok tr J r p
  fails : ∀ t r p h c, J t r p → p h = true → tr.fails t h = some c → c.Ok tr J r p
  copy : ∀ t r p h, J t r p → p h = true → 0 < r h → (tr.copy t h).Ok tr J (more r h) p
  assign : ∀ t r p old h, J t r p → p old = true → 0 < r old → p h = true → 0 < r h →
    (tr.assign t old h).Ok tr J (fewer (more r h) old) p
  swap : ∀ t r p h h', J t r p → p h = true → 0 < r h → p h' = true → 0 < r h' →
    (tr.swap t h h').Ok tr J r p
  dtor : ∀ t r p h, J t r p → p h = true → 0 < r h → (tr.dtor t h).Ok tr J (fewer r h) p

/-- The constructor of handles may throw.  (No code of its own: used in statements and proofs.) -/
def Tracker.Throws {T : Type} (tr : Tracker T) : Prop := ∃ t h, (tr.fails t h).isSome = true

/-- The constructor of handles has nothing erased when it throws.  (No code of its own: used in statements and proofs.) -/
def Tracker.Leaves {T : Type} (tr : Tracker T) : Prop := ∀ t h c, tr.fails t h = some c → ∃ t', c = .ret t'

/-! ## What users see -/

section
variable {K V : Type}

/-- After an operation, values that no flyweight has may be removed.  (No code of its own: used in statements and
proofs.) -/
structure SSt.Collect (t t' : SSt K V) : Prop where
  vars : t'.vars = t.vars
  less : ∀ b ∈ t'.kept, b ∈ t.kept
  bound : ∀ q ∈ t.vars, q.2 ∈ t'.kept

/-- A run of the specification with values that linger and may be removed when no flyweight has them.  If handles `may` fail to be made,
a creation may throw that has stored its value.  (No code of its own: used in statements and proofs.) -/
inductive CRun (may : Prop) (keq : K → K → Bool) (sp : SrcSpec K V) (hp : Nat → Nat) :
    SSt K V → List (Op K V) → List (Out K V) → SSt K V → Prop
  | nil (s) : CRun may keq sp hp s [] [] s
  | step {s op out s1 s' ops outs s''} : Op.valid sp s.names op = true →
      SStep .noTracking keq sp hp s op out s1 → s1.Collect s' → CRun may keq sp hp s' ops outs s'' →
      CRun may keq sp hp s (op :: ops) (out :: outs) s''
  | left {s x op src b s1 s' ops outs s''} : may → Op.valid sp s.names op = true →
      op = .make x src ∨ op = .assignVal x src → Create .noTracking keq sp s src b s1 → s1.Collect s' →
      CRun may keq sp hp s' ops outs s'' → CRun may keq sp hp s (op :: ops) (.threw :: outs) s''
  | skip {s op ops outs s''} : Op.valid sp s.names op = false →
      CRun may keq sp hp s ops outs s'' →
      CRun may keq sp hp s (op :: ops) (.skipped :: outs) s''

end

end Verif

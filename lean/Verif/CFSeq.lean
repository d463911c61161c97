import Verif.PolicyLaws
import Verif.CFSpec

/-!
# Flyweights with `concurrent_factory`, in detail

Models /repo/include/boost/flyweight/concurrent_factory.hpp with the members of `flyweight_core` and `flyweight` that use it, executed by one
thread, for every value policy, throwing user operations included; the garbage collector acts between operations.  (Several threads:
`Verif.CFac`, where keys and values are not told apart in such detail.)

What a constructor throws leaves an entry without value in the container: unlike the other factories, this one does not erase it.
-/

set_option autoImplicit false

namespace Verif.CFSeq
open Verif.CFSpec (Ev)

/-- An element of the container: `refcounted_entry`, /repo/include/boost/flyweight/concurrent_factory.hpp:40-53, at its address.  `cnt`: its reference
count; `ref`, `del`: those of `refcounted_value` (/repo/include/boost/flyweight/refcounted.hpp:53-106), used if the tracking policy is
`refcounted`.  Simplification: `long` counters are unbounded integers. -/
structure Node (Rep : Type) where
  id : Nat
  addr : Nat
  rep : Rep
  cnt : Int
  ref : Int
  del : Int

/-- State of one flyweight type and of the program's variables of that type; see `Verif.St`.  `cont`: the elements of
`boost::concurrent_node_set` (/repo/include/boost/flyweight/concurrent_factory.hpp:173), whose nodes do not move.  Simplification: the mutex of
`simple_locking` is left out, one thread at a time being looked at. -/
structure St (Rep : Type) where
  env : Env
  inited : Bool
  cont : List (Node Rep)
  alloc : Nat → List Nat → Nat
  nextId : Nat
  objs : List (Nat × Nat)

variable {K V Rep : Type}

/-- Run a computation on the environment. (No code of its own.) -/
def env {α : Type} (m : M Env α) : M (St Rep) α := fun s =>
  match m s.env with
  | .ok a e => .ok a { s with env := e }
  | .exc e => .exc { s with env := e }
  | .ub => .ub

/-- `init()`, /repo/include/boost/flyweight/detail/flyweight_core.hpp:153-163. -/
def init : M (St Rep) Unit := M.update fun s => { s with inited := true }

/-- `*static_factory_ptr`: undefined before `init()`, /repo/include/boost/flyweight/detail/flyweight_core.hpp:203-206. -/
def deref : M (St Rep) Unit := do
  let s ← M.read
  if s.inited then pure () else M.undef

/-- The element that a handle refers to, /repo/include/boost/flyweight/concurrent_factory.hpp:68, 170; undefined if it has been erased. -/
def node (i : Nat) : M (St Rep) (Node Rep) := do
  deref
  let s ← M.read
  match s.cont.find? fun n => n.id == i with
  | none => M.undef
  | some n => pure n

/-- Change an element in place. (No code of its own.) -/
def setNode (i : Nat) (f : Node Rep → Node Rep) : M (St Rep) Unit :=
  M.update fun s => { s with cont := s.cont.map fun n => if n.id = i then f n else n }

/-- The function `g` of `insert_and_visit`: the visitor given by the core, then `add_ref`,
/repo/include/boost/flyweight/concurrent_factory.hpp:155-159.  If the visitor throws the count is not changed. -/
def visitNode (P : Policy K V Rep) (src : Src K V) (i : Nat) : M (St Rep) Unit := do
  let n ← node i
  let r ← env (P.visit src n.rep)
  setNode i fun n => { n with rep := r, cnt := n.cnt + 1 }

/-- The conversion to `const key_type&` of `r` and of every element is defined, as the container's hashing and comparing needs;
/repo/include/boost/flyweight/concurrent_factory.hpp:98-111.  Simplification: all elements, not only those compared. -/
def readable (P : Policy K V Rep) (r : Rep) : M (St Rep) Unit := do
  let s ← M.read
  if (P.toKey r).isSome && s.cont.all (fun n => (P.toKey n.rep).isSome) then pure () else M.undef

/-- The element with a key equivalent to that of `r`; the container's lookup with `Hash` and `Pred`,
/repo/include/boost/flyweight/concurrent_factory.hpp:98-111.  Simplification: equivalent keys have equal hashes. -/
def find (P : Policy K V Rep) (keq : K → K → Bool) (s : St Rep) (r : Rep) : Option (Node Rep) :=
  s.cont.find? fun n => match P.toKey n.rep, P.toKey r with
    | some l, some k => keq l k
    | _, _ => false

/-- A new node with entry `r` and counts zero, /repo/include/boost/flyweight/concurrent_factory.hpp:52, at an address not in use. -/
def link (r : Rep) : M (St Rep) Nat := fun s =>
  .ok s.nextId { s with
    cont := ⟨s.nextId, s.alloc s.nextId (s.cont.map Node.addr), r, 0, 0, 0⟩ :: s.cont,
    nextId := s.nextId + 1 }

/-- `cont.insert_and_visit(t,g,g)` for a temporary `t`, whose destructor follows:
/repo/include/boost/flyweight/concurrent_factory.hpp:161.  Hashing, comparing and allocating may throw; a new node's entry is moved from
`t`. -/
def emplace (P : Policy K V Rep) (keq : K → K → Bool) (src : Src K V) (t : Rep) : M (St Rep) Nat := do
  M.onExc (do deref; readable P t; env mayThrow) (env (P.destroy t))
  let s ← M.read
  match find P keq s t with
  | some n => do
    M.scope (visitNode P src n.id) (env (P.destroy t))
    pure n.id
  | none => do
    let p ← M.onExc (env (do mayThrow; P.move t)) (env (P.destroy t))
    let i ← link p.1
    M.scope (visitNode P src i) (env (P.destroy p.2))
    pure i

/-- Something is done with a new object moved from the local object `r`, and `r` is destroyed at the end. (No code of its own.) -/
def moved (P : Policy K V Rep) {α : Type} (r : Rep) (m : Rep → M (St Rep) α) : M (St Rep) α := do
  let p ← M.onExc (env (P.move r)) (env (P.destroy r))
  M.scope (m p.1) (env (P.destroy p.2))

/-- `entry_type e((rep_type(x)))`, /repo/include/boost/flyweight/detail/flyweight_core.hpp:278, 305; see `Verif.Core.entryOf`. -/
def entryOf (P : Policy K V Rep) (trk : Tracking) (src : Src K V) : M (St Rep) Rep :=
  match trk with
  | .noTracking => env (P.ofSrc src)
  | .refcounted => do
    let x ← env (P.ofSrc src)
    moved P x fun e => pure e

/-- The factory's handle becomes the flyweight's: nothing with `no_tracking`, `refcounted_handle(const Handle&)` with `refcounted`,
/repo/include/boost/flyweight/refcounted.hpp:112-117.  The assertion that the count is positive
(/repo/include/boost/flyweight/concurrent_factory.hpp:80) is undefined behaviour here.  Simplification: copies of the factory's handle
that are destroyed at once are left out. -/
def handleCtor (trk : Tracking) (i : Nat) : M (St Rep) Unit := do
  let n ← node i
  if n.cnt > 0 then
    match trk with
    | .noTracking => pure ()
    | .refcounted => setNode i fun n => { n with ref := n.ref + 1, del := if n.ref + 1 = 1 then n.del + 1 else n.del }
  else M.undef

/-- Copy constructor of the handle, /repo/include/boost/flyweight/concurrent_factory.hpp:59 and
/repo/include/boost/flyweight/refcounted.hpp:119-122. -/
def handleCopy (trk : Tracking) (i : Nat) : M (St Rep) Unit := do
  let _ ← node i
  setNode i fun n => { n with cnt := n.cnt + 1, ref := match trk with | .noTracking => n.ref | .refcounted => n.ref + 1 }

/-- Destructor of the handle.  With `refcounted` (/repo/include/boost/flyweight/refcounted.hpp:130-135, 145-148 and
/repo/include/boost/flyweight/detail/flyweight_core.hpp:67-74) the counts of the tracking policy are updated; when they are zero the factory's
`erase` is called, which does nothing (/repo/include/boost/flyweight/concurrent_factory.hpp:165-168).  Then the factory's handle is destroyed,
/repo/include/boost/flyweight/concurrent_factory.hpp:60. -/
def handleDtor (trk : Tracking) (i : Nat) : M (St Rep) Unit := do
  let _ ← node i
  match trk with
  | .noTracking => pure ()
  | .refcounted => do
    init
    setNode i fun n => { n with ref := n.ref - 1, del := if n.ref - 1 = 0 then n.del - 1 else n.del }
  setNode i fun n => { n with cnt := n.cnt - 1 }

/-- `insert(args...)`, /repo/include/boost/flyweight/detail/flyweight_core.hpp:167-184, 275-311, with `insert_and_visit` of
/repo/include/boost/flyweight/concurrent_factory.hpp:151-163, in which a temporary is moved from the argument (line 161). -/
def insert (P : Policy K V Rep) (keq : K → K → Bool) (trk : Tracking) (src : Src K V) : M (St Rep) Nat := do
  let i ← (match src with
    | .key _ => do
      let x ← env (P.ofSrc src)
      init
      moved P x fun e => moved P e fun t => emplace P keq src t
    | _ => do
      init
      let e ← entryOf P trk src
      moved P e fun t => emplace P keq src t)
  handleCtor trk i
  pure i

/-! ## Class template flyweight -/

/-- Handle held by variable `x`; undefined if there is no such variable. (/repo/include/boost/flyweight/flyweight.hpp:281) -/
def handleOf (x : Nat) : M (St Rep) Nat := do
  let s ← M.read
  match s.objs.lookup x with
  | none => M.undef
  | some h => pure h

/-- A new flyweight variable holding handle `h`. (/repo/include/boost/flyweight/flyweight.hpp:281) -/
def newObj (x h : Nat) : M (St Rep) Unit := M.update fun s => { s with objs := (x, h) :: s.objs }

/-- Replace the handle held by variable `x`. (/repo/include/boost/flyweight/flyweight.hpp:281) -/
def setHandle (x h : Nat) : M (St Rep) Unit :=
  M.update fun s => { s with objs := s.objs.map fun p => if p.1 = x then (x, h) else p }

/-- Constructors from arguments, values or an initializer list, /repo/include/boost/flyweight/flyweight.hpp:193-212. -/
def make (P : Policy K V Rep) (keq : K → K → Bool) (trk : Tracking) (x : Nat) (src : Src K V) : M (St Rep) Unit := do
  let h ← insert P keq trk src
  newObj x h

/-- Copy and move constructors, /repo/include/boost/flyweight/flyweight.hpp:214-219. -/
def copy (trk : Tracking) (x y : Nat) : M (St Rep) Unit := do
  let h ← handleOf y
  handleCopy trk h
  newObj x h

/-- Handle assignment: the argument is a copy, swapped with `*this` and then destroyed,
/repo/include/boost/flyweight/concurrent_factory.hpp:62-66 and /repo/include/boost/flyweight/refcounted.hpp:124-128. -/
def assignHandle (trk : Tracking) (x h : Nat) : M (St Rep) Unit := do
  handleCopy trk h
  let old ← handleOf x
  setHandle x h
  handleDtor trk old

/-- `operator=(const flyweight&)`, /repo/include/boost/flyweight/flyweight.hpp:231. -/
def assign (trk : Tracking) (x y : Nat) : M (St Rep) Unit := do
  let h ← handleOf y
  assignHandle trk x h

/-- `operator=(value)`, /repo/include/boost/flyweight/flyweight.hpp:221-239. -/
def assignVal (P : Policy K V Rep) (keq : K → K → Bool) (trk : Tracking) (x : Nat) (src : Src K V) : M (St Rep) Unit := do
  let h ← insert P keq trk src
  assignHandle trk x h
  handleDtor trk h

/-- `swap`, /repo/include/boost/flyweight/flyweight.hpp:278.  Simplification: with `no_tracking` the handles are exchanged through a temporary
copy (there is no `swap` for them in /repo/include/boost/flyweight/concurrent_factory.hpp:56-86), which leaves the counts as they were. -/
def swap (x y : Nat) : M (St Rep) Unit := do
  let h ← handleOf x
  let h' ← handleOf y
  setHandle x h'
  setHandle y h

/-- Implicit destructor of `flyweight`, /repo/include/boost/flyweight/flyweight.hpp:281. -/
def destroy (trk : Tracking) (x : Nat) : M (St Rep) Unit := do
  let h ← handleOf x
  M.update fun s => { s with objs := s.objs.filter fun p => p.1 ≠ x }
  handleDtor trk h

/-- `get()`, /repo/include/boost/flyweight/flyweight.hpp:250-253 and /repo/include/boost/flyweight/detail/flyweight_core.hpp:191-194: address of the value
and the value. -/
def get (P : Policy K V Rep) (x : Nat) : M (St Rep) (Nat × V) := do
  let h ← handleOf x
  let n ← node h
  match P.toValue n.rep with
  | none => M.undef
  | some v => pure (n.addr, v)

/-- `get_key()`, /repo/include/boost/flyweight/flyweight.hpp:243-248 and /repo/include/boost/flyweight/detail/flyweight_core.hpp:196-201. -/
def getKey (P : Policy K V Rep) (x : Nat) : M (St Rep) K := do
  let h ← handleOf x
  let n ← node h
  match P.toKey n.rep with
  | none => M.undef
  | some k => pure k

/-- `operator==`, /repo/include/boost/flyweight/flyweight.hpp:257-269. -/
def eq (P : Policy K V Rep) (x y : Nat) : M (St Rep) Bool := do
  let a ← get P x
  let b ← get P y
  pure (a.1 == b.1)

/-- Hash of a flyweight, /repo/include/boost/flyweight/flyweight.hpp:470-506. -/
def hash (P : Policy K V Rep) (hp : Nat → Nat) (x : Nat) : M (St Rep) Nat := do
  let a ← get P x
  pure (hp a.1)

/-- The garbage collector looks at element `i`: `erase_if` with its condition, /repo/include/boost/flyweight/concurrent_factory.hpp:128.  The element is
erased, and its entry destroyed, if its count is zero. -/
def collect (P : Policy K V Rep) (i : Nat) : M (St Rep) Unit := do
  let s ← M.read
  match s.cont.find? fun n => n.id == i with
  | none => pure ()
  | some n =>
    if n.cnt = 0 then do
      env (P.destroy n.rep)
      M.update fun s => { s with cont := s.cont.filter fun n => n.id != i }
    else pure ()

/-- A pass of the garbage collector over all elements, /repo/include/boost/flyweight/concurrent_factory.hpp:128. -/
def pass (P : Policy K V Rep) : M (St Rep) Unit := do
  let s ← M.read
  (s.cont.map Node.id).forM (collect P)

/-- One operation of the program. (Dispatch to the functions above.)  Models the calls of
/repo/include/boost/flyweight/flyweight.hpp:181-278 by the program. -/
def step (P : Policy K V Rep) (keq : K → K → Bool) (trk : Tracking) (hp : Nat → Nat) : Op K V → M (St Rep) (Out K V)
  | .init => do init; pure .done
  | .make x s => do make P keq trk x s; pure .done
  | .copy x y => do copy trk x y; pure .done
  | .move x y => do copy trk x y; pure .done
  | .assign x y => do assign trk x y; pure .done
  | .assignVal x s => do assignVal P keq trk x s; pure .done
  | .swap x y => do swap x y; pure .done
  | .destroy x => do destroy trk x; pure .done
  | .get x => do let a ← get P x; pure (.val a.1 a.2)
  | .getKey x => do let k ← getKey P x; pure (.key k)
  | .eq x y => do let b ← eq P x y; pure (.bool b)
  | .hash x => do let n ← hash P hp x; pure (.num n)

/-- A program that catches exceptions and carries on, with the garbage collector at work; invalid operations are skipped.  `none`: undefined
behaviour.  (The user's program, no code of the library.) -/
def exec (P : Policy K V Rep) (keq : K → K → Bool) (trk : Tracking) (hp : Nat → Nat) (sp : SrcSpec K V) :
    List (Ev K V) → St Rep → Option (List (Out K V) × St Rep)
  | [], s => some ([], s)
  | .op o :: evs, s =>
    if o.valid sp (s.objs.map Prod.fst) then
      match step P keq trk hp o s with
      | .ok out s' => (exec P keq trk hp sp evs s').map fun p => (out :: p.1, p.2)
      | .exc s' => (exec P keq trk hp sp evs s').map fun p => (.threw :: p.1, p.2)
      | .ub => none
    else (exec P keq trk hp sp evs s).map fun p => (.skipped :: p.1, p.2)
  | .collect i :: evs, s =>
    match collect P i s with
    | .ok _ s' => exec P keq trk hp sp evs s'
    | .exc _ => none
    | .ub => none

/-- State at program start, /repo/include/boost/flyweight/detail/flyweight_core.hpp:314-351. -/
def start (fl : Nat → Bool) (alloc : Nat → List Nat → Nat) : St Rep where
  env := ⟨fl, 0, 0, 0, 0, false, []⟩
  inited := false
  cont := []
  alloc := alloc
  nextId := 0
  objs := []

end Verif.CFSeq

import Verif.Policy
import Verif.Factory
import Verif.Spec

/-!
# Sequential core

Models /repo/include/boost/flyweight/detail/flyweight_core.hpp,
/repo/include/boost/flyweight/refcounted.hpp,
/repo/include/boost/flyweight/no_tracking.hpp and the members of class template
`flyweight` in /repo/include/boost/flyweight/flyweight.hpp, executed by one
thread.  The C++11 overloads (rvalue references, variadic templates) are the ones
modelled.
-/

set_option autoImplicit false

namespace Verif

/-- A factory entry: `refcounted_value` around the policy's `rep_type`,
/repo/include/boost/flyweight/refcounted.hpp:53-106.  With `no_tracking` the
entry is just the `rep_type` (/repo/include/boost/flyweight/no_tracking.hpp:29-33)
and the counters are not used.  `long` counters are unbounded integers here. -/
structure Ent (Rep : Type) where
  rep : Rep
  ref : Int
  del : Int

/-- State of one flyweight type and of the program's variables of that type.
* `inited`: `static_initializer`, true iff the static pointers are set
  (/repo/include/boost/flyweight/detail/flyweight_core.hpp:153-163, 314-351);
* `depth`: number of times the recursive mutex is locked;
* `fac`: the factory object;
* `addr`: address at which each node was allocated, chosen by the arbitrary
  function `alloc` from the number of the node and the addresses in use;
* `nextId`: identity of the next node;
* `locals`: stack of `rep_type` objects with automatic storage;
* `objs`: live flyweight variables and the handle each one holds
  (/repo/include/boost/flyweight/flyweight.hpp:281). -/
structure St (Rep F : Type) where
  env : Env
  inited : Bool
  depth : Nat
  fac : F
  addr : Nat → Nat
  alloc : Nat → List Nat → Nat
  nextId : Nat
  locals : List Rep
  objs : List (Nat × Nat)

namespace Core
variable {K V Rep F : Type}

/-- Run a computation on the environment. (No code of its own.) -/
def env {α : Type} (m : M Env α) : M (St Rep F) α := fun s =>
  match m s.env with
  | .ok a e => .ok a { s with env := e }
  | .exc e => .exc { s with env := e }
  | .ub => .ub

/-- Enter the scope of a local `rep_type` object; its destructor runs at the end.
Models `entry_type e(...)` and the temporaries of
/repo/include/boost/flyweight/detail/flyweight_core.hpp:169, 278, 295, 305. -/
def withLocal (P : Policy K V Rep) {α : Type} (r : Rep) (m : M (St Rep F) α) : M (St Rep F) α := do
  M.update fun s => { s with locals := r :: s.locals }
  M.scope m (do
    let s ← M.read
    match s.locals with
    | [] => M.undef
    | r :: rest => do
      M.update fun s => { s with locals := rest }
      env (P.destroy r))

/-- Innermost local object. (No code of its own.) -/
def topLocal : M (St Rep F) Rep := do
  let s ← M.read
  match s.locals with
  | [] => M.undef
  | r :: _ => pure r

/-- Innermost local object after it has been moved from. (No code of its own.) -/
def setTop (r : Rep) : M (St Rep F) Unit :=
  M.update fun s => { s with locals := r :: s.locals.tail }

/-- `init()`, /repo/include/boost/flyweight/detail/flyweight_core.hpp:153-163.
The holder (static_holder.hpp:28-39) gives the factory and the mutex, created
on first use; here the (empty) factory is part of the state from the start and
only the setting of the pointers is represented. -/
def init : M (St Rep F) Unit := M.update fun s => { s with inited := true }

/-- `*static_factory_ptr`, `*static_mutex_ptr`: undefined before `init()`,
/repo/include/boost/flyweight/detail/flyweight_core.hpp:203-211. -/
def deref : M (St Rep F) Unit := do
  let s ← M.read
  if s.inited then pure () else M.undef

/-- `lock_type lock(mutex())`, /repo/include/boost/flyweight/detail/flyweight_core.hpp:71,265
with the recursive mutex of /repo/include/boost/flyweight/detail/recursive_lw_mutex.hpp:37-55. -/
def lock : M (St Rep F) Unit := do
  deref
  M.update fun s => { s with depth := s.depth + 1 }

/-- `~scoped_lock`, /repo/include/boost/flyweight/detail/recursive_lw_mutex.hpp:44-52. -/
def unlock : M (St Rep F) Unit := do
  let s ← M.read
  match s.depth with
  | 0 => M.undef
  | n + 1 => M.update fun s => { s with depth := n }

/-- `core::entry(h)`, /repo/include/boost/flyweight/detail/flyweight_core.hpp:186-189;
a handle to an erased entry is undefined behaviour. -/
def entry (Fa : Factory F (Ent Rep)) (h : Nat) : M (St Rep F) (Ent Rep) := do
  deref
  let s ← M.read
  match Fa.entry s.fac h with
  | none => M.undef
  | some e => pure e

/-- Change the mutable parts of a stored entry. (No code of its own.) -/
def setEntry (Fa : Factory F (Ent Rep)) (h : Nat) (e : Ent Rep) : M (St Rep F) Unit :=
  M.update fun s => { s with fac := Fa.update s.fac h e }

/-- `add_ref`, /repo/include/boost/flyweight/refcounted.hpp:96. -/
def addRef (Fa : Factory F (Ent Rep)) (h : Nat) : M (St Rep F) Int := do
  let e ← entry Fa h
  setEntry Fa h { e with ref := e.ref + 1 }
  pure (e.ref + 1)

/-- `release`, /repo/include/boost/flyweight/refcounted.hpp:97. -/
def release (Fa : Factory F (Ent Rep)) (h : Nat) : M (St Rep F) Bool := do
  let e ← entry Fa h
  setEntry Fa h { e with ref := e.ref - 1 }
  pure (e.ref - 1 == 0)

/-- `add_deleter`, /repo/include/boost/flyweight/refcounted.hpp:99. -/
def addDeleter (Fa : Factory F (Ent Rep)) (h : Nat) : M (St Rep F) Unit := do
  let e ← entry Fa h
  setEntry Fa h { e with del := e.del + 1 }

/-- `release_deleter`, /repo/include/boost/flyweight/refcounted.hpp:100. -/
def releaseDeleter (Fa : Factory F (Ent Rep)) (h : Nat) : M (St Rep F) Bool := do
  let e ← entry Fa h
  setEntry Fa h { e with del := e.del - 1 }
  pure (e.del - 1 == 0)

/-- `factory.erase(h)`: removes the node and destroys its entry, e.g.
/repo/include/boost/flyweight/hashed_factory.hpp:86-89. -/
def facErase (P : Policy K V Rep) (Fa : Factory F (Ent Rep)) (h : Nat) : M (St Rep F) Unit := do
  let e ← entry Fa h
  env (P.destroy e.rep)
  M.update fun s => { s with fac := Fa.erase s.fac h }

/-- The conversion to `const key_type&` of `e` and of every stored entry is
defined, e.g. /repo/include/boost/flyweight/key_value.hpp:103-109 as used by
/repo/include/boost/flyweight/hashed_factory.hpp:76.  Simplification: all stored
entries are required to be readable, not only those that are compared. -/
def keysReadable (P : Policy K V Rep) (Fa : Factory F (Ent Rep)) (e : Rep) : M (St Rep F) Unit := do
  let s ← M.read
  if (P.toKey e).isSome && (Fa.ids s.fac).all fun i =>
      match Fa.entry s.fac i with
      | none => false
      | some x => (P.toKey x.rep).isSome
  then pure () else M.undef

/-- Allocate a node, which may throw, and make its entry from `e`; the results are the entry and
what is left of `e`.  The three ways are those of
/repo/include/boost/flyweight/hashed_factory.hpp:74-84 (`Entry&&`),
/repo/example/custom_factory.cpp:50-54 (`const Entry&`) and
/repo/test/test_custom_factory.cpp:31-33, 55 (`const Entry&`, copied to a temporary before the
allocation, then moved; the temporary is destroyed at the end of the statement). -/
def makeNode (P : Policy K V Rep) (take : Take) (e : Rep) : M Env (Rep × Rep) :=
  match take with
  | .moves => do
    mayThrow
    P.move e
  | .copies => do
    mayThrow
    let r ← P.copy e
    pure (r, e)
  | .copiesMoves => do
    let x ← P.copy e
    let p ← M.onExc (do
      mayThrow
      P.move x) (P.destroy x)
    P.destroy p.2
    pure (p.1, e)

/-- `factory.insert(std::move(e))` with `e` the innermost local, e.g.
/repo/include/boost/flyweight/hashed_factory.hpp:74-84: look the entry up (hash
and comparison may throw); if there is no equivalent one, allocate a node (which
may throw) and construct its entry from `e`; the reference counts of the
new entry start at zero (/repo/include/boost/flyweight/refcounted.hpp:72-78).
The factory reads the key of `e` and may read that of any stored entry; it is
undefined if one of them is not there. -/
def facInsert (P : Policy K V Rep) (Fa : Factory F (Ent Rep)) : M (St Rep F) Nat := do
  deref
  let e ← topLocal
  keysReadable P Fa e
  env mayThrow
  let s ← M.read
  match Fa.lookup s.fac ⟨e, 0, 0⟩ with
  | (f, some i) => do
    M.update fun s => { s with fac := f }
    pure i
  | (f, none) => do
    M.update fun s => { s with fac := f }
    let p ← env (makeNode P Fa.take e)
    setTop p.2
    M.update fun s => { s with
      fac := Fa.link s.fac s.nextId ⟨p.1, 0, 0⟩,
      addr := fun i => if i = s.nextId then s.alloc s.nextId ((Fa.ids s.fac).map s.addr) else s.addr i,
      nextId := s.nextId + 1 }
    pure s.nextId

/-- The visitor `key_construct_value`, `copy_construct_value` or
`move_construct_value` applied to a stored entry,
/repo/include/boost/flyweight/detail/flyweight_core.hpp:226-259. -/
def visitEntry (P : Policy K V Rep) (Fa : Factory F (Ent Rep)) (src : Src K V) (h : Nat) :
    M (St Rep F) Unit := do
  let e ← entry Fa h
  let r ← env (P.visit src e.rep)
  setEntry Fa h { e with rep := r }

/-- `insert_and_visit`, /repo/include/boost/flyweight/detail/flyweight_core.hpp:100-117. -/
def insertAndVisit (P : Policy K V Rep) (Fa : Factory F (Ent Rep)) (src : Src K V) :
    M (St Rep F) Nat := do
  let h ← facInsert P Fa
  M.onExc (visitEntry P Fa src h) (facErase P Fa h)
  pure h

/-- Construction of the tracking policy's handle from the factory's handle:
`refcounted_handle(const Handle&)`, /repo/include/boost/flyweight/refcounted.hpp:112-117;
a plain copy with `no_tracking`. -/
def handleCtor (Fa : Factory F (Ent Rep)) (trk : Tracking) (h : Nat) : M (St Rep F) Unit :=
  match trk with
  | .refcounted => do
    let n ← addRef Fa h
    if n == 1 then addDeleter Fa h
  | .noTracking => pure ()

/-- Copy constructor of the handle, /repo/include/boost/flyweight/refcounted.hpp:119-122. -/
def handleCopy (Fa : Factory F (Ent Rep)) (trk : Tracking) (h : Nat) : M (St Rep F) Unit :=
  match trk with
  | .refcounted => do
    let _ ← addRef Fa h
    pure ()
  | .noTracking => pure ()

/-- `flyweight_core_tracking_helper::erase(h,check_erase)`,
/repo/include/boost/flyweight/detail/flyweight_core.hpp:67-74 with
/repo/include/boost/flyweight/refcounted.hpp:145-148. -/
def trackingErase (P : Policy K V Rep) (Fa : Factory F (Ent Rep)) (h : Nat) : M (St Rep F) Unit := do
  init
  lock
  M.scope (do
    let last ← releaseDeleter Fa h
    if last then facErase P Fa h) unlock

/-- Destructor of the handle, /repo/include/boost/flyweight/refcounted.hpp:130-135. -/
def handleDtor (P : Policy K V Rep) (Fa : Factory F (Ent Rep)) (trk : Tracking) (h : Nat) :
    M (St Rep F) Unit :=
  match trk with
  | .refcounted => do
    let zero ← release Fa h
    if zero then trackingErase P Fa h
  | .noTracking => pure ()

/-- The locked part common to `insert_rep` and `insert_value`: lock, insert and
visit, build the handle, unlock,
/repo/include/boost/flyweight/detail/flyweight_core.hpp:265-269, 279-283, 296-299, 306-310. -/
def insertLocked (P : Policy K V Rep) (Fa : Factory F (Ent Rep)) (trk : Tracking) (src : Src K V) :
    M (St Rep F) Nat := do
  lock
  M.scope (do
    let h ← insertAndVisit P Fa src
    handleCtor Fa trk h
    pure h) unlock

/-- `entry_type e((rep_type(x)))`, /repo/include/boost/flyweight/detail/flyweight_core.hpp:278, 305.  With
`refcounted`, `entry_type` is `refcounted_value`, constructed by moving from the temporary, which then dies
(/repo/include/boost/flyweight/refcounted.hpp:73-75).  With `no_tracking` it is `rep_type` itself
(/repo/include/boost/flyweight/no_tracking.hpp:29-33), so that there is no temporary: since C++17 `e` is initialized
directly, and earlier compilers may do so (the model assumes they do). -/
def entryOf (P : Policy K V Rep) (trk : Tracking) (src : Src K V) : M (St Rep F) Rep :=
  match trk with
  | .noTracking => env (P.ofSrc src)
  | .refcounted => do
    let x ← env (P.ofSrc src)
    withLocal P x (do
      let p ← env (P.move x)
      setTop p.2
      pure p.1)

/-- `insert(args...)`: `insert_rep(rep_type(args...))` for a key
(/repo/include/boost/flyweight/detail/flyweight_core.hpp:167-177, 291-300), or
`insert_value(x)` for a value (178-184, 275-285, 302-311).  In the former case
the temporary `rep_type(args...)` outlives the call. -/
def insert (P : Policy K V Rep) (Fa : Factory F (Ent Rep)) (trk : Tracking) (src : Src K V) :
    M (St Rep F) Nat :=
  match src with
  | .key _ => do
    let x ← env (P.ofSrc src)
    withLocal P x (do
      init
      let p ← env (P.move x)
      setTop p.2
      withLocal P p.1 (insertLocked P Fa trk src))
  | _ => do
    init
    let e ← entryOf P trk src
    withLocal P e (insertLocked P Fa trk src)

/-! ## Class template flyweight -/

/-- Handle held by variable `x`; using a variable that does not exist is
undefined. (/repo/include/boost/flyweight/flyweight.hpp:281) -/
def handleOf (x : Nat) : M (St Rep F) Nat := do
  let s ← M.read
  match s.objs.lookup x with
  | none => M.undef
  | some h => pure h

/-- A new flyweight variable holding handle `h`. (/repo/include/boost/flyweight/flyweight.hpp:281) -/
def newObj (x h : Nat) : M (St Rep F) Unit :=
  M.update fun s => { s with objs := (x, h) :: s.objs }

/-- Replace the handle held by variable `x`. (/repo/include/boost/flyweight/flyweight.hpp:281) -/
def setHandle (x h : Nat) : M (St Rep F) Unit :=
  M.update fun s => { s with objs := s.objs.map fun p => if p.1 = x then (x, h) else p }

/-- Constructors from arguments, values or an initializer list,
/repo/include/boost/flyweight/flyweight.hpp:193-212. -/
def make (P : Policy K V Rep) (Fa : Factory F (Ent Rep)) (trk : Tracking) (x : Nat) (src : Src K V) :
    M (St Rep F) Unit := do
  let h ← insert P Fa trk src
  newObj x h

/-- Copy constructors and move constructors, which all copy the handle,
/repo/include/boost/flyweight/flyweight.hpp:214-219. -/
def copy (Fa : Factory F (Ent Rep)) (trk : Tracking) (x y : Nat) : M (St Rep F) Unit := do
  let h ← handleOf y
  handleCopy Fa trk h
  newObj x h

/-- Handle assignment `operator=(refcounted_handle x)`: the argument is a copy
of the source, swapped with `*this` and then destroyed,
/repo/include/boost/flyweight/refcounted.hpp:124-128. -/
def assignHandle (P : Policy K V Rep) (Fa : Factory F (Ent Rep)) (trk : Tracking) (x h : Nat) :
    M (St Rep F) Unit := do
  handleCopy Fa trk h
  let old ← handleOf x
  setHandle x h
  handleDtor P Fa trk old

/-- `operator=(const flyweight&)`, /repo/include/boost/flyweight/flyweight.hpp:231. -/
def assign (P : Policy K V Rep) (Fa : Factory F (Ent Rep)) (trk : Tracking) (x y : Nat) :
    M (St Rep F) Unit := do
  let h ← handleOf y
  assignHandle P Fa trk x h

/-- `operator=(value)`: assignment from a temporary flyweight, which is then
destroyed, /repo/include/boost/flyweight/flyweight.hpp:221-239. -/
def assignVal (P : Policy K V Rep) (Fa : Factory F (Ent Rep)) (trk : Tracking) (x : Nat)
    (src : Src K V) : M (St Rep F) Unit := do
  let h ← insert P Fa trk src
  assignHandle P Fa trk x h
  handleDtor P Fa trk h

/-- `swap`, /repo/include/boost/flyweight/flyweight.hpp:278 and
/repo/include/boost/flyweight/refcounted.hpp:137-142. -/
def swap (x y : Nat) : M (St Rep F) Unit := do
  let h ← handleOf x
  let h' ← handleOf y
  setHandle x h'
  setHandle y h

/-- Implicit destructor of `flyweight`: destroys the handle,
/repo/include/boost/flyweight/flyweight.hpp:281. -/
def destroy (P : Policy K V Rep) (Fa : Factory F (Ent Rep)) (trk : Tracking) (x : Nat) :
    M (St Rep F) Unit := do
  let h ← handleOf x
  M.update fun s => { s with objs := s.objs.filter fun p => p.1 ≠ x }
  handleDtor P Fa trk h

/-- `get()`: a reference, i.e. the address of the value and the value itself,
/repo/include/boost/flyweight/flyweight.hpp:250-253 and
/repo/include/boost/flyweight/detail/flyweight_core.hpp:191-194.  Each value is
inside its node, so the address of the node stands for that of the value. -/
def get (P : Policy K V Rep) (Fa : Factory F (Ent Rep)) (x : Nat) : M (St Rep F) (Nat × V) := do
  let h ← handleOf x
  let e ← entry Fa h
  let s ← M.read
  match P.toValue e.rep with
  | none => M.undef
  | some v => pure (s.addr h, v)

/-- `get_key()`, /repo/include/boost/flyweight/flyweight.hpp:243-248 and
/repo/include/boost/flyweight/detail/flyweight_core.hpp:196-201. -/
def getKey (P : Policy K V Rep) (Fa : Factory F (Ent Rep)) (x : Nat) : M (St Rep F) K := do
  let h ← handleOf x
  let e ← entry Fa h
  match P.toKey e.rep with
  | none => M.undef
  | some k => pure k

/-- Same-type `operator==`: compares addresses of values,
/repo/include/boost/flyweight/flyweight.hpp:257-269. -/
def eq (P : Policy K V Rep) (Fa : Factory F (Ent Rep)) (x y : Nat) : M (St Rep F) Bool := do
  let a ← get P Fa x
  let b ← get P Fa y
  pure (a.1 == b.1)

/-- `std::hash` and `hash_value`: hash of the address of the value, with `hp`
the hash function of pointers, /repo/include/boost/flyweight/flyweight.hpp:470-506. -/
def hash (P : Policy K V Rep) (Fa : Factory F (Ent Rep)) (hp : Nat → Nat) (x : Nat) :
    M (St Rep F) Nat := do
  let a ← get P Fa x
  pure (hp a.1)

/-- One operation of the program. (Dispatch to the functions above.)  Models the calls of
/repo/include/boost/flyweight/flyweight.hpp:181-278 by the program. -/
def step (P : Policy K V Rep) (Fa : Factory F (Ent Rep)) (trk : Tracking) (hp : Nat → Nat) :
    Op K V → M (St Rep F) (Out K V)
  | .init => do init; pure .done
  | .make x s => do make P Fa trk x s; pure .done
  | .copy x y => do copy Fa trk x y; pure .done
  | .move x y => do copy Fa trk x y; pure .done
  | .assign x y => do assign P Fa trk x y; pure .done
  | .assignVal x s => do assignVal P Fa trk x s; pure .done
  | .swap x y => do swap x y; pure .done
  | .destroy x => do destroy P Fa trk x; pure .done
  | .get x => do let a ← get P Fa x; pure (.val a.1 a.2)
  | .getKey x => do let k ← getKey P Fa x; pure (.key k)
  | .eq x y => do let b ← eq P Fa x y; pure (.bool b)
  | .hash x => do let n ← hash P Fa hp x; pure (.num n)

/-- A program: each valid operation is executed, and an exception is caught by
the program, which carries on with the next operation; invalid operations are
skipped.  `none`: undefined behaviour.  (The program is the user's.)  (The user's program, no
code of the library.) -/
def exec (P : Policy K V Rep) (Fa : Factory F (Ent Rep)) (trk : Tracking) (hp : Nat → Nat)
    (sp : SrcSpec K V) : List (Op K V) → St Rep F → Option (List (Out K V) × St Rep F)
  | [], s => some ([], s)
  | op :: ops, s =>
    if op.valid sp (s.objs.map Prod.fst) then
      match step P Fa trk hp op s with
      | .ok o s' => (exec P Fa trk hp sp ops s').map fun p => (o :: p.1, p.2)
      | .exc s' => (exec P Fa trk hp sp ops s').map fun p => (.threw :: p.1, p.2)
      | .ub => none
    else (exec P Fa trk hp sp ops s).map fun p => (.skipped :: p.1, p.2)

/-- State at program start: nothing initialised, nothing stored
(/repo/include/boost/flyweight/detail/flyweight_core.hpp:314-351), with the given
throw and allocation behaviour. -/
def start (Fa : Factory F (Ent Rep)) (faults : Nat → Bool) (alloc : Nat → List Nat → Nat) :
    St Rep F where
  env := ⟨faults, 0, 0, 0, 0, false, []⟩
  inited := false
  depth := 0
  fac := Fa.empty
  addr _ := 0
  alloc := alloc
  nextId := 0
  locals := []
  objs := []

end Core

end Verif

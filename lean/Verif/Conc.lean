/-!
# Concurrent model of the refcounted protocol

Any number of threads execute the insertion, copy and release code of
/repo/include/boost/flyweight/refcounted.hpp and
/repo/include/boost/flyweight/detail/flyweight_core.hpp for any number of
flyweight types, one atomic action at a time, in any interleaving.  Values may
contain flyweights of any type, and value constructors may use the library.

Factories are represented by the set of their entries: a lookup finds the entry
of the type with an equivalent key (see `Verif/FactoryInst.lean` for the
containers).  A handle is the identity of an entry; identities are not reused, so
that a handle to an erased entry can be told apart.
-/

set_option autoImplicit false

namespace Verif.Conc
variable {K : Type}

/-- A flyweight object: its handle, its type, and (not part of the object, for
stating properties) the key it was created from.
Models member `h` of /repo/include/boost/flyweight/flyweight.hpp:281. -/
structure Fw (K : Type) where
  h : Nat
  c : Nat
  k : K
  deriving DecidableEq

/-- An entry: `refcounted_value`, /repo/include/boost/flyweight/refcounted.hpp:53-106,
around a key and possibly a value.  `core` is the flyweight type it belongs to;
`cted` tells whether the value has been constructed
(`value_cted`, /repo/include/boost/flyweight/key_value.hpp:172); `kids` are the
flyweights contained in the key and the value; `stamp` (for stating properties
only) numbers the constructions of values. -/
structure Ent (K : Type) where
  core : Nat
  key : K
  cted : Bool
  kids : List (Fw K)
  ref : Int
  del : Int
  stamp : Nat

/-- What a thread is going to do next, innermost call first.  `c` is the
flyweight type, `k` the requested key, `e` an entry, `loc` the flyweights held by
the local `entry_type e`.
* `insLock` .. `insUnlock`: `insert_rep`/`insert_value` and `insert_and_visit`,
  /repo/include/boost/flyweight/detail/flyweight_core.hpp:100-117, 261-311, with
  the construction of the value (`insUser`: constructor running; `insDone`: the key
  has been destroyed if need be, `value_cted=true` is next,
  /repo/include/boost/flyweight/key_value.hpp:125-163), and
  `refcounted_handle(const Handle&)`, /repo/include/boost/flyweight/refcounted.hpp:112-117;
* `relDec` .. `relUnlock`: `~refcounted_handle`,
  /repo/include/boost/flyweight/refcounted.hpp:130-135, and
  `flyweight_core_tracking_helper::erase`,
  /repo/include/boost/flyweight/detail/flyweight_core.hpp:67-74. -/
inductive Frame (K : Type) where
  | insLock (c : Nat) (k : K) (loc : List (Fw K)) (pre : Bool)
  | insFind (c : Nat) (k : K) (loc : List (Fw K)) (pre : Bool)
  | insVisit (c : Nat) (k : K) (e : Nat) (loc : List (Fw K)) (new : Bool)
  | insUser (c : Nat) (k : K) (e : Nat)
  | insDone (c : Nat) (k : K) (e : Nat)
  | insCatch (c e : Nat)
  | insUnwind (c : Nat) (loc : List (Fw K))
  | insAddRef (c : Nat) (k : K) (e : Nat) (loc : List (Fw K))
  | insAddDel (c : Nat) (k : K) (e : Nat) (loc : List (Fw K))
  | insUnlock (c : Nat) (k : K) (e : Nat) (loc : List (Fw K))
  | relDec (w : Fw K)
  | relLock (c e : Nat)
  | relCheck (c e : Nat)
  | relErase (c e : Nat)
  | relUnlock (c : Nat)

/-- State: entries of all factories, identity of the next entry, the recursive
mutex of each flyweight type (owner and depth,
/repo/include/boost/flyweight/detail/recursive_lw_mutex.hpp:37-55), the call
stack of each thread, the flyweight objects owned by the program (not inside
values), and the number of values constructed so far. -/
structure St (K : Type) where
  ents : Nat → Option (Ent K)
  next : Nat
  lock : Nat → Option (Nat × Nat)
  thr : List (List (Frame K))
  objs : List (Fw K)
  clock : Nat

/-- Parameters: equivalence of keys for each type; whether the locking policy is
`simple_locking` (/repo/include/boost/flyweight/simple_locking.hpp:27-31) or
`no_locking` (/repo/include/boost/flyweight/no_locking.hpp:26-30); and whether the
deleter count is used, as in the code, or ignored (only for showing that it is
needed). -/
structure Cfg (K : Type) where
  eqv : Nat → K → K → Bool
  locking : Bool
  deleter : Bool

/-- The next action of a thread.  `run`: the next step of the library.  All others
are the user's: in code outside the library, or in a value constructor called by
the library.
* `create`: construct a flyweight of type `c` with key `k`.  The objects
  selected by `mask` are moved into the argument; with `pre` the argument holds the
  value already (`default_value_policy`), otherwise the value is constructed when
  the entry is visited;
* `destroy`: destroy the selected objects;
* `copy`: copy object `i`; `copyKid`: copy the `j`-th flyweight inside the value
  of object `i`; `swap`: exchange objects `i` and `j`; `read`: read the value of
  object `i`;
* `finish`: the value constructor returns, having moved the selected objects
  into the value; `drop` tells whether the key is destroyed then
  (`variant_key_value`, /repo/include/boost/flyweight/key_value.hpp:125-163);
* `throw_`: the operation in progress (hash, comparison, allocation, value
  constructor) throws. -/
inductive Act (K : Type) where
  | run
  | create (c : Nat) (k : K) (mask : List Bool) (pre : Bool)
  | destroy (mask : List Bool)
  | copy (i : Nat)
  | copyKid (i j : Nat)
  | swap (i j : Nat)
  | read (i : Nat)
  | finish (mask : List Bool) (drop : Bool)
  | throw_

/-- Outcome of an action: a new state; not possible now (in particular: waiting
for a mutex); undefined behaviour (use of an erased entry, unlocking a mutex that
is not held, use of a value that does not exist); or a value constructor asked for
the very key it is constructing the value of.  (No code of its own: the meaning of undefined
behaviour and waiting.) -/
inductive Out (K : Type) where
  | ok (s : St K)
  | no
  | ub
  | reentrant

/-- Elements selected by a mask, and the others. (Helper, no code of its own.) -/
def pick {α : Type} : List Bool → List α → List α × List α
  | _, [] => ([], [])
  | [], l => ([], l)
  | b :: m, a :: l => if b then (a :: (pick m l).1, (pick m l).2) else ((pick m l).1, a :: (pick m l).2)

/-- The entry of type `c` with a key equivalent to `k`: `factory.insert` when there is
one, e.g. /repo/include/boost/flyweight/hashed_factory.hpp:74-84. -/
def find (cfg : Cfg K) (s : St K) (c : Nat) (k : K) : Option Nat :=
  (List.range s.next).find? fun e => match s.ents e with
    | none => false
    | some x => x.core == c && cfg.eqv c x.key k

/-- Change of one entry. (Helper, no code of its own.) -/
def setEnt (f : Nat → Option (Ent K)) (e : Nat) (x : Option (Ent K)) : Nat → Option (Ent K) :=
  fun i => if i = e then x else f i

/-- Mutex of type `c` acquired by thread `t`, if possible;
`recursive_lightweight_mutex::scoped_lock`,
/repo/include/boost/flyweight/detail/recursive_lw_mutex.hpp:37-55. -/
def acquire (cfg : Cfg K) (lock : Nat → Option (Nat × Nat)) (t c : Nat) : Option (Nat → Option (Nat × Nat)) :=
  if cfg.locking then
    match lock c with
    | none => some fun i => if i = c then some (t, 1) else lock i
    | some (o, d) => if o = t then some fun i => if i = c then some (t, d + 1) else lock i else none
  else some lock

/-- Mutex of type `c` released by thread `t`; `none` if `t` does not hold it.  Models the
destructor of `scoped_lock`, /repo/include/boost/flyweight/detail/recursive_lw_mutex.hpp:37-55. -/
def unlock (cfg : Cfg K) (lock : Nat → Option (Nat × Nat)) (t c : Nat) : Option (Nat → Option (Nat × Nat)) :=
  if cfg.locking then
    match lock c with
    | none => none
    | some (o, d) =>
      if o = t then some fun i => if i = c then (if d ≤ 1 then none else some (t, d - 1)) else lock i else none
  else some lock

/-- User code runs on this thread: it is not in the library, or in a value
constructor called by the library.  (No code of its own.) -/
def inUser : List (Frame K) → Bool
  | [] => true
  | .insUser .. :: _ => true
  | _ => false

/-- The next step of the library by thread `t`, whose innermost frame is `f` and
whose other frames are `rest`; the line references are those of `Frame`.  Models
/repo/include/boost/flyweight/detail/flyweight_core.hpp:67-74, 100-117, 261-311 and
/repo/include/boost/flyweight/refcounted.hpp:53-135; line references per frame at `Frame`. -/
def lib (cfg : Cfg K) (s : St K) (t : Nat) (f : Frame K) (rest : List (Frame K)) : Out K :=
  -- `go s st`: continue with stack `st`
  let go (s : St K) (st : List (Frame K)) : Out K := .ok { s with thr := s.thr.set t st }
  match f with
  -- lock_type lock(mutex())
  | .insLock c k loc pre => match acquire cfg s.lock t c with
    | none => .no
    | some l => go { s with lock := l } (.insFind c k loc pre :: rest)
  -- fac.insert(std::move(e)): the local `e` is moved from if there is a new entry
  | .insFind c k loc pre => match find cfg s c k with
    | some e => go s (.insVisit c k e loc false :: rest)
    | none => go { s with
        ents := setEnt s.ents s.next (some ⟨c, k, pre, loc, 0, 0, s.clock⟩),
        next := s.next + 1,
        clock := if pre then s.clock + 1 else s.clock } (.insVisit c k s.next [] true :: rest)
  -- f(fac.entry(h)): construct the value if it is not there
  | .insVisit c k e loc new => match s.ents e with
    | none => .ub
    | some x =>
      if x.cted then go s (.insAddRef c k e loc :: rest)
      else if new then go s (.insUser c k e :: rest)
      else .reentrant
  | .insUser .. => .no
  -- value_cted=true
  | .insDone c k e => match s.ents e with
    | none => .ub
    | some x => go { s with
        ents := setEnt s.ents e (some { x with cted := true, stamp := s.clock }),
        clock := s.clock + 1 } (.insAddRef c k e [] :: rest)
  -- fac.erase(h); rethrow
  | .insCatch c e => match s.ents e with
    | none => .ub
    | some x => go { s with ents := setEnt s.ents e none } (x.kids.map .relDec ++ .insUnwind c [] :: rest)
  -- ~lock_type, then ~entry_type of the local `e`
  | .insUnwind c loc => match unlock cfg s.lock t c with
    | none => .ub
    | some l => go { s with lock := l } (loc.map .relDec ++ rest)
  -- add_ref()==1
  | .insAddRef c k e loc => match s.ents e with
    | none => .ub
    | some x => go { s with ents := setEnt s.ents e (some { x with ref := x.ref + 1 }) }
        ((if x.ref + 1 = 1 then .insAddDel c k e loc else .insUnlock c k e loc) :: rest)
  -- add_deleter()
  | .insAddDel c k e loc => match s.ents e with
    | none => .ub
    | some x => go { s with ents := setEnt s.ents e (some { x with del := x.del + 1 }) }
        (.insUnlock c k e loc :: rest)
  -- ~lock_type, then ~entry_type of the local `e`; the flyweight object exists
  | .insUnlock c k e loc => match unlock cfg s.lock t c with
    | none => .ub
    | some l => go { s with lock := l, objs := ⟨e, c, k⟩ :: s.objs } (loc.map .relDec ++ rest)
  -- release()
  | .relDec w => match s.ents w.h with
    | none => .ub
    | some x => go { s with ents := setEnt s.ents w.h (some { x with ref := x.ref - 1 }) }
        (if x.ref - 1 = 0 then .relLock w.c w.h :: rest else rest)
  | .relLock c e => match acquire cfg s.lock t c with
    | none => .no
    | some l => go { s with lock := l } (.relCheck c e :: rest)
  -- check_erase: release_deleter()
  | .relCheck c e => match s.ents e with
    | none => .ub
    | some x =>
      if cfg.deleter then
        go { s with ents := setEnt s.ents e (some { x with del := x.del - 1 }) }
          ((if x.del - 1 = 0 then .relErase c e else .relUnlock c) :: rest)
      else go s (.relErase c e :: rest)
  -- factory().erase(h): the node is unlinked, then the value and the key destroyed
  | .relErase c e => match s.ents e with
    | none => .ub
    | some x => go { s with ents := setEnt s.ents e none } (x.kids.map .relDec ++ .relUnlock c :: rest)
  | .relUnlock c => match unlock cfg s.lock t c with
    | none => .ub
    | some l => go { s with lock := l } rest

/-- An action of thread `t`, whose stack is `st`.  Models the calls of
/repo/include/boost/flyweight/flyweight.hpp:193-239, 257-278 by the program. -/
def act (cfg : Cfg K) (s : St K) (t : Nat) (st : List (Frame K)) : Act K → Out K
  | .run => match st with
    | [] => .no
    | f :: rest => lib cfg s t f rest
  | .create c k mask pre =>
    if inUser st then .ok { s with
      objs := (pick mask s.objs).2, thr := s.thr.set t (.insLock c k (pick mask s.objs).1 pre :: st) }
    else .no
  | .destroy mask =>
    if inUser st then .ok { s with
      objs := (pick mask s.objs).2, thr := s.thr.set t ((pick mask s.objs).1.map .relDec ++ st) }
    else .no
  -- refcounted_handle(const refcounted_handle&)
  | .copy i => if inUser st then
      match s.objs[i]? with
      | none => .no
      | some w => match s.ents w.h with
        | none => .ub
        | some x => .ok { s with
            ents := setEnt s.ents w.h (some { x with ref := x.ref + 1 }), objs := w :: s.objs }
    else .no
  | .copyKid i j => if inUser st then
      match s.objs[i]? with
      | none => .no
      | some w => match s.ents w.h with
        | none => .ub
        | some x => if x.cted then
            match x.kids[j]? with
            | none => .no
            | some v => match s.ents v.h with
              | none => .ub
              | some y => .ok { s with
                  ents := setEnt s.ents v.h (some { y with ref := y.ref + 1 }), objs := v :: s.objs }
          else .ub
    else .no
  | .swap i j => if inUser st then
      match s.objs[i]?, s.objs[j]? with
      | some v, some w => .ok { s with objs := (s.objs.set i w).set j v }
      | _, _ => .no
    else .no
  | .read i => if inUser st then
      match s.objs[i]? with
      | none => .no
      | some w => match s.ents w.h with
        | none => .ub
        | some x => if x.cted then .ok s else .ub
    else .no
  | .finish mask drop => match st with
    | .insUser c k e :: rest => match s.ents e with
      | none => .ub
      | some x => if x.cted then .ub else .ok { s with
          ents := setEnt s.ents e (some { x with
            kids := if drop then (pick mask s.objs).1 else x.kids ++ (pick mask s.objs).1 }),
          objs := (pick mask s.objs).2,
          thr := s.thr.set t ((if drop then x.kids.map .relDec else []) ++ .insDone c k e :: rest) }
    | _ => .no
  | .throw_ => match st with
    | .insUser c _ e :: rest => .ok { s with thr := s.thr.set t (.insCatch c e :: rest) }
    | .insFind c _ loc _ :: rest => .ok { s with thr := s.thr.set t (.insUnwind c loc :: rest) }
    | _ => .no

/-- One step of the system: thread `t` performs action `a`.  (No code of its own: interleaving
of threads.) -/
def step (cfg : Cfg K) (s : St K) (t : Nat) (a : Act K) : Out K :=
  match s.thr[t]? with
  | none => .no
  | some st => act cfg s t st a

/-- At the start there are `n` threads outside the library, no entries and no
flyweight objects.  (No code of its own.) -/
def start (n : Nat) : St K :=
  ⟨fun _ => none, 0, fun _ => none, List.replicate n [], [], 0⟩

/-- Execution of a schedule; actions that are not possible are skipped.  (The
schedule is the operating system's and the user's.)  (No code of its own: the scheduler.) -/
def exec (cfg : Cfg K) : List (Nat × Act K) → St K → Out K
  | [], s => .ok s
  | (t, a) :: l, s => match step cfg s t a with
    | .ok s' => exec cfg l s'
    | .no => exec cfg l s
    | .ub => .ub
    | .reentrant => .reentrant

end Verif.Conc

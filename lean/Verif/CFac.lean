import Verif.Conc

/-!
# Concurrent model of `concurrent_factory`

Any number of user threads and the garbage collectors of any number of factories
execute /repo/include/boost/flyweight/concurrent_factory.hpp, one atomic action at a
time, in any interleaving, for any number of flyweight types.

`boost::concurrent_node_set` is represented by what its documentation says of it:
`insert_and_visit` finds the equivalent element or inserts a new one and calls the
function with exclusive access to the element; `erase_if` calls the predicate with
exclusive access to each element in turn and erases the element under it if told so;
elements inserted during `erase_if` may or may not be visited.  The exclusive access is
represented by a lock per element (the container locks groups of elements, and now
and then everything for rehashing: fewer interleavings).  Calling the container from a
function it calls is not allowed.

All four ways of using the factory are covered: with `refcounted` (`cfg.tracks = true`) or `no_tracking`, and with
`simple_locking` (`cfg.locking = true`) or `no_locking`.
-/

set_option autoImplicit false

namespace Verif.CFac
open Verif.Conc (Fw Cfg pick acquire unlock)
variable {K : Type}

/-- Whether the tracking policy is `refcounted` (/repo/include/boost/flyweight/refcounted.hpp:179-199) or
`no_tracking` (/repo/include/boost/flyweight/no_tracking.hpp:27-40).  The parameter that in `Verif/Conc.lean` tells whether the
deleter count is used, which only `refcounted` has, is used for it. -/
abbrev _root_.Verif.Conc.Cfg.tracks (cfg : Cfg K) : Bool := cfg.deleter

/-- An entry: `refcounted_entry`, /repo/include/boost/flyweight/concurrent_factory.hpp:40-53,
around a key and possibly a value (`cted`), with the flyweights contained in them
(`kids`).  `ref` is its reference count; `tref` the reference count of the
`refcounted_value` inside it, /repo/include/boost/flyweight/refcounted.hpp:104, if that
tracking policy is used (the deleter count next to it has no effect, as `erase` of
the factory does nothing, and is left out). -/
structure Ent (K : Type) where
  core : Nat
  key : K
  cted : Bool
  kids : List (Fw K)
  ref : Int
  tref : Int

/-- What a thread is going to do next, innermost call first.  `c` is the
flyweight type, `k` the requested key, `e` an entry, `loc` the flyweights held by
the entry passed to `insert_and_visit`.
* `insLock` .. `insUnlock`: `insert_rep`/`insert_value`,
  /repo/include/boost/flyweight/detail/flyweight_core.hpp:261-311 and `insert_and_visit`,
  /repo/include/boost/flyweight/concurrent_factory.hpp:151-163, 213-223, with the construction
  of the value (`insUser`, `insDone`, as in `Verif/Conc.lean`), and for `refcounted` the
  constructor of its handle (`insTrack`, /repo/include/boost/flyweight/refcounted.hpp:112-117;
  the copy of the factory's handle it makes and the destruction of the original are
  taken together as a move);
* `rel` .. `relDec`: destructor of a flyweight: for `refcounted`,
  /repo/include/boost/flyweight/refcounted.hpp:130-135 and
  /repo/include/boost/flyweight/detail/flyweight_core.hpp:67-74 first, then that of the
  factory's handle, /repo/include/boost/flyweight/concurrent_factory.hpp:60;
* `gcIdle` .. `gcLeave`: the garbage collector,
  /repo/include/boost/flyweight/concurrent_factory.hpp:116-130.  `gcIdle`: waiting on the
  condition variable; `gcPass`: in `erase_if`, with the entries `todo` still to be
  visited, entries from number `from` on having been inserted in the meantime;
  `gcTest`: about to call the predicate on `e`; `gcErase`: about to destroy the
  element; `gcUnlink`: it has been destroyed; `gcLeave`: done with it, not erased. -/
inductive Frame (K : Type) where
  | insLock (c : Nat) (k : K) (loc : List (Fw K)) (pre : Bool)
  | insHash (c : Nat) (k : K) (loc : List (Fw K)) (pre : Bool)
  | insFind (c : Nat) (k : K) (loc : List (Fw K)) (pre : Bool)
  | insVisit (c : Nat) (k : K) (e : Nat) (loc : List (Fw K))
  | insUser (c : Nat) (k : K) (e : Nat) (loc : List (Fw K))
  | insDone (c : Nat) (k : K) (e : Nat) (loc : List (Fw K))
  | insAddRef (c : Nat) (k : K) (e : Nat) (loc : List (Fw K))
  | insLeave (c : Nat) (k : K) (e : Nat) (loc : List (Fw K))
  | insFail (c e : Nat) (loc : List (Fw K))
  | insUnwind (c : Nat)
  | insTrack (c : Nat) (k : K) (e : Nat)
  | insUnlock (c : Nat) (k : K) (e : Nat)
  | rel (w : Fw K)
  | relLock (w : Fw K)
  | relCheck (w : Fw K)
  | relUnlock (w : Fw K)
  | relDec (w : Fw K)
  | gcIdle (c : Nat)
  | gcPass (c «from» : Nat) (todo : List Nat)
  | gcTest (c e : Nat)
  | gcErase (c e : Nat)
  | gcUnlink (c e : Nat)
  | gcLeave (c e : Nat)

/-- State: entries of all factories, identity of the next entry, which thread has
exclusive access to an element, mutex of each flyweight type (for `simple_locking`), the
call stack of each thread, and the flyweight objects owned by the program (not
inside values).  Models the members in
/repo/include/boost/flyweight/concurrent_factory.hpp:40-53, 173-177,
/repo/include/boost/flyweight/detail/flyweight_core.hpp:314-351 and
/repo/include/boost/flyweight/flyweight.hpp:281. -/
structure St (K : Type) where
  ents : Nat → Option (Ent K)
  next : Nat
  vis : Nat → Option Nat
  lock : Nat → Option (Nat × Nat)
  thr : List (List (Frame K))
  objs : List (Fw K)

/-- The next action of a thread, as in `Verif/Conc.lean`; in addition `gcVisit e`: the
garbage collector proceeds to element `e`.  Library code:
/repo/include/boost/flyweight/concurrent_factory.hpp:116-163. -/
inductive Act (K : Type) where
  | run
  | create (c : Nat) (k : K) (mask : List Bool) (pre : Bool)
  | destroy (mask : List Bool)
  | copy (i : Nat)
  | copyKid (i j : Nat)
  | swap (i j : Nat)
  | read (i : Nat)
  | finish (mask : List Bool) (drop : Bool)
  | throw_
  | gcVisit (e : Nat)

/-- Outcome of an action: a new state; not possible now (in particular: waiting
for a mutex or an element); undefined behaviour (use of an erased or destroyed entry,
unlocking a mutex that is not held); or a value constructor used the container that
called it.  (No code of its own: the meaning of undefined behaviour and waiting.) -/
inductive Out (K : Type) where
  | ok (s : St K)
  | no
  | ub
  | reentrant

/-- Lookup in the container of type `c`, part of
/repo/include/boost/flyweight/concurrent_factory.hpp:161. -/
def find (cfg : Cfg K) (s : St K) (c : Nat) (k : K) : Option Nat :=
  (List.range s.next).find? fun e => match s.ents e with
    | none => false
    | some x => x.core == c && cfg.eqv c x.key k

/-- The elements of the container of type `c`. (Helper, no code of its own.) -/
def elems (s : St K) (c : Nat) : List Nat :=
  (List.range s.next).filter fun e => match s.ents e with
    | none => false
    | some x => x.core == c

/-- Change of one entry. (Helper, no code of its own.) -/
def setEnt (f : Nat → Option (Ent K)) (e : Nat) (x : Option (Ent K)) : Nat → Option (Ent K) :=
  fun i => if i = e then x else f i

/-- Change of the access to one element. (Helper, no code of its own.) -/
def setVis (f : Nat → Option Nat) (e : Nat) (x : Option Nat) : Nat → Option Nat :=
  fun i => if i = e then x else f i

/-- User code runs on this thread.  (No code of its own.) -/
def inUser : List (Frame K) → Bool
  | [] => true
  | .insUser .. :: _ => true
  | _ => false

/-- A value constructor called by the container of type `c` is running.  (No code of its own.) -/
def userOf (c : Nat) : Frame K → Bool
  | .insUser c' .. => c' == c
  | _ => false

/-- The next step of the library by thread `t`, whose innermost frame is `f` and
whose other frames are `rest`; the line references are those of `Frame`.  Models
/repo/include/boost/flyweight/concurrent_factory.hpp:55-163, 213-223; line references per frame
at `Frame`. -/
def lib (cfg : Cfg K) (s : St K) (t : Nat) (f : Frame K) (rest : List (Frame K)) : Out K :=
  let go (s : St K) (st : List (Frame K)) : Out K := .ok { s with thr := s.thr.set t st }
  match f with
  -- lock_type lock(mutex())
  | .insLock c k loc pre => match acquire cfg s.lock t c with
    | none => .no
    | some l => go { s with lock := l } (.insHash c k loc pre :: rest)
  -- cont.insert_and_visit(entry_type{std::move(x)},g,g): hash of the key ...
  | .insHash c k loc pre => go s (.insFind c k loc pre :: rest)
  -- ... then access to the equivalent element, or insertion
  | .insFind c k loc pre =>
    if rest.any (userOf c) then .reentrant
    else match find cfg s c k with
    | some e => if s.vis e = none then
        go { s with vis := setVis s.vis e (some t) } (.insVisit c k e loc :: rest)
      else .no
    | none => go { s with
        ents := setEnt s.ents s.next (some ⟨c, k, pre, loc, 0, 0⟩),
        vis := setVis s.vis s.next (some t),
        next := s.next + 1 } (.insVisit c k s.next [] :: rest)
  -- f(static_cast<const Entry&>(x)): construct the value if it is not there
  | .insVisit c k e loc => match s.ents e with
    | none => .ub
    | some x => go s ((if x.cted then .insAddRef c k e loc else .insUser c k e loc) :: rest)
  | .insUser .. => .no
  -- value_cted=true
  | .insDone c k e loc => match s.ents e with
    | none => .ub
    | some x => go { s with ents := setEnt s.ents e (some { x with cted := true }) } (.insAddRef c k e loc :: rest)
  -- x.add_ref()
  | .insAddRef c k e loc => match s.ents e with
    | none => .ub
    | some x => go { s with ents := setEnt s.ents e (some { x with ref := x.ref + 1 }) } (.insLeave c k e loc :: rest)
  -- end of the visitation, destruction of the temporary entry, return {p}
  | .insLeave c k e loc => go { s with vis := setVis s.vis e none } (loc.map .rel ++ .insTrack c k e :: rest)
  -- the visitation has thrown
  | .insFail c e loc => go { s with vis := setVis s.vis e none } (loc.map .rel ++ .insUnwind c :: rest)
  -- ~lock_type
  | .insUnwind c => match unlock cfg s.lock t c with
    | none => .ub
    | some l => go { s with lock := l } rest
  -- refcounted_handle(const Handle&)
  | .insTrack c k e => match s.ents e with
    | none => .ub
    | some x => go { s with ents := setEnt s.ents e (some { x with
        tref := if cfg.tracks then x.tref + 1 else x.tref }) } (.insUnlock c k e :: rest)
  -- ~lock_type; the flyweight object exists
  | .insUnlock c k e => match unlock cfg s.lock t c with
    | none => .ub
    | some l => go { s with lock := l, objs := ⟨e, c, k⟩ :: s.objs } rest
  -- refcounted: release()
  | .rel w => match s.ents w.h with
    | none => .ub
    | some x =>
      if cfg.tracks then
        go { s with ents := setEnt s.ents w.h (some { x with tref := x.tref - 1 }) }
          ((if x.tref - 1 = 0 then .relLock w else .relDec w) :: rest)
      else go s (.relDec w :: rest)
  | .relLock w => match acquire cfg s.lock t w.c with
    | none => .no
    | some l => go { s with lock := l } (.relCheck w :: rest)
  -- check_erase, erase
  | .relCheck w => match s.ents w.h with
    | none => .ub
    | some _ => go s (.relUnlock w :: rest)
  | .relUnlock w => match unlock cfg s.lock t w.c with
    | none => .ub
    | some l => go { s with lock := l } (.relDec w :: rest)
  -- p->release()
  | .relDec w => match s.ents w.h with
    | none => .ub
    | some x => go { s with ents := setEnt s.ents w.h (some { x with ref := x.ref - 1 }) } rest
  -- cv.wait_for: time-out or spurious wake-up
  | .gcIdle c => go s (.gcPass c s.next (elems s c) :: rest)
  -- erase_if: end of the traversal
  | .gcPass c _ todo => if todo.all fun e => (s.ents e).isNone then go s (.gcIdle c :: rest) else .no
  -- !x.count()
  | .gcTest c e => match s.ents e with
    | none => .ub
    | some x => go s ((if x.ref = 0 then .gcErase c e else .gcLeave c e) :: rest)
  -- destruction of the element ...
  | .gcErase c e => match s.ents e with
    | none => .ub
    | some x => go { s with ents := setEnt s.ents e (some { x with cted := false, kids := [] }) }
        (x.kids.map .rel ++ .gcUnlink c e :: rest)
  -- ... and of the node
  | .gcUnlink _ e => match s.ents e with
    | none => .ub
    | some _ => go { s with ents := setEnt s.ents e none, vis := setVis s.vis e none } rest
  | .gcLeave _ e => go { s with vis := setVis s.vis e none } rest

/-- An action of thread `t`, whose stack is `st`.  Models the calls of
/repo/include/boost/flyweight/flyweight.hpp:193-239, 257-278 by the program. -/
def act (cfg : Cfg K) (s : St K) (t : Nat) (st : List (Frame K)) : Act K → Out K
  | .run => match st with
    | [] => .no
    | f :: rest => lib cfg s t f rest
  | .create c k mask pre =>
    if inUser st then .ok { s with
      objs := (pick mask s.objs).2, thr := s.thr.set t (.insLock c k (pick mask s.objs).1 pre :: st) }
    else .no
  | .destroy mask =>
    if inUser st then .ok { s with
      objs := (pick mask s.objs).2, thr := s.thr.set t ((pick mask s.objs).1.map .rel ++ st) }
    else .no
  -- refcounted_handle(const refcounted_handle&) of the factory and of the tracking policy
  | .copy i => if inUser st then
      match s.objs[i]? with
      | none => .no
      | some w => match s.ents w.h with
        | none => .ub
        | some x => .ok { s with
            ents := setEnt s.ents w.h (some { x with
              ref := x.ref + 1, tref := if cfg.tracks then x.tref + 1 else x.tref }), objs := w :: s.objs }
    else .no
  | .copyKid i j => if inUser st then
      match s.objs[i]? with
      | none => .no
      | some w => match s.ents w.h with
        | none => .ub
        | some x => if x.cted then
            match x.kids[j]? with
            | none => .no
            | some v => match s.ents v.h with
              | none => .ub
              | some y => .ok { s with
                  ents := setEnt s.ents v.h (some { y with
                    ref := y.ref + 1, tref := if cfg.tracks then y.tref + 1 else y.tref }), objs := v :: s.objs }
          else .ub
    else .no
  | .swap i j => if inUser st then
      match s.objs[i]?, s.objs[j]? with
      | some v, some w => .ok { s with objs := (s.objs.set i w).set j v }
      | _, _ => .no
    else .no
  | .read i => if inUser st then
      match s.objs[i]? with
      | none => .no
      | some w => match s.ents w.h with
        | none => .ub
        | some x => if x.cted then .ok s else .ub
    else .no
  | .finish mask drop => match st with
    | .insUser c k e loc :: rest => match s.ents e with
      | none => .ub
      | some x => if x.cted then .ub else .ok { s with
          ents := setEnt s.ents e (some { x with
            kids := if drop then (pick mask s.objs).1 else x.kids ++ (pick mask s.objs).1 }),
          objs := (pick mask s.objs).2,
          thr := s.thr.set t ((if drop then x.kids.map .rel else []) ++ .insDone c k e loc :: rest) }
    | _ => .no
  -- the hash function, the lookup (comparison, allocation) or the value constructor throws
  | .throw_ => match st with
    | .insUser c _ e loc :: rest => .ok { s with thr := s.thr.set t (.insFail c e loc :: rest) }
    | .insHash c _ loc _ :: rest => .ok { s with thr := s.thr.set t (loc.map .rel ++ .insUnwind c :: rest) }
    | .insFind c k loc _ :: rest =>
      if (find cfg s c k).all fun e => (s.vis e).isNone then
        .ok { s with thr := s.thr.set t (loc.map .rel ++ .insUnwind c :: rest) }
      else .no
    | _ => .no
  -- erase_if: next element
  | .gcVisit e => match st with
    | .gcPass c f todo :: rest => match s.ents e with
      | none => .no
      | some x =>
        if x.core = c ∧ (e ∈ todo ∨ f ≤ e) ∧ s.vis e = none then .ok { s with
          vis := setVis s.vis e (some t),
          thr := s.thr.set t (.gcTest c e :: .gcPass c f (todo.filter (· ≠ e)) :: rest) }
        else .no
    | _ => .no

/-- One step of the system: thread `t` performs action `a`.  (No code of its own: interleaving
of threads.) -/
def step (cfg : Cfg K) (s : St K) (t : Nat) (a : Act K) : Out K :=
  match s.thr[t]? with
  | none => .no
  | some st => act cfg s t st a

/-- At the start there are `n` threads outside the library, and the garbage
collectors of the factories of the types in `gcs`; no entries and no flyweights.  (No code of
its own.) -/
def start (n : Nat) (gcs : List Nat) : St K :=
  ⟨fun _ => none, 0, fun _ => none, fun _ => none, List.replicate n [] ++ gcs.map fun c => [.gcIdle c], []⟩

/-- Execution of a schedule; actions that are not possible are skipped.  (No code of its own:
the scheduler.) -/
def exec (cfg : Cfg K) : List (Nat × Act K) → St K → Out K
  | [], s => .ok s
  | (t, a) :: l, s => match step cfg s t a with
    | .ok s' => exec cfg l s'
    | .no => exec cfg l s
    | .ub => .ub
    | .reentrant => .reentrant

end Verif.CFac

import Verif.Conc

/-!
# Concurrent model of flyweights without tracking

Any number of threads use flyweights with `no_tracking` and `simple_locking`, of any number of types, one atomic
action at a time, in any interleaving; the counterpart of `Verif/Conc.lean` for the other tracking policy of the
library.  Entries have no counts, handles are those of the factory and nothing happens when a flyweight is copied or
destroyed.  Values may contain flyweights of any type, and value constructors may use the library.
-/

set_option autoImplicit false

namespace Verif.Plain
open Verif.Conc (Fw Act Cfg pick acquire unlock)
variable {K : Type}

/-- An entry: with `no_tracking` just the key and possibly the value,
/repo/include/boost/flyweight/no_tracking.hpp:29-33.  Fields as in `Verif.Conc.Ent`, without the counts. -/
structure Ent (K : Type) where
  core : Nat
  key : K
  cted : Bool
  kids : List (Fw K)
  stamp : Nat

/-- What a thread is going to do next, innermost call first: `insert_rep`/`insert_value` and `insert_and_visit`,
/repo/include/boost/flyweight/detail/flyweight_core.hpp:100-117, 261-311, as in `Verif.Conc.Frame`.  The handle of the
factory is returned as it is, /repo/include/boost/flyweight/no_tracking.hpp:35-39. -/
inductive Frame (K : Type) where
  | lock (c : Nat) (k : K) (loc : List (Fw K)) (pre : Bool)
  | find (c : Nat) (k : K) (loc : List (Fw K)) (pre : Bool)
  | visit (c : Nat) (k : K) (e : Nat) (loc : List (Fw K)) (new : Bool)
  | user (c : Nat) (k : K) (e : Nat)
  | done (c : Nat) (k : K) (e : Nat)
  | catch_ (c e : Nat)
  | unwind (c : Nat)
  | unlock (c : Nat) (k : K) (e : Nat)

/-- State, as in `Verif.Conc.St`: the factories and mutexes of
/repo/include/boost/flyweight/detail/flyweight_core.hpp:341-351 and the calls in progress. -/
structure St (K : Type) where
  ents : Nat → Option (Ent K)
  next : Nat
  lock : Nat → Option (Nat × Nat)
  thr : List (List (Frame K))
  objs : List (Fw K)
  clock : Nat

/-- Outcome of an action, as in `Verif.Conc.Out`.  (No code of its own: the meaning of undefined behaviour and waiting.) -/
inductive Out (K : Type) where
  | ok (s : St K)
  | no
  | ub
  | reentrant

/-- The entry of type `c` with a key equivalent to `k`: `factory.insert` when there is one, e.g.
/repo/include/boost/flyweight/hashed_factory.hpp:74-84. -/
def find (cfg : Cfg K) (s : St K) (c : Nat) (k : K) : Option Nat :=
  (List.range s.next).find? fun e => match s.ents e with
    | none => false
    | some x => x.core == c && cfg.eqv c x.key k

/-- Change of one entry.  (Helper, no code of its own.) -/
def setEnt (f : Nat → Option (Ent K)) (e : Nat) (x : Option (Ent K)) : Nat → Option (Ent K) :=
  fun i => if i = e then x else f i

/-- User code runs on this thread: it is not in the library, or in a value constructor called by the library.  (No
code of its own.) -/
def inUser : List (Frame K) → Bool
  | [] => true
  | .user .. :: _ => true
  | _ => false

/-- The next step of the library by thread `t`, whose innermost frame is `f` and whose other frames are `rest`.  Models
/repo/include/boost/flyweight/detail/flyweight_core.hpp:100-117, 261-311. -/
def lib (cfg : Cfg K) (s : St K) (t : Nat) (f : Frame K) (rest : List (Frame K)) : Out K :=
  let go (s : St K) (st : List (Frame K)) : Out K := .ok { s with thr := s.thr.set t st }
  match f with
  -- lock_type lock(mutex())
  | .lock c k loc pre => match acquire cfg s.lock t c with
    | none => .no
    | some l => go { s with lock := l } (.find c k loc pre :: rest)
  -- fac.insert(std::move(e)): the local `e` is moved from if there is a new entry, otherwise destroyed in the end
  | .find c k loc pre => match find cfg s c k with
    | some e => go s (.visit c k e loc false :: rest)
    | none => go { s with
        ents := setEnt s.ents s.next (some ⟨c, k, pre, loc, s.clock⟩),
        next := s.next + 1,
        clock := if pre then s.clock + 1 else s.clock } (.visit c k s.next [] true :: rest)
  -- f(fac.entry(h)): construct the value if it is not there
  | .visit c k e _ new => match s.ents e with
    | none => .ub
    | some x =>
      if x.cted then go s (.unlock c k e :: rest)
      else if new then go s (.user c k e :: rest)
      else .reentrant
  | .user .. => .no
  -- value_cted=true
  | .done c k e => match s.ents e with
    | none => .ub
    | some x => go { s with
        ents := setEnt s.ents e (some { x with cted := true, stamp := s.clock }),
        clock := s.clock + 1 } (.unlock c k e :: rest)
  -- fac.erase(h); rethrow
  | .catch_ c e => match s.ents e with
    | none => .ub
    | some _ => go { s with ents := setEnt s.ents e none } (.unwind c :: rest)
  -- ~lock_type
  | .unwind c => match unlock cfg s.lock t c with
    | none => .ub
    | some l => go { s with lock := l } rest
  -- ~lock_type; the flyweight object exists
  | .unlock c k e => match unlock cfg s.lock t c with
    | none => .ub
    | some l => go { s with lock := l, objs := ⟨e, c, k⟩ :: s.objs } rest

/-- An action of thread `t`, whose stack is `st`.  Models the calls of
/repo/include/boost/flyweight/flyweight.hpp:193-239, 257-278 by the program.  Copying and destroying handles of a factory
does not touch the entry, /repo/include/boost/flyweight/no_tracking.hpp:35-39. -/
def act (cfg : Cfg K) (s : St K) (t : Nat) (st : List (Frame K)) : Act K → Out K
  | .run => match st with
    | [] => .no
    | f :: rest => lib cfg s t f rest
  | .create c k mask pre =>
    if inUser st then .ok { s with
      objs := (pick mask s.objs).2, thr := s.thr.set t (.lock c k (pick mask s.objs).1 pre :: st) }
    else .no
  | .destroy mask => if inUser st then .ok { s with objs := (pick mask s.objs).2 } else .no
  | .copy i => if inUser st then
      match s.objs[i]? with
      | none => .no
      | some w => .ok { s with objs := w :: s.objs }
    else .no
  | .copyKid i j => if inUser st then
      match s.objs[i]? with
      | none => .no
      | some w => match s.ents w.h with
        | none => .ub
        | some x => if x.cted then
            match x.kids[j]? with
            | none => .no
            | some v => .ok { s with objs := v :: s.objs }
          else .ub
    else .no
  | .swap i j => if inUser st then
      match s.objs[i]?, s.objs[j]? with
      | some v, some w => .ok { s with objs := (s.objs.set i w).set j v }
      | _, _ => .no
    else .no
  | .read i => if inUser st then
      match s.objs[i]? with
      | none => .no
      | some w => match s.ents w.h with
        | none => .ub
        | some x => if x.cted then .ok s else .ub
    else .no
  | .finish mask drop => match st with
    | .user c k e :: rest => match s.ents e with
      | none => .ub
      | some x => if x.cted then .ub else .ok { s with
          ents := setEnt s.ents e (some { x with
            kids := if drop then (pick mask s.objs).1 else x.kids ++ (pick mask s.objs).1 }),
          objs := (pick mask s.objs).2,
          thr := s.thr.set t (.done c k e :: rest) }
    | _ => .no
  | .throw_ => match st with
    | .user c _ e :: rest => .ok { s with thr := s.thr.set t (.catch_ c e :: rest) }
    | .find c _ _ _ :: rest => .ok { s with thr := s.thr.set t (.unwind c :: rest) }
    | _ => .no

/-- One step of the system: thread `t` performs action `a`.  (No code of its own: interleaving of threads.) -/
def step (cfg : Cfg K) (s : St K) (t : Nat) (a : Act K) : Out K :=
  match s.thr[t]? with
  | none => .no
  | some st => act cfg s t st a

/-- At the start there are `n` threads outside the library, no entries and no flyweight objects.  (No code of its own.) -/
def start (n : Nat) : St K := ⟨fun _ => none, 0, fun _ => none, List.replicate n [], [], 0⟩

/-- Execution of a schedule; actions that are not possible are skipped.  (No code of its own: the scheduler.) -/
def exec (cfg : Cfg K) : List (Nat × Act K) → St K → Out K
  | [], s => .ok s
  | (t, a) :: l, s => match step cfg s t a with
    | .ok s' => exec cfg l s'
    | .no => exec cfg l s
    | .ub => .ub
    | .reentrant => .reentrant

end Verif.Plain

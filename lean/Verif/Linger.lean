import Verif.CFac

/-!
# Flyweights with atomic operations whose values linger

A specification of flyweights with `concurrent_factory` used by several threads, in which every call of the library takes
effect at one instant between its beginning and its end.  There are no mutexes, no counts and no exclusive access
to elements: just flyweight objects and the values they refer to.  As in `Verif/Atomic.lean` values are shared by flyweights with
equivalent keys, but a value does not vanish with the last flyweight: it lingers, may be shared again, and is
removed at some later instant by the garbage collector of its type.  Also a key stays behind if the construction of
its value fails, until the construction is attempted again or the garbage collector removes it.
-/

set_option autoImplicit false

namespace Verif.Linger
open Verif.Conc (Fw pick)
open Verif.CFac (Act)
variable {K : Type}

/-- A value: its flyweight type, the key it was made from, and the flyweights inside; or (`full = false`) a key whose value
is being constructed, or could not be constructed.  (No code of its own: used in statements and proofs.) -/
structure Val (K : Type) where
  core : Nat
  key : K
  kids : List (Fw K)
  full : Bool

/-- A call in progress.  `create`: not yet taken effect; `loc` are flyweights in the argument.  `build`: the user's code
constructs value `h`.  `built`: value `h` is ready.  `made`: has taken effect.  `destroy`: of a flyweight that
refers to value `h`, not yet taken effect.  `collector`: the garbage collector of type `c`.  (No code of its own: used in
statements and proofs.) -/
inductive Call (K : Type) where
  | create (c : Nat) (k : K) (loc : List (Fw K))
  | build (c : Nat) (k : K) (h : Nat) (loc : List (Fw K))
  | built (c : Nat) (k : K) (h : Nat) (loc : List (Fw K))
  | made (w : Fw K) (loc : List (Fw K))
  | destroy (h : Nat)
  | collector (c : Nat)

/-- Values, flyweight objects of the program, and calls in progress by each thread, innermost first.  (No code of its own: used in
statements and proofs.) -/
structure St (K : Type) where
  vals : Nat → Option (Val K)
  objs : List (Fw K)
  thr : List (List (Call K))

/-- Values that a call in progress refers to.  (No code of its own: used in statements and proofs.) -/
def Call.refs : Call K → List Nat
  | .create _ _ loc => loc.map Fw.h
  | .build _ _ h loc => h :: loc.map Fw.h
  | .built _ _ h loc => h :: loc.map Fw.h
  | .made w loc => w.h :: loc.map Fw.h
  | .destroy h => [h]
  | .collector _ => []

/-- Some flyweight or call refers to value `h`.  (No code of its own: used in statements and proofs.) -/
def St.Referenced (a : St K) (h : Nat) : Prop :=
  (∃ w ∈ a.objs, w.h = h) ∨ (∃ i v, a.vals i = some v ∧ ∃ w ∈ v.kids, w.h = h) ∨
    ∃ st ∈ a.thr, ∃ f ∈ st, h ∈ f.refs

/-- There is no value of type `c` with a key equivalent to `k`, nor such a key.  (No code of its own: used in statements and
proofs.) -/
def St.Free (eqv : Nat → K → K → Bool) (a : St K) (c : Nat) (k : K) : Prop :=
  ∀ h v, a.vals h = some v → v.core = c → eqv c v.key k = false

/-- Code of the user runs on the thread.  (No code of its own: used in statements and proofs.) -/
def inUser : List (Call K) → Bool
  | [] => true
  | .build .. :: _ => true
  | _ => false

/-- Values with one added, changed or removed.  (No code of its own: used in statements and proofs.) -/
def setVal (f : Nat → Option (Val K)) (h : Nat) (v : Option (Val K)) : Nat → Option (Val K) :=
  fun i => if i = h then v else f i

/-- The thread's stack replaced.  (No code of its own: used in statements and proofs.) -/
def St.go (a : St K) (t : Nat) (st : List (Call K)) : St K := { a with thr := a.thr.set t st }

/-- Destruction of flyweights, one after the other.  (No code of its own: used in statements and proofs.) -/
def drops (l : List (Fw K)) : List (Call K) := l.map fun w => .destroy w.h

/-- A step of thread `t`.  The first nine are steps of the library, the others are the user's; see
`Verif.CFac.Act`.  (No code of its own: used in statements and proofs.) -/
inductive Step (eqv : Nat → K → K → Bool) (a : St K) (t : Nat) : Act K → St K → Prop
  /-- takes effect: the new flyweight refers to an existing value, be it referred to or not -/
  | share {c k loc rest h v} : a.thr[t]? = some (.create c k loc :: rest) → a.vals h = some v → v.full = true → v.core = c →
      eqv c v.key k = true → Step eqv a t .run (a.go t (.made ⟨h, c, k⟩ loc :: rest))
  /-- takes effect: there is no equivalent value, and the argument is the value -/
  | keep {c k loc rest h} : a.thr[t]? = some (.create c k loc :: rest) → a.Free eqv c k → a.vals h = none → ¬ a.Referenced h →
      Step eqv a t .run { a.go t (.made ⟨h, c, k⟩ [] :: rest) with vals := setVal a.vals h (some ⟨c, k, loc, true⟩) }
  /-- there is no equivalent value; it is going to be constructed -/
  | start {c k loc rest h} : a.thr[t]? = some (.create c k loc :: rest) → a.Free eqv c k → a.vals h = none → ¬ a.Referenced h →
      Step eqv a t .run { a.go t (.build c k h [] :: rest) with vals := setVal a.vals h (some ⟨c, k, loc, false⟩) }
  /-- there is an equivalent key whose value could not be constructed: it is going to be -/
  | resume {c k loc rest h v} : a.thr[t]? = some (.create c k loc :: rest) → a.vals h = some v → v.full = false →
      ¬ a.Referenced h → v.core = c → eqv c v.key k = true →
      Step eqv a t .run (a.go t (.build c k h loc :: rest))
  /-- takes effect: the value is complete -/
  | store {c k loc rest h v} : a.thr[t]? = some (.built c k h loc :: rest) → a.vals h = some v →
      Step eqv a t .run { a.go t (.made ⟨h, c, k⟩ loc :: rest) with vals := setVal a.vals h (some { v with full := true }) }
  /-- the argument is destroyed -/
  | tidy {w loc rest} : a.thr[t]? = some (.made w loc :: rest) →
      Step eqv a t .run (a.go t (drops loc ++ .made w [] :: rest))
  /-- the call returns -/
  | ret {w rest} : a.thr[t]? = some (.made w [] :: rest) →
      Step eqv a t .run { a.go t rest with objs := w :: a.objs }
  /-- takes effect: the reference is given up -/
  | drop {h rest} : a.thr[t]? = some (.destroy h :: rest) → Step eqv a t .run (a.go t rest)
  /-- the garbage collector removes a value, or a key without value, of its type, that nothing refers to -/
  | collect {c h v rest} : a.thr[t]? = some (.collector c :: rest) → a.vals h = some v → v.core = c → ¬ a.Referenced h →
      Step eqv a t .run { a.go t (drops v.kids ++ .collector c :: rest) with vals := setVal a.vals h none }
  | create {st c k mask pre} : a.thr[t]? = some st → inUser st = true →
      Step eqv a t (.create c k mask pre)
        { a.go t (.create c k (pick mask a.objs).1 :: st) with objs := (pick mask a.objs).2 }
  | destroy {st mask} : a.thr[t]? = some st → inUser st = true →
      Step eqv a t (.destroy mask) { a.go t (drops (pick mask a.objs).1 ++ st) with objs := (pick mask a.objs).2 }
  | copy {st i w v} : a.thr[t]? = some st → inUser st = true → a.objs[i]? = some w → a.vals w.h = some v →
      Step eqv a t (.copy i) { a with objs := w :: a.objs }
  | copyKid {st i j w v u} : a.thr[t]? = some st → inUser st = true → a.objs[i]? = some w → a.vals w.h = some v →
      v.full = true → v.kids[j]? = some u → Step eqv a t (.copyKid i j) { a with objs := u :: a.objs }
  | swap {st i j v w} : a.thr[t]? = some st → inUser st = true → a.objs[i]? = some v → a.objs[j]? = some w →
      Step eqv a t (.swap i j) { a with objs := (a.objs.set i w).set j v }
  | read {st i w v} : a.thr[t]? = some st → inUser st = true → a.objs[i]? = some w → a.vals w.h = some v → v.full = true →
      Step eqv a t (.read i) a
  /-- the user's code has constructed the value, with or without the key -/
  | finish {c k h loc rest v mask dr} : a.thr[t]? = some (.build c k h loc :: rest) → a.vals h = some v →
      Step eqv a t (.finish mask dr)
        { a.go t ((if dr then drops v.kids else []) ++ .built c k h loc :: rest) with
          vals := setVal a.vals h (some { v with
            kids := if dr then (pick mask a.objs).1 else v.kids ++ (pick mask a.objs).1 })
          objs := (pick mask a.objs).2 }
  /-- the user's code throws: the key stays behind -/
  | throwBuild {c k h loc rest} : a.thr[t]? = some (.build c k h loc :: rest) →
      Step eqv a t .throw_ (a.go t (drops loc ++ rest))
  /-- the lookup throws -/
  | throwFind {c k loc rest} : a.thr[t]? = some (.create c k loc :: rest) →
      Step eqv a t .throw_ (a.go t (drops loc ++ rest))

/-- At the start there are no objects and no values, `n` threads of the program, and the garbage collectors of the types in
`gcs`.  (No code of its own: used in statements and proofs.) -/
def start (n : Nat) (gcs : List Nat) : St K :=
  ⟨fun _ => none, [], List.replicate n [] ++ gcs.map fun c => [.collector c]⟩

/-- A sequence of steps.  (No code of its own: used in statements and proofs.) -/
inductive Run (eqv : Nat → K → K → Bool) (a : St K) : List (Nat × Act K) → St K → Prop
  | nil : Run eqv a [] a
  | snoc {l a' t act a''} : Run eqv a l a' → Step eqv a' t act a'' → Run eqv a (l ++ [(t, act)]) a''

end Verif.Linger

import Verif.Conc

/-!
# Flyweights with atomic operations

A specification of flyweights used by several threads in which every call of the library takes effect at one instant
between its beginning and its end.  There are no mutexes, no counts and no entries without value: just flyweight objects
and the values they refer to.  Values are shared by flyweights with equivalent keys and exist as long as they are
referred to.

Creating a flyweight: the call begins (`create`); at some instant it either joins a value with an equivalent key, or
finds none, has its own value constructed by code of the user, and adds it (`store`); then it returns (`made`).
Destroying one: at some instant the reference is given up; if it was the last one the value vanishes and the
flyweights inside it are destroyed one after the other (as is done by the destructor of the value, in code of the user).
-/

set_option autoImplicit false

namespace Verif.Atomic
open Verif.Conc (Fw Act pick)
variable {K : Type}

/-- A value: its flyweight type, the key it was made from, and the flyweights inside.  (No code of its own: used in statements and
proofs.) -/
structure Val (K : Type) where
  core : Nat
  key : K
  kids : List (Fw K)

/-- A call in progress.  `create`: not yet taken effect; `loc` are flyweights in the argument.  `build`: the user's code
constructs the value.  `built`: the value is ready to be added.  `made`: has taken effect.  `destroy`: of a flyweight that
refers to value `h`, not yet taken effect.  (No code of its own: used in statements and proofs.) -/
inductive Call (K : Type) where
  | create (c : Nat) (k : K) (loc : List (Fw K))
  | build (c : Nat) (k : K) (kids : List (Fw K))
  | built (c : Nat) (k : K) (kids : List (Fw K))
  | made (w : Fw K) (loc : List (Fw K))
  | destroy (h : Nat)

/-- Values, flyweight objects of the program, and calls in progress by each thread, innermost first.  (No code of its own: used in
statements and proofs.) -/
structure St (K : Type) where
  vals : Nat → Option (Val K)
  objs : List (Fw K)
  thr : List (List (Call K))

/-- Values that a call in progress refers to.  (No code of its own: used in statements and proofs.) -/
def Call.refs : Call K → List Nat
  | .create _ _ loc => loc.map Fw.h
  | .build _ _ kids => kids.map Fw.h
  | .built _ _ kids => kids.map Fw.h
  | .made w loc => w.h :: loc.map Fw.h
  | .destroy h => [h]

/-- Some flyweight refers to value `h`.  (No code of its own: used in statements and proofs.) -/
def St.Referenced (a : St K) (h : Nat) : Prop :=
  (∃ w ∈ a.objs, w.h = h) ∨ (∃ i v, a.vals i = some v ∧ ∃ w ∈ v.kids, w.h = h) ∨
    ∃ st ∈ a.thr, ∃ f ∈ st, h ∈ f.refs

/-- There is no value of type `c` with a key equivalent to `k`.  (No code of its own: used in statements and proofs.) -/
def St.Free (eqv : Nat → K → K → Bool) (a : St K) (c : Nat) (k : K) : Prop :=
  ∀ h v, a.vals h = some v → v.core = c → eqv c v.key k = false

/-- Code of the user runs on the thread.  (No code of its own: used in statements and proofs.) -/
def inUser : List (Call K) → Bool
  | [] => true
  | .build .. :: _ => true
  | _ => false

/-- Values with one added, changed or removed.  (No code of its own: used in statements and proofs.) -/
def setVal (f : Nat → Option (Val K)) (h : Nat) (v : Option (Val K)) : Nat → Option (Val K) :=
  fun i => if i = h then v else f i

/-- The thread's stack replaced.  (No code of its own: used in statements and proofs.) -/
def St.go (a : St K) (t : Nat) (st : List (Call K)) : St K := { a with thr := a.thr.set t st }

/-- Destruction of flyweights, one after the other.  (No code of its own: used in statements and proofs.) -/
def drops (l : List (Fw K)) : List (Call K) := l.map fun w => .destroy w.h

/-- A step of thread `t`.  The first seven are steps of the library, the others are the user's; see
`Verif.Conc.Act`.  (No code of its own: used in statements and proofs.) -/
inductive Step (eqv : Nat → K → K → Bool) (a : St K) (t : Nat) : Act K → St K → Prop
  /-- takes effect: the new flyweight refers to an existing value -/
  | share {c k loc rest h v} : a.thr[t]? = some (.create c k loc :: rest) → a.vals h = some v → v.core = c →
      eqv c v.key k = true → Step eqv a t .run (a.go t (.made ⟨h, c, k⟩ loc :: rest))
  /-- there is no equivalent value; the argument is the value -/
  | keep {c k loc rest} : a.thr[t]? = some (.create c k loc :: rest) → a.Free eqv c k →
      Step eqv a t .run (a.go t (.built c k loc :: rest))
  /-- there is no equivalent value; it is going to be constructed -/
  | start {c k loc rest} : a.thr[t]? = some (.create c k loc :: rest) → a.Free eqv c k →
      Step eqv a t .run (a.go t (.build c k loc :: rest))
  /-- takes effect: there is still no equivalent value, and a new one is added -/
  | store {c k kids rest h} : a.thr[t]? = some (.built c k kids :: rest) → a.Free eqv c k → a.vals h = none →
      ¬ a.Referenced h →
      Step eqv a t .run { a.go t (.made ⟨h, c, k⟩ [] :: rest) with vals := setVal a.vals h (some ⟨c, k, kids⟩) }
  /-- the call returns -/
  | ret {w loc rest} : a.thr[t]? = some (.made w loc :: rest) →
      Step eqv a t .run { a.go t (drops loc ++ rest) with objs := w :: a.objs }
  /-- takes effect: other flyweights refer to the value -/
  | drop {h rest} : a.thr[t]? = some (.destroy h :: rest) → (a.go t rest).Referenced h →
      Step eqv a t .run (a.go t rest)
  /-- takes effect: that was the last one -/
  | last {h v rest} : a.thr[t]? = some (.destroy h :: rest) → ¬ (a.go t rest).Referenced h → a.vals h = some v →
      Step eqv a t .run { a.go t (drops v.kids ++ rest) with vals := setVal a.vals h none }
  | create {st c k mask pre} : a.thr[t]? = some st → inUser st = true →
      Step eqv a t (.create c k mask pre)
        { a.go t (.create c k (pick mask a.objs).1 :: st) with objs := (pick mask a.objs).2 }
  | destroy {st mask} : a.thr[t]? = some st → inUser st = true →
      Step eqv a t (.destroy mask) { a.go t (drops (pick mask a.objs).1 ++ st) with objs := (pick mask a.objs).2 }
  | copy {st i w v} : a.thr[t]? = some st → inUser st = true → a.objs[i]? = some w → a.vals w.h = some v →
      Step eqv a t (.copy i) { a with objs := w :: a.objs }
  | copyKid {st i j w v u} : a.thr[t]? = some st → inUser st = true → a.objs[i]? = some w → a.vals w.h = some v →
      v.kids[j]? = some u → Step eqv a t (.copyKid i j) { a with objs := u :: a.objs }
  | swap {st i j v w} : a.thr[t]? = some st → inUser st = true → a.objs[i]? = some v → a.objs[j]? = some w →
      Step eqv a t (.swap i j) { a with objs := (a.objs.set i w).set j v }
  | read {st i w v} : a.thr[t]? = some st → inUser st = true → a.objs[i]? = some w → a.vals w.h = some v →
      Step eqv a t (.read i) a
  /-- the user's code has constructed the value, with or without the key -/
  | finish {c k kids rest mask dr} : a.thr[t]? = some (.build c k kids :: rest) →
      Step eqv a t (.finish mask dr)
        { a.go t ((if dr then drops kids else []) ++
            .built c k (if dr then (pick mask a.objs).1 else kids ++ (pick mask a.objs).1) :: rest) with
          objs := (pick mask a.objs).2 }
  /-- the user's code throws -/
  | throwBuild {c k kids rest} : a.thr[t]? = some (.build c k kids :: rest) →
      Step eqv a t .throw_ (a.go t (drops kids ++ rest))
  /-- the lookup throws -/
  | throwFind {c k loc rest} : a.thr[t]? = some (.create c k loc :: rest) →
      Step eqv a t .throw_ (a.go t (drops loc ++ rest))

/-- At the start there are no objects and no values.  (No code of its own: used in statements and proofs.) -/
def start (n : Nat) : St K := ⟨fun _ => none, [], List.replicate n []⟩

/-- A sequence of steps.  (No code of its own: used in statements and proofs.) -/
inductive Run (eqv : Nat → K → K → Bool) (a : St K) : List (Nat × Act K) → St K → Prop
  | nil : Run eqv a [] a
  | snoc {l a' t act a''} : Run eqv a l a' → Step eqv a' t act a'' → Run eqv a (l ++ [(t, act)]) a''

end Verif.Atomic

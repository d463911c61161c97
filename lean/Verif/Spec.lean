import Verif.Api

/-!
# Specification: interned immutable values

This file does not refer to the model.  It says what a user of flyweights may
rely on: a flyweight variable is bound to an immutable triple (address, key,
value), and creating a flyweight shares the triple of an available equivalent
one or binds to a new triple at an address not in use.
-/

set_option autoImplicit false

namespace Verif

/-- What the source of a creation means, per kind of flyweight.  `supports`:
the program compiles; `key0`: the key used for lookup; `val`: the value, if one
has to be constructed; `key1`: the key reported by `get_key` for a value
constructed from this source.  (No code of its own: used in statements and proofs.) -/
structure SrcSpec (K V : Type) where
  supports : Src K V → Bool
  key0 : Src K V → K
  val : Src K V → V
  key1 : Src K V → K

/-- `flyweight<T>`: key and value are the same.  (No code of its own: used in statements and
proofs.) -/
def SrcSpec.default (V : Type) : SrcSpec V V where
  supports _ := true
  key0 | .key k => k | .copy v => v | .move v => v
  val | .key k => k | .copy v => v | .move v => v
  key1 | .key k => k | .copy v => v | .move v => v

/-- `flyweight<key_value<K,V>>`: values can only be created from keys.  (No code of its own:
used in statements and proofs.) -/
def SrcSpec.product {K V : Type} (u : UserFns K V) : SrcSpec K V where
  supports | .key _ => true | .copy _ => false | .move _ => false
  key0 | .key k => k | .copy v => u.kfv v | .move v => u.kfv v
  val | .key k => u.ctor k | .copy v => v | .move v => v
  key1 | .key k => k | .copy v => u.kfv v | .move v => u.kfv v

/-- `flyweight<key_value<K,V,KeyFromValue>>`: the reported key is the one
extracted from the value.  (No code of its own: used in statements and proofs.) -/
def SrcSpec.variant {K V : Type} (u : UserFns K V) : SrcSpec K V where
  supports _ := true
  key0 | .key k => k | .copy v => u.kfv v | .move v => u.kfv v
  val | .key k => u.ctor k | .copy v => v | .move v => v
  key1 | .key k => u.kfv (u.ctor k) | .copy v => u.kfv v | .move v => u.kfv v

/-- `keq` is an equivalence relation and creating a value from a source yields
a value whose key is equivalent to the one looked up (the documented contract
of key extractors; immediate for the other kinds of flyweight).  (No code of its own: used in
statements and proofs.) -/
structure SrcSpec.Lawful {K V : Type} (sp : SrcSpec K V) (keq : K → K → Bool) : Prop where
  refl : ∀ k, keq k k = true
  symm : ∀ k l, keq k l = true → keq l k = true
  trans : ∀ k l m, keq k l = true → keq l m = true → keq k m = true
  contract : ∀ s, sp.supports s = true → keq (sp.key1 s) (sp.key0 s) = true

/-- What a flyweight is bound to.  (No code of its own: used in statements and proofs.) -/
structure Bind (K V : Type) where
  addr : Nat
  key : K
  val : V

/-- State of the specification: the bindings of the live flyweights, and all
the triples ever created. -/
structure SSt (K V : Type) where
  vars : List (Nat × Bind K V)
  kept : List (Bind K V)

namespace SSt
variable {K V : Type}

/-- No flyweight has been created yet.  (No code of its own: used in statements and proofs.) -/
def start : SSt K V := ⟨[], []⟩

/-- The triples available for sharing: with `refcounted` those of live
flyweights, with `no_tracking` all those ever created.  (No code of its own: used in statements
and proofs.) -/
def pool (trk : Tracking) (s : SSt K V) : List (Bind K V) :=
  match trk with
  | .refcounted => s.vars.map Prod.snd
  | .noTracking => s.kept

/-- Names of the live flyweights.  (No code of its own: used in statements and proofs.) -/
def names (s : SSt K V) : List Nat := s.vars.map Prod.fst

/-- Rebind variable `x`.  (No code of its own: used in statements and proofs.) -/
def rebind (vars : List (Nat × Bind K V)) (x : Nat) (b : Bind K V) : List (Nat × Bind K V) :=
  vars.map fun p => if p.1 = x then (x, b) else p

end SSt

section
variable {K V : Type}

/-- The operation is a valid program given the names of the live flyweights.  (No code of its
own: used in statements and proofs.) -/
def Op.valid (sp : SrcSpec K V) (names : List Nat) : Op K V → Bool
  | .init => true
  | .make x s => !names.contains x && sp.supports s
  | .copy x y => !names.contains x && names.contains y
  | .move x y => !names.contains x && names.contains y
  | .assign x y => names.contains x && names.contains y
  | .assignVal x s => names.contains x && sp.supports s
  | .swap x y => names.contains x && names.contains y
  | .destroy x => names.contains x
  | .get x => names.contains x
  | .getKey x => names.contains x
  | .eq x y => names.contains x && names.contains y
  | .hash x => names.contains x

/-- Creating a flyweight from a source yields a triple.  (No code of its own: used in statements
and proofs.) -/
inductive Create (trk : Tracking) (keq : K → K → Bool) (sp : SrcSpec K V) :
    SSt K V → Src K V → Bind K V → SSt K V → Prop
  | share (s src b) : b ∈ s.pool trk → keq b.key (sp.key0 src) = true → Create trk keq sp s src b s
  | fresh (s src a) : (∀ b ∈ s.pool trk, keq b.key (sp.key0 src) = false) →
      (∀ b ∈ s.pool trk, b.addr ≠ a) →
      Create trk keq sp s src ⟨a, sp.key1 src, sp.val src⟩
        { s with kept := ⟨a, sp.key1 src, sp.val src⟩ :: s.kept }

/-- One operation of the specification.  `hp` is the hash function for
addresses. -/
inductive SStep (trk : Tracking) (keq : K → K → Bool) (sp : SrcSpec K V) (hp : Nat → Nat) :
    SSt K V → Op K V → Out K V → SSt K V → Prop
  | init (s) : SStep trk keq sp hp s .init .done s
  | make (s x src b s') : Create trk keq sp s src b s' →
      SStep trk keq sp hp s (.make x src) .done { s' with vars := (x, b) :: s'.vars }
  | makeThrow (s x src) : SStep trk keq sp hp s (.make x src) .threw s
  | copy (s x y b) : (y, b) ∈ s.vars →
      SStep trk keq sp hp s (.copy x y) .done { s with vars := (x, b) :: s.vars }
  | move (s x y b) : (y, b) ∈ s.vars →
      SStep trk keq sp hp s (.move x y) .done { s with vars := (x, b) :: s.vars }
  | assign (s x y b) : (y, b) ∈ s.vars →
      SStep trk keq sp hp s (.assign x y) .done { s with vars := SSt.rebind s.vars x b }
  | assignVal (s x src b s') : Create trk keq sp s src b s' →
      SStep trk keq sp hp s (.assignVal x src) .done { s' with vars := SSt.rebind s'.vars x b }
  | assignValThrow (s x src) : SStep trk keq sp hp s (.assignVal x src) .threw s
  | swap (s x y b c) : (x, b) ∈ s.vars → (y, c) ∈ s.vars →
      SStep trk keq sp hp s (.swap x y) .done
        { s with vars := SSt.rebind (SSt.rebind s.vars x c) y b }
  | destroy (s x) :
      SStep trk keq sp hp s (.destroy x) .done { s with vars := s.vars.filter fun p => p.1 ≠ x }
  | get (s x b) : (x, b) ∈ s.vars → SStep trk keq sp hp s (.get x) (.val b.addr b.val) s
  | getKey (s x b) : (x, b) ∈ s.vars → SStep trk keq sp hp s (.getKey x) (.key b.key) s
  | eq (s x y b c) : (x, b) ∈ s.vars → (y, c) ∈ s.vars →
      SStep trk keq sp hp s (.eq x y) (.bool (b.addr == c.addr)) s
  | hash (s x b) : (x, b) ∈ s.vars → SStep trk keq sp hp s (.hash x) (.num (hp b.addr)) s

/-- A run of the specification: invalid operations are skipped. -/
inductive SRun (trk : Tracking) (keq : K → K → Bool) (sp : SrcSpec K V) (hp : Nat → Nat) :
    SSt K V → List (Op K V) → List (Out K V) → SSt K V → Prop
  | nil (s) : SRun trk keq sp hp s [] [] s
  | step {s op out s' ops outs s''} : Op.valid sp s.names op = true →
      SStep trk keq sp hp s op out s' → SRun trk keq sp hp s' ops outs s'' →
      SRun trk keq sp hp s (op :: ops) (out :: outs) s''
  | skip {s op ops outs s''} : Op.valid sp s.names op = false →
      SRun trk keq sp hp s ops outs s'' →
      SRun trk keq sp hp s (op :: ops) (.skipped :: outs) s''

end

end Verif

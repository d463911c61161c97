import Verif.Spec

/-!
# Specification: interned values that linger

This file does not refer to the model.  It says what a user of flyweights with `concurrent_factory` may rely on, in a program of one
thread: as `Verif.Spec`, but values stay for some time after their last flyweight, until a garbage collector removes them, and a creation
that has thrown may leave its key behind, from which a later creation with an equivalent key takes over.
-/

set_option autoImplicit false

namespace Verif.CFSpec
variable {K V : Type}

/-- What happens next: an operation of the program, or the garbage collector looks at an element.  (The user's program and the scheduler, no
code of the library.) -/
inductive Ev (K V : Type) where
  | op (o : Op K V)
  | collect (i : Nat)

/-- The same source, but with another key if it is a key.  (No code of its own: used in statements and proofs.) -/
def on (src : Src K V) (k : K) : Src K V :=
  match src with
  | .key _ => .key k
  | .copy v => .copy v
  | .move v => .move v

/-- The bindings of the flyweights, the triples available for sharing, and the keys left behind.  (No code of its own: used in statements and
proofs.) -/
structure LSt (K V : Type) where
  vars : List (Nat × Bind K V)
  pool : Bind K V → Prop
  left : K → Prop

/-- At the start there is nothing.  (No code of its own: used in statements and proofs.) -/
def LSt.start : LSt K V := ⟨[], fun _ => False, fun _ => False⟩

/-- Creating a flyweight from `src` yields a triple: an available one, or a new one; a new one is made from `src`, or, if an equivalent key has
been left behind by a creation that has thrown, from that key.  (No code of its own: used in statements and proofs.) -/
inductive Create (keq : K → K → Bool) (sp : SrcSpec K V) (t : LSt K V) (src : Src K V) : Bind K V → (Bind K V → Prop) → Prop
  | share (b pool') : t.pool b → keq b.key (sp.key0 src) = true → (∀ c, pool' c ↔ t.pool c) → Create keq sp t src b pool'
  | fresh (a src' pool') : (∀ b, t.pool b → keq b.key (sp.key0 src) = false) → (∀ b, t.pool b → b.addr ≠ a) →
      (src' = src ∧ (∀ k, t.left k → keq k (sp.key0 src) = false) ∨ ∃ k, t.left k ∧ keq k (sp.key0 src) = true ∧ src' = on src k) →
      (∀ c, pool' c ↔ t.pool c ∨ c = ⟨a, sp.key1 src', sp.val src'⟩) →
      Create keq sp t src ⟨a, sp.key1 src', sp.val src'⟩ pool'

/-- A creation from `src` has thrown: its key may be left behind, unless there is an equivalent one.  (No code of its own: used in statements and
proofs.) -/
def Leave (keq : K → K → Bool) (sp : SrcSpec K V) (t : LSt K V) (src : Src K V) (left' : K → Prop) : Prop :=
  (∀ k, left' k ↔ t.left k) ∨
  (∀ b, t.pool b → keq b.key (sp.key0 src) = false) ∧ (∀ k, t.left k → keq k (sp.key0 src) = false) ∧
    ∀ k, left' k ↔ t.left k ∨ k = sp.key0 src

/-- One operation.  (No code of its own: used in statements and proofs.) -/
inductive Step (keq : K → K → Bool) (sp : SrcSpec K V) (hp : Nat → Nat) (t : LSt K V) : Op K V → Out K V → LSt K V → Prop
  | init : Step keq sp hp t .init .done t
  | make (x src b pool' left') : Create keq sp t src b pool' → (∀ k, left' k ↔ t.left k ∧ keq k (sp.key0 src) = false) →
      Step keq sp hp t (.make x src) .done ⟨(x, b) :: t.vars, pool', left'⟩
  | makeThrow (x src pool' left') : (∀ c, pool' c ↔ t.pool c) → Leave keq sp t src left' →
      Step keq sp hp t (.make x src) .threw ⟨t.vars, pool', left'⟩
  | copy (x y b) : (y, b) ∈ t.vars → Step keq sp hp t (.copy x y) .done { t with vars := (x, b) :: t.vars }
  | move (x y b) : (y, b) ∈ t.vars → Step keq sp hp t (.move x y) .done { t with vars := (x, b) :: t.vars }
  | assign (x y b) : (y, b) ∈ t.vars → Step keq sp hp t (.assign x y) .done { t with vars := SSt.rebind t.vars x b }
  | assignVal (x src b pool' left') : Create keq sp t src b pool' → (∀ k, left' k ↔ t.left k ∧ keq k (sp.key0 src) = false) →
      Step keq sp hp t (.assignVal x src) .done ⟨SSt.rebind t.vars x b, pool', left'⟩
  | assignValThrow (x src pool' left') : (∀ c, pool' c ↔ t.pool c) → Leave keq sp t src left' →
      Step keq sp hp t (.assignVal x src) .threw ⟨t.vars, pool', left'⟩
  | swap (x y b c) : (x, b) ∈ t.vars → (y, c) ∈ t.vars →
      Step keq sp hp t (.swap x y) .done { t with vars := SSt.rebind (SSt.rebind t.vars x c) y b }
  | destroy (x) : Step keq sp hp t (.destroy x) .done { t with vars := t.vars.filter fun p => p.1 ≠ x }
  | get (x b) : (x, b) ∈ t.vars → Step keq sp hp t (.get x) (.val b.addr b.val) t
  | getKey (x b) : (x, b) ∈ t.vars → Step keq sp hp t (.getKey x) (.key b.key) t
  | eq (x y b c) : (x, b) ∈ t.vars → (y, c) ∈ t.vars → Step keq sp hp t (.eq x y) (.bool (b.addr == c.addr)) t
  | hash (x b) : (x, b) ∈ t.vars → Step keq sp hp t (.hash x) (.num (hp b.addr)) t

/-- The garbage collector may remove triples that no flyweight is bound to, and keys left behind.  (No code of its own: used in statements and
proofs.) -/
structure Collect (t t' : LSt K V) : Prop where
  vars : t'.vars = t.vars
  pool : ∀ b, t'.pool b → t.pool b
  kept : ∀ x b, (x, b) ∈ t.vars → t.pool b → t'.pool b
  left : ∀ k, t'.left k → t.left k

/-- A run: invalid operations are skipped.  (No code of its own: used in statements and proofs.) -/
inductive Run (keq : K → K → Bool) (sp : SrcSpec K V) (hp : Nat → Nat) : LSt K V → List (Ev K V) → List (Out K V) → LSt K V → Prop
  | nil (t) : Run keq sp hp t [] [] t
  | step {t o out t' evs outs t''} : o.valid sp (t.vars.map Prod.fst) = true → Step keq sp hp t o out t' →
      Run keq sp hp t' evs outs t'' → Run keq sp hp t (.op o :: evs) (out :: outs) t''
  | skip {t o evs outs t''} : o.valid sp (t.vars.map Prod.fst) = false → Run keq sp hp t evs outs t'' →
      Run keq sp hp t (.op o :: evs) (.skipped :: outs) t''
  | collect {t i t' evs outs t''} : Collect t t' → Run keq sp hp t' evs outs t'' → Run keq sp hp t (.collect i :: evs) outs t''

end Verif.CFSpec

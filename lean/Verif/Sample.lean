import Verif.Observe
import Verif.CoreLazy
import Verif.CoreClean

/-!
# Concrete flyweight types and programs

Used by the examples that stand beside the property theorems, to show that
their hypotheses are met by actual executions of the model.
-/

set_option autoImplicit false

namespace Verif.Sample

/-- Keys are numbers, two keys being equivalent if they agree modulo 10.  (No code of its own:
an example.) -/
def keq (k l : Nat) : Bool := k % 10 == l % 10

/-- A compatible hash.  (No code of its own: an example.) -/
def hash (k : Nat) : Nat := 7 * (k % 10)

theorem hashOk : HashOk hash keq where
  refl a := by simp [keq]
  symm a b := by simp only [keq, beq_iff_eq]; exact Eq.symm
  trans a b c := by simp only [keq, beq_iff_eq]; exact Eq.trans
  compat a b := by simp only [keq, beq_iff_eq, hash]; intro h; rw [h]

/-- Order of the last digits.  (No code of its own: an example.) -/
def less (k l : Nat) : Bool := k % 10 < l % 10

theorem lessOk : OrderOk less where
  irrefl a := by simp [less]
  trans a b c := by simp only [less, decide_eq_true_eq]; omega
  incomp a b c := by simp only [less, decide_eq_false_iff_not]; omega

/-- Values are pairs of a key and its square; moved-from objects become zero.  (No code of its
own: an example.) -/
def u : UserFns Nat (Nat × Nat) := ⟨fun k => (k, k * k), Prod.fst, fun _ => 0, fun _ => (0, 0)⟩

/-- (No code of its own: an example.) -/
def u₀ : UserFns Nat Nat := ⟨id, id, fun _ => 0, fun _ => 0⟩

/-- `flyweight<int>` with `hashed_factory`.  (No code of its own: an example.) -/
def dflt (trk : Tracking) :=
  Setup.hashed (DRep.lawful u₀) trk (fun n => 2 * n) hashOk (SrcSpec.default_lawful hashOk.equiv)

/-- `flyweight<key_value<K,V>>` with `hashed_factory`.  (No code of its own: an example.) -/
def prod (trk : Tracking) :=
  Setup.hashed (PRep.lawful u) trk (fun n => 2 * n) hashOk (SrcSpec.product_lawful u hashOk.equiv)

/-- `flyweight<key_value<K,V,KeyFromValue>>` with `hashed_factory`.  (No code of its own: an
example.) -/
def var (trk : Tracking) :=
  Setup.hashed (VRep.lawful u) trk (fun n => 2 * n) hashOk
    (SrcSpec.variant_lawful u hashOk.equiv fun k => by simp [u, keq])

/-- The same with `set_factory`.  (No code of its own: an example.) -/
def varSet (trk : Tracking) :=
  Setup.set (VRep.lawful u) trk lessOk
    (SrcSpec.variant_lawful u lessOk.equiv fun k => by simp [u, incomparable, less])

/-- The same with the list-update factory.  (No code of its own: an example.) -/
def varLu (trk : Tracking) :=
  Setup.lu (VRep.lawful u) trk
    (SrcSpec.variant_lawful u hashOk.equiv fun k => by simp [u, keq])

/-- An allocator that reuses addresses.  (No code of its own: an example.) -/
def alloc (_ : Nat) (l : List Nat) : Nat := l.sum + 1

theorem alloc_ok : ∀ n l, alloc n l ∉ l := by
  intro n l h
  have : ∀ (l : List Nat) a, a ∈ l → a ≤ l.sum := by
    intro l
    induction l with
    | nil => intro a h; cases h
    | cons b l ih =>
      intro a h
      rcases List.mem_cons.1 h with rfl | h
      · simp
      · have := ih a h
        simp; omega
  have := this l _ h
  simp [alloc] at this
  omega

/-- Nothing throws.  (No code of its own: an example.) -/
def calm : Nat → Bool := fun _ => false

/-- Only the `n`-th operation that may throw does.  (No code of its own: an example.) -/
def failAt (n : Nat) : Nat → Bool := fun i => i == n

/-- Three flyweights, two of them equivalent, one destroyed.  (No code of its own: an example.) -/
def prog : List (Op Nat (Nat × Nat)) :=
  [.make 0 (.key 3), .make 1 (.key 4), .make 2 (.key 13), .destroy 1]

end Verif.Sample

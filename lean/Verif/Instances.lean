import Verif.CoreInv
import Verif.FactoryInst

/-!
# Flyweight types of the library

The combinations of value policies, factories and tracking policies, as
instances of `Setup`.
-/

set_option autoImplicit false

namespace Verif

section Lift
variable {K V Rep : Type} (P : Policy K V Rep)

/-- Hash of an entry: that of its key, obtained by the conversion to
`const key_type&`, /repo/include/boost/flyweight/hashed_factory.hpp:43-61.  The
case without key is not reached (`Core.keysReadable`). -/
def liftHash (hash : K → Nat) (e : Ent Rep) : Nat :=
  match P.toKey e.rep with
  | none => 0
  | some k => hash k

/-- Equality of entries: that of their keys,
/repo/include/boost/flyweight/hashed_factory.hpp:43-61.  The cases without key
are not reached (`Core.keysReadable`). -/
def liftPred (keq : K → K → Bool) (e e' : Ent Rep) : Bool :=
  match P.toKey e.rep, P.toKey e'.rep with
  | some k, some k' => keq k k'
  | none, none => true
  | _, _ => false

/-- Comparison of entries: that of their keys,
/repo/include/boost/flyweight/set_factory.hpp:36-51.  The cases without key are
not reached (`Core.keysReadable`). -/
def liftLt (less : K → K → Bool) (e e' : Ent Rep) : Bool :=
  match P.toKey e.rep, P.toKey e'.rep with
  | some k, some k' => less k k'
  | none, some _ => true
  | _, none => false

theorem liftHash_ok {hash : K → Nat} {keq : K → K → Bool} (ok : HashOk hash keq) :
    HashOk (liftHash P hash) (liftPred P keq) where
  refl a := by unfold liftPred; cases P.toKey a.rep <;> simp [ok.refl]
  symm a b := by
    unfold liftPred
    cases P.toKey a.rep <;> cases P.toKey b.rep <;> simp
    exact ok.symm _ _
  trans a b c := by
    unfold liftPred
    cases P.toKey a.rep <;> cases P.toKey b.rep <;> cases P.toKey c.rep <;> simp
    exact ok.trans _ _ _
  compat a b := by
    unfold liftPred liftHash
    cases P.toKey a.rep <;> cases P.toKey b.rep <;> simp
    exact ok.compat _ _

theorem liftLt_ok {less : K → K → Bool} (ok : OrderOk less) : OrderOk (liftLt P less) where
  irrefl a := by unfold liftLt; cases P.toKey a.rep <;> simp [ok.irrefl]
  trans a b c := by
    unfold liftLt
    cases P.toKey a.rep <;> cases P.toKey b.rep <;> cases P.toKey c.rep <;> simp
    exact ok.trans _ _ _
  incomp a b c := by
    unfold liftLt
    cases P.toKey a.rep <;> cases P.toKey b.rep <;> cases P.toKey c.rep <;> simp
    exact ok.incomp _ _ _

theorem liftPred_key (keq : K → K → Bool) :
    KeyEqv P keq (fun e e' => liftPred P keq e e' = true) := by
  intro e e' k k' h h'
  simp only [liftPred, h, h']

theorem liftLt_key (less : K → K → Bool) :
    KeyEqv P (incomparable less) (fun e e' => incomparable (liftLt P less) e e' = true) := by
  intro e e' k k' h h'
  simp only [incomparable, liftLt, h, h']

end Lift

/-! ## Sources -/

/-- An equivalence relation.  (No code of its own: used in statements and proofs.) -/
structure EquivOk {K : Type} (keq : K → K → Bool) : Prop where
  refl : ∀ k, keq k k = true
  symm : ∀ k l, keq k l = true → keq l k = true
  trans : ∀ k l m, keq k l = true → keq l m = true → keq k m = true

theorem HashOk.equiv {K : Type} {hash : K → Nat} {keq : K → K → Bool} (h : HashOk hash keq) :
    EquivOk keq := ⟨h.refl, h.symm, h.trans⟩

theorem OrderOk.equiv {K : Type} {less : K → K → Bool} (h : OrderOk less) :
    EquivOk (incomparable less) where
  refl k := by simp [incomparable, h.irrefl]
  symm k l := by simp only [incomparable, Bool.and_eq_true]; exact fun h => ⟨h.2, h.1⟩
  trans k l m := by
    simp only [incomparable, Bool.and_eq_true, Bool.not_eq_true']
    exact fun h1 h2 => h.incomp k l m h1.1 h1.2 h2.1 h2.2

theorem SrcSpec.default_lawful {V : Type} {keq : V → V → Bool} (h : EquivOk keq) :
    (SrcSpec.default V).Lawful keq :=
  ⟨h.refl, h.symm, h.trans, fun s _ => by cases s <;> exact h.refl _⟩

theorem SrcSpec.product_lawful {K V : Type} (u : UserFns K V) {keq : K → K → Bool} (h : EquivOk keq) :
    (SrcSpec.product u).Lawful keq :=
  ⟨h.refl, h.symm, h.trans, fun s _ => by cases s <;> exact h.refl _⟩

/-- Here the key extractor has to agree with the construction of values. -/
theorem SrcSpec.variant_lawful {K V : Type} (u : UserFns K V) {keq : K → K → Bool} (h : EquivOk keq)
    (contract : ∀ k, keq (u.kfv (u.ctor k)) k = true) : (SrcSpec.variant u).Lawful keq :=
  ⟨h.refl, h.symm, h.trans, fun s _ => by
    cases s with
    | key k => exact contract k
    | copy v => exact h.refl _
    | move v => exact h.refl _⟩

/-! ## Setups -/

namespace Setup
variable {K V Rep : Type} {P : Policy K V Rep} {sp : SrcSpec K V}

/-- A flyweight type using `hashed_factory`.  Models the combination made by
/repo/include/boost/flyweight/flyweight.hpp:126-149 with
/repo/include/boost/flyweight/hashed_factory.hpp:74-91. -/
def hashed (L : P.Lawful sp) (trk : Tracking) {hash : K → Nat} {keq : K → K → Bool}
    (grow : Nat → Nat) (ok : HashOk hash keq) (LS : sp.Lawful keq) :
    Setup K V Rep (Hashed (Ent Rep)) where
  P := P
  Fa := Hashed.factory (liftHash P hash) (liftPred P keq) grow
  trk := trk
  sp := sp
  keq := keq
  eqv := _
  L := L
  LF := Hashed.lawful grow (liftHash_ok P ok)
  LS := LS
  hkey := liftPred_key P keq

/-- A flyweight type using `set_factory`.  Models the combination made by
/repo/include/boost/flyweight/flyweight.hpp:126-149 with
/repo/include/boost/flyweight/set_factory.hpp:32-57. -/
def set (L : P.Lawful sp) (trk : Tracking) {less : K → K → Bool} (ok : OrderOk less)
    (LS : sp.Lawful (incomparable less)) : Setup K V Rep (List (Nat × Ent Rep)) where
  P := P
  Fa := setFactory (liftLt P less)
  trk := trk
  sp := sp
  keq := incomparable less
  eqv := _
  L := L
  LF := setFactory.lawful (liftLt_ok P ok)
  LS := LS
  hkey := liftLt_key P less

/-- A flyweight type using the list-update factory.  Models the combination made by
/repo/include/boost/flyweight/flyweight.hpp:126-149 with the factory of
/repo/test/test_custom_factory.cpp:28-68. -/
def lu (L : P.Lawful sp) (trk : Tracking) {keq : K → K → Bool} (LS : sp.Lawful keq) :
    Setup K V Rep (List (Nat × (Nat × Ent Rep))) where
  P := P
  Fa := luFactory (liftPred P keq)
  trk := trk
  sp := sp
  keq := keq
  eqv := _
  L := L
  LF := luFactory.lawful (liftPred P keq)
  LS := LS
  hkey := liftPred_key P keq

end Setup
end Verif

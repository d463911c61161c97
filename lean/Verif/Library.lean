import Verif.Observe
import Verif.CoreLazy
import Verif.CoreClean
import Verif.CoreMoves

/-!
# The flyweight types that the library provides

Which value policies, factories and key equivalences come together, asking of the
user's types only what the documentation asks of them.  All are flyweight types in
the sense of `Setup`, so that what is proved of any `Setup` holds of them.
-/

set_option autoImplicit false

namespace Verif

/-- The value policies of the library, with the arguments that flyweights of them can be made
from: `default_value_policy` (/repo/include/boost/flyweight/detail/default_value_policy.hpp:30-76),
`key_value` without key extractor (/repo/include/boost/flyweight/key_value.hpp:194-295) and with
one (/repo/include/boost/flyweight/key_value.hpp:50-192).  The last flag tells the key-value forms.  An
extractor has to give back the key that a value was made from. -/
inductive LibPolicy : {K V Rep : Type} → Policy K V Rep → SrcSpec K V → (K → K → Bool) → Bool → Prop
  | plain {V : Type} (u : UserFns V V) (keq : V → V → Bool) :
      LibPolicy (DRep.policy u) (SrcSpec.default V) keq false
  | product {K V : Type} (u : UserFns K V) (keq : K → K → Bool) :
      LibPolicy (PRep.policy u) (SrcSpec.product u) keq true
  | variant {K V : Type} (u : UserFns K V) (keq : K → K → Bool)
      (contract : ∀ k, keq (u.kfv (u.ctor k)) k = true) :
      LibPolicy (VRep.policy u) (SrcSpec.variant u) keq true

/-- The factories of the library and of its tests and examples, with the equivalence of keys they go by:
`hashed_factory` (/repo/include/boost/flyweight/hashed_factory.hpp:43-91), `set_factory`
(/repo/include/boost/flyweight/set_factory.hpp:32-57), the list factory of
/repo/test/test_custom_factory.cpp:28-68 and the verbose factory of
/repo/example/custom_factory.cpp:36-74. -/
inductive LibFactory {K V Rep : Type} (P : Policy K V Rep) :
    {F : Type} → Factory F (Ent Rep) → (K → K → Bool) → Prop
  | hashed {hash : K → Nat} {keq : K → K → Bool} (grow : Nat → Nat) (ok : HashOk hash keq) :
      LibFactory P (Hashed.factory (liftHash P hash) (liftPred P keq) grow) keq
  | set {less : K → K → Bool} (ok : OrderOk less) :
      LibFactory P (setFactory (liftLt P less)) (incomparable less)
  | list {keq : K → K → Bool} (ok : EquivOk keq) :
      LibFactory P (luFactory (liftPred P keq)) keq
  | verbose {less : K → K → Bool} (ok : OrderOk less) :
      LibFactory P (verboseFactory (liftLt P less)) (incomparable less)

/-- `S` is the flyweight type made of these.  (No code of its own: used in statements and proofs.) -/
structure Setup.Is {K V Rep F : Type} (S : Setup K V Rep F) (P : Policy K V Rep) (Fa : Factory F (Ent Rep))
    (trk : Tracking) (sp : SrcSpec K V) (keq : K → K → Bool) : Prop where
  policy : S.P = P
  factory : S.Fa = Fa
  tracking : S.trk = trk
  sources : S.sp = sp
  keys : S.keq = keq

variable {K V Rep F : Type} {P : Policy K V Rep} {Fa : Factory F (Ent Rep)} {sp : SrcSpec K V}
  {keq : K → K → Bool} {kd : Bool}

theorem LibFactory.equiv (h : LibFactory P Fa keq) : EquivOk keq := by
  cases h with
  | hashed grow ok => exact ok.equiv
  | set ok => exact ok.equiv
  | list ok => exact ok
  | verbose ok => exact ok.equiv

theorem LibFactory.lawful (h : LibFactory P Fa keq) :
    ∃ eqv, Nonempty (Fa.Lawful eqv) ∧ KeyEqv P keq eqv := by
  cases h with
  | hashed grow ok => exact ⟨_, ⟨Hashed.lawful grow (liftHash_ok P ok)⟩, liftPred_key P keq⟩
  | set ok => exact ⟨_, ⟨setFactory.lawful (liftLt_ok P ok)⟩, liftLt_key P _⟩
  | list ok => exact ⟨_, ⟨luFactory.lawful (liftPred P keq)⟩, liftPred_key P keq⟩
  | verbose ok => exact ⟨_, ⟨verboseFactory.lawful (liftLt_ok P ok)⟩, liftLt_key P _⟩

theorem LibPolicy.laws (h : LibPolicy P sp keq kd) (he : EquivOk keq) :
    sp.Lawful keq ∧ P.Honest ∧ P.Tidy ∧ P.Courteous ∧
      ∃ L : P.Lawful sp, (kd = true → Nonempty L.Lazy) ∧ (L.fullKeys = 0 ∨ L.fullKeys = 1) := by
  cases h with
  | plain u =>
    exact ⟨SrcSpec.default_lawful he, DRep.honest u, DRep.tidy u, Moves.DRep.courteous u, DRep.lawful u,
      (fun h => by cases h), .inl rfl⟩
  | product u =>
    exact ⟨SrcSpec.product_lawful u he, PRep.honest u, PRep.tidy u, Moves.PRep.courteous u, PRep.lawful u,
      (fun _ => ⟨PRep.lazy u⟩), .inr rfl⟩
  | variant u _ contract =>
    exact ⟨SrcSpec.variant_lawful u he contract, VRep.honest u, VRep.tidy u, Moves.VRep.courteous u, VRep.lawful u,
      (fun _ => ⟨VRep.lazy u⟩), .inl rfl⟩

/-- All flyweight types of the library are flyweight types in the sense of `Setup`. -/
theorem LibPolicy.setup (h : LibPolicy P sp keq kd) (hF : LibFactory P Fa keq) (trk : Tracking) :
    ∃ S : Setup K V Rep F, S.Is P Fa trk sp keq ∧ S.P.Honest ∧ S.P.Tidy ∧ S.P.Courteous ∧
      (kd = true → Nonempty S.L.Lazy) := by
  obtain ⟨LS, h1, h2, h3, L, h4, _⟩ := h.laws hF.equiv
  obtain ⟨eqv, ⟨LF⟩, hk⟩ := hF.lawful
  exact ⟨⟨P, Fa, trk, sp, keq, eqv, L, LF, LS, hk⟩, ⟨rfl, rfl, rfl, rfl, rfl⟩, h1, h2, h3, h4⟩

end Verif

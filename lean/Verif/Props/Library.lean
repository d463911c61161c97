import Verif.Library
import Verif.Props.Core
import Verif.Props.Value
import Verif.Props.Moves

/-!
# The flyweight types of the library: C01-C04, C10-C13, C15, C16, C18, C48

The theorems of the other files hold of all `Setup`s: all flyweight types whose
value policy, factory and key equivalence fulfil certain laws.  Those here need
no laws.  `LibPolicy` and `LibFactory` list the value policies and factories, with
the requirements that the user's types have to meet: hash and equality
compatible, an order that is strict and weak, a key extractor that gives back keys.
-/

set_option autoImplicit false

namespace Verif.Props
open Setup
variable {K V Rep F : Type} {P : Policy K V Rep} {Fa : Factory F (Ent Rep)} {sp : SrcSpec K V}
  {keq : K → K → Bool} {kd : Bool}

/-- A value policy of the library: `key_value` with key extractor. -/
theorem libSample : LibPolicy (VRep.policy Sample.u) (SrcSpec.variant Sample.u) (incomparable Sample.less) true :=
  .variant _ _ fun k => by simp [Sample.u, incomparable, Sample.less]

/-- A factory of the library: `set_factory`, keys being compared modulo 10. -/
theorem libSet : LibFactory (VRep.policy Sample.u) (setFactory (liftLt (VRep.policy Sample.u) Sample.less))
    (incomparable Sample.less) := .set Sample.lessOk

/-- **C01** for every flyweight type of the library, with either tracking policy. -/
theorem C01_library (hP : LibPolicy P sp keq kd) (hF : LibFactory P Fa keq) (trk : Tracking) :
    ∃ S : Setup K V Rep F, S.Is P Fa trk sp keq ∧
    ∀ (hp : Nat → Nat) (fl : Nat → Bool) (alloc : Nat → List Nat → Nat), (∀ n l, alloc n l ∉ l) →
      ∀ ops : List (Op K V), ∃ outs s t, Core.exec P Fa trk hp sp ops (Core.start Fa fl alloc) = some (outs, s) ∧
        SRun trk keq sp hp SSt.start ops outs t ∧ (∀ x a k v, S.Sees s x a k v ↔ (x, ⟨a, k, v⟩) ∈ t.vars) ∧
        (.threw ∈ outs → ∃ n, fl n = true) := by
  obtain ⟨S, ⟨rfl, rfl, rfl, rfl, rfl⟩, _⟩ := hP.setup hF trk
  exact ⟨S, ⟨rfl, rfl, rfl, rfl, rfl⟩, fun hp fl alloc hal ops => C01_refinement S hp fl alloc hal ops⟩

/-- For this type, a program whose seventh operation of the user throws. -/
example : ∃ outs s t, Core.exec (VRep.policy Sample.u) (setFactory (liftLt (VRep.policy Sample.u) Sample.less)) .refcounted id
      (SrcSpec.variant Sample.u) Sample.prog (Core.start (setFactory (liftLt (VRep.policy Sample.u) Sample.less)) (Sample.failAt 7)
        Sample.alloc) = some (outs, s) ∧
    SRun .refcounted (incomparable Sample.less) (SrcSpec.variant Sample.u) id SSt.start Sample.prog outs t := by
  obtain ⟨_, _, h⟩ := C01_library libSample libSet .refcounted
  obtain ⟨outs, s, t, h1, h2, _⟩ := h id (Sample.failAt 7) Sample.alloc Sample.alloc_ok Sample.prog
  exact ⟨outs, s, t, h1, h2⟩

/-- **C02** for every flyweight type of the library. -/
theorem C02_library (hP : LibPolicy P sp keq kd) (hF : LibFactory P Fa keq) (trk : Tracking) :
    ∃ S : Setup K V Rep F, S.Is P Fa trk sp keq ∧
    ∀ (hp : Nat → Nat) (fl : Nat → Bool) (alloc : Nat → List Nat → Nat), (∀ n l, alloc n l ∉ l) →
      ∀ (ops : List (Op K V)) (outs : List (Out K V)) (s : St Rep F), S.run hp fl alloc ops = some (outs, s) →
      ∀ x y k l, given sp (fun _ => Option.none) ops outs x = some k →
        given sp (fun _ => Option.none) ops outs y = some l →
        S.perform hp (.eq x y) s = .ok (.bool (keq k l)) s ∧
        ∃ a k' v b l' w, S.Sees s x a k' v ∧ S.Sees s y b l' w ∧ keq k' k = true ∧ keq l' l = true ∧
          (a = b ↔ keq k l = true) := by
  obtain ⟨S, ⟨rfl, rfl, rfl, rfl, rfl⟩, _⟩ := hP.setup hF trk
  exact ⟨S, ⟨rfl, rfl, rfl, rfl, rfl⟩, fun hp fl alloc hal ops outs s h x y k l h1 h2 =>
    C02_equality S hp fl alloc hal ops outs s h x y k l h1 h2⟩

example := C02_library libSample libSet .noTracking

/-- **C03** for every flyweight type of the library. -/
theorem C03_library (hP : LibPolicy P sp keq kd) (hF : LibFactory P Fa keq) (trk : Tracking) :
    ∃ S : Setup K V Rep F, S.Is P Fa trk sp keq ∧
    ∀ s, S.Reach s → ∀ (hp : Nat → Nat) (ops : List (Op K V)), ∃ outs s', S.resume hp s ops = some (outs, s') ∧
      ∀ x a k v, S.Sees s x a k v → (∀ op ∈ ops, op.touches x = false) → S.Sees s' x a k v := by
  obtain ⟨S, hI, _⟩ := hP.setup hF trk
  refine ⟨S, hI, fun s hr hp ops => ?_⟩
  obtain ⟨outs, s', h⟩ := C03_continue S s hr hp ops
  exact ⟨outs, s', h, fun x a k v hx hops => C03_stable S s hr x a k v hx hp ops hops outs s' h⟩

example := C03_library libSample libSet .noTracking

/-- **C04** for every `refcounted` flyweight type of the library. -/
theorem C04_library (hP : LibPolicy P sp keq kd) (hF : LibFactory P Fa keq) :
    ∃ S : Setup K V Rep F, S.Is P Fa .refcounted sp keq ∧ ∀ s, S.Reach s →
      (∀ l : List Nat, l.Nodup → (∀ a, a ∈ l ↔ ∃ x k v, S.Sees s x a k v) → s.env.vals = l.length) ∧
      ((∀ x a k v, ¬ S.Sees s x a k v) → s.env.vals = 0 ∧ s.env.keys = 0 ∧ Fa.ids s.fac = []) := by
  obtain ⟨S, hI, _⟩ := hP.setup hF .refcounted
  obtain ⟨rfl, rfl, ht, rfl, rfl⟩ := hI
  exact ⟨S, ⟨rfl, rfl, ht, rfl, rfl⟩, fun s hr => ⟨(C04_lifetime S ht s hr).2, C04_empty S ht s hr⟩⟩

example := C04_library libSample libSet

/-- **C10** for every `no_tracking` flyweight type of the library. -/
theorem C10_library (hP : LibPolicy P sp keq kd) (hF : LibFactory P Fa keq) :
    ∃ S : Setup K V Rep F, S.Is P Fa .noTracking sp keq ∧
    ∀ s, S.Reach s → ∀ (hp : Nat → Nat) (ops : List (Op K V)) (outs : List (Out K V)) (s' : St Rep F),
      S.resume hp s ops = some (outs, s') → s.env.vals ≤ s'.env.vals ∧
      ∀ x a k v, S.Sees s x a k v → ∀ y src s'', keq k (sp.key0 src) = true →
        S.resume hp s' [.make y src] = some ([.done], s'') → S.Sees s'' y a k v := by
  obtain ⟨S, hI, _⟩ := hP.setup hF .noTracking
  obtain ⟨rfl, rfl, ht, rfl, rfl⟩ := hI
  exact ⟨S, ⟨rfl, rfl, ht, rfl, rfl⟩, fun s hr hp ops outs s' h => C10_never_removed S ht s hr hp ops outs s' h⟩

example := C10_library libSample libSet

/-- **C11** for every `refcounted` flyweight type of the library with `key_value`: creating or assigning constructs
one value if no flyweight has an equivalent key, else none; no other operation, and none that throws, constructs a
value. -/
theorem C11_library (hP : LibPolicy P sp keq true) (hF : LibFactory P Fa keq) :
    ∃ S : Setup K V Rep F, S.Is P Fa .refcounted sp keq ∧
    ∀ s, S.Reach s → ∀ (hp : Nat → Nat) (op : Op K V), op.valid sp (s.objs.map Prod.fst) = true →
      (∀ src out s', op.creates = some src → S.perform hp op s = .ok out s' →
        (s'.env.made = s.env.made ∧ ∃ x a k v, S.Sees s x a k v ∧ keq k (sp.key0 src) = true) ∨
        (s'.env.made = s.env.made + 1 ∧ ∀ x a k v, S.Sees s x a k v → keq k (sp.key0 src) = false)) ∧
      (∀ s', (S.perform hp op s = .exc s' ∨ (op.creates = Option.none ∧ ∃ out, S.perform hp op s = .ok out s')) →
        s'.env.made = s.env.made) := by
  obtain ⟨S, hI, _, _, _, hz⟩ := hP.setup hF .refcounted
  obtain ⟨Lz⟩ := hz rfl
  obtain ⟨rfl, rfl, ht, rfl, rfl⟩ := hI
  exact ⟨S, ⟨rfl, rfl, ht, rfl, rfl⟩, fun s hr hp op hv =>
    ⟨fun src out s' hop h => C11_lazy_refcounted S Lz ht s hr hp op src hop hv out s' h,
     fun s' h => C11_nothing_else S Lz s hr hp op hv s' h⟩⟩

example := C11_library libSample libSet

/-- **C12** for every flyweight type of the library: an operation that throws leaves everything as it was, and after it
any program continues as specified; an operation throws if and only if one of the user's operations does. -/
theorem C12_library (hP : LibPolicy P sp keq kd) (hF : LibFactory P Fa keq) (trk : Tracking) :
    ∃ S : Setup K V Rep F, S.Is P Fa trk sp keq ∧
    ∀ s, S.Reach s → ∀ (hp : Nat → Nat) (op : Op K V), op.valid sp (s.objs.map Prod.fst) = true →
      (∀ s', S.perform hp op s = .exc s' →
        (∀ x a k v, S.Sees s' x a k v ↔ S.Sees s x a k v) ∧
        s'.env.keys = s.env.keys ∧ s'.env.vals = s.env.vals ∧ s'.depth = 0 ∧ s'.locals = [] ∧
        (∃ n, s.env.tick ≤ n ∧ n < s'.env.tick ∧ s.env.faults n = true) ∧
        ∃ t : SSt K V, (∀ x a k v, S.Sees s x a k v ↔ (x, ⟨a, k, v⟩) ∈ t.vars) ∧
          ∀ ops, ∃ outs s'' t', S.resume hp s' ops = some (outs, s'') ∧ SRun trk keq sp hp t ops outs t') ∧
      (∀ out s', S.perform hp op s = .ok out s' →
        ∀ n, s.env.tick ≤ n → n < s'.env.tick → s.env.faults n = false) := by
  obtain ⟨S, hI, H, _⟩ := hP.setup hF trk
  obtain ⟨rfl, rfl, rfl, rfl, rfl⟩ := hI
  refine ⟨S, ⟨rfl, rfl, rfl, rfl, rfl⟩, fun s hr hp op hv => ⟨fun s' h => ?_, fun out s' h =>
    (C12_not_swallowed S H s s' hp op).1 out h⟩⟩
  obtain ⟨h1, h2, h3, h4, h5, _, h6⟩ := C12_strong_guarantee S s hr hp op hv s' h
  exact ⟨h1, h2, h3, h4, h5, (C12_not_swallowed S H s s' hp op).2 h, h6⟩

example := C12_library libSample libSet .noTracking

/-- **C13** for every flyweight type of the library: in every reachable state there are as many values as entries, and
either as many keys or none, depending on the value policy. -/
theorem C13_library (hP : LibPolicy P sp keq kd) (hF : LibFactory P Fa keq) (trk : Tracking) :
    ∃ S : Setup K V Rep F, S.Is P Fa trk sp keq ∧ ∃ perEntry : Int, (perEntry = 0 ∨ perEntry = 1) ∧
    ∀ s, S.Reach s → s.env.vals = (Fa.ids s.fac).length ∧ s.env.keys = perEntry * (Fa.ids s.fac).length ∧
      ∀ i ∈ Fa.ids s.fac, ∃ e k v, Fa.entry s.fac i = some e ∧ P.toKey e.rep = some k ∧ P.toValue e.rep = some v := by
  obtain ⟨LS, _, _, _, L, _, h1⟩ := hP.laws hF.equiv
  obtain ⟨eqv, ⟨LF⟩, hk⟩ := hF.lawful
  refine ⟨⟨P, Fa, trk, sp, keq, eqv, L, LF, LS, hk⟩, ⟨rfl, rfl, rfl, rfl, rfl⟩, L.fullKeys, h1, fun s hr => ?_⟩
  obtain ⟨h2, h3, h4⟩ := C13_balanced _ s hr
  exact ⟨h3, h2, h4⟩

example := C13_library libSample libSet .noTracking

/-- **C15** for every flyweight type of the library. -/
theorem C15_library (hP : LibPolicy P sp keq kd) (hF : LibFactory P Fa keq) (trk : Tracking) :
    ∃ S : Setup K V Rep F, S.Is P Fa trk sp keq ∧
    ∀ s, S.Reach s → ∀ (hp : Nat → Nat) (x y a : Nat) (k : K) (v : V), S.Sees s y a k v →
      (∀ op : Op K V, (∀ a k v, ¬ S.Sees s x a k v) → (op = .copy x y ∨ op = .move x y) →
        ∃ s', S.perform hp op s = .ok .done s' ∧ S.Sees s' x a k v ∧
          (∀ z b l w, z ≠ x → (S.Sees s' z b l w ↔ S.Sees s z b l w)) ∧
          s'.env.made = s.env.made ∧ s'.env.vals = s.env.vals ∧ s'.env.keys = s.env.keys) ∧
      (∀ a' k' v', S.Sees s x a' k' v' → ∃ s', S.perform hp (.assign x y) s = .ok .done s' ∧ S.Sees s' x a k v ∧
        (∀ z b l w, z ≠ x → (S.Sees s' z b l w ↔ S.Sees s z b l w)) ∧ s'.env.made = s.env.made) := by
  obtain ⟨S, hI, _, T, _⟩ := hP.setup hF trk
  exact ⟨S, hI, fun s hr hp x y a k v hy =>
    ⟨fun op hx hop => C15_copy S T s hr hp x y a k v hy hx op hop,
     fun a' k' v' hx => C15_assign S T s hr hp x y a a' k k' v v' hx hy⟩⟩

example := C15_library libSample libSet .noTracking

/-- **C16** for every flyweight type of the library. -/
theorem C16_library (hP : LibPolicy P sp keq kd) (hF : LibFactory P Fa keq) (trk : Tracking) :
    ∃ S : Setup K V Rep F, S.Is P Fa trk sp keq ∧
    ∀ s, S.Reach s → ∀ (hp : Nat → Nat) (x y a a' : Nat) (k k' : K) (v v' : V), S.Sees s x a k v →
      S.Sees s y a' k' v' → ∃ s', S.perform hp (.swap x y) s = .ok .done s' ∧ S.Sees s' x a' k' v' ∧ S.Sees s' y a k v ∧
      (∀ z b l w, z ≠ x → z ≠ y → (S.Sees s' z b l w ↔ S.Sees s z b l w)) ∧
      s'.fac = s.fac ∧ s'.env = s.env ∧ S.perform hp (.swap x y) s' = .ok .done s := by
  obtain ⟨S, hI, _⟩ := hP.setup hF trk
  exact ⟨S, hI, fun s hr hp x y a a' k k' v v' hx hy => C16_swap S s hr hp x y a a' k k' v v' hx hy⟩

example := C16_library libSample libSet .noTracking

/-- **C18** for every flyweight type of the library. -/
theorem C18_library (hP : LibPolicy P sp keq kd) (hF : LibFactory P Fa keq) (trk : Tracking) :
    ∃ S : Setup K V Rep F, S.Is P Fa trk sp keq ∧
    ∀ s, S.Reach s → ∀ (hp : Nat → Nat) (x y a b : Nat) (k l : K) (v w : V), S.Sees s x a k v → S.Sees s y b l w →
      S.perform hp (.hash x) s = .ok (.num (hp a)) s ∧
      (S.perform hp (.eq x y) s = .ok (.bool true) s → S.perform hp (.hash x) s = S.perform hp (.hash y) s) ∧
      (∀ ops outs s', (∀ op ∈ ops, op.touches x = false) → S.resume hp s ops = some (outs, s') →
        S.perform hp (.hash x) s' = .ok (.num (hp a)) s') ∧
      (keq k l = false → a ≠ b) := by
  obtain ⟨S, hI, _⟩ := hP.setup hF trk
  obtain ⟨rfl, rfl, rfl, rfl, rfl⟩ := hI
  exact ⟨S, ⟨rfl, rfl, rfl, rfl, rfl⟩, fun s hr hp x y a b k l v w hx hy => C18_hash S s hr hp x y a b k l v w hx hy⟩

example := C18_library libSample libSet .noTracking

/-- **C48** for every flyweight type of the library: only an rvalue argument is ever moved from. -/
theorem C48_library (hP : LibPolicy P sp keq kd) (hF : LibFactory P Fa keq) (trk : Tracking) :
    ∃ S : Setup K V Rep F, S.Is P Fa trk sp keq ∧
    ∀ (s : St Rep F) (hp : Nat → Nat) (op : Op K V), (∀ v, op.creates ≠ some (.move v)) →
      ∀ s', ((∃ out, S.perform hp op (fresh s) = .ok out s') ∨ S.perform hp op (fresh s) = .exc s') →
        s'.env.srcMoved = false := by
  obtain ⟨S, hI, _, _, C, _⟩ := hP.setup hF trk
  exact ⟨S, hI, fun s hp op hop s' h => C48_untouched S C s hp op hop s' h⟩

example := C48_library libSample libSet .noTracking

/-! ## All of them are there

The twelve combinations on concrete types: keys are numbers, equivalent if they agree in the last digit. -/

example : LibPolicy (DRep.policy Sample.u₀) (SrcSpec.default Nat) Sample.keq false := .plain _ _
example : LibPolicy (PRep.policy Sample.u) (SrcSpec.product Sample.u) Sample.keq true := .product _ _
example : LibPolicy (VRep.policy Sample.u) (SrcSpec.variant Sample.u) Sample.keq true :=
  .variant _ _ fun k => by simp [Sample.u, Sample.keq]
example : LibPolicy (VRep.policy Sample.u) (SrcSpec.variant Sample.u) (incomparable Sample.less) true :=
  .variant _ _ fun k => by simp [Sample.u, incomparable, Sample.less]
example {V Rep : Type} (P : Policy Nat V Rep) :
    LibFactory P (Hashed.factory (liftHash P Sample.hash) (liftPred P Sample.keq) (2 * ·)) Sample.keq :=
  .hashed _ Sample.hashOk
example {V Rep : Type} (P : Policy Nat V Rep) :
    LibFactory P (setFactory (liftLt P Sample.less)) (incomparable Sample.less) := .set Sample.lessOk
example {V Rep : Type} (P : Policy Nat V Rep) :
    LibFactory P (luFactory (liftPred P Sample.keq)) Sample.keq := .list Sample.hashOk.equiv
example {V Rep : Type} (P : Policy Nat V Rep) :
    LibFactory P (verboseFactory (liftLt P Sample.less)) (incomparable Sample.less) := .verbose Sample.lessOk

/-- A program with the verbose factory: two flyweights share the value of the first, the third is alone; then the
first value dies, and is made anew. -/
example : ∃ s, Core.exec (VRep.policy Sample.u) (verboseFactory (liftLt (VRep.policy Sample.u) Sample.less)) .refcounted id
    (SrcSpec.variant Sample.u)
    [.make 0 (.key 3), .make 1 (.key 13), .make 2 (.key 4), .eq 0 1, .eq 0 2, .destroy 0, .destroy 1, .make 0 (.key 23)]
    (Core.start (verboseFactory (liftLt (VRep.policy Sample.u) Sample.less)) Sample.calm Sample.alloc) =
      some ([.done, .done, .done, .bool true, .bool false, .done, .done, .done], s) ∧
    s.env.vals = 2 ∧ s.fac.2.length = 5 :=
  ⟨_, rfl, rfl, rfl⟩

end Verif.Props

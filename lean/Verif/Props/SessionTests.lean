import Verif.SessionTestsOk
import Verif.Props.Session
import Verif.Props.Tests

/-!
# The library's test templates succeed with any factories: C71
-/

set_option autoImplicit false

namespace Verif.Props
open Client (Store Made)
open Session (Vars Sat)
open SessionTests (Nice Usual Test End Kind Suite)
open Operators (Cmp UserCmp Extract)
variable {ι : Type} [DecidableEq ι] {K V : ι → Type} {Str : Type}

/-- How a test ends that is started with the variables `w`: all checks succeed, or an operation of the user has thrown; what existed before is as before.
(No code of its own: used to state a property or an example.) -/
def Goes (T : (i : ι) → FlyType (K i) (V i)) (w : Vars K V) (r : Option (End (List Bool) × ((i : ι) → (T i).engine.σ))) : Prop :=
  ∃ e s, r = some (e, s) ∧ Shows T s w ∧ match e with
    | .ok bs => ∀ b ∈ bs, b = true
    | .threw => ∃ i, (T i).cfg.thr
    | .stuck => False

theorem goes_of_sat {T : (i : ι) → FlyType (K i) (V i)} {s : (i : ι) → (T i).engine.σ} (hr : ∀ i, (T i).Reach (s i)) {w : Vars K V} (hw : Shows T s w)
    {p : Test ι K V (List Bool)} (h : Sat (fun i => (T i).cfg) p w (SessionTests.Post (fun i => (T i).cfg) w [] Tests.Pass)) :
    Goes T w (Session.run (fun i => (T i).engine) p s) := by
  obtain ⟨e, s', w', h1, h2, h3⟩ := C70_rely T s hr w hw p _ fun a w' hp => hp.sat h
  obtain rfl : w' = w := h3.1.nil
  refine ⟨e, s', h1, h2, ?_⟩
  have := h3.2
  cases e <;> exact this

/-- **C71.**  `test_basic_template` succeeds with every factory, in a program that uses flyweights of other types, too. -/
theorem C71_basic (T : (i : ι) → FlyType (K i) (V i)) (s : (i : ι) → (T i).engine.σ) (hr : ∀ i, (T i).Reach (s i)) (w : Vars K V) (hw : Shows T s w)
    (i : ι) [DecidableEq (K i)] [DecidableEq (V i)] [DecidableEq Str] (u : Tests.Kit (K i) (V i) Str) (R : Nice (T i).cfg u.make) (h0 : u.val0 = u.make u.key0)
    (hs : Nat → Nat) (n : Nat) (hn : ∀ x, w i (n + x) = none) (its : List (K i)) :
    Goes T w (Session.run (fun i => (T i).engine) (SessionTests.loop (SessionTests.basic i u (T i).cfg.hp hs n) its) s) :=
  goes_of_sat hr hw (SessionTests.loop_pass its fun it _ => SessionTests.basic_pass i R h0 hs hn it)

/-- **C71.**  So does `test_basic_with_assign_template`, if moreover flyweights can be made of values and reading gives back the values of the sequence that were
written. -/
theorem C71_with_assign (T : (i : ι) → FlyType (K i) (V i)) (s : (i : ι) → (T i).engine.σ) (hr : ∀ i, (T i).Reach (s i)) (w : Vars K V) (hw : Shows T s w)
    (i : ι) [DecidableEq (K i)] [DecidableEq (V i)] [DecidableEq Str] (u : Tests.Kit (K i) (V i) Str) (R : Nice (T i).cfg u.make) (h0 : u.val0 = u.make u.key0)
    (hc : ∀ v, (T i).cfg.sp.supports (.copy v) = true ∧ (T i).cfg.sp.supports (.move v) = true)
    (hs : Nat → Nat) (n : Nat) (hn : ∀ x, w i (n + x) = none) (its : List (K i))
    (hio : ∀ k ∈ its, ∀ v, (u.ext (u.ins u.empty (u.make k)) v).val = some (u.make k)) :
    Goes T w (Session.run (fun i => (T i).engine) (SessionTests.basicWithAssign i u (T i).cfg.hp hs n its) s) :=
  goes_of_sat hr hw (SessionTests.basicWithAssign_pass (C := fun i => (T i).cfg) i R h0 (fun _ => (hc _).1) (fun _ => (hc _).2) hs hn its hio)

/-- **C71.**  So does `test_basic_comparison_template`, for two flyweights of the same type … -/
theorem C71_comparison (T : (i : ι) → FlyType (K i) (V i)) (s : (i : ι) → (T i).engine.σ) (hr : ∀ i, (T i).Reach (s i)) (w : Vars K V) (hw : Shows T s w)
    (i : ι) (mk : K i → V i) (R : Nice (T i).cfg mk) (hc : ∀ v, (T i).cfg.sp.supports (.copy v) = true) (c : UserCmp (V i) (V i)) (cmp : Cmp → V i → V i → Bool)
    (hu : Usual c cmp) (he : ∀ v v', c.eq v v' = true ↔ v = v') (n : Nat) (hn : ∀ x, w i (n + x) = none) (its : List (K i × K i)) :
    Goes T w (Session.run (fun i => (T i).engine) (SessionTests.loop (fun p => SessionTests.comparison i mk c cmp n p.1 p.2) its) s) :=
  goes_of_sat hr hw (SessionTests.loop_pass its fun p _ => SessionTests.comparison_pass (C := fun i => (T i).cfg) i R (fun _ => hc _) hu he hn p.1 p.2)

/-- **C71.**  … and for flyweights of two types with factories of their own, the comparisons of whose values need not be related in any way. -/
theorem C71_comparison_two (T : (i : ι) → FlyType (K i) (V i)) (s : (i : ι) → (T i).engine.σ) (hr : ∀ i, (T i).Reach (s i)) (w : Vars K V) (hw : Shows T s w)
    (i j : ι) (hij : i ≠ j) (mk : K i → V i) (mk' : K j → V j) (R : Nice (T i).cfg mk) (R' : Nice (T j).cfg mk') (hc : ∀ v, (T i).cfg.sp.supports (.copy v) = true)
    (hc' : ∀ v, (T j).cfg.sp.supports (.copy v) = true) (c : UserCmp (V i) (V j)) (cmp : Cmp → V i → V j → Bool) (hu : Usual c cmp) (n : Nat)
    (hn : ∀ x, w i (n + x) = none) (hn' : ∀ x, w j (n + x) = none) (its : List (K i × K j)) :
    Goes T w (Session.run (fun i => (T i).engine) (SessionTests.loop (fun p => SessionTests.comparisonTwo i j mk mk' c cmp n p.1 p.2) its) s) :=
  goes_of_sat hr hw (SessionTests.loop_pass its fun p _ =>
    SessionTests.comparisonTwo_pass (C := fun i => (T i).cfg) hij R R' (fun _ => hc _) (fun _ => hc' _) hu hn hn' p.1 p.2)

/-- **C71.**  The test with values whose constructors throw does no harm; nothing is asked of keys and values. -/
theorem C71_throwing (T : (i : ι) → FlyType (K i) (V i)) (s : (i : ι) → (T i).engine.σ) (hr : ∀ i, (T i).Reach (s i)) (w : Vars K V) (hw : Shows T s w)
    (i : ι) (n : Nat) (hn : w i n = none) (k : K i) (v v' : V i) (hk : (T i).cfg.sp.supports (.key k) = true) (hv : (T i).cfg.sp.supports (.move v) = true)
    (hv' : (T i).cfg.sp.supports (.move v') = true) : Goes T w (Session.run (fun i => (T i).engine) (SessionTests.throwing i n k v v') s) :=
  goes_of_sat hr hw (SessionTests.throwing_pass (C := fun i => (T i).cfg) i hn hk hv hv')

/-! The flyweight types of the library. -/

theorem nice_plain {V : Type} {C : Cfg V V} (h : C.sp = SrcSpec.default V) (he : ∀ v w, C.keq v w = true ↔ v = w) : Nice C id where
  keys := he
  vals := by rw [h]; intro src _; cases src <;> exact ⟨rfl, rfl⟩
  inj := fun _ _ h => h
  fromKey := by rw [h]; exact fun _ => ⟨rfl, rfl⟩
  given := by rw [h]; exact fun _ => ⟨rfl, rfl⟩

theorem nice_variant {K V : Type} {C : Cfg K V} {u : UserFns K V} (h : C.sp = SrcSpec.variant u) (he : ∀ v w, C.keq v w = true ↔ v = w)
    (h1 : ∀ k, u.kfv (u.ctor k) = k) (h2 : ∀ v, u.ctor (u.kfv v) = v) : Nice C u.ctor where
  keys := he
  vals := by
    rw [h]
    intro src _
    cases src with
    | key k => exact ⟨h1 k, rfl⟩
    | copy v => exact ⟨rfl, (h2 v).symm⟩
    | move v => exact ⟨rfl, (h2 v).symm⟩
  inj := fun k l h => by rw [← h1 k, h, h1]
  fromKey := by rw [h]; exact fun _ => ⟨rfl, rfl⟩
  given := by rw [h]; exact fun _ => ⟨rfl, rfl⟩

theorem nice_product {K V : Type} {C : Cfg K V} {u : UserFns K V} (h : C.sp = SrcSpec.product u) (he : ∀ v w, C.keq v w = true ↔ v = w)
    (h1 : ∀ k l, u.ctor k = u.ctor l → k = l) : Nice C u.ctor where
  keys := he
  vals := by
    rw [h]
    intro src hs
    cases src with
    | key k => exact ⟨rfl, rfl⟩
    | copy v => cases hs
    | move v => cases hs
  inj := h1
  fromKey := by rw [h]; exact fun _ => ⟨rfl, rfl⟩
  given := by rw [h]; exact fun _ => ⟨rfl, rfl⟩

/-- `flyweight<int>`, `flyweight<std::string>` and `flyweight<char>` are `plain`, `key_value<std::string,texture,...>` and `key_value<int,throwing_value,...>` have a key extractor,
`key_value<int,factorization>` has none.  Keys are compared by equality and values have as many states as keys.  (No code of its own: used to state a property or an example.) -/
structure AreTypes {I S C TK TV FK FV RK RV : Type} (int : Cfg I I) (string : Cfg S S) (char : Cfg C C) (texture : Cfg TK TV) (tu : UserFns TK TV)
    (factorization : Cfg FK FV) (fu : UserFns FK FV) (throwing : Cfg RK RV) (ru : UserFns RK RV) : Prop where
  int : int.sp = SrcSpec.default I ∧ ∀ v w, int.keq v w = true ↔ v = w
  string : string.sp = SrcSpec.default S ∧ ∀ v w, string.keq v w = true ↔ v = w
  char : char.sp = SrcSpec.default C ∧ ∀ v w, char.keq v w = true ↔ v = w
  texture : texture.sp = SrcSpec.variant tu ∧ (∀ v w, texture.keq v w = true ↔ v = w) ∧ (∀ k, tu.kfv (tu.ctor k) = k) ∧ ∀ v, tu.ctor (tu.kfv v) = v
  factorization : factorization.sp = SrcSpec.product fu ∧ (∀ v w, factorization.keq v w = true ↔ v = w) ∧ ∀ k l, fu.ctor k = fu.ctor l → k = l
  throwing : throwing.sp = SrcSpec.variant ru

/-- Keys of the types of the test.  (No code of its own: used to state a property or an example.) -/
abbrev TestK (I S C TK FK RK : Type) : Kind → Type
  | .int => I | .string => S | .char => C | .texture => TK | .factorization => FK | .throwing => RK

/-- Values of the types of the test.  (No code of its own: used to state a property or an example.) -/
abbrev TestV (I S C TV FV RV : Type) : Kind → Type
  | .int => I | .string => S | .char => C | .texture => TV | .factorization => FV | .throwing => RV

/-- What the test is given: how values are written and read, how they are compared, and the sequences.  (No code of its own: used to state a property or an example.) -/
structure Inputs {I S C TK TV FK FV RK RV : Type} (tu : UserFns TK TV) (fu : UserFns FK FV)
    (D : Suite (TestK I S C TK FK RK) (TestV I S C TV FV RV) Str) : Prop where
  int : D.int.make = id ∧ D.int.val0 = D.int.key0
  string : D.string.make = id ∧ D.string.val0 = D.string.key0
  char : D.char = id
  texture : D.texture.make = tu.ctor ∧ D.texture.val0 = tu.ctor D.texture.key0
  factorization : D.factorization.make = fu.ctor ∧ D.factorization.val0 = fu.ctor D.factorization.key0
  ints : ∀ k ∈ D.ints, ∀ v, (D.int.ext (D.int.ins D.int.empty k) v).val = some k
  words : ∀ k ∈ D.words, ∀ v, (D.string.ext (D.string.ins D.string.empty k) v).val = some k
  textures : ∀ k ∈ D.textures, ∀ v, (D.texture.ext (D.texture.ins D.texture.empty (tu.ctor k)) v).val = some (tu.ctor k)
  cInt : Usual D.cInt D.cmpInt
  cString : Usual D.cString D.cmpString ∧ ∀ v w, D.cString.eq v w = true ↔ v = w
  cTexture : Usual D.cTexture D.cmpTexture ∧ ∀ v w, D.cTexture.eq v w = true ↔ v = w

/-- **C71.**  The whole function `test_basic_template<FlyweightSpecifier>()` succeeds, for any sequences and any factories, each of its six types having its own, and from every
state of a program that has used the same types before. -/
theorem C71_all {I S C TK TV FK FV RK RV : Type} [∀ i, DecidableEq (TestK I S C TK FK RK i)] [∀ i, DecidableEq (TestV I S C TV FV RV i)] [DecidableEq Str]
    (tu : UserFns TK TV) (fu : UserFns FK FV) (ru : UserFns RK RV) (T : (i : Kind) → FlyType (TestK I S C TK FK RK i) (TestV I S C TV FV RV i))
    (ht : AreTypes (T .int).cfg (T .string).cfg (T .char).cfg (T .texture).cfg tu (T .factorization).cfg fu (T .throwing).cfg ru)
    (D : Suite (TestK I S C TK FK RK) (TestV I S C TV FV RV) Str) (hD : Inputs tu fu D)
    (s : (i : Kind) → (T i).engine.σ) (hr : ∀ i, (T i).Reach (s i)) (w : Vars (TestK I S C TK FK RK) (TestV I S C TV FV RV)) (hw : Shows T s w)
    (hs : Nat → Nat) (n : Nat) (hn : ∀ i x, w i (n + x) = none) :
    Goes T w (Session.run (fun i => (T i).engine) (SessionTests.suite D (fun i => (T i).cfg.hp) hs n) s) := by
  refine goes_of_sat hr hw (SessionTests.suite_pass (C := fun i => (T i).cfg) ?_ hs hn)
  constructor
  · rw [hD.int.1, hD.int.2]; exact ⟨nice_plain ht.int.1 ht.int.2, rfl⟩
  · rw [hD.string.1, hD.string.2]; exact ⟨nice_plain ht.string.1 ht.string.2, rfl⟩
  · rw [hD.char]; exact nice_plain ht.char.1 ht.char.2
  · rw [hD.texture.1, hD.texture.2]; exact ⟨nice_variant ht.texture.1 ht.texture.2.1 ht.texture.2.2.1 ht.texture.2.2.2, rfl⟩
  · rw [hD.factorization.1, hD.factorization.2]; exact ⟨nice_product ht.factorization.1 ht.factorization.2.1 ht.factorization.2.2, rfl⟩
  · simp only [ht.int.1]; exact fun _ => ⟨rfl, rfl⟩
  · simp only [ht.string.1]; exact fun _ => ⟨rfl, rfl⟩
  · simp only [ht.texture.1]; exact fun _ => ⟨rfl, rfl⟩
  · simp only [ht.char.1]; exact fun _ => rfl
  · simp only [ht.throwing]; exact ⟨fun _ => rfl, fun _ => rfl⟩
  · rw [hD.int.1]; exact hD.ints
  · rw [hD.string.1]; exact hD.words
  · rw [hD.texture.1]; exact hD.textures
  · exact hD.cInt
  · exact hD.cString
  · exact hD.cTexture

/-! ## Examples -/

/-- Textures are numbers, those that start with 2k and 2k+1 having exchanged names.  (No code of its own: used to state a property or an example.) -/
def texFns : UserFns Nat Nat := ⟨fun k => if k % 2 = 0 then k + 1 else k - 1, fun k => if k % 2 = 0 then k + 1 else k - 1, fun _ => 0, fun _ => 0⟩

theorem texFns_inv (k : Nat) : texFns.kfv (texFns.ctor k) = k := by
  simp only [texFns]
  by_cases h : k % 2 = 0
  · rw [if_pos h, if_neg (by omega)]
    omega
  · rw [if_neg h, if_pos (by omega)]
    omega

/-- (No code of its own: used to state a property or an example.) -/
def facFns : UserFns Nat Nat := ⟨fun k => k + 5, fun v => v, fun _ => 0, fun _ => 0⟩

/-- The types of the test, some with `hashed_factory`, some with `concurrent_factory`; `fl`: which operations on values with throwing constructors throw.  (No code of its own: used to
state a property or an example.) -/
def sixTypes (fl : Nat → Bool) : (i : Kind) → FlyType (TestK Nat Nat Nat Nat Nat Nat i) (TestV Nat Nat Nat Nat Nat Nat i)
  | .int => .usual (numbers .refcounted) (fun a => 3 * a) Sample.calm
  | .string => .concurrent (.plain Sample.u₀ fun k l => k == l) numHash.equiv .refcounted (fun a => a) (fun n => [n, n - 1, 0]) Sample.calm
  | .char => .usual (numbers .noTracking) (fun a => a + 1) Sample.calm
  | .texture => .concurrent (.variant texFns (fun k l => k == l) fun k => by rw [texFns_inv]; exact beq_self_eq_true k) numHash.equiv .refcounted (fun a => a)
      (fun _ => [0, 1, 2]) Sample.calm
  | .factorization => .usual (Setup.hashed (PRep.lawful facFns) .refcounted (fun n => 2 * n) numHash (SrcSpec.product_lawful facFns numHash.equiv)) (fun a => a) Sample.calm
  | .throwing => .concurrent (.variant texFns (fun k l => k == l) fun k => by rw [texFns_inv]; exact beq_self_eq_true k) numHash.equiv .noTracking (fun a => a)
      (fun _ => []) fl

/-- (No code of its own: used to state a property or an example.) -/
def numCmp (op : Cmp) (v w : Nat) : Bool :=
  match op with
  | .eq => v == w
  | .ne => v != w
  | .lt => decide (v < w)
  | .gt => decide (v > w)
  | .ge => decide (v ≥ w)
  | .le => decide (v ≤ w)

theorem numCmp_usual : Usual (W := Nat) (W' := Nat) ⟨numCmp .eq, numCmp .lt, numCmp .lt⟩ numCmp where
  eq v w := rfl
  lt v w := rfl
  ne v w := rfl
  gt v w := rfl
  ge v w := by simp only [numCmp]; by_cases h : v < w <;> simp [h] <;> omega
  le v w := by simp only [numCmp]; by_cases h : w < v <;> simp [h] <;> omega

/-- The sequences of the test, words and textures being numbered.  (No code of its own: used to state a property or an example.) -/
def sequences : Suite (TestK Nat Nat Nat Nat Nat Nat) (TestV Nat Nat Nat Nat Nat Nat) (List Nat) where
  int := numKit
  string := numKit
  char := id
  texture := { numKit with make := texFns.ctor, val0 := texFns.ctor 0 }
  factorization := { numKit with make := facFns.ctor, val0 := facFns.ctor 0 }
  cInt := ⟨numCmp .eq, numCmp .lt, numCmp .lt⟩
  cmpInt := numCmp
  cString := ⟨numCmp .eq, numCmp .lt, numCmp .lt⟩
  cmpString := numCmp
  cTexture := ⟨numCmp .eq, numCmp .lt, numCmp .lt⟩
  cmpTexture := numCmp
  ints := [0, 1, 1, 0, 1, 2, 3, 4, 3, 4, 0, 0]
  words := [0, 1, 2, 1, 3, 4, 4]
  textures := [0, 1, 2, 3, 4]
  factorizations := [1098, 102387, 90846, 2223978]
  chars := [0, 2, 4, 5, 1, 1, 1, 3, 4, 1, 1, 0]
  bad := 0
  bad' := 0
  good := 1

theorem sixTypes_are (fl : Nat → Bool) : AreTypes (sixTypes fl .int).cfg (sixTypes fl .string).cfg (sixTypes fl .char).cfg (sixTypes fl .texture).cfg texFns
    (sixTypes fl .factorization).cfg facFns (sixTypes fl .throwing).cfg texFns where
  int := ⟨rfl, fun _ _ => beq_iff_eq⟩
  string := ⟨rfl, fun _ _ => beq_iff_eq⟩
  char := ⟨rfl, fun _ _ => beq_iff_eq⟩
  texture := ⟨rfl, fun _ _ => beq_iff_eq, texFns_inv, texFns_inv⟩
  factorization := ⟨rfl, fun _ _ => beq_iff_eq, fun _ _ h => Nat.add_right_cancel (m := 5) h⟩
  throwing := rfl

theorem sequences_inputs : Inputs texFns facFns sequences where
  int := ⟨rfl, rfl⟩
  string := ⟨rfl, rfl⟩
  char := rfl
  texture := ⟨rfl, rfl⟩
  factorization := ⟨rfl, rfl⟩
  ints _ _ _ := rfl
  words _ _ _ := rfl
  textures _ _ _ := rfl
  cInt := numCmp_usual
  cString := ⟨numCmp_usual, fun _ _ => beq_iff_eq⟩
  cTexture := ⟨numCmp_usual, fun _ _ => beq_iff_eq⟩

instance (i : Kind) : DecidableEq (TestK Nat Nat Nat Nat Nat Nat i) := by cases i <;> exact instDecidableEqNat

instance (i : Kind) : DecidableEq (TestV Nat Nat Nat Nat Nat Nat i) := by cases i <;> exact instDecidableEqNat

/-- Checks that succeeded and checks made.  (No code of its own: used to state a property or an example.) -/
def score {σ : Type} : Option (End (List Bool) × σ) → Option (Nat × Nat)
  | some (.ok bs, _) => some ((bs.filter id).length, bs.length)
  | _ => none

/-- The whole test, from the start of the program. -/
example (fl : Nat → Bool) (hs : Nat → Nat) : Goes (sixTypes fl) (fun _ _ => none)
    (Session.run (fun i => (sixTypes fl i).engine) (SessionTests.suite sequences (fun i => (sixTypes fl i).cfg.hp) hs 0) fun i => (sixTypes fl i).start Sample.alloc) :=
  C71_all texFns facFns texFns (sixTypes fl) (sixTypes_are fl) sequences sequences_inputs _ (fun i => FlyType.start_reach Sample.alloc_ok _) _
    (fun i x b => ⟨fun h => (FlyType.start_sees Sample.alloc _ x b h).elim, fun h => by cases h⟩) hs 0 fun _ _ => rfl

/-- The same with shorter sequences.  (No code of its own: used to state a property or an example.) -/
def shortSequences : Suite (TestK Nat Nat Nat Nat Nat Nat) (TestV Nat Nat Nat Nat Nat Nat) (List Nat) :=
  { sequences with ints := [1, 0], words := [0, 1], textures := [2], factorizations := [3], chars := [0, 2] }

/-- (No code of its own: used to state a property or an example.) -/
def trySuite (fl : Nat → Bool) : Option (Nat × Nat) :=
  score (Session.run (fun i => (sixTypes fl i).engine) (SessionTests.suite shortSequences (fun i => (sixTypes fl i).cfg.hp) id 0) fun i => (sixTypes fl i).start Sample.alloc)

/-- All checks succeed, also if the first two operations on values with throwing constructors throw; if all throw so does the test. -/
example : trySuite Sample.calm = some (236, 236) ∧ trySuite (fun n => decide (n < 2)) = some (236, 236) ∧ trySuite (fun _ => true) = none :=
  ⟨by decide +kernel, by decide +kernel, by decide +kernel⟩

end Verif.Props

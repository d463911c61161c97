import Verif.Examples.Tests
import Verif.Library
import Verif.Sample

/-!
# The library's test templates succeed: C63
-/

set_option autoImplicit false

namespace Verif.Props
open Setup Client Operators
variable {K V Rep F Str : Type}

/-- The flyweights of `s` exist with the same addresses, keys and values in `s'`, there are no others, and with `refcounted`
there are no more keys and values than before.  (No code of its own: used to state a property or an example.) -/
def Restored (S : Setup K V Rep F) (s s' : St Rep F) : Prop :=
  (∀ x a k v, S.Sees s' x a k v ↔ S.Sees s x a k v) ∧
  (S.trk = .refcounted → s'.env.vals = s.env.vals ∧ s'.env.keys = s.env.keys)

/-- How a test ends, started in `s`: all checks succeed, or an operation of the user has thrown; what existed before is as
before.  (No code of its own: used to state a property or an example.) -/
def Succeeds (S : Setup K V Rep F) (s : St Rep F) (r : Res (St Rep F) (List Bool)) : Prop :=
  match r with
  | .ok bs s' => (∀ b ∈ bs, b = true) ∧ Restored S s s'
  | .exc s' => Restored S s s' ∧ ∃ n, s.env.faults n = true
  | .ub => False

theorem restored_of_view {S : Setup K V Rep F} {fl : Nat → Bool} {w : Store K V} {s s' : St Rep F} (h : View S fl w s)
    (h' : View S fl w s') : Restored S s s' := by
  refine ⟨fun x a k v => (h'.sees x a k v).trans (h.sees x a k v).symm, fun ht => ?_⟩
  obtain ⟨t, h1, _, _, h4⟩ := h
  obtain ⟨t', h1', _, _, h4'⟩ := h'
  obtain ⟨p1, p2⟩ := pool_addrs h1
  obtain ⟨p1', p2'⟩ := pool_addrs h1'
  have hp : ∀ (t t' : SSt K V), (∀ x b, (x, b) ∈ t.vars ↔ w x = some b) → (∀ x b, (x, b) ∈ t'.vars ↔ w x = some b) → ∀ a,
      (∃ b ∈ t.pool S.trk, b.addr = a) → ∃ b ∈ t'.pool S.trk, b.addr = a := by
    rintro t t' h h' a ⟨b, hb, rfl⟩
    rw [ht] at hb ⊢
    obtain ⟨⟨x, b⟩, hx, rfl⟩ := List.mem_map.1 hb
    exact ⟨b, List.mem_map.2 ⟨(x, b), (h' x b).2 ((h x b).1 hx), rfl⟩, rfl⟩
  have hlen : (S.Fa.ids s'.fac).length = (S.Fa.ids s.fac).length := by
    have := length_of_same p1' p1 fun a => by rw [p2, p2']; exact ⟨hp t' t h4' h4 a, hp t t' h4 h4' a⟩
    simpa using this
  rw [(live_count h1).1, (live_count h1).2, (live_count h1').1, (live_count h1').2, hlen]
  exact ⟨rfl, rfl⟩

theorem succeeds_of_triple {S : Setup K V Rep F} {s : St Rep F} (hr : S.Reach s) {n : Nat}
    (hn : ∀ x a k v, S.Sees s x a k v → x < n) {m : M (St Rep F) (List Bool)}
    (h : ∀ fl w, (∀ i, w (n + i) = Option.none) → Triple (View S fl w) m (fun r s => Tests.Pass r ∧ View S fl w s)
      (fun s => View S fl w s ∧ ∃ n, fl n = true)) : Succeeds S s (m s) := by
  obtain ⟨fl, w, hv⟩ := View.of_reach hr
  have hw : ∀ i, w (n + i) = Option.none := by
    intro i
    cases hw : w (n + i) with
    | none => rfl
    | some b =>
      have := hn (n + i) b.addr b.key b.val ((hv.sees _ _ _ _).2 hw)
      omega
  have := h fl w hw s hv
  unfold Succeeds
  cases hm : m s with
  | ok bs s' =>
    rw [hm] at this
    exact ⟨this.1, restored_of_view hv this.2⟩
  | exc s' =>
    rw [hm] at this
    refine ⟨restored_of_view hv this.1, ?_⟩
    rw [Tests.View.flags hv]
    exact this.2
  | ub => rw [hm] at this; exact this

section
variable [DecidableEq K] [DecidableEq V] [DecidableEq Str]

/-- **C63.**  `test_basic_template` succeeds for every flyweight type whose keys are compared by equality and determine the
values, every sequence and every program that runs it. -/
theorem C63_basic (S : Setup K V Rep F) (u : Tests.Kit K V Str) (R : Regular S u.make) (h0 : u.val0 = u.make u.key0)
    (hb hs : Nat → Nat) (s : St Rep F) (hr : S.Reach s) (n : Nat) (hn : ∀ x a k v, S.Sees s x a k v → x < n)
    (its : List K) : Succeeds S s (Tests.loop (Tests.basic S u hb hs n) its s) :=
  succeeds_of_triple hr hn fun _ _ hw => Tests.loop_pass its fun it _ => Tests.basic_pass R h0 hb hs hw it

/-- **C63.**  `test_basic_with_assign_template` succeeds if moreover flyweights can be made of values and reading gives back the
values of the sequence that were written. -/
theorem C63_with_assign (S : Setup K V Rep F) (u : Tests.Kit K V Str) (R : Regular S u.make) (h0 : u.val0 = u.make u.key0)
    (hc : ∀ v, S.sp.supports (.copy v) = true ∧ S.sp.supports (.move v) = true)
    (hb hs : Nat → Nat) (s : St Rep F) (hr : S.Reach s) (n : Nat) (hn : ∀ x a k v, S.Sees s x a k v → x < n)
    (its : List K) (hio : ∀ k ∈ its, ∀ v, (u.ext (u.ins u.empty (u.make k)) v).val = some (u.make k)) :
    Succeeds S s (Tests.basicWithAssign S u hb hs n its s) := by
  refine succeeds_of_triple hr hn fun fl w hw => ?_
  refine Triple.bind (Tests.loop_pass its fun it _ => Tests.basic_pass R h0 hb hs hw it) fun bs => Triple.pull fun hbs => ?_
  refine Triple.bind (Tests.loop_pass its fun it hit => Tests.withAssign_pass R (fun k => (hc _).1) (fun k => (hc _).2) hw it
    (hio it hit)) fun bs' => Triple.ret fun s hs => ⟨?_, hs.2⟩
  intro b hb
  rcases List.mem_append.1 hb with hb | hb
  · exact hbs b hb
  · exact hs.1 b hb

end

/-- **C63.**  `test_basic_comparison_template` succeeds for two flyweights of the same type, for all pairs of elements. -/
theorem C63_comparison (S : Setup K V Rep F) (mk : K → V) (R : Regular S mk)
    (hc : ∀ v, S.sp.supports (.copy v) = true) (c : UserCmp V V) (cmp : Cmp → V → V → Bool) (hu : Tests.Usual c cmp)
    (s : St Rep F) (hr : S.Reach s) (n : Nat) (hn : ∀ x a k v, S.Sees s x a k v → x < n) (its : List (K × K)) :
    Succeeds S s (Tests.loop (fun p => Tests.comparison S mk c cmp n p.1 p.2) its s) :=
  succeeds_of_triple hr hn fun _ _ hw => Tests.loop_pass its fun p _ =>
    Tests.comparison_pass R (fun _ => hc _) hu hw p.1 p.2

/-! The flyweight types of the tests. -/

theorem regular_plain {S : Setup V V (DRep V) F} {keq : V → V → Bool} (h4 : S.sp = SrcSpec.default V) (h5 : S.keq = keq)
    (heq : ∀ v w, keq v w = true ↔ v = w) : Regular S id := by
  constructor
  · rw [h5]; exact heq
  · exact fun k l h => h
  · rw [h4]; exact fun k => ⟨rfl, rfl⟩
  · rw [h4]; intro src _; cases src <;> rfl
  · rw [h4]; exact fun v => ⟨rfl, rfl⟩

theorem regular_variant {S : Setup K V (VRep K V) F} {u : UserFns K V} {keq : K → K → Bool}
    (e4 : S.sp = SrcSpec.variant u) (e5 : S.keq = keq) (heq : ∀ v w, keq v w = true ↔ v = w)
    (h1 : ∀ k, u.kfv (u.ctor k) = k) (h2 : ∀ v, u.ctor (u.kfv v) = v) : Regular S u.ctor := by
  constructor
  · rw [e5]; exact heq
  · intro k l h; rw [← h1 k, h, h1]
  · rw [e4]; exact fun k => ⟨rfl, rfl⟩
  · rw [e4]
    intro src _
    cases src with
    | key k => rfl
    | copy v => exact (h2 v).symm
    | move v => exact (h2 v).symm
  · rw [e4]; exact fun v => ⟨rfl, rfl⟩

theorem regular_product {S : Setup K V (PRep K V) F} {u : UserFns K V} {keq : K → K → Bool}
    (e4 : S.sp = SrcSpec.product u) (e5 : S.keq = keq) (heq : ∀ v w, keq v w = true ↔ v = w)
    (h1 : ∀ k l, u.ctor k = u.ctor l → k = l) : Regular S u.ctor := by
  constructor
  · rw [e5]; exact heq
  · exact h1
  · rw [e4]; exact fun k => ⟨rfl, rfl⟩
  · rw [e4]
    intro src hs
    cases src with
    | key k => rfl
    | copy v => cases hs
    | move v => cases hs
  · rw [e4]; exact fun v => ⟨rfl, rfl⟩

/-- **C63** for `flyweight<T>` with equality of values, any factory and tracking policy. -/
theorem C63_plain [DecidableEq V] [DecidableEq Str] {Fa : Factory F (Ent (DRep V))} {keq : V → V → Bool} (u : UserFns V V)
    (hF : LibFactory (DRep.policy u) Fa keq) (trk : Tracking) (heq : ∀ v w, keq v w = true ↔ v = w) :
    ∃ S : Setup V V (DRep V) F, S.Is (DRep.policy u) Fa trk (SrcSpec.default V) keq ∧
      ∀ (s : St (DRep V) F), S.Reach s → ∀ n, (∀ x a k v, S.Sees s x a k v → x < n) →
      (∀ (d : V) (e : Str) (ins : Str → V → Str) (ext : Str → V → Extract Str V) (hb hs : Nat → Nat) (its : List V),
        (∀ v ∈ its, ∀ w, (ext (ins e v) w).val = some v) →
        Succeeds S s (Tests.basicWithAssign S ⟨id, d, d, e, ins, ext⟩ hb hs n its s)) ∧
      ∀ (c : UserCmp V V) (cmp : Cmp → V → V → Bool), Tests.Usual c cmp → ∀ its : List (V × V),
        Succeeds S s (Tests.loop (fun p => Tests.comparison S id c cmp n p.1 p.2) its s) := by
  obtain ⟨S, ⟨h1, h2, h3, h4, h5⟩, _⟩ := (LibPolicy.plain u keq).setup hF trk
  have R : Regular S id := regular_plain h4 h5 heq
  have hc : ∀ v, S.sp.supports (.copy v) = true ∧ S.sp.supports (.move v) = true := by rw [h4]; exact fun v => ⟨rfl, rfl⟩
  exact ⟨S, ⟨h1, h2, h3, h4, h5⟩, fun s hr n hn => ⟨fun d e ins ext hb hs its hio =>
    C63_with_assign S _ R rfl hc hb hs s hr n hn its hio, fun c cmp hu its =>
    C63_comparison S id R (fun v => (hc v).1) c cmp hu s hr n hn its⟩⟩

/-- **C63** for `flyweight<key_value<K,V,KeyFromValue>>` with values that are determined by the extracted keys, as the textures of
the tests. -/
theorem C63_variant [DecidableEq K] [DecidableEq V] [DecidableEq Str] {Fa : Factory F (Ent (VRep K V))} {keq : K → K → Bool}
    (u : UserFns K V) (hF : LibFactory (VRep.policy u) Fa keq) (trk : Tracking) (heq : ∀ v w, keq v w = true ↔ v = w)
    (h1 : ∀ k, u.kfv (u.ctor k) = k) (h2 : ∀ v, u.ctor (u.kfv v) = v) :
    ∃ S : Setup K V (VRep K V) F, S.Is (VRep.policy u) Fa trk (SrcSpec.variant u) keq ∧
      ∀ (s : St (VRep K V) F), S.Reach s → ∀ n, (∀ x a k v, S.Sees s x a k v → x < n) →
      (∀ (d : K) (e : Str) (ins : Str → V → Str) (ext : Str → V → Extract Str V) (hb hs : Nat → Nat) (its : List K),
        (∀ k ∈ its, ∀ w, (ext (ins e (u.ctor k)) w).val = some (u.ctor k)) →
        Succeeds S s (Tests.basicWithAssign S ⟨u.ctor, d, u.ctor d, e, ins, ext⟩ hb hs n its s)) ∧
      ∀ (c : UserCmp V V) (cmp : Cmp → V → V → Bool), Tests.Usual c cmp → ∀ its : List (K × K),
        Succeeds S s (Tests.loop (fun p => Tests.comparison S u.ctor c cmp n p.1 p.2) its s) := by
  obtain ⟨S, ⟨e1, e2, e3, e4, e5⟩, _⟩ := (LibPolicy.variant u keq fun k => (heq _ _).2 (h1 k)).setup hF trk
  have R : Regular S u.ctor := regular_variant e4 e5 heq h1 h2
  have hc : ∀ v, S.sp.supports (.copy v) = true ∧ S.sp.supports (.move v) = true := by rw [e4]; exact fun v => ⟨rfl, rfl⟩
  exact ⟨S, ⟨e1, e2, e3, e4, e5⟩, fun s hr n hn => ⟨fun d e ins ext hb hs its hio =>
    C63_with_assign S _ R rfl hc hb hs s hr n hn its hio, fun c cmp hu its =>
    C63_comparison S u.ctor R (fun v => (hc v).1) c cmp hu s hr n hn its⟩⟩

/-- **C63** for `flyweight<key_value<K,V>>` with different values for different keys, as the factorizations of the tests (for which
`test_basic_template` alone is run). -/
theorem C63_product [DecidableEq K] [DecidableEq V] [DecidableEq Str] {Fa : Factory F (Ent (PRep K V))} {keq : K → K → Bool}
    (u : UserFns K V) (hF : LibFactory (PRep.policy u) Fa keq) (trk : Tracking) (heq : ∀ v w, keq v w = true ↔ v = w)
    (h1 : ∀ k l, u.ctor k = u.ctor l → k = l) :
    ∃ S : Setup K V (PRep K V) F, S.Is (PRep.policy u) Fa trk (SrcSpec.product u) keq ∧
      ∀ (s : St (PRep K V) F), S.Reach s → ∀ n, (∀ x a k v, S.Sees s x a k v → x < n) →
      ∀ (d : K) (e : Str) (ins : Str → V → Str) (ext : Str → V → Extract Str V) (hb hs : Nat → Nat) (its : List K),
        Succeeds S s (Tests.loop (Tests.basic S ⟨u.ctor, d, u.ctor d, e, ins, ext⟩ hb hs n) its s) := by
  obtain ⟨S, ⟨e1, e2, e3, e4, e5⟩, _⟩ := (LibPolicy.product u keq).setup hF trk
  have R : Regular S u.ctor := regular_product e4 e5 heq h1
  exact ⟨S, ⟨e1, e2, e3, e4, e5⟩, fun s hr n hn d e ins ext hb hs its => C63_basic S _ R rfl hb hs s hr n hn its⟩

/-! A flyweight of numbers, and the tests as run there. -/

/-- (No code of its own: used to state a property or an example.) -/
theorem numHash : HashOk (fun n : Nat => n % 3) (fun k l => k == l) where
  refl a := by simp
  symm a b := by simp only [beq_iff_eq]; exact Eq.symm
  trans a b c := by simp only [beq_iff_eq]; exact Eq.trans
  compat a b := by simp only [beq_iff_eq]; intro h; rw [h]

/-- (No code of its own: used to state a property or an example.) -/
def numbers (trk : Tracking) :=
  Setup.hashed (DRep.lawful Sample.u₀) trk (fun n => 2 * n) numHash (SrcSpec.default_lawful numHash.equiv)

/-- Streams are lists of numbers.  (No code of its own: used to state a property or an example.) -/
def numKit : Tests.Kit Nat Nat (List Nat) :=
  ⟨id, 0, 0, [], fun l v => l ++ [v], fun l v => match l with | [] => ⟨[], some v⟩ | v :: l => ⟨l, some v⟩⟩

/-- The checks that succeeded and those made, from a state with one flyweight, in which the `n`-th operation throws.  (No code of
its own: used to state a property or an example.) -/
def tried (fl : Nat → Bool) (its : List Nat) : Option (Nat × Nat) :=
  match (numbers .refcounted).run id fl Sample.alloc [.make 0 (.key 1)] with
  | some (_, s) => match Tests.basicWithAssign (numbers .refcounted) numKit id id 1 its s with
    | .ok bs _ => some ((bs.filter id).length, bs.length)
    | _ => Option.none
  | _ => Option.none

example : tried Sample.calm [0, 1, 1, 0, 4] = some (160, 160) ∧ tried (Sample.failAt 20) [0, 1, 1] = Option.none ∧
    Regular (numbers .refcounted) id ∧ ∀ k v, (numKit.ext (numKit.ins numKit.empty k) v).val = some k :=
  ⟨by decide +kernel, by decide +kernel, regular_plain (keq := fun k l : Nat => k == l) rfl rfl fun v w => by simp, fun _ _ => rfl⟩

example : Tests.Usual ⟨fun v w => v == w, fun v w : Nat => decide (v < w), fun v w => decide (v < w)⟩ (fun op v w => match op with
    | .eq => v == w | .ne => v != w | .lt => decide (v < w) | .gt => decide (v > w) | .ge => decide (v ≥ w)
    | .le => decide (v ≤ w)) where
  used := rfl
  eq := by simp
  ne v w := rfl
  gt v w := rfl
  ge v w := by by_cases h : v < w <;> simp [h] <;> omega
  le v w := by by_cases h : w < v <;> simp [h] <;> omega

/-- Keys compared modulo 10: `test_basic_template` fails for 13, because of the default key and because of an earlier flyweight
with key 3. -/
example : (match (Sample.dflt .refcounted).run id Sample.calm Sample.alloc [.make 0 (.key 3)] with
    | some (_, s) => match Tests.loop (Tests.basic (Sample.dflt .refcounted) numKit id id 1) [13] s with
      | .ok bs _ => some ((bs.filter id).length, bs.length)
      | _ => Option.none
    | _ => Option.none) = some (20, 22) := by decide +kernel

end Verif.Props

import Verif.CountLib
import Verif.Sample
import Verif.Props.Core

/-!
# What the library does with the objects of the user: C60

How many keys and values are constructed from arguments, copied, moved and destroyed inside the library, for every
flyweight type of the library.  `Env.tally` counts, `bill` lists what the creation of a flyweight constructs.
-/

set_option autoImplicit false

namespace Verif.Props
open Setup
variable {K V Rep F : Type} {P : Policy K V Rep} {Fa : Factory F (Ent Rep)} {sp : SrcSpec K V}
  {keq : K → K → Bool} {kd : Bool}

/-- **C60, refcounted.**  Creating a flyweight, or assigning a value to one, constructs exactly what is billed: as many
objects of each kind, where the value is new if no flyweight refers to an equivalent one. -/
theorem C60_create_refcounted (hP : LibPolicy P sp keq kd) (hF : LibFactory P Fa keq) :
    ∃ S : Setup K V Rep F, S.Is P Fa .refcounted sp keq ∧
    ∀ s, S.Reach s → ∀ (hp : Nat → Nat) (op : Op K V) (src : Src K V), op.creates = some src →
      op.valid sp (s.objs.map Prod.fst) = true → ∀ out s', S.perform hp op s = .ok out s' →
      ∃ new : Bool, (new = true ↔ ∀ x a k v, S.Sees s x a k v → keq k (sp.key0 src) = false) ∧
        ∀ a : Act, a.builds → s'.env.tally a = s.env.tally a + (bill kd .refcounted Fa.take src new).count a := by
  obtain ⟨S, hI, B⟩ := hP.billed hF .refcounted
  refine ⟨S, hI, fun s hr hp op src hop hv out s' h => ?_⟩
  obtain ⟨fl, t, hS, hok⟩ := hr.sim
  obtain ⟨rfl, rfl, ht, rfl, rfl⟩ := hI
  have hm := B.create hS hp hop (by rw [← show s.objs.map Prod.fst = t.names from hS.rel.vars.names.symm]; exact hv) s rfl
  rw [show Core.step S.P S.Fa S.trk hp op s = .ok out s' from h] at hm
  obtain ⟨new, h1, h2⟩ := hm
  refine ⟨new, h1.trans ?_, ht ▸ h2⟩
  have hpool : ∀ b, (∃ i, S.At s i b) ↔ ∃ x, S.Sees s x b.addr b.key b.val := by
    intro b
    rw [← hS.rel.pool b, ht]
    constructor
    · intro hb
      obtain ⟨⟨x, c⟩, hc, rfl⟩ := List.mem_map.1 hb
      exact ⟨x, (sees_iff hS).2 hc⟩
    · rintro ⟨x, hx⟩
      exact List.mem_map.2 ⟨_, (sees_iff hS).1 hx, rfl⟩
  constructor
  · intro hno x a k v hx
    obtain ⟨i, hi⟩ := (hpool ⟨a, k, v⟩).2 ⟨x, hx⟩
    exact hno i _ hi
  · intro hno i b hb
    obtain ⟨x, hx⟩ := (hpool b).1 ⟨i, hb⟩
    exact hno x _ _ _ hx

/-- Bills: for `flyweight<T>(v)` with `hashed_factory` the value is copied once and moved twice if it is new, once if it
is not, with `refcounted`; with `no_tracking` one move less.  For `flyweight<key_value<K,V>>(k)` the key is constructed and moved, the value constructed in its final place.
With the list-update factory of /repo/test/test_custom_factory.cpp the key is copied as well. -/
example (v : V) (k : K) : bill false .refcounted .moves (.copy v : Src V V) true = [.valCopy, .valMove, .valMove] ∧
    bill false .refcounted .moves (.copy v : Src V V) false = [.valCopy, .valMove] ∧
    bill true .refcounted .moves (.key k : Src K V) true = [.keyArgs, .keyMove, .keyMove, .valArgs] ∧
    bill true .refcounted .moves (.key k : Src K V) false = [.keyArgs, .keyMove] ∧
    bill false .noTracking .moves (.copy v : Src V V) false = [.valCopy] ∧
    bill true .refcounted .moves (.copy v : Src K V) true = [.keyExtracted, .keyMove, .keyMove, .valCopy] ∧
    bill true .refcounted .copiesMoves (.key k : Src K V) true = [.keyArgs, .keyMove, .keyCopy, .keyMove, .valArgs] :=
  ⟨rfl, rfl, rfl, rfl, rfl, rfl, rfl⟩

/-- A run: flyweights from the key 3, from the key 13 equivalent to it, and from the value of key 4, which is copied.
The first and the third create values. -/
example : ∃ s, (Sample.var .refcounted).run id Sample.calm Sample.alloc
    [.make 0 (.key 3), .make 1 (.key 13), .make 2 (.copy (4, 16))] = some ([.done, .done, .done], s) ∧
    [Act.keyArgs, .keyExtracted, .keyCopy, .keyMove, .keyGone, .valArgs, .valCopy, .valMove, .valGone].map s.env.tally =
      [2, 1, 0, 5, 8, 1, 1, 0, 0] :=
  ⟨_, rfl, rfl⟩

/-- **C60, no_tracking.**  The same, where the value is new if no equivalent key has ever been used successfully. -/
theorem C60_create_no_tracking (hP : LibPolicy P sp keq kd) (hF : LibFactory P Fa keq) :
    ∃ S : Setup K V Rep F, S.Is P Fa .noTracking sp keq ∧
    ∀ (hp : Nat → Nat) (fl : Nat → Bool) (alloc : Nat → List Nat → Nat), (∀ n l, alloc n l ∉ l) →
      ∀ (ops : List (Op K V)) (outs : List (Out K V)) (s : St Rep F), S.run hp fl alloc ops = some (outs, s) →
      ∀ (op : Op K V) (src : Src K V), op.creates = some src →
      op.valid sp (s.objs.map Prod.fst) = true → ∀ out s', S.perform hp op s = .ok out s' →
      ∃ new : Bool, (new = true ↔ ∀ k ∈ asked sp ops outs, keq k (sp.key0 src) = false) ∧
        ∀ a : Act, a.builds → s'.env.tally a = s.env.tally a + (bill kd .noTracking Fa.take src new).count a := by
  obtain ⟨S, hI, B⟩ := hP.billed hF .noTracking
  refine ⟨S, hI, fun hp fl alloc hal ops outs s hrun op src hop hv out s' h => ?_⟩
  obtain ⟨t, hr, hS, hok, _⟩ := run_sim hal hrun
  obtain ⟨rfl, rfl, ht, rfl, rfl⟩ := hI
  have hm := B.create hS hp hop (by rw [← show s.objs.map Prod.fst = t.names from hS.rel.vars.names.symm]; exact hv) s rfl
  rw [show Core.step S.P S.Fa S.trk hp op s = .ok out s' from h] at hm
  obtain ⟨new, h1, h2⟩ := hm
  refine ⟨new, h1.trans ?_, ht ▸ h2⟩
  rw [ht] at hr
  have ha := hr.asked S.LS (A := []) ⟨by simp, by simp [SSt.start]⟩
  rw [List.nil_append] at ha
  have hpool : ∀ b, (∃ i, S.At s i b) ↔ b ∈ t.kept := by
    intro b
    rw [← hS.rel.pool b, ht]
    rfl
  constructor
  · intro hno k hk
    obtain ⟨b, hb, hbk⟩ := ha.1 k hk
    obtain ⟨i, hi⟩ := (hpool b).2 hb
    cases hc : S.keq k (S.sp.key0 src) with
    | false => rfl
    | true =>
      have := hno i b hi
      rw [S.LS.trans _ _ _ hbk hc] at this
      cases this
  · intro hno i b hb
    obtain ⟨k, hk, hbk⟩ := ha.2 b ((hpool b).1 ⟨i, hb⟩)
    cases hc : S.keq b.key (S.sp.key0 src) with
    | false => rfl
    | true =>
      have := hno k hk
      rw [S.LS.trans _ _ _ (S.LS.symm _ _ hbk) hc] at this
      cases this

/-- A value that no flyweight refers to any more is not constructed again. -/
example : ∃ s, (Sample.var .noTracking).run id Sample.calm Sample.alloc
    [.make 0 (.key 3), .destroy 0, .make 1 (.key 13)] = some ([.done, .done, .done], s) ∧
    [Act.keyArgs, .keyMove, .valArgs].map s.env.tally = [2, 3, 1] ∧
    asked (Sample.var .noTracking).sp [.make 0 (.key 3), .destroy 0] [.done, .done] = [3] :=
  ⟨_, rfl, rfl, rfl⟩

/-- **C60, failure.**  A creation that throws has constructed at most what creating a new value is billed for. -/
theorem C60_failed (hP : LibPolicy P sp keq kd) (hF : LibFactory P Fa keq) (trk : Tracking) :
    ∃ S : Setup K V Rep F, S.Is P Fa trk sp keq ∧
    ∀ s, S.Reach s → ∀ (hp : Nat → Nat) (op : Op K V) (src : Src K V), op.creates = some src →
      op.valid sp (s.objs.map Prod.fst) = true → ∀ s', S.perform hp op s = .exc s' →
      ∀ a : Act, a.builds → s'.env.tally a ≤ s.env.tally a + (bill kd trk Fa.take src true).count a := by
  obtain ⟨S, hI, B⟩ := hP.billed hF trk
  refine ⟨S, hI, fun s hr hp op src hop hv s' h => ?_⟩
  obtain ⟨fl, t, hS, hok⟩ := hr.sim
  obtain ⟨rfl, rfl, rfl, rfl, rfl⟩ := hI
  have hm := B.create hS hp hop (by rw [← show s.objs.map Prod.fst = t.names from hS.rel.vars.names.symm]; exact hv) s rfl
  rw [show Core.step S.P S.Fa S.trk hp op s = .exc s' from h] at hm
  exact hm

/-- The second move of the key fails: two keys have been constructed and destroyed again, and no value. -/
example : ∃ s, (Sample.var .refcounted).run id (Sample.failAt 4) Sample.alloc [.make 0 (.key 3)] = some ([.threw], s) ∧
    [Act.keyArgs, .keyMove, .keyGone, .valArgs].map s.env.tally = [1, 1, 2, 0] :=
  ⟨_, rfl, rfl⟩

/-- **C60, everything else.**  Copying, moving, assigning, swapping, comparing, reading, hashing and destroying
flyweights construct no key and no value. -/
theorem C60_no_other (hP : LibPolicy P sp keq kd) (hF : LibFactory P Fa keq) (trk : Tracking) :
    ∃ S : Setup K V Rep F, S.Is P Fa trk sp keq ∧
    ∀ (s : St Rep F) (hp : Nat → Nat) (op : Op K V), op.creates = Option.none → ∀ a : Act, a.builds →
      (∀ out s', S.perform hp op s = .ok out s' → s'.env.tally a = s.env.tally a) ∧
      ∀ s', S.perform hp op s = .exc s' → s'.env.tally a = s.env.tally a := by
  obtain ⟨S, hI, B⟩ := hP.billed hF trk
  refine ⟨S, hI, fun s hp op hop a ha => ?_⟩
  have hm := B.other hp hop ha s
  constructor
  · intro out s' h
    rw [show Core.step S.P S.Fa S.trk hp op s = .ok out s' from h] at hm
    exact hm
  · intro s' h
    rw [show Core.step S.P S.Fa S.trk hp op s = .exc s' from h] at hm
    exact hm

/-- Copies, moves, assignments, reading and destruction after the creation of two flyweights. -/
example : ∃ s s', (Sample.var .refcounted).run id Sample.calm Sample.alloc [.make 0 (.key 3), .make 1 (.key 4)] =
      some ([.done, .done], s) ∧
    (Sample.var .refcounted).resume id s [.copy 2 0, .move 3 1, .assign 0 1, .swap 0 2, .get 0, .destroy 1] =
      some ([.done, .done, .done, .done, .val 1 (3, 9), .done], s') ∧
    s.env.acts = s'.env.acts ∧ s.env.acts.length = 14 :=
  ⟨_, _, rfl, rfl, rfl, rfl⟩

theorem balance_aux {S : Setup K V Rep F} (hP : LibPolicy S.P S.sp S.keq kd) {n : Nat} (hn : S.L.fullKeys = (n : Int))
    (s : St Rep F) (hr : S.Reach s) :
    s.env.tally .valArgs + s.env.tally .valCopy + s.env.tally .valMove = s.env.tally .valGone + (S.Fa.ids s.fac).length ∧
    s.env.tally .keyArgs + s.env.tally .keyExtracted + s.env.tally .keyCopy + s.env.tally .keyMove =
      s.env.tally .keyGone + n * (S.Fa.ids s.fac).length := by
  obtain ⟨hk2, hv2, _⟩ := C13_balanced _ s hr
  obtain ⟨hp, fl, alloc, ops, outs, hal, hrun⟩ := hr
  obtain ⟨e1, e2, _⟩ := Moves.exec Count.good_even (fun src => hP.even src) S.Fa S.trk hp S.sp ops _ outs s hrun
  rw [hn] at hk2
  simp only [Core.start, Env.tally, List.count_nil] at e1 e2 hk2 hv2 ⊢
  constructor
  · omega
  · have : ((n * (S.Fa.ids s.fac).length : Nat) : Int) = (n : Int) * ((S.Fa.ids s.fac).length : Int) := Int.natCast_mul _ _
    omega

/-- **C60, balance.**  After every program, exceptions included, the values constructed are those destroyed and one for
every entry of the factory; and no key is left, since a `flyweight<T>` has none. -/
theorem C60_balance_plain {V : Type} (u : UserFns V V) {Fa : Factory F (Ent (DRep V))} {keq : V → V → Bool}
    (hF : LibFactory (DRep.policy u) Fa keq) (trk : Tracking) :
    ∃ S : Setup V V (DRep V) F, S.Is (DRep.policy u) Fa trk (SrcSpec.default V) keq ∧ ∀ s, S.Reach s →
      s.env.tally .valArgs + s.env.tally .valCopy + s.env.tally .valMove = s.env.tally .valGone + (Fa.ids s.fac).length ∧
      s.env.tally .keyArgs + s.env.tally .keyExtracted + s.env.tally .keyCopy + s.env.tally .keyMove =
        s.env.tally .keyGone := by
  obtain ⟨eqv, ⟨LF⟩, hk⟩ := hF.lawful
  refine ⟨⟨_, Fa, trk, _, keq, eqv, DRep.lawful u, LF, SrcSpec.default_lawful hF.equiv, hk⟩, ⟨rfl, rfl, rfl, rfl, rfl⟩,
    fun s hr => ?_⟩
  obtain ⟨h1, h2⟩ := balance_aux (LibPolicy.plain u keq) (n := 0) rfl s hr
  exact ⟨h1, by simpa using h2⟩

/-- **C60, balance.**  With `key_value<K,V,KeyFromValue>` a value is left for every entry, and no key: the key of an
entry is destroyed when its value has been constructed. -/
theorem C60_balance_variant (u : UserFns K V) {Fa : Factory F (Ent (VRep K V))} (hF : LibFactory (VRep.policy u) Fa keq)
    (contract : ∀ k, keq (u.kfv (u.ctor k)) k = true) (trk : Tracking) :
    ∃ S : Setup K V (VRep K V) F, S.Is (VRep.policy u) Fa trk (SrcSpec.variant u) keq ∧ ∀ s, S.Reach s →
      s.env.tally .valArgs + s.env.tally .valCopy + s.env.tally .valMove = s.env.tally .valGone + (Fa.ids s.fac).length ∧
      s.env.tally .keyArgs + s.env.tally .keyExtracted + s.env.tally .keyCopy + s.env.tally .keyMove =
        s.env.tally .keyGone := by
  obtain ⟨eqv, ⟨LF⟩, hk⟩ := hF.lawful
  refine ⟨⟨_, Fa, trk, _, keq, eqv, VRep.lawful u, LF, SrcSpec.variant_lawful u hF.equiv contract, hk⟩,
    ⟨rfl, rfl, rfl, rfl, rfl⟩, fun s hr => ?_⟩
  obtain ⟨h1, h2⟩ := balance_aux (LibPolicy.variant u keq contract) (n := 0) rfl s hr
  exact ⟨h1, by simpa using h2⟩

/-- **C60, balance.**  With `key_value<K,V>` a key and a value are left for every entry. -/
theorem C60_balance_product (u : UserFns K V) {Fa : Factory F (Ent (PRep K V))} (hF : LibFactory (PRep.policy u) Fa keq)
    (trk : Tracking) :
    ∃ S : Setup K V (PRep K V) F, S.Is (PRep.policy u) Fa trk (SrcSpec.product u) keq ∧ ∀ s, S.Reach s →
      s.env.tally .valArgs + s.env.tally .valCopy + s.env.tally .valMove = s.env.tally .valGone + (Fa.ids s.fac).length ∧
      s.env.tally .keyArgs + s.env.tally .keyExtracted + s.env.tally .keyCopy + s.env.tally .keyMove =
        s.env.tally .keyGone + (Fa.ids s.fac).length := by
  obtain ⟨eqv, ⟨LF⟩, hk⟩ := hF.lawful
  refine ⟨⟨_, Fa, trk, _, keq, eqv, PRep.lawful u, LF, SrcSpec.product_lawful u hF.equiv, hk⟩,
    ⟨rfl, rfl, rfl, rfl, rfl⟩, fun s hr => ?_⟩
  obtain ⟨h1, h2⟩ := balance_aux (LibPolicy.product u keq) (n := 1) rfl s hr
  exact ⟨h1, by simpa using h2⟩

/-- Two entries are left of three: with `key_value<K,V>` two keys and two values exist. -/
example : ∃ s, (Sample.prod .refcounted).run id Sample.calm Sample.alloc
    [.make 0 (.key 3), .make 1 (.key 4), .make 2 (.key 5), .destroy 1] = some ([.done, .done, .done, .done], s) ∧
    [Act.keyArgs, .keyMove, .keyGone, .valArgs, .valGone].map s.env.tally = [3, 6, 7, 3, 1] ∧ s.env.vals = 2 ∧
    s.env.keys = 2 :=
  ⟨_, rfl, rfl, rfl, rfl⟩

/-- **C60, programs.**  A program constructs at most what all its creations together are billed for. -/
theorem C60_program (hP : LibPolicy P sp keq kd) (hF : LibFactory P Fa keq) (trk : Tracking) :
    ∃ S : Setup K V Rep F, S.Is P Fa trk sp keq ∧
    ∀ s, S.Reach s → ∀ (hp : Nat → Nat) (ops : List (Op K V)) (outs : List (Out K V)) (s' : St Rep F),
      S.resume hp s ops = some (outs, s') → ∀ a : Act, a.builds →
      s'.env.tally a ≤ s.env.tally a + ((ops.filterMap Op.creates).map fun src => (bill kd trk Fa.take src true).count a).sum := by
  obtain ⟨S, hI, B⟩ := hP.billed hF trk
  refine ⟨S, hI, fun s hr hp ops outs s' h a ha => ?_⟩
  obtain ⟨fl, t, hS, hok⟩ := hr.sim
  obtain ⟨rfl, rfl, rfl, rfl, rfl⟩ := hI
  exact B.exec ha hp ops hS h

/-- The program of the first example is billed for one construction of a value from a key per key given. -/
example : ((([.make 0 (.key 3), .make 1 (.key 13), .make 2 (.copy (4, 16))] : List (Op Nat (Nat × Nat))).filterMap
    Op.creates).map fun src => (bill true .refcounted .moves src true).count Act.valArgs).sum = 2 := rfl

/-- **C60, copies.**  With a factory that moves entries into its nodes (`hashed_factory`, `set_factory`,
`assoc_container_factory` of containers that do), no key is ever copied; and if no flyweight is made from an lvalue of
the value type, no value is ever copied.  A key-value flyweight never moves a value unless one is given to it as an
rvalue. -/
theorem C60_no_copies (hP : LibPolicy P sp keq kd) (hF : LibFactory P Fa keq) (trk : Tracking) :
    ∃ S : Setup K V Rep F, S.Is P Fa trk sp keq ∧
    ∀ (hp : Nat → Nat) (fl : Nat → Bool) (alloc : Nat → List Nat → Nat), (∀ n l, alloc n l ∉ l) →
      ∀ (ops : List (Op K V)) (outs : List (Out K V)) (s : St Rep F), S.run hp fl alloc ops = some (outs, s) →
      (Fa.take = .moves → s.env.tally .keyCopy = 0 ∧
        ((∀ op ∈ ops, ∀ v, op.creates ≠ some (.copy v)) → s.env.tally .valCopy = 0)) ∧
      (kd = true → (∀ op ∈ ops, ∀ v, op.creates ≠ some (.move v)) → s.env.tally .valMove = 0) := by
  obtain ⟨S, hI, B⟩ := hP.billed hF trk
  refine ⟨S, hI, fun hp fl alloc hal ops outs s h => ?_⟩
  obtain ⟨rfl, rfl, rfl, rfl, rfl⟩ := hI
  have key : ∀ a : Act, a.builds → (∀ op ∈ ops, ∀ src, op.creates = some src → (bill kd S.trk S.Fa.take src true).count a = 0) →
      s.env.tally a = 0 := by
    intro a ha h0
    have h1 := B.exec ha hp ops (sim_start S fl hal) h
    have h2 : ((ops.filterMap Op.creates).map fun src => (bill kd S.trk S.Fa.take src true).count a).sum = 0 := by
      apply List.sum_eq_zero_iff_forall_eq_nat.2
      intro n hn
      obtain ⟨src, h3, rfl⟩ := List.mem_map.1 hn
      obtain ⟨op, h4, h5⟩ := List.mem_filterMap.1 h3
      exact h0 op h4 src h5
    rw [h2] at h1
    exact Nat.le_zero.1 h1
  refine ⟨fun ht => ⟨key _ ⟨by decide, by decide⟩ fun op _ src _ => ?_, fun hc => key _ ⟨by decide, by decide⟩
    fun op ho src hsrc => ?_⟩, fun hk hc => key _ ⟨by decide, by decide⟩ fun op ho src hsrc => ?_⟩
  · rw [ht]
    cases kd <;> cases src <;> cases S.trk <;> rfl
  · rw [ht]
    cases src with
    | key k => cases kd <;> rfl
    | copy v => exact absurd hsrc (hc op ho v)
    | move v => cases kd <;> cases S.trk <;> rfl
  · rw [hk]
    cases src with
    | key k => cases S.Fa.take <;> rfl
    | copy v => cases S.Fa.take <;> cases S.trk <;> rfl
    | move v => exact absurd hsrc (hc op ho v)

/-- The factories of the library, and the one of the test. -/
example {Rep : Type} (P : Policy K V Rep) (hash : K → Nat) (keq : K → K → Bool) (less : K → K → Bool) (grow : Nat → Nat) :
    (Hashed.factory (liftHash P hash) (liftPred P keq) grow).take = .moves ∧ (setFactory (liftLt P less)).take = .moves ∧
    (luFactory (liftPred P keq)).take ≠ .moves := ⟨rfl, rfl, nofun⟩

/-- With the list-update factory the key is copied. -/
example : ∃ s, (Sample.varLu .refcounted).run id Sample.calm Sample.alloc [.make 0 (.key 3)] = some ([.done], s) ∧
    s.env.tally .keyCopy = 1 ∧ s.env.tally .valCopy = 0 ∧ s.env.tally .valMove = 0 :=
  ⟨_, rfl, rfl, rfl, rfl⟩

/-- **C60, factories.**  With `hashed_factory` and `set_factory` a key is moved into the new entry, and never copied: a key-value
flyweight moves its key once for the entry of `refcounted` and once more if the value is new. -/
theorem C60_moving_factories (hP : LibPolicy P sp keq true) {hash : K → Nat} {less : K → K → Bool} {grow : Nat → Nat} :
    (∀ _ : HashOk hash keq, ∃ S : Setup K V Rep (Hashed (Ent Rep)),
      S.Is P (Hashed.factory (liftHash P hash) (liftPred P keq) grow) .refcounted sp keq ∧
      ∀ s, S.Reach s → ∀ (hp : Nat → Nat) (op : Op K V) (src : Src K V), op.creates = some src →
        op.valid sp (s.objs.map Prod.fst) = true → ∀ out s', S.perform hp op s = .ok out s' →
        s'.env.tally .keyCopy = s.env.tally .keyCopy ∧
        ((∀ x a k v, S.Sees s x a k v → keq k (sp.key0 src) = false) → s'.env.tally .keyMove = s.env.tally .keyMove + 2) ∧
        ((∃ x a k v, S.Sees s x a k v ∧ keq k (sp.key0 src) = true) → s'.env.tally .keyMove = s.env.tally .keyMove + 1)) ∧
    (∀ _ : OrderOk less, keq = incomparable less → ∃ S : Setup K V Rep (List (Nat × Ent Rep)),
      S.Is P (setFactory (liftLt P less)) .refcounted sp keq ∧
      ∀ s, S.Reach s → ∀ (hp : Nat → Nat) (op : Op K V) (src : Src K V), op.creates = some src →
        op.valid sp (s.objs.map Prod.fst) = true → ∀ out s', S.perform hp op s = .ok out s' →
        s'.env.tally .keyCopy = s.env.tally .keyCopy ∧
        ((∀ x a k v, S.Sees s x a k v → keq k (sp.key0 src) = false) → s'.env.tally .keyMove = s.env.tally .keyMove + 2) ∧
        ((∃ x a k v, S.Sees s x a k v ∧ keq k (sp.key0 src) = true) → s'.env.tally .keyMove = s.env.tally .keyMove + 1)) := by
  have key : ∀ {F : Type} {Fa : Factory F (Ent Rep)}, LibFactory P Fa keq → Fa.take = .moves →
      ∃ S : Setup K V Rep F, S.Is P Fa .refcounted sp keq ∧
      ∀ s, S.Reach s → ∀ (hp : Nat → Nat) (op : Op K V) (src : Src K V), op.creates = some src →
        op.valid sp (s.objs.map Prod.fst) = true → ∀ out s', S.perform hp op s = .ok out s' →
        s'.env.tally .keyCopy = s.env.tally .keyCopy ∧
        ((∀ x a k v, S.Sees s x a k v → keq k (sp.key0 src) = false) → s'.env.tally .keyMove = s.env.tally .keyMove + 2) ∧
        ((∃ x a k v, S.Sees s x a k v ∧ keq k (sp.key0 src) = true) → s'.env.tally .keyMove = s.env.tally .keyMove + 1) := by
    intro F Fa hF ht
    obtain ⟨S, hI, h⟩ := C60_create_refcounted hP hF
    refine ⟨S, hI, fun s hr hp op src hop hv out s' hm => ?_⟩
    obtain ⟨new, h1, h2⟩ := h s hr hp op src hop hv out s' hm
    rw [ht] at h2
    have hc := h2 .keyCopy ⟨by decide, by decide⟩
    have hk := h2 .keyMove ⟨by decide, by decide⟩
    refine ⟨?_, fun hn => ?_, fun ⟨x, a, k, v, hx, he⟩ => ?_⟩
    · rw [hc]
      cases src <;> cases new <;> rfl
    · rw [hk, h1.2 hn]
      cases src <;> rfl
    · cases new with
      | true =>
        have := h1.1 rfl x a k v hx
        rw [he] at this
        cases this
      | false =>
        rw [hk]
        cases src <;> rfl
  exact ⟨fun ok => key (.hashed grow ok) rfl, fun ok h => by subst h; exact key (.set ok) rfl⟩

/-- **C60, factories.**  The list-update factory of the test copies and moves the key of a new entry, and the verbose factory of
the example copies it; for an equivalent value neither does. -/
theorem C60_copying_factories (hP : LibPolicy P sp keq true) {less : K → K → Bool} :
    (∀ _ : EquivOk keq, ∃ S : Setup K V Rep (List (Nat × (Nat × Ent Rep))),
      S.Is P (luFactory (liftPred P keq)) .refcounted sp keq ∧
      ∀ s, S.Reach s → ∀ (hp : Nat → Nat) (op : Op K V) (src : Src K V), op.creates = some src →
        op.valid sp (s.objs.map Prod.fst) = true → ∀ out s', S.perform hp op s = .ok out s' →
        ((∀ x a k v, S.Sees s x a k v → keq k (sp.key0 src) = false) →
          s'.env.tally .keyCopy = s.env.tally .keyCopy + 1 ∧ s'.env.tally .keyMove = s.env.tally .keyMove + 2) ∧
        ((∃ x a k v, S.Sees s x a k v ∧ keq k (sp.key0 src) = true) →
          s'.env.tally .keyCopy = s.env.tally .keyCopy ∧ s'.env.tally .keyMove = s.env.tally .keyMove + 1)) ∧
    (∀ _ : OrderOk less, keq = incomparable less → ∃ S : Setup K V Rep (List (Nat × Ent Rep) × List (Note (Ent Rep))),
      S.Is P (verboseFactory (liftLt P less)) .refcounted sp keq ∧
      ∀ s, S.Reach s → ∀ (hp : Nat → Nat) (op : Op K V) (src : Src K V), op.creates = some src →
        op.valid sp (s.objs.map Prod.fst) = true → ∀ out s', S.perform hp op s = .ok out s' →
        ((∀ x a k v, S.Sees s x a k v → keq k (sp.key0 src) = false) →
          s'.env.tally .keyCopy = s.env.tally .keyCopy + 1 ∧ s'.env.tally .keyMove = s.env.tally .keyMove + 1) ∧
        ((∃ x a k v, S.Sees s x a k v ∧ keq k (sp.key0 src) = true) →
          s'.env.tally .keyCopy = s.env.tally .keyCopy ∧ s'.env.tally .keyMove = s.env.tally .keyMove + 1)) := by
  have key : ∀ {F : Type} {Fa : Factory F (Ent Rep)} (m : Nat), LibFactory P Fa keq →
      (∀ src : Src K V, (bill true .refcounted Fa.take src true).count .keyCopy = 1 ∧
        (bill true .refcounted Fa.take src true).count .keyMove = m) →
      ∃ S : Setup K V Rep F, S.Is P Fa .refcounted sp keq ∧
      ∀ s, S.Reach s → ∀ (hp : Nat → Nat) (op : Op K V) (src : Src K V), op.creates = some src →
        op.valid sp (s.objs.map Prod.fst) = true → ∀ out s', S.perform hp op s = .ok out s' →
        ((∀ x a k v, S.Sees s x a k v → keq k (sp.key0 src) = false) →
          s'.env.tally .keyCopy = s.env.tally .keyCopy + 1 ∧ s'.env.tally .keyMove = s.env.tally .keyMove + m) ∧
        ((∃ x a k v, S.Sees s x a k v ∧ keq k (sp.key0 src) = true) →
          s'.env.tally .keyCopy = s.env.tally .keyCopy ∧ s'.env.tally .keyMove = s.env.tally .keyMove + 1) := by
    intro F Fa m hF ht
    obtain ⟨S, hI, h⟩ := C60_create_refcounted hP hF
    refine ⟨S, hI, fun s hr hp op src hop hv out s' hm => ?_⟩
    obtain ⟨new, h1, h2⟩ := h s hr hp op src hop hv out s' hm
    have hc := h2 .keyCopy ⟨by decide, by decide⟩
    have hk := h2 .keyMove ⟨by decide, by decide⟩
    refine ⟨fun hn => ?_, fun ⟨x, a, k, v, hx, he⟩ => ?_⟩
    · rw [hk, hc, h1.2 hn, (ht src).1, (ht src).2]
      exact ⟨rfl, rfl⟩
    · cases new with
      | true =>
        have := h1.1 rfl x a k v hx
        rw [he] at this
        cases this
      | false =>
        rw [hk, hc]
        cases src <;> exact ⟨rfl, rfl⟩
  exact ⟨fun ok => key 2 (.list ok) fun src => by cases src <;> exact ⟨rfl, rfl⟩,
    fun ok h => by subst h; exact key 1 (.verbose ok) fun src => by cases src <;> exact ⟨rfl, rfl⟩⟩

/-- Two new keys and an old one: five moves of keys with `hashed_factory`, and with the list-update factory, which copies as well. -/
example : (∃ s, (Sample.var .refcounted).run id Sample.calm Sample.alloc [.make 0 (.key 3), .make 1 (.key 4), .make 2 (.key 13)] =
      some ([.done, .done, .done], s) ∧ s.env.tally .keyCopy = 0 ∧ s.env.tally .keyMove = 5) ∧
    ∃ s, (Sample.varLu .refcounted).run id Sample.calm Sample.alloc [.make 0 (.key 3), .make 1 (.key 4), .make 2 (.key 13)] =
      some ([.done, .done, .done], s) ∧ s.env.tally .keyCopy = 2 ∧ s.env.tally .keyMove = 5 :=
  ⟨⟨_, rfl, rfl, rfl⟩, _, rfl, rfl, rfl⟩

end Verif.Props

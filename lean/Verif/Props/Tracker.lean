import Verif.TrackerObserve
import Verif.Props.Library

/-!
# Tracking policies of the user's own: C76

The documentation lets users write tracking policies.  A policy is a program of the user's own, that is given handles
and a helper by which it can have values removed; `Tracker.Sound` says that it has values removed only if they are
stored and no flyweight has them.
-/

set_option autoImplicit false

namespace Verif.Props
open Setup
variable {K V Rep F T : Type} {P : Policy K V Rep} {Fa : Factory F (Ent Rep)} {sp : SrcSpec K V}
  {keq : K → K → Bool} {kd : Bool} {tr : Tracker T}
  {J : T → (Nat → Nat) → (Nat → Bool) → Prop} {N : Nat → T → (Nat → Nat) → (Nat → Bool) → Prop}

/-- The program of the examples: the value of 4 is unused for a while and used again, then those of 4 and 5 go
unused.  (No code of its own: used to state a property or an example.) -/
def progC76 : List (Op Nat (Nat × Nat)) :=
  [.make 0 (.key 3), .make 1 (.key 4), .destroy 1, .make 1 (.key 14), .copy 2 1, .make 3 (.key 5), .destroy 1, .swap 0 2,
    .assignVal 0 (.key 13), .destroy 3, .eq 0 2, .get 0]

/-- **C76.**  With any sound policy, each program is executed without undefined behaviour; the results are
those of the specification in which values that no flyweight has may be found again until they are removed at some
time; and the policy's own account of the flyweights agrees with the flyweights that exist. -/
theorem C76_refines (hP : LibPolicy P sp keq kd) (hF : LibFactory P Fa keq) (hJ : tr.Sound J N) (hp : Nat → Nat)
    (fl : Nat → Bool) (alloc : Nat → List Nat → Nat) (hal : ∀ n l, alloc n l ∉ l) (ops : List (Op K V)) :
    ∃ outs s t, Track.run P Fa sp tr hp fl alloc ops = some (outs, s) ∧ CRun tr.Throws keq sp hp SSt.start ops outs t ∧
      (∀ x a k v, Track.Sees P Fa tr s x a k v ↔ (x, ⟨a, k, v⟩) ∈ t.vars) ∧ (.threw ∈ outs → tr.Throws ∨ ∃ n, fl n = true) ∧
      J s.fac.2 (fun i => s.objs.countP fun p => p.2 == i) (fun i => (Fa.entry s.fac.1 i).isSome) := by
  obtain ⟨S, ⟨rfl, rfl, _, rfl, rfl⟩, _⟩ := hP.setup hF .noTracking
  obtain ⟨outs, s, t, h1, h2, h3, h4⟩ := Track.exec_sim (S := S) hJ hp ops (Track.sim_start hJ fl hal)
  exact ⟨outs, s, t, h1, h2, fun x a k v => sees_iff h3.sim, h4, h3.data⟩

/-- A cache of one unused value, an operation of the user's that throws. -/
example := C76_refines libSample libSet (Tracker.cache_sound 1) id (Sample.failAt 7) Sample.alloc Sample.alloc_ok progC76

/-- With a cache of two values, the value of 4 is found again after it was unused, so that only three values are ever
constructed; those of 4 and 5 are alive at the end, unused. -/
example : (Track.run (VRep.policy Sample.u) (setFactory (liftLt (VRep.policy Sample.u) Sample.less))
    (SrcSpec.variant Sample.u) (Tracker.cache 2) id Sample.calm Sample.alloc progC76).map
      (fun r => (r.2.env.made, r.2.fac.2.idle, r.2.env.vals)) = some (3, [1, 2], 3) := by
  decide +kernel

/-- **C76.**  Two flyweights compare equal exactly when the keys that they were last given are equivalent, and exactly then
have the same address. -/
theorem C76_equality (hP : LibPolicy P sp keq kd) (hF : LibFactory P Fa keq) (hJ : tr.Sound J N) (hp : Nat → Nat)
    (fl : Nat → Bool) (alloc : Nat → List Nat → Nat) (hal : ∀ n l, alloc n l ∉ l) (ops : List (Op K V))
    (outs : List (Out K V)) (s : St Rep (F × T)) (hrun : Track.run P Fa sp tr hp fl alloc ops = some (outs, s))
    (x y : Nat) (k l : K) (hx : given sp (fun _ => Option.none) ops outs x = some k)
    (hy : given sp (fun _ => Option.none) ops outs y = some l) :
    Track.step P (tr.factory Fa) tr hp (.eq x y) s = .ok (.bool (keq k l)) s ∧
    ∃ a k' v b l' w, Track.Sees P Fa tr s x a k' v ∧ Track.Sees P Fa tr s y b l' w ∧ keq k' k = true ∧
      keq l' l = true ∧ (a = b ↔ keq k l = true) := by
  obtain ⟨S, ⟨rfl, rfl, _, rfl, rfl⟩, _⟩ := hP.setup hF .noTracking
  obtain ⟨t, _, ⟨hS, _⟩, hok, hg⟩ := Track.run_sim (S := S) hJ hal hrun
  have hb : ∀ x k, given S.sp (fun _ => Option.none) ops outs x = some k →
      ∃ b, (x, b) ∈ t.vars ∧ S.keq b.key k = true := by
    intro x k hx
    by_cases hn : x ∈ t.names
    · obtain ⟨⟨x', b⟩, hb, rfl⟩ := List.mem_map.1 hn
      obtain ⟨k', h1, h2⟩ := hg.1 _ b hb
      rw [h1] at hx
      cases hx
      exact ⟨b, hb, h2⟩
    · have h1 := hg.2 x hn
      rw [h1] at hx
      cases hx
  obtain ⟨b, hb1, hb2⟩ := hb x k hx
  obtain ⟨c, hc1, hc2⟩ := hb y l hy
  have hiff : b.addr = c.addr ↔ S.keq k l = true := by
    constructor
    · intro h
      have := hok.addr b (hok.bound hb1) c (hok.bound hc1) h
      subst this
      exact S.LS.trans _ _ _ (S.LS.symm _ _ hb2) hc2
    · intro h
      have : S.keq b.key c.key = true :=
        S.LS.trans _ _ _ hb2 (S.LS.trans _ _ _ h (S.LS.symm _ _ hc2))
      rw [hok.key b (hok.bound hb1) c (hok.bound hc1) this]
  refine ⟨?_, b.addr, b.key, b.val, c.addr, c.key, c.val, (sees_iff hS).2 hb1, (sees_iff hS).2 hc1,
    hb2, hc2, hiff⟩
  have he : Track.step S.P (tr.factory S.Fa) tr hp (.eq x y) s = .ok (.bool (b.addr == c.addr)) s :=
    eq_ok hS hp hb1 hc1
  rw [he]
  by_cases h : S.keq k l = true
  · rw [h, hiff.2 h]; simp
  · have : ¬ b.addr = c.addr := fun h' => h (hiff.1 h')
    simp [this, h]

/-- Flyweights 0 and 2 of the program were last given 13 and 3, which are equivalent, and compare equal. -/
example : ((Track.run (VRep.policy Sample.u) (setFactory (liftLt (VRep.policy Sample.u) Sample.less))
    (SrcSpec.variant Sample.u) (Tracker.cache 2) id Sample.calm Sample.alloc progC76).map
      (fun r => (r.1.drop 10 matches [.bool true, .val 1 (3, 9)],
        given (SrcSpec.variant Sample.u) (fun _ => Option.none) progC76 r.1 0,
        given (SrcSpec.variant Sample.u) (fun _ => Option.none) progC76 r.1 2))) =
    some (true, some 13, some 3) := by
  decide +kernel

/-- **C76.**  Programs can always go on, and what a flyweight refers to does not change unless the flyweight is assigned,
swapped or destroyed. -/
theorem C76_stable (hP : LibPolicy P sp keq kd) (hF : LibFactory P Fa keq) (hJ : tr.Sound J N)
    (s : St Rep (F × T)) (hr : Track.Reach P Fa sp tr s) (hp : Nat → Nat) (ops : List (Op K V)) :
    ∃ outs s', Track.exec P (tr.factory Fa) tr hp sp ops s = some (outs, s') ∧
      ∀ x a k v, Track.Sees P Fa tr s x a k v → (∀ op ∈ ops, op.touches x = false) →
        Track.Sees P Fa tr s' x a k v := by
  obtain ⟨S, ⟨rfl, rfl, _, rfl, rfl⟩, _⟩ := hP.setup hF .noTracking
  obtain ⟨fl, t, hS, _⟩ := hr.sim (S := S) hJ
  obtain ⟨outs, s', t', h1, h2, h3, _⟩ := Track.exec_sim (S := S) hJ hp ops hS
  exact ⟨outs, s', h1, fun x a k v hx hops =>
    (sees_iff h3.sim).2 (h2.keep hops ((sees_iff hS.sim).1 hx))⟩

example := C76_stable libSample libSet (Tracker.cache_sound 1)

/-- **C76.**  The values alive are those that flyweights have and those that the policy has left in the factory. -/
theorem C76_alive (hP : LibPolicy P sp keq kd) (hF : LibFactory P Fa keq) (hJ : tr.Sound J N)
    (s : St Rep (F × T)) (hr : Track.Reach P Fa sp tr s) (l m : List Nat) (hl : l.Nodup)
    (hla : ∀ a, a ∈ l ↔ ∃ x k v, Track.Sees P Fa tr s x a k v) (hm : m.Nodup)
    (hma : ∀ i, i ∈ m ↔ (Fa.entry s.fac.1 i).isSome = true ∧ ∀ x, (x, i) ∉ s.objs) :
    s.env.vals = l.length + m.length := by
  obtain ⟨S, ⟨rfl, rfl, _, rfl, rfl⟩, _⟩ := hP.setup hF .noTracking
  obtain ⟨fl, t, hS, _⟩ := hr.sim (S := S) hJ
  refine Track.alive hS.sim hl hla hm fun i => (hma i).trans (and_congr Iff.rfl ?_)
  constructor
  · intro h
    refine Nat.eq_zero_of_not_pos fun hp => ?_
    obtain ⟨⟨x, j⟩, hx, rfl⟩ := of_refs_pos hp
    exact h x hx
  · intro h x hx
    have : 0 < refs s i := refs_pos hx
    omega

example := C76_alive libSample libSet (Tracker.cache_sound 1)

/-- **C76.**  With a cache of `n` values, at most `n` values are alive that no flyweight has; the policy's list is that of those
values. -/
theorem C76_cache (hP : LibPolicy P sp keq kd) (hF : LibFactory P Fa keq) (n : Nat)
    (s : St Rep (F × CacheData)) (hr : Track.Reach P Fa sp (Tracker.cache n) s) (l : List Nat) (hl : l.Nodup)
    (hla : ∀ a, a ∈ l ↔ ∃ x k v, Track.Sees P Fa (Tracker.cache n) s x a k v) :
    s.env.vals = l.length + s.fac.2.idle.length ∧ s.fac.2.idle.length ≤ n := by
  obtain ⟨S, ⟨rfl, rfl, _, rfl, rfl⟩, _⟩ := hP.setup hF .noTracking
  obtain ⟨fl, t, hS, _⟩ := hr.sim (S := S) (Tracker.cache_sound n)
  exact ⟨Track.alive hS.sim hl hla hS.data.nodup hS.data.idle, hS.data.size⟩

/-- A cache of one value: of three values, one is in use and one was removed. -/
example : (Track.run (VRep.policy Sample.u) (setFactory (liftLt (VRep.policy Sample.u) Sample.less))
    (SrcSpec.variant Sample.u) (Tracker.cache 1) id Sample.calm Sample.alloc progC76).map
      (fun r => (r.2.fac.2.idle, r.2.env.vals)) = some ([2], 2) := by
  decide +kernel

/-- **C76.**  A policy that leaves no value in the factory without flyweights cannot be told from `refcounted`: the
results are those of its specification, and the values alive are those of the flyweights. -/
theorem C76_prompt (hP : LibPolicy P sp keq kd) (hF : LibFactory P Fa keq) (hJ : tr.Sound J N)
    (hprompt : ∀ d r p, J d r p → ∀ i, p i = true → 0 < r i) (hp : Nat → Nat)
    (fl : Nat → Bool) (alloc : Nat → List Nat → Nat) (hal : ∀ n l, alloc n l ∉ l) (ops : List (Op K V)) :
    ∃ outs s t, Track.run P Fa sp tr hp fl alloc ops = some (outs, s) ∧
      SRun .refcounted keq sp hp SSt.start ops outs t ∧
      (∀ x a k v, Track.Sees P Fa tr s x a k v ↔ (x, ⟨a, k, v⟩) ∈ t.vars) ∧
      ∀ l : List Nat, l.Nodup → (∀ a, a ∈ l ↔ ∃ x k v, Track.Sees P Fa tr s x a k v) → s.env.vals = l.length := by
  obtain ⟨S, ⟨rfl, rfl, _, rfl, rfl⟩, _⟩ := hP.setup hF .noTracking
  obtain ⟨outs, s, t, l', h1, h2, h3⟩ := Track.prompt_sim (S := S) hJ hprompt hp ops (Track.sim_start hJ fl hal)
    (SSt.start : SSt K V).kept
  refine ⟨outs, s, _, h1, h2, fun x a k v => sees_iff h3.sim, fun l hl hla => ?_⟩
  have := Track.alive h3.sim hl hla List.nodup_nil fun i => ⟨fun h => (by cases h), fun ⟨h4, h5⟩ => by
    have := hprompt _ _ _ h3.data i h4
    omega⟩
  simpa using this

/-- **C76.**  `refcounted`, written with what the documentation offers to users, is such a policy; its counts are the
number of flyweights. -/
theorem C76_refcounted (hP : LibPolicy P sp keq kd) (hF : LibFactory P Fa keq) (s : St Rep (F × Counts))
    (hr : Track.Reach P Fa sp Tracker.counted s) :
    (∀ i, (Fa.entry s.fac.1 i).isSome = true ↔ ∃ x, (x, i) ∈ s.objs) ∧
    (∀ i, (Fa.entry s.fac.1 i).isSome = true →
      s.fac.2.ref i = (s.objs.countP fun p => p.2 == i) ∧ s.fac.2.del i = 1) ∧
    ∀ l : List Nat, l.Nodup → (∀ a, a ∈ l ↔ ∃ x k v, Track.Sees P Fa Tracker.counted s x a k v) →
      s.env.vals = l.length := by
  obtain ⟨S, ⟨rfl, rfl, _, rfl, rfl⟩, _⟩ := hP.setup hF .noTracking
  obtain ⟨fl, t, hS, _⟩ := hr.sim (S := S) Tracker.counted_sound
  refine ⟨fun i => ⟨fun h => ?_, fun ⟨x, h⟩ => hS.sim.rel.inv.objs (x, i) h⟩, fun i h => ((hS.data i).2 h).2,
    fun l hl hla => ?_⟩
  · obtain ⟨⟨x, j⟩, hx, rfl⟩ := of_refs_pos ((hS.data i).2 h).1
    exact ⟨x, hx⟩
  · have := Track.alive hS.sim hl hla List.nodup_nil fun i => ⟨fun h => (by cases h), fun ⟨h4, h5⟩ => by
      have := ((hS.data i).2 h4).1
      omega⟩
    simpa using this

example := C76_prompt libSample libSet Tracker.counted_sound (fun _ _ _ h i hi => ((h i).2 hi).1) id (Sample.failAt 7)
  Sample.alloc Sample.alloc_ok progC76

/-- The same program with `refcounted` as a policy of the user's own: two flyweights have the value of 3, and one value is
alive. -/
example : (Track.run (VRep.policy Sample.u) (setFactory (liftLt (VRep.policy Sample.u) Sample.less))
    (SrcSpec.variant Sample.u) Tracker.counted id Sample.calm Sample.alloc progC76).map
      (fun r => (r.2.fac.2.ref 0, r.2.fac.2.del 0, r.2.env.vals)) = some (2, 1, 1) := by
  decide +kernel

/-- **C76.**  What `TrackingHelper::erase` does to a factory with value `h`, which no flyweight has: the value is removed
if and only if the check says so, and destroyed; all flyweights and all other values are as they were; the lock is
released. -/
theorem C76_helper (hP : LibPolicy P sp keq kd) (hF : LibFactory P Fa keq) (hJ : tr.Sound J N)
    (s : St Rep (F × T)) (hr : Track.Reach P Fa sp tr s) (h : Nat) (chk : T → T × Bool)
    (hs : (Fa.entry s.fac.1 h).isSome = true) (hno : ∀ x, (x, h) ∉ s.objs) :
    ∃ s', Track.helperErase P (tr.factory Fa) h chk s = .ok () s' ∧ s'.depth = s.depth ∧ s'.objs = s.objs ∧
      (∀ x a k v, Track.Sees P Fa tr s' x a k v ↔ Track.Sees P Fa tr s x a k v) ∧
      (∀ i, (Fa.entry s'.fac.1 i).isSome = true ↔
        (Fa.entry s.fac.1 i).isSome = true ∧ ¬ (i = h ∧ (chk s.fac.2).2 = true)) ∧
      s'.fac.2 = (if (chk s.fac.2).2 = true then tr.gone (chk s.fac.2).1 h else (chk s.fac.2).1) ∧
      s'.env.vals + (if (chk s.fac.2).2 = true then 1 else 0) = s.env.vals := by
  obtain ⟨S, ⟨rfl, rfl, _, rfl, rfl⟩, _⟩ := hP.setup hF .noTracking
  obtain ⟨fl, t, ⟨hS, _⟩, _⟩ := hr.sim (S := S) hJ
  have h0 : refs s h = 0 := by
    refine Nat.eq_zero_of_not_pos fun hp => ?_
    obtain ⟨⟨x, j⟩, hx, rfl⟩ := of_refs_pos hp
    exact hno x hx
  obtain ⟨s', k1, k2, k3, _, k4, k5⟩ := Track.helperErase_ok (S := S) (tr := tr) hS.rel.inv h chk
    fun _ => ⟨hs, by rw [Track.held_none]; exact h0⟩
  have hat : ∀ i b, (tr.setup S).At s' i b ↔ (tr.setup S).At s i b ∧ ¬ (i = h ∧ (chk s.fac.2).2 = true) := by
    intro i b
    cases hc : (chk s.fac.2).2 with
    | true => simpa using (k4 hc).2 i b
    | false => simpa using (k5 hc).2 i b
  have hent : ∀ i, (S.Fa.entry s'.fac.1 i).isSome = true ↔
      (S.Fa.entry s.fac.1 i).isSome = true ∧ ¬ (i = h ∧ (chk s.fac.2).2 = true) := by
    intro i
    have e1 := Track.stored_at k2 i
    have e2 := Track.stored_at hS.rel.inv i
    unfold Track.stored at e1 e2
    rw [e1, e2]
    constructor
    · rintro ⟨b, hb⟩
      exact ⟨⟨b, ((hat i b).1 hb).1⟩, ((hat i b).1 hb).2⟩
    · rintro ⟨⟨b, hb⟩, hn⟩
      exact ⟨b, (hat i b).2 ⟨hb, hn⟩⟩
  obtain ⟨l, _, hR⟩ := Track.rel_shrink hS.rel k2 k3.objs (fun i b hb => ((hat i b).1 hb).1) fun i b hb hp =>
    (hat i b).2 ⟨hb, fun ⟨he, _⟩ => by rw [he, h0] at hp; exact absurd hp (Nat.lt_irrefl 0)⟩
  have hS' : Setup.Sim (tr.setup S) fl s' { t with kept := l } :=
    ⟨hR, ⟨k3.locals.trans hS.idle.locals, k3.depth.trans hS.idle.depth⟩, k3.faults.trans hS.faults⟩
  refine ⟨s', k1, k3.depth, k3.objs, fun x a k v => (sees_iff hS').trans (sees_iff hS).symm, hent, ?_, ?_⟩
  · cases hc : (chk s.fac.2).2 with
    | true => exact (k4 hc).1
    | false => exact (k5 hc).1
  · rw [(live_count hS').2, (live_count hS).2]
    have hn := (tr.setup S).LF.ids_nodup hS.rel.inv.fac
    have hn' := (tr.setup S).LF.ids_nodup k2.fac
    have hm : ∀ i, i ∈ (tr.setup S).Fa.ids s.fac ↔ (S.Fa.entry s.fac.1 i).isSome = true :=
      fun i => (tr.setup S).LF.mem_ids i hS.rel.inv.fac
    have hm' : ∀ i, i ∈ (tr.setup S).Fa.ids s'.fac ↔ (S.Fa.entry s'.fac.1 i).isSome = true :=
      fun i => (tr.setup S).LF.mem_ids i k2.fac
    generalize (tr.setup S).Fa.ids s.fac = ids at hn hm
    generalize (tr.setup S).Fa.ids s'.fac = ids' at hn' hm'
    cases hc : (chk s.fac.2).2 with
    | true =>
      have hl : ids'.length = (ids.erase h).length := by
        refine length_of_same hn' (hn.erase h) fun i => ?_
        rw [hm', hent, hn.mem_erase_iff, hm, hc]
        constructor
        · rintro ⟨h1, h2⟩
          exact ⟨fun he => h2 ⟨he, rfl⟩, h1⟩
        · rintro ⟨h1, h2⟩
          exact ⟨h2, fun he => h1 he.1⟩
      have hh := (hm h).2 hs
      have := List.length_pos_of_mem hh
      rw [hl, List.length_erase_of_mem hh]
      simp
      omega
    | false =>
      have hl : ids'.length = ids.length := by
        refine length_of_same hn' hn fun i => ?_
        rw [hm', hent, hm, hc]
        simp
      rw [hl]
      simp

/-- The cache of two values after the program: the value of 4, which no flyweight has, is entry 1; a call of the helper removes it
if the check says so. -/
example : ((Track.run (VRep.policy Sample.u) (setFactory (liftLt (VRep.policy Sample.u) Sample.less))
    (SrcSpec.variant Sample.u) (Tracker.cache 2) id Sample.calm Sample.alloc progC76).map
      (fun r => [true, false].map fun b =>
        match Track.helperErase (VRep.policy Sample.u)
          ((Tracker.cache 2).factory (setFactory (liftLt (VRep.policy Sample.u) Sample.less))) 1 (fun t => (t, b)) r.2 with
        | .ok _ s => some (s.env.vals, s.depth, ((setFactory (liftLt (VRep.policy Sample.u) Sample.less)).entry s.fac.1 1).isSome)
        | _ => Option.none)) = some [some (2, 0, false), some (3, 0, true)] := by
  decide +kernel

/-- **C76.**  The policies of the library and the cache are sound. -/
theorem C76_sound (n : Nat) :
    (∃ J N, Tracker.keepAll.Sound J N) ∧
    (∃ J N, Tracker.counted.Sound J N ∧ ∀ d r p, J d r p → ∀ i, p i = true → 0 < r i) ∧
    ∃ J N, (Tracker.cache n).Sound J N ∧ ∀ d r p, J d r p → ∀ m : List Nat, m.Nodup →
      (∀ i ∈ m, p i = true ∧ r i = 0) → m.length ≤ n := by
  refine ⟨⟨_, _, Tracker.keepAll_sound⟩, ⟨_, _, Tracker.counted_sound, fun _ _ _ h i hi => ((h i).2 hi).1⟩,
    _, _, Tracker.cache_sound n, fun d r p h m hm hmi => ?_⟩
  have h1 : ∀ i ∈ m, i ∈ d.idle := fun i hi => (h.idle i).2 (hmi i hi)
  have h2 : (d.idle.filter fun i => i ∈ m).length = m.length :=
    length_of_same (h.nodup.sublist List.filter_sublist) hm fun i => by
      simp only [List.mem_filter, decide_eq_true_eq]
      exact ⟨fun h => h.2, fun h => ⟨h1 i h, h⟩⟩
  have h3 := List.length_filter_le (fun i => decide (i ∈ m)) d.idle
  have := h.size
  omega

/-- **C76.**  Soundness is not for free: with a policy that removes a value although another flyweight has it, behaviour is
undefined, and the policy is not sound, whatever is taken for `J` and `N`. -/
theorem C76_unsound :
    Track.run (VRep.policy Sample.u) (setFactory (liftLt (VRep.policy Sample.u) Sample.less)) (SrcSpec.variant Sample.u)
      Tracker.hasty id Sample.calm Sample.alloc [.make 0 (.key 3), .copy 1 0, .destroy 1, .get 0] = Option.none ∧
    ∀ J N, ¬ Tracker.hasty.Sound J N := by
  have h : (Track.run (VRep.policy Sample.u) (setFactory (liftLt (VRep.policy Sample.u) Sample.less))
      (SrcSpec.variant Sample.u) Tracker.hasty id Sample.calm Sample.alloc
      [.make 0 (.key 3), .copy 1 0, .destroy 1, .get 0]).isNone = true := by decide +kernel
  refine ⟨Option.isNone_iff_eq_none.1 h, fun J N hJ => ?_⟩
  obtain ⟨outs, s, t, h1, _⟩ := C76_refines libSample libSet hJ id Sample.calm Sample.alloc Sample.alloc_ok
    [.make 0 (.key 3), .copy 1 0, .destroy 1, .get 0]
  rw [h1] at h
  cases h

/-- Without the copy the same policy does no harm: there is no flyweight left when the value is removed. -/
example : (Track.run (VRep.policy Sample.u) (setFactory (liftLt (VRep.policy Sample.u) Sample.less)) (SrcSpec.variant Sample.u)
    Tracker.hasty id Sample.calm Sample.alloc [.make 0 (.key 3), .destroy 0]).map (fun r => r.2.env.vals) = some 0 := by
  decide +kernel

end Verif.Props

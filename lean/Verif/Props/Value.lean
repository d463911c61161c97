import Verif.Props.Core

/-!
# Properties of flyweights used by one thread: C14-C16, C18
-/

set_option autoImplicit false

namespace Verif.Props
open Setup
variable {K V Rep F : Type}

/-! ## C14 -/

/-- **C14, sufficiency.**  A `key_value` flyweight type whose extractor satisfies
the documented contract, with `hashed_factory`: in every reachable state the key
reported is the one extracted from the value, every stored node is filed under
the hash of the key extracted from its value, no two stored nodes have
equivalent keys, and creating a flyweight from a key equivalent to that of an
existing one yields the existing value. -/
theorem C14_sufficient (u : UserFns K V) (trk : Tracking) (grow : Nat → Nat) {hash : K → Nat}
    {keq : K → K → Bool} (ok : HashOk hash keq) (contract : ∀ k, keq (u.kfv (u.ctor k)) k = true)
    (s : St (VRep K V) (Hashed (Ent (VRep K V))))
    (hr : (Setup.hashed (VRep.lawful u) trk grow ok
      (SrcSpec.variant_lawful u ok.equiv contract)).Reach s) :
    let S := Setup.hashed (VRep.lawful u) trk grow ok (SrcSpec.variant_lawful u ok.equiv contract)
    (∀ x a k v, S.Sees s x a k v → k = u.kfv v) ∧
    (∀ p ∈ s.fac.nodes, ∃ v, p.2.2.rep = ⟨none, some v, true⟩ ∧ p.2.1 = hash (u.kfv v)) ∧
    (∀ p ∈ s.fac.nodes, ∀ q ∈ s.fac.nodes, ∀ v w, p.2.2.rep.val = some v → q.2.2.rep.val = some w →
      keq (u.kfv v) (u.kfv w) = true → p = q) ∧
    (∀ hp x a k v y src out s', S.Sees s x a k v → keq k (S.sp.key0 src) = true →
      (Op.make y src).valid S.sp (s.objs.map Prod.fst) = true →
      S.perform hp (.make y src) s = .ok out s' → S.Sees s' y a k v) := by
  intro S
  obtain ⟨fl, t, hS, hok⟩ := hr.sim
  have hI := hS.rel.inv
  have hnode : ∀ p ∈ s.fac.nodes, S.Fa.entry s.fac p.1 = some p.2.2 := by
    intro p hp
    show (s.fac.nodes.lookup p.1).map Prod.snd = _
    rw [Assoc.lookup_of_mem hI.fac.1 (show (p.1, p.2) ∈ _ from hp)]
    rfl
  have hat : ∀ p ∈ s.fac.nodes, ∀ v, p.2.2.rep.val = some v →
      S.At s p.1 ⟨s.addr p.1, u.kfv v, v⟩ := by
    intro p hp v hv
    obtain ⟨k, w, h1, h2⟩ := hI.full p.1 p.2.2 (hnode p hp)
    rw [h1] at hv
    cases hv
    exact ⟨_, hnode p hp, ⟨h1, rfl⟩, rfl⟩
  refine ⟨?_, ?_, ?_, ?_⟩
  · intro x a k v hx
    obtain ⟨h, _, e, he, hf, _⟩ := lookup_of_var hS.rel ((sees_iff hS).1 hx)
    exact hf.2
  · intro p hp
    obtain ⟨k, v, h1, h2⟩ := hI.full p.1 p.2.2 (hnode p hp)
    refine ⟨v, h1, ?_⟩
    rw [hI.fac.2 p hp]
    simp [liftHash, h1, VRep.policy, VRep.toKey]
  · intro p hp q hq v w hv hw hk
    have hb := (hS.rel.pool _).2 ⟨_, hat p hp v hv⟩
    have hc := (hS.rel.pool _).2 ⟨_, hat q hq w hw⟩
    have := hok.key _ hb _ hc hk
    have ha : s.addr p.1 = s.addr q.1 := congrArg Bind.addr this
    have hid := hI.inj p.1 q.1 (by rw [hnode p hp]; rfl) (by rw [hnode q hq]; rfl) ha
    have h1 := Assoc.lookup_of_mem hI.fac.1 (show (p.1, p.2) ∈ _ from hp)
    have h2 := Assoc.lookup_of_mem hI.fac.1 (show (q.1, q.2) ∈ _ from hq)
    rw [hid, h2] at h1
    exact Prod.ext hid (Option.some.inj h1).symm
  · intro hp x a k v y src out s' hx hk hv h
    obtain ⟨t', h1, h2⟩ := perform_ok hS hv h
    cases h1 with
    | makeThrow =>
      refine absurd h ?_
      rcases perform_cases hS hp hv with ⟨o, s1, t', g1, g2, _⟩ | ⟨s1, g1, _⟩ <;> rw [g1] <;> simp
      intro g
      exact absurd g g2
    | make _ _ b t₁ hc =>
      have hsup : S.sp.supports src = true := by simp [Op.valid] at hv; exact hv.2
      obtain ⟨_, c2, c3, _⟩ := hok.create S.LS hsup hc
      have := c3 _ (hok.bound ((sees_iff hS).1 hx)) (.inr (S.LS.trans _ _ _ hk (S.LS.symm _ _ c2)))
      refine (sees_iff h2).2 ?_
      rw [← this]
      exact List.mem_cons_self

/-- The sample type meets the contract and a state with two stored values is
reachable. -/
example : ∃ s, (Sample.var .refcounted).run id Sample.calm Sample.alloc [.make 0 (.key 3), .make 1 (.copy (14, 0))] =
    some ([.done, .done], s) ∧ s.fac.nodes.length = 2 := ⟨_, rfl, rfl⟩

/-- **C14, necessity.**  With an extractor that violates the contract
(`kfv (ctor k) = k + 1`), two creations from the same key yield different
flyweights: the second one does not find the value of the first. -/
theorem C14_necessary :
    ∃ (u : UserFns Nat Nat) (s : St (VRep Nat Nat) (Hashed (Ent (VRep Nat Nat)))),
      ¬ (∀ k, (u.kfv (u.ctor k) == k) = true) ∧
      Core.exec (VRep.policy u) (Hashed.factory (liftHash (VRep.policy u) id)
          (liftPred (VRep.policy u) (· == ·)) id) .refcounted id (SrcSpec.variant u)
        [.make 0 (.key 5), .make 1 (.key 5), .eq 0 1]
        (Core.start (Hashed.factory (liftHash (VRep.policy u) id) (liftPred (VRep.policy u) (· == ·)) id)
          (fun _ => false) Sample.alloc) = some ([.done, .done, .bool false], s) :=
  ⟨⟨id, (· + 1), id, id⟩, _, by simp, rfl⟩

/-! ## C15 -/

/-- **C15, copy and move construction.**  The new flyweight is what the source
was and still is, nothing throws, no value is constructed or destroyed, and all
other flyweights are unchanged.  (Moving is copying: the moved-from flyweight
keeps its value.) -/
theorem C15_copy (S : Setup K V Rep F) (T : S.P.Tidy) (s : St Rep F) (hr : S.Reach s) (hp : Nat → Nat)
    (x y a : Nat) (k : K) (v : V) (hy : S.Sees s y a k v) (hx : ∀ a k v, ¬ S.Sees s x a k v)
    (op : Op K V) (hop : op = .copy x y ∨ op = .move x y) :
    ∃ s', S.perform hp op s = .ok .done s' ∧ S.Sees s' x a k v ∧
      (∀ z b l w, z ≠ x → (S.Sees s' z b l w ↔ S.Sees s z b l w)) ∧
      s'.env.made = s.env.made ∧ s'.env.vals = s.env.vals ∧ s'.env.keys = s.env.keys := by
  obtain ⟨fl, t, hS, hok⟩ := hr.sim
  have hnx : ¬ x ∈ s.objs.map Prod.fst := fun h => by
    obtain ⟨a, k, v, h'⟩ := (mem_names hS).1 h
    exact hx a k v h'
  have hny := (mem_names hS).2 ⟨a, k, v, hy⟩
  have hyb := (sees_iff hS).1 hy
  have hv : op.valid S.sp (s.objs.map Prod.fst) = true := by
    rcases hop with rfl | rfl <;>
    · simp only [Op.valid, List.contains_iff_mem.2 hny, Bool.and_true, Bool.not_eq_true']
      simpa using hnx
  have hcr : op.creates = Option.none := by rcases hop with rfl | rfl <;> rfl
  rcases perform_cases hS hp hv with ⟨out, s', t', h1, _, h2, h3⟩ | ⟨s', h1, h2, _⟩
  · have hm := keeps_step T S.Fa S.trk hp op hcr s.env.made s rfl
    rw [show Core.step S.P S.Fa S.trk hp op s = .ok out s' from h1] at hm
    have hout : out = .done ∧ t' = { t with vars := (x, ⟨a, k, v⟩) :: t.vars } := by
      rcases hop with rfl | rfl
      · cases h2 with
        | copy _ _ b hb => rw [bind_unique hok.nodup hb hyb]; exact ⟨rfl, rfl⟩
      · cases h2 with
        | move _ _ b hb => rw [bind_unique hok.nodup hb hyb]; exact ⟨rfl, rfl⟩
    obtain ⟨rfl, rfl⟩ := hout
    have hlen : (S.Fa.ids s'.fac).length = (S.Fa.ids s.fac).length := by
      obtain ⟨n1, p1⟩ := pool_addrs hS
      obtain ⟨n2, p2⟩ := pool_addrs h3
      have := length_of_same n2 n1 fun c => (p2 c).trans (Iff.trans ?_ (p1 c).symm)
      · simpa using this
      · have hb := hok.bound hyb
        cases hT : S.trk with
        | noTracking => exact Iff.rfl
        | refcounted =>
          simp only [SSt.pool, List.map_cons, List.mem_cons]
          rw [hT] at hb
          constructor
          · rintro ⟨d, rfl | hd, hda⟩
            · exact ⟨_, hb, hda⟩
            · exact ⟨d, hd, hda⟩
          · rintro ⟨d, hd, hda⟩
            exact ⟨d, .inr hd, hda⟩
    refine ⟨s', h1, (sees_iff h3).2 List.mem_cons_self, fun z b l w hz => ?_, hm, ?_, ?_⟩
    · rw [sees_iff h3, sees_iff hS, List.mem_cons]
      constructor
      · rintro (h | h)
        · cases h; exact absurd rfl hz
        · exact h
      · exact .inr
    · rw [(live_count h3).2, (live_count hS).2, hlen]
    · rw [(live_count h3).1, (live_count hS).1, hlen]
  · rcases hop with rfl | rfl <;> cases h2

/-- **C15, assignment.**  After `x = y`, also when `x` and `y` are the same
object, `x` is what `y` was, all others (including `y`) are unchanged, nothing
throws and no value is constructed. -/
theorem C15_assign (S : Setup K V Rep F) (T : S.P.Tidy) (s : St Rep F) (hr : S.Reach s) (hp : Nat → Nat)
    (x y a a' : Nat) (k k' : K) (v v' : V) (hx : S.Sees s x a' k' v') (hy : S.Sees s y a k v) :
    ∃ s', S.perform hp (.assign x y) s = .ok .done s' ∧ S.Sees s' x a k v ∧
      (∀ z b l w, z ≠ x → (S.Sees s' z b l w ↔ S.Sees s z b l w)) ∧ s'.env.made = s.env.made := by
  obtain ⟨fl, t, hS, hok⟩ := hr.sim
  have hyb := (sees_iff hS).1 hy
  have hxb := (sees_iff hS).1 hx
  have hv : (Op.assign x y : Op K V).valid S.sp (s.objs.map Prod.fst) = true := by
    simp only [Op.valid, names_contains hS hx, names_contains hS hy, Bool.and_self]
  rcases perform_cases hS hp hv with ⟨out, s', t', h1, _, h2, h3⟩ | ⟨s', h1, h2, _⟩
  · have hm := keeps_step T S.Fa S.trk hp (.assign x y) rfl s.env.made s rfl
    rw [show Core.step S.P S.Fa S.trk hp (.assign x y) s = .ok out s' from h1] at hm
    cases h2 with
    | assign _ _ b hb =>
      have := bind_unique hok.nodup hb hyb
      subst this
      refine ⟨s', h1, (sees_iff h3).2 (mem_rebind.2 (.inl ⟨rfl, rfl, List.mem_map.2 ⟨_, hxb, rfl⟩⟩)),
        fun z b l w hz => ?_, hm⟩
      rw [sees_iff h3, sees_iff hS, mem_rebind]
      constructor
      · rintro (⟨h, _⟩ | ⟨_, h⟩)
        · exact absurd h hz
        · exact h
      · exact fun h => .inr ⟨hz, h⟩
  · cases h2

/-- Self-assignment changes nothing that can be observed. -/
theorem C15_self_assign (S : Setup K V Rep F) (T : S.P.Tidy) (s : St Rep F) (hr : S.Reach s)
    (hp : Nat → Nat) (x a : Nat) (k : K) (v : V) (hx : S.Sees s x a k v) :
    ∃ s', S.perform hp (.assign x x) s = .ok .done s' ∧
      ∀ z b l w, S.Sees s' z b l w ↔ S.Sees s z b l w := by
  obtain ⟨s', h1, h2, h3, _⟩ := C15_assign S T s hr hp x x a a k k v v hx hx
  obtain ⟨fl, t, hS, hok⟩ := hr.sim
  have hv : (Op.assign x x : Op K V).valid S.sp (s.objs.map Prod.fst) = true := by
    simp only [Op.valid, names_contains hS hx, Bool.and_self]
  obtain ⟨t', _, hS'⟩ := perform_ok hS hv h1
  refine ⟨s', h1, fun z b l w => ?_⟩
  by_cases hz : z = x
  · subst hz
    constructor
    · intro h
      obtain ⟨rfl, rfl, rfl⟩ := sees_unique hS' h h2
      exact hx
    · intro h
      obtain ⟨rfl, rfl, rfl⟩ := sees_unique hS h hx
      exact h2
  · exact h3 z b l w hz

/-- Copying flyweight 0 and moving from it; assigning over the only flyweight of
a value; self-assignment of a sole owner. -/
example : ∃ s s₁ s₂ s₃,
    (Sample.var .refcounted).run id Sample.calm Sample.alloc
      [.make 0 (.key 3), .make 1 (.key 4)] = some ([.done, .done], s) ∧
    (Sample.var .refcounted).Sees s 0 1 3 (3, 9) ∧ (Sample.var .refcounted).Sees s 1 2 4 (4, 16) ∧
    (Sample.var .refcounted).perform id (.move 5 0) s = .ok .done s₁ ∧
    (Sample.var .refcounted).Sees s₁ 5 1 3 (3, 9) ∧ (Sample.var .refcounted).Sees s₁ 0 1 3 (3, 9) ∧
    (Sample.var .refcounted).perform id (.assign 1 0) s = .ok .done s₂ ∧ s₂.env.vals = 1 ∧
    (Sample.var .refcounted).perform id (.assign 1 1) s = .ok .done s₃ ∧ s₃.env.vals = 2 :=
  ⟨_, _, _, _, rfl, ⟨rfl, rfl⟩, ⟨rfl, rfl⟩, rfl, ⟨rfl, rfl⟩, ⟨rfl, rfl⟩, rfl, rfl, rfl, rfl⟩
example : (Sample.var .refcounted).P.Tidy := VRep.tidy Sample.u
example : (Sample.prod .refcounted).P.Tidy := PRep.tidy Sample.u
example : (Sample.dflt .refcounted).P.Tidy := DRep.tidy Sample.u₀

/-! ## C16 -/

/-- Rebinding two names to each other's value twice restores the list. -/
theorem swap_twice {l : List (Nat × Nat)} (hn : (l.map Prod.fst).Nodup) {x y h h' : Nat}
    (hx : l.lookup x = some h) (hy : l.lookup y = some h') :
    Assoc.setVar (Assoc.setVar (Assoc.setVar (Assoc.setVar l x h') y h) x h) y
      (if x = y then h else h') = l ∧
    (Assoc.setVar (Assoc.setVar l x h') y h).lookup x = some (if x = y then h else h') ∧
    (Assoc.setVar (Assoc.setVar l x h') y h).lookup y = some h := by
  refine ⟨?_, ?_, ?_⟩
  · simp only [Assoc.setVar, List.map_map]
    refine (List.map_congr_left (g := id) fun p hp => ?_).trans (List.map_id l)
    have hl := Assoc.lookup_of_mem hn (show (p.1, p.2) ∈ l from hp)
    obtain ⟨z, i⟩ := p
    simp only at hl
    by_cases h1 : z = x
    · subst h1
      rw [hx] at hl
      have := Option.some.inj hl
      subst this
      by_cases h2 : z = y <;> simp [h2]
    · by_cases h2 : z = y
      · subst h2
        rw [hy] at hl
        have := Option.some.inj hl
        subst this
        simp [h1, Ne.symm h1]
      · simp [h1, h2]
  · rw [Assoc.lookup_setVar, Assoc.lookup_setVar, Assoc.lookup_setVar]
    by_cases h1 : x = y
    · subst h1
      simp [hx]
    · simp [hx, hy, h1]
  · rw [Assoc.lookup_setVar, Assoc.lookup_setVar]
    by_cases h1 : y = x
    · subst h1
      simp [hx]
    · simp [hy, h1]

/-- **C16.**  `swap` exchanges what two flyweights refer to (also when they are
the same object), never throws, and changes nothing else: not the factory, nor
the reference counts in it, nor any other flyweight.  Swapping twice restores
the very same state. -/
theorem C16_swap (S : Setup K V Rep F) (s : St Rep F) (hr : S.Reach s) (hp : Nat → Nat)
    (x y a a' : Nat) (k k' : K) (v v' : V) (hx : S.Sees s x a k v) (hy : S.Sees s y a' k' v') :
    ∃ s', S.perform hp (.swap x y) s = .ok .done s' ∧ S.Sees s' x a' k' v' ∧ S.Sees s' y a k v ∧
      (∀ z b l w, z ≠ x → z ≠ y → (S.Sees s' z b l w ↔ S.Sees s z b l w)) ∧
      s'.fac = s.fac ∧ s'.env = s.env ∧ S.perform hp (.swap x y) s' = .ok .done s := by
  obtain ⟨fl, t, hS, hok⟩ := hr.sim
  obtain ⟨h, hlx, hatx⟩ := lookup_of_var hS.rel ((sees_iff hS).1 hx)
  obtain ⟨h', hly, haty⟩ := lookup_of_var hS.rel ((sees_iff hS).1 hy)
  have hstep : ∀ (r : St Rep F) g g', r.objs.lookup x = some g → r.objs.lookup y = some g' →
      S.perform hp (.swap x y) r = .ok .done { r with
        objs := (r.objs.map fun p => if p.1 = x then (x, g') else p).map
          fun p => if p.1 = y then (y, g) else p } := by
    intro r g g' h1 h2
    simp only [perform, Core.step, Core.swap, Core.handleOf, Core.setHandle, bind, M.bind, M.read, h1, h2,
      M.update, pure, M.ret]
  have hs := hstep s h h' hlx hly
  have hv : (Op.swap x y : Op K V).valid S.sp (s.objs.map Prod.fst) = true := by
    simp only [Op.valid, names_contains hS hx, names_contains hS hy, Bool.and_self]
  obtain ⟨t', h1, h3⟩ := perform_ok hS hv hs
  have hxb := (sees_iff hS).1 hx
  have hyb := (sees_iff hS).1 hy
  refine ⟨_, hs, ?_⟩
  cases h1 with
  | swap _ _ b c hb hc =>
    have := bind_unique hok.nodup hb hxb
    subst this
    have := bind_unique hok.nodup hc hyb
    subst this
    have hm : ∀ {z b}, (z, b) ∈ t.vars → z ∈ t.vars.map Prod.fst := fun h => List.mem_map.2 ⟨_, h, rfl⟩
    refine ⟨(sees_iff h3).2 ?_, (sees_iff h3).2 ?_, fun z b l w hzx hzy => ?_, rfl, rfl, ?_⟩
    · rw [mem_rebind, mem_rebind, rebind_names]
      by_cases hxy : x = y
      · subst hxy
        exact .inl ⟨rfl, bind_unique hok.nodup hyb hxb, hm hxb⟩
      · exact .inr ⟨hxy, .inl ⟨rfl, rfl, hm hxb⟩⟩
    · rw [mem_rebind, rebind_names]
      exact .inl ⟨rfl, rfl, hm hyb⟩
    · rw [sees_iff h3, sees_iff hS, mem_rebind, mem_rebind]
      constructor
      · rintro (⟨h, _⟩ | ⟨_, ⟨h, _⟩ | ⟨_, h⟩⟩)
        · exact absurd h hzy
        · exact absurd h hzx
        · exact h
      · exact fun h => .inr ⟨hzy, .inr ⟨hzx, h⟩⟩
    · have hl := swap_twice hS.rel.nodup hlx hly
      have h2 := hstep { s with objs := Assoc.setVar (Assoc.setVar s.objs x h') y h } _ _ hl.2.1 hl.2.2
      refine h2.trans ?_
      have h3 : ∀ objs, objs = s.objs → (Res.ok Out.done { s with objs := objs } : Res (St Rep F) (Out K V)) =
        .ok .done s := by rintro _ rfl; rfl
      exact h3 _ hl.1

/-- Swapping the flyweights of two values, and a flyweight with itself. -/
example : ∃ s s₁ s₂, (Sample.var .refcounted).run id Sample.calm Sample.alloc
      [.make 0 (.key 3), .make 1 (.key 4)] = some ([.done, .done], s) ∧
    (Sample.var .refcounted).Sees s 0 1 3 (3, 9) ∧ (Sample.var .refcounted).Sees s 1 2 4 (4, 16) ∧
    (Sample.var .refcounted).perform id (.swap 0 1) s = .ok .done s₁ ∧
    (Sample.var .refcounted).Sees s₁ 0 2 4 (4, 16) ∧ (Sample.var .refcounted).Sees s₁ 1 1 3 (3, 9) ∧
    (Sample.var .refcounted).perform id (.swap 1 1) s = .ok .done s₂ ∧
    (Sample.var .refcounted).Sees s₂ 1 2 4 (4, 16) :=
  ⟨_, _, _, rfl, ⟨rfl, rfl⟩, ⟨rfl, rfl⟩, rfl, ⟨rfl, rfl⟩, ⟨rfl, rfl⟩, rfl, ⟨rfl, rfl⟩⟩

/-! ## C18 -/

/-- **C18.**  In every reachable state, with any hash function on addresses:
hashing never throws nor changes anything; flyweights that compare equal have
the same hash; the hash of a flyweight is the same after any operations that
neither assign, swap nor destroy it; and flyweights of different values hash
different addresses. -/
theorem C18_hash (S : Setup K V Rep F) (s : St Rep F) (hr : S.Reach s) (hp : Nat → Nat)
    (x y a b : Nat) (k l : K) (v w : V) (hx : S.Sees s x a k v) (hy : S.Sees s y b l w) :
    S.perform hp (.hash x) s = .ok (.num (hp a)) s ∧
    (S.perform hp (.eq x y) s = .ok (.bool true) s →
      S.perform hp (.hash x) s = S.perform hp (.hash y) s) ∧
    (∀ ops outs s', (∀ op ∈ ops, op.touches x = false) → S.resume hp s ops = some (outs, s') →
      S.perform hp (.hash x) s' = .ok (.num (hp a)) s') ∧
    (S.keq k l = false → a ≠ b) := by
  obtain ⟨fl, t, hS, hok⟩ := hr.sim
  have hxb := (sees_iff hS).1 hx
  have hyb := (sees_iff hS).1 hy
  refine ⟨hash_ok hS hp hxb, fun h => ?_, fun ops outs s' hops h => ?_, fun h hab => ?_⟩
  · rw [eq_ok hS hp hxb hyb] at h
    have h1 : (a == b) = true := by
      have := congrArg (fun r : Res (St Rep F) (Out K V) => match r with
        | .ok (.bool c) _ => c | _ => false) h
      exact this
    rw [hash_ok hS hp hxb, hash_ok hS hp hyb, beq_iff_eq.1 h1]
  · obtain ⟨t', h1, h2⟩ := resume_sim hS h
    exact hash_ok h2 hp (h1.keep hops hxb)
  · have := hok.addr _ (hok.bound hxb) _ (hok.bound hyb) hab
    cases this
    rw [S.LS.refl] at h
    cases h

/-- Two equal flyweights and a different one, hashed by address. -/
example : ∃ s, (Sample.var .refcounted).run id Sample.calm Sample.alloc
      [.make 0 (.key 3), .make 1 (.key 4), .make 2 (.key 13)] = some ([.done, .done, .done], s) ∧
    (Sample.var .refcounted).perform (· * 7) (.eq 0 2) s = .ok (.bool true) s ∧
    (Sample.var .refcounted).perform (· * 7) (.hash 2) s = .ok (.num 7) s ∧
    (Sample.var .refcounted).Sees s 0 1 3 (3, 9) ∧ (Sample.var .refcounted).Sees s 1 2 4 (4, 16) ∧
    Sample.keq 3 4 = false :=
  ⟨_, rfl, rfl, rfl, ⟨rfl, rfl⟩, ⟨rfl, rfl⟩, rfl⟩

end Verif.Props

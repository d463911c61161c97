import Verif.Props.Tracker

/-!
# Tracking policies whose handles may fail to be made: C80

The documentation asks that handles of a tracking policy be copied and assigned without exceptions.  It does not ask that of the
constructor from the factory's handle, which is called when a flyweight is created and its value is in the factory
already.
-/

set_option autoImplicit false

namespace Verif.Props
open Setup
variable {K V Rep F T : Type} {P : Policy K V Rep} {Fa : Factory F (Ent Rep)} {sp : SrcSpec K V}
  {keq : K → K → Bool} {kd : Bool} {tr : Tracker T}
  {J : T → (Nat → Nat) → (Nat → Bool) → Prop} {N : Nat → T → (Nat → Nat) → (Nat → Bool) → Prop}

/-- The program of the examples: with a quota of two flyweights, the third creation throws, and so does an assignment from a value that is
stored; when there is one flyweight less the value that was left is found.  (No code of its own: used to state a property or an example.) -/
def progC80 : List (Op Nat (Nat × Nat)) :=
  [.make 0 (.key 3), .make 1 (.key 4), .make 2 (.key 5), .assignVal 1 (.key 13), .get 1, .destroy 1, .make 1 (.key 15)]

/-- Results of the examples: those of the program, values constructed, values alive, and times the mutex is
locked.  (No code of its own: used to state a property or an example.) -/
def runC80 (n : Nat) (cleans : Bool) (ops : List (Op Nat (Nat × Nat))) : Option (List Bool × Nat × Int × Nat) :=
  (Track.run (VRep.policy Sample.u) (setFactory (liftLt (VRep.policy Sample.u) Sample.less)) (SrcSpec.variant Sample.u)
    (Tracker.quota n cleans) id Sample.calm Sample.alloc ops).map
      fun r => (r.1.map fun o => o matches .threw, r.2.env.made, r.2.env.vals, r.2.depth)

/-- The elements of a list, each once. -/
theorem nodup_of (l : List Nat) : ∃ m : List Nat, m.Nodup ∧ ∀ a, a ∈ m ↔ a ∈ l := by
  induction l with
  | nil => exact ⟨[], List.nodup_nil, fun _ => Iff.rfl⟩
  | cons b l ih =>
    obtain ⟨m, hm, hi⟩ := ih
    by_cases hb : b ∈ m
    · refine ⟨m, hm, fun a => ?_⟩
      rw [List.mem_cons, ← hi]
      exact ⟨.inr, fun h => h.elim (fun h => h ▸ hb) id⟩
    · exact ⟨b :: m, List.nodup_cons.2 ⟨hb, hm⟩, fun a => by rw [List.mem_cons, List.mem_cons, hi]⟩

/-- A policy with a quota that cleans up and one that does not are both sound; if it cleans up, no value without flyweights is left. -/
theorem C80_quota (n : Nat) (cleans : Bool) : ∃ J N, (Tracker.quota n cleans).Sound J N ∧
    (cleans = true → ∀ d r p, J d r p → ∀ i, p i = true → 0 < r i) ∧ (cleans = false → (Tracker.quota n cleans).Leaves) ∧
    (Tracker.quota n cleans).Throws := by
  refine ⟨_, _, Tracker.quota_sound n cleans, fun hc d r p h => h.prompt hc, fun hc t h c hf => ?_, ⟨fun _ => 0, n⟩, 0, by simp [Tracker.quota]⟩
  subst hc
  simp only [Tracker.quota, Bool.false_eq_true, if_false] at hf
  split at hf
  · cases hf
    exact ⟨t, rfl⟩
  · cases hf

/-- A program does not change which calls of the user's functions throw. -/
theorem faults_of_run (hP : LibPolicy P sp keq kd) (hF : LibFactory P Fa keq) (hJ : tr.Sound J N) {hp : Nat → Nat}
    {fl : Nat → Bool} {alloc : Nat → List Nat → Nat} (hal : ∀ n l, alloc n l ∉ l) {ops : List (Op K V)}
    {outs : List (Out K V)} {s : St Rep (F × T)} (h : Track.run P Fa sp tr hp fl alloc ops = some (outs, s)) :
    s.env.faults = fl := by
  obtain ⟨S, ⟨rfl, rfl, _, rfl, rfl⟩, _⟩ := hP.setup hF .noTracking
  obtain ⟨_, _, hS, _⟩ := Track.run_sim (S := S) hJ hal h
  exact hS.sim.faults

/-- After two creations with a quota of two, where nothing else throws, a third creation throws, and so does an assignment.  Such are
the states and operations of C80_unchanged, C80_left and C80_cleaned. -/
theorem throwsC80 (cleans : Bool) (op : Op Nat (Nat × Nat)) (hop : op ∈ [.make 2 (.key 5), .assignVal 1 (.key 13)]) :
    ∃ s s', Track.Reach (VRep.policy Sample.u) (setFactory (liftLt (VRep.policy Sample.u) Sample.less))
        (SrcSpec.variant Sample.u) (Tracker.quota 2 cleans) s ∧ (∀ n, s.env.faults n = false) ∧
      op.valid (SrcSpec.variant Sample.u) (s.objs.map Prod.fst) = true ∧
      Track.step (VRep.policy Sample.u) ((Tracker.quota 2 cleans).factory (setFactory (liftLt (VRep.policy Sample.u) Sample.less)))
        (Tracker.quota 2 cleans) id op s = .exc s' := by
  have key : (Track.run (VRep.policy Sample.u) (setFactory (liftLt (VRep.policy Sample.u) Sample.less)) (SrcSpec.variant Sample.u)
      (Tracker.quota 2 cleans) id Sample.calm Sample.alloc (progC80.take 2)).any (fun r =>
        op.valid (SrcSpec.variant Sample.u) (r.2.objs.map Prod.fst) &&
        Track.step (VRep.policy Sample.u) ((Tracker.quota 2 cleans).factory (setFactory (liftLt (VRep.policy Sample.u) Sample.less)))
          (Tracker.quota 2 cleans) id op r.2 matches .exc _) = true := by
    simp only [List.mem_cons, List.not_mem_nil, or_false] at hop
    rcases hop with rfl | rfl <;> cases cleans <;> decide +kernel
  obtain ⟨⟨outs, s⟩, hr, hk⟩ := (Option.any_eq_true _ _).1 key
  rw [Bool.and_eq_true] at hk
  obtain ⟨hv, hk⟩ := hk
  have hf := faults_of_run libSample libSet (Tracker.quota_sound 2 cleans) Sample.alloc_ok hr
  split at hk
  · rename_i s' hs
    exact ⟨s, s', ⟨_, _, _, _, _, Sample.alloc_ok, hr⟩, fun n => by rw [hf]; rfl, hv, hs⟩
  · cases hk

/-- **C80.**  Programs are executed without undefined behaviour and as specified: the exception is the program's to
handle, and a creation that throws may only have stored its value. -/
theorem C80_refines (hP : LibPolicy P sp keq kd) (hF : LibFactory P Fa keq) (hJ : tr.Sound J N) (hp : Nat → Nat)
    (fl : Nat → Bool) (alloc : Nat → List Nat → Nat) (hal : ∀ n l, alloc n l ∉ l) (ops : List (Op K V)) :
    ∃ outs s t, Track.run P Fa sp tr hp fl alloc ops = some (outs, s) ∧ CRun tr.Throws keq sp hp SSt.start ops outs t ∧
      ∀ x a k v, Track.Sees P Fa tr s x a k v ↔ (x, ⟨a, k, v⟩) ∈ t.vars := by
  obtain ⟨outs, s, t, h1, h2, h3, _⟩ := C76_refines hP hF hJ hp fl alloc hal ops
  exact ⟨outs, s, t, h1, h2, h3⟩

example := C80_refines libSample libSet (Tracker.quota_sound 2 false) id Sample.calm Sample.alloc Sample.alloc_ok progC80

/-- **C80.**  An operation that throws leaves all flyweights as they were, and the mutex unlocked. -/
theorem C80_unchanged (hP : LibPolicy P sp keq kd) (hF : LibFactory P Fa keq) (hJ : tr.Sound J N)
    (s : St Rep (F × T)) (hr : Track.Reach P Fa sp tr s) (hp : Nat → Nat) (op : Op K V)
    (hv : op.valid sp (s.objs.map Prod.fst) = true) (s' : St Rep (F × T))
    (hs : Track.step P (tr.factory Fa) tr hp op s = .exc s') :
    (∀ x a k v, Track.Sees P Fa tr s' x a k v ↔ Track.Sees P Fa tr s x a k v) ∧ s'.depth = 0 ∧ s'.locals = [] ∧
      (tr.Throws ∨ ∃ n, s.env.faults n = true) := by
  obtain ⟨S, ⟨rfl, rfl, _, rfl, rfl⟩, _⟩ := hP.setup hF .noTracking
  obtain ⟨fl, t, hS, _⟩ := hr.sim (S := S) hJ
  rw [← hS.sim.rel.vars.names] at hv
  have h := Track.step_sim hJ hS hp hv s rfl
  rw [hs] at h
  obtain ⟨t', hf, hS'⟩ := h
  have hvars : t'.vars = t.vars := by
    rcases hf with ⟨_, rfl, _⟩ | ⟨_, _, _, _, _, _, _, h1, h2, _⟩
    · rfl
    · exact h2.vars.trans h1
  refine ⟨fun x a k v => ?_, hS'.sim.idle.depth, hS'.sim.idle.locals, ?_⟩
  · rw [show Track.Sees S.P S.Fa tr s' x a k v ↔ _ from sees_iff hS'.sim, hvars]
    exact (sees_iff hS.sim).symm
  · rcases hf with ⟨_, _, n, hn⟩ | ⟨h1, _⟩
    · exact .inr ⟨n, by rw [hS.sim.faults]; exact hn⟩
    · exact .inl h1

example := fun cleans => have h := (throwsC80 cleans (.make 2 (.key 5)) (by simp)).choose_spec.choose_spec
  C80_unchanged libSample libSet (Tracker.quota_sound 2 cleans) _ h.1 id _ h.2.2.1 _ h.2.2.2

/-- **C80.**  If nothing else throws and the policy has nothing erased, the value of a creation that throws is in the factory
afterwards; if it was not before, one more value is alive. -/
theorem C80_left (hP : LibPolicy P sp keq kd) (hF : LibFactory P Fa keq) (hJ : tr.Sound J N) (hl : tr.Leaves)
    (s : St Rep (F × T)) (hr : Track.Reach P Fa sp tr s) (hn : ∀ n, s.env.faults n = false) (hp : Nat → Nat) (op : Op K V)
    (hv : op.valid sp (s.objs.map Prod.fst) = true) (s' : St Rep (F × T))
    (hs : Track.step P (tr.factory Fa) tr hp op s = .exc s') :
    ∃ x src, (op = .make x src ∨ op = .assignVal x src) ∧
      (∃ i e k v, Fa.entry s'.fac.1 i = some e ∧ P.toKey e.rep = some k ∧ P.toValue e.rep = some v ∧
        keq k (sp.key0 src) = true) ∧
      ((∃ i e k, Fa.entry s.fac.1 i = some e ∧ P.toKey e.rep = some k ∧ keq k (sp.key0 src) = true) →
        s'.env.vals = s.env.vals) ∧
      ((∀ i e k, Fa.entry s.fac.1 i = some e → P.toKey e.rep = some k → keq k (sp.key0 src) = false) →
        s'.env.vals = s.env.vals + 1) := by
  obtain ⟨S, ⟨rfl, rfl, _, rfl, rfl⟩, _⟩ := hP.setup hF .noTracking
  obtain ⟨fl, t, hS, _⟩ := hr.sim (S := S) hJ
  rw [← hS.sim.rel.vars.names] at hv
  have h := Track.step_sim hJ hS hp hv s rfl
  rw [hs] at h
  obtain ⟨t', hf, hS'⟩ := h
  rcases hf with ⟨_, _, n, hb⟩ | ⟨_, x, src, _, _, hop, _, _, _, hc⟩
  · rw [← hS.sim.faults, hn] at hb
    cases hb
  have hsup := Track.supports_of hv hop
  obtain ⟨h, hc⟩ := hc hl
  have hI := hS.sim.rel.inv
  have hI' := hS'.sim.rel.inv
  have hids := (tr.setup S).LF.ids_nodup hI.fac
  have hids' := (tr.setup S).LF.ids_nodup hI'.fac
  have hm : ∀ i, i ∈ (tr.setup S).Fa.ids s.fac ↔ ∃ b, (tr.setup S).At s i b :=
    fun i => ((tr.setup S).LF.mem_ids i hI.fac).trans (Track.stored_at hI i)
  have hm' : ∀ i, i ∈ (tr.setup S).Fa.ids s'.fac ↔ ∃ b, (tr.setup S).At s' i b :=
    fun i => ((tr.setup S).LF.mem_ids i hI'.fac).trans (Track.stored_at hI' i)
  rw [(live_count hS.sim).2, (live_count hS'.sim).2]
  generalize (tr.setup S).Fa.ids s.fac = ids at hids hm
  generalize (tr.setup S).Fa.ids s'.fac = ids' at hids' hm'
  refine ⟨x, src, hop, ?_⟩
  rcases hc with ⟨b, hb, hk, hat⟩ | ⟨hne, hfr, a, _, _, hat⟩
  · obtain ⟨e, he, hfu, _⟩ := (hat h b).2 hb
    refine ⟨⟨h, e, b.key, b.val, he, S.L.full_key hfu, S.L.full_val hfu, hk⟩, fun _ => ?_, fun hno => ?_⟩
    · rw [length_of_same hids' hids fun i => by rw [hm', hm]; exact exists_congr (hat i)]
    · obtain ⟨e, he, hfu, _⟩ := hb
      have hk0 : S.keq b.key (S.sp.key0 src) = true := hk
      rw [hno h e b.key he (S.L.full_key hfu)] at hk0
      cases hk0
  · obtain ⟨e, he, hfu, _⟩ := (hat h _).2 (.inr ⟨rfl, rfl⟩)
    refine ⟨⟨h, e, _, _, he, S.L.full_key hfu, S.L.full_val hfu, S.LS.contract _ hsup⟩, ?_, fun _ => ?_⟩
    · rintro ⟨i, e, k, he, hk, hkeq⟩
      obtain ⟨k', v, hfu⟩ := hI.full i e he
      have := S.L.full_key hfu
      rw [this] at hk
      cases hk
      have h0 : S.keq k (S.sp.key0 src) = false := hne i ⟨s.addr i, k, v⟩ ⟨e, he, hfu, rfl⟩
      rw [h0] at hkeq
      cases hkeq
    · have hh : h ∉ ids := fun hh => by
        obtain ⟨b, hb⟩ := (hm h).1 hh
        have := hb.some
        rw [hfr] at this
        cases this
      rw [length_of_same hids' (List.nodup_cons.2 ⟨hh, hids⟩) fun i => ?_]
      · simp
      · rw [hm', List.mem_cons, hm]
        constructor
        · rintro ⟨b, hb⟩
          rcases (hat i b).1 hb with hb | ⟨rfl, _⟩
          · exact .inr ⟨b, hb⟩
          · exact .inl rfl
        · rintro (rfl | ⟨b, hb⟩)
          · exact ⟨_, (hat i _).2 (.inr ⟨rfl, rfl⟩)⟩
          · exact ⟨b, (hat i b).2 (.inl hb)⟩

/-- The quota is two.  The third creation throws and its value, the third one constructed, is left; the assignment throws and stores
nothing. -/
example : runC80 2 false (progC80.take 3) = some ([false, false, true], 3, 3, 0) ∧
    runC80 2 false (progC80.take 4) = some ([false, false, true, true], 3, 3, 0) := by
  decide +kernel

example := have h := (throwsC80 false (.make 2 (.key 5)) (by simp)).choose_spec.choose_spec
  C80_left libSample libSet (Tracker.quota_sound 2 false) ((C80_quota 2 false).choose_spec.choose_spec.2.2.1 rfl)
    _ h.1 h.2.1 id _ h.2.2.1 _ h.2.2.2

example := have h := (throwsC80 false (.assignVal 1 (.key 13)) (by simp)).choose_spec.choose_spec
  C80_left libSample libSet (Tracker.quota_sound 2 false) ((C80_quota 2 false).choose_spec.choose_spec.2.2.1 rfl)
    _ h.1 h.2.1 id _ h.2.2.1 _ h.2.2.2

/-- **C80.**  A value that is in the factory, be it left by a creation that threw, is what the next creation with an equivalent key
finds. -/
theorem C80_found (hP : LibPolicy P sp keq kd) (hF : LibFactory P Fa keq) (hJ : tr.Sound J N)
    (s : St Rep (F × T)) (hr : Track.Reach P Fa sp tr s) (hp : Nat → Nat) (x : Nat) (src : Src K V)
    (hv : (Op.make x src).valid sp (s.objs.map Prod.fst) = true) (s' : St Rep (F × T)) (o : Out K V)
    (hs : Track.step P (tr.factory Fa) tr hp (.make x src) s = .ok o s') (i : Nat) (e : Ent Rep) (k : K)
    (he : Fa.entry s.fac.1 i = some e) (hk : P.toKey e.rep = some k) (hkeq : keq k (sp.key0 src) = true) :
    ∃ v, P.toValue e.rep = some v ∧ Track.Sees P Fa tr s' x (s.addr i) k v := by
  obtain ⟨S, ⟨rfl, rfl, _, rfl, rfl⟩, _⟩ := hP.setup hF .noTracking
  obtain ⟨fl, t, hS, hok⟩ := hr.sim (S := S) hJ
  rw [← hS.sim.rel.vars.names] at hv
  have h := Track.step_sim hJ hS hp hv s rfl
  rw [hs] at h
  obtain ⟨hno, t1, t', h1, hc, hS'⟩ := h
  obtain ⟨k', v, hfu⟩ := hS.sim.rel.inv.full i e he
  have h2 := S.L.full_key hfu
  rw [h2] at hk
  cases hk
  have hat : (tr.setup S).At s i ⟨s.addr i, k, v⟩ := ⟨e, he, hfu, rfl⟩
  have hpool : (⟨s.addr i, k, v⟩ : Bind K V) ∈ t.pool .noTracking := (hS.sim.rel.kept rfl _).2 ⟨i, hat⟩
  refine ⟨v, S.L.full_val hfu, ?_⟩
  rw [show Track.Sees S.P S.Fa tr s' x (s.addr i) k v ↔ _ from sees_iff hS'.sim, hc.vars]
  cases h1 with
  | makeThrow => exact absurd rfl hno
  | make _ _ b t₁ hcr =>
    have hsup : S.sp.supports src = true := Track.supports_of hv (.inl rfl)
    obtain ⟨_, hkb, huniq, _⟩ := hok.create S.LS hsup hcr
    have := huniq _ hpool (.inr (S.LS.trans _ _ _ hkeq (S.LS.symm _ _ hkb)))
    rw [this]
    exact List.mem_cons_self

/-- The value left is found by the last creation: the program constructs three values, and two are alive when flyweight 1 has been
destroyed. -/
example : runC80 2 false progC80 = some ([false, false, true, true, false, false, false], 3, 2, 0) := by
  decide +kernel

example := C80_found libSample libSet (Tracker.quota_sound 2 false)

/-- **C80.**  If the policy leaves no value without flyweights, having that of the creation erased before the exception is thrown, an
operation that throws does not change the number of values alive. -/
theorem C80_cleaned (hP : LibPolicy P sp keq kd) (hF : LibFactory P Fa keq) (hJ : tr.Sound J N)
    (hprompt : ∀ d r p, J d r p → ∀ i, p i = true → 0 < r i)
    (s : St Rep (F × T)) (hr : Track.Reach P Fa sp tr s) (hp : Nat → Nat) (op : Op K V)
    (hv : op.valid sp (s.objs.map Prod.fst) = true) (s' : St Rep (F × T))
    (hs : Track.step P (tr.factory Fa) tr hp op s = .exc s') : s'.env.vals = s.env.vals := by
  have hsee := (C80_unchanged hP hF hJ s hr hp op hv s' hs).1
  obtain ⟨S, ⟨rfl, rfl, _, rfl, rfl⟩, _⟩ := hP.setup hF .noTracking
  obtain ⟨fl, t, hS, _⟩ := hr.sim (S := S) hJ
  rw [← hS.sim.rel.vars.names] at hv
  have h := Track.step_sim hJ hS hp hv s rfl
  rw [hs] at h
  obtain ⟨t', _, hS'⟩ := h
  have hno : ∀ {s t}, Track.Sim S tr J fl s t → ∀ i, i ∈ ([] : List Nat) ↔ Track.stored S s i = true ∧ refs s i = 0 :=
    fun hS i => ⟨fun h => (by cases h), fun ⟨h4, h5⟩ => by
      have := hprompt _ _ _ hS.data i h4
      omega⟩
  obtain ⟨l, hl, hla⟩ : ∃ l : List Nat, l.Nodup ∧ ∀ a, a ∈ l ↔ ∃ x k v, Track.Sees S.P S.Fa tr s x a k v := by
    obtain ⟨l, hl, hla⟩ := nodup_of (t.vars.map fun p => p.2.addr)
    refine ⟨l, hl, fun a => ?_⟩
    rw [hla, List.mem_map]
    constructor
    · rintro ⟨⟨x, b⟩, hb, rfl⟩
      exact ⟨x, b.key, b.val, (sees_iff hS.sim).2 hb⟩
    · rintro ⟨x, k, v, h⟩
      exact ⟨_, (sees_iff hS.sim).1 h, rfl⟩
  rw [Track.alive hS.sim hl hla List.nodup_nil (hno hS),
    Track.alive hS'.sim hl (fun a => (hla a).trans (exists_congr fun x => exists_congr fun k => exists_congr fun v =>
      (hsee x a k v).symm)) List.nodup_nil (hno hS')]

example := have h := (throwsC80 true (.make 2 (.key 5)) (by simp)).choose_spec.choose_spec
  C80_cleaned libSample libSet (Tracker.quota_sound 2 true) (fun _ _ _ q => q.prompt rfl) _ h.1 id _ h.2.2.1 _ h.2.2.2

/-- **C80.**  It matters whether the policy does so: with reference counting and a quota of one, a value that no flyweight ever
had is alive when there are no flyweights any more, unless the policy has it erased. -/
theorem C80_matters :
    runC80 1 false [.make 0 (.key 3), .make 1 (.key 4), .destroy 0] = some ([false, true, false], 2, 1, 0) ∧
    runC80 1 true [.make 0 (.key 3), .make 1 (.key 4), .destroy 0] = some ([false, true, false], 2, 0, 0) := by
  decide +kernel

end Verif.Props

import Verif.TrackerPolicies

/-!
# Tracking policies of the user's own: what can be observed
-/

set_option autoImplicit false

namespace Verif
open Setup Assoc

section
variable {K V : Type} {keq : K → K → Bool} {sp : SrcSpec K V} {hp : Nat → Nat}

theorem CRun.given {may : Prop} (L : sp.Lawful keq) {t t' : SSt K V} {ops : List (Op K V)} {outs : List (Out K V)}
    (hr : CRun may keq sp hp t ops outs t') {g : Nat → Option K} (h : SOk .noTracking keq t)
    (hg : GivenOk keq g t) : GivenOk keq (Verif.given sp g ops outs) t' := by
  induction hr generalizing g with
  | nil => exact hg
  | step hv hs hc _ ih =>
    have h1 := hs.ok L h hv
    have h2 := hs.given L h hg hv
    refine ih (h1.collect hc) ⟨?_, ?_⟩
    · intro x b hx
      rw [hc.vars] at hx
      exact h2.1 x b hx
    · intro x hx
      simp only [SSt.names, hc.vars] at hx
      exact h2.2 x hx
  | left _ hv ho hcr hc _ ih =>
    have h1 := h.created L (Track.supports_of hv ho) hcr
    have hvars := hc.vars.trans (h.create L (Track.supports_of hv ho) hcr).1
    rcases ho with rfl | rfl
    all_goals
      refine ih (h1.collect hc) ⟨?_, ?_⟩
      · intro x b hx
        rw [hvars] at hx
        exact hg.1 x b hx
      · intro x hx
        simp only [SSt.names, hvars] at hx
        exact hg.2 x hx
  | skip _ _ ih => exact ih h hg

theorem CRun.keep {may : Prop} {t t' : SSt K V} {ops : List (Op K V)} {outs : List (Out K V)} {x : Nat} {b : Bind K V}
    (hr : CRun may keq sp hp t ops outs t') (ht : ∀ op ∈ ops, op.touches x = false) (hx : (x, b) ∈ t.vars) :
    (x, b) ∈ t'.vars := by
  induction hr with
  | nil => exact hx
  | step _ hs hc _ ih =>
    refine ih (fun o ho => ht o (List.mem_cons_of_mem _ ho)) ?_
    rw [hc.vars]
    exact hs.keep (ht _ (List.mem_cons_self)) hx
  | left _ _ _ hcr hc _ ih =>
    refine ih (fun o ho => ht o (List.mem_cons_of_mem _ ho)) ?_
    rw [hc.vars]
    cases hcr <;> exact hx
  | skip _ _ ih => exact ih (fun o ho => ht o (List.mem_cons_of_mem _ ho)) hx

/-- A step when only values of flyweights are kept. -/
theorem SStep.prompt {t t' : SSt K V} {op : Op K V} {out : Out K V} (hs : SStep .noTracking keq sp hp t op out t')
    (hk : ∀ b, b ∈ t.kept ↔ ∃ x, (x, b) ∈ t.vars) (l : List (Bind K V)) :
    ∃ l', SStep .refcounted keq sp hp ⟨t.vars, l⟩ op out ⟨t'.vars, l'⟩ := by
  have hpool : ∀ b, b ∈ (⟨t.vars, l⟩ : SSt K V).pool .refcounted → b ∈ t.pool .noTracking := by
    intro b hb
    obtain ⟨⟨x, c⟩, hc, rfl⟩ := List.mem_map.1 hb
    exact (hk c).2 ⟨x, hc⟩
  have hcr : ∀ {src b t₁}, Create .noTracking keq sp t src b t₁ →
      ∃ l', Create .refcounted keq sp ⟨t.vars, l⟩ src b ⟨t₁.vars, l'⟩ := by
    intro src b t₁ hc
    cases hc with
    | share _ hb he =>
      obtain ⟨x, hx⟩ := (hk b).1 hb
      exact ⟨l, .share _ _ _ (List.mem_map.2 ⟨_, hx, rfl⟩) he⟩
    | fresh a h1 h2 => exact ⟨_, .fresh _ _ a (fun b hb => h1 b (hpool b hb)) fun b hb => h2 b (hpool b hb)⟩
  cases hs with
  | init => exact ⟨l, .init _⟩
  | make x src b t₁ hc =>
    obtain ⟨l', h⟩ := hcr hc
    exact ⟨l', .make _ x src b _ h⟩
  | makeThrow x src => exact ⟨l, .makeThrow _ x src⟩
  | copy x y b hb => exact ⟨l, .copy ⟨t.vars, l⟩ x y b hb⟩
  | move x y b hb => exact ⟨l, .move ⟨t.vars, l⟩ x y b hb⟩
  | assign x y b hb => exact ⟨l, .assign ⟨t.vars, l⟩ x y b hb⟩
  | assignVal x src b t₁ hc =>
    obtain ⟨l', h⟩ := hcr hc
    exact ⟨l', .assignVal _ x src b _ h⟩
  | assignValThrow x src => exact ⟨l, .assignValThrow _ x src⟩
  | swap x y b c hb hc => exact ⟨l, .swap ⟨t.vars, l⟩ x y b c hb hc⟩
  | destroy x => exact ⟨l, .destroy ⟨t.vars, l⟩ x⟩
  | get x b hb => exact ⟨l, .get ⟨t.vars, l⟩ x b hb⟩
  | getKey x b hb => exact ⟨l, .getKey ⟨t.vars, l⟩ x b hb⟩
  | eq x y b c hb hc => exact ⟨l, .eq ⟨t.vars, l⟩ x y b c hb hc⟩
  | hash x b hb => exact ⟨l, .hash ⟨t.vars, l⟩ x b hb⟩

end

namespace Track
variable {K V Rep F T : Type}

/-- Execute a program from program start: `fl` says which user operations throw, `alloc` is the allocator.  (No code of its
own: used in statements and proofs.) -/
def run (P : Policy K V Rep) (Fa : Factory F (Ent Rep)) (sp : SrcSpec K V) (tr : Tracker T) (hp : Nat → Nat)
    (fl : Nat → Bool) (alloc : Nat → List Nat → Nat) (ops : List (Op K V)) :
    Option (List (Out K V) × St Rep (F × T)) :=
  exec P (tr.factory Fa) tr hp sp ops (Core.start (tr.factory Fa) fl alloc)

/-- Variable `x` exists; `get()` returns a reference to address `a` holding `v` and `get_key()` returns `k`.  (No code of its
own: used in statements and proofs.) -/
def Sees (P : Policy K V Rep) (Fa : Factory F (Ent Rep)) (tr : Tracker T) (s : St Rep (F × T)) (x a : Nat) (k : K)
    (v : V) : Prop :=
  Core.get P (tr.factory Fa) x s = .ok (a, v) s ∧ Core.getKey P (tr.factory Fa) x s = .ok k s

/-- A state that some program reaches.  (No code of its own: used in statements and proofs.) -/
def Reach (P : Policy K V Rep) (Fa : Factory F (Ent Rep)) (sp : SrcSpec K V) (tr : Tracker T)
    (s : St Rep (F × T)) : Prop :=
  ∃ hp fl alloc ops outs, (∀ n l, alloc n l ∉ l) ∧ run P Fa sp tr hp fl alloc ops = some (outs, s)

variable {S : Setup K V Rep F} {tr : Tracker T}
  {J : T → (Nat → Nat) → (Nat → Bool) → Prop} {N : Nat → T → (Nat → Nat) → (Nat → Bool) → Prop}

theorem run_sim (hJ : tr.Sound J N) {hp : Nat → Nat} {fl : Nat → Bool} {alloc : Nat → List Nat → Nat}
    (hal : ∀ n l, alloc n l ∉ l) {ops : List (Op K V)} {outs : List (Out K V)} {s : St Rep (F × T)}
    (h : run S.P S.Fa S.sp tr hp fl alloc ops = some (outs, s)) :
    ∃ t, CRun tr.Throws S.keq S.sp hp SSt.start ops outs t ∧ Sim S tr J fl s t ∧ SOk .noTracking S.keq t ∧
      GivenOk S.keq (given S.sp (fun _ => Option.none) ops outs) t := by
  obtain ⟨outs', s', t', h1, h2, h3, _⟩ := exec_sim (S := S) hJ hp ops (sim_start hJ fl hal)
  have : (outs', s') = (outs, s) := Option.some.inj (h1.symm.trans h)
  cases this
  have hg : GivenOk S.keq (fun _ => Option.none) (SSt.start : SSt K V) :=
    ⟨fun x b hx => (by cases hx), fun _ _ => rfl⟩
  exact ⟨t', h2, h3, h2.ok S.LS (SOk.start _ _), h2.given S.LS (SOk.start _ _) hg⟩

theorem Reach.sim (hJ : tr.Sound J N) {s : St Rep (F × T)} (h : Reach S.P S.Fa S.sp tr s) :
    ∃ fl t, Sim S tr J fl s t ∧ SOk .noTracking S.keq t := by
  obtain ⟨hp, fl, alloc, ops, outs, hal, hr⟩ := h
  obtain ⟨t, _, h2, h3, _⟩ := run_sim hJ hal hr
  exact ⟨fl, t, h2, h3⟩

/-- Values alive: those of flyweights, and those stored that no flyweight has. -/
theorem alive {fl : Nat → Bool} {s : St Rep (F × T)} {t : SSt K V} (hS : Setup.Sim (tr.setup S) fl s t)
    {l m : List Nat} (hl : l.Nodup) (hla : ∀ a, a ∈ l ↔ ∃ x k v, Sees S.P S.Fa tr s x a k v) (hm : m.Nodup)
    (hma : ∀ i, i ∈ m ↔ stored S s i = true ∧ refs s i = 0) : s.env.vals = l.length + m.length := by
  have hI := hS.rel.inv
  have hids := (tr.setup S).LF.ids_nodup hI.fac
  have hmem : ∀ i, i ∈ (tr.setup S).Fa.ids s.fac ↔ stored S s i = true := fun i => (tr.setup S).LF.mem_ids i hI.fac
  rw [(live_count hS).2]
  generalize (tr.setup S).Fa.ids s.fac = ids at hids hmem
  have hsplit : ids.length = (ids.filter fun i => 0 < refs s i).length + (ids.filter fun i => ¬ 0 < refs s i).length := by
    have := List.length_eq_countP_add_countP (fun i => decide (0 < refs s i)) (l := ids)
    simpa [List.countP_eq_length_filter] using this
  have h1 : ((ids.filter fun i => 0 < refs s i).map s.addr).length = l.length := by
    refine length_of_same ?_ hl fun a => ?_
    · have : ∀ q : List Nat, q.Nodup → (∀ i ∈ q, stored S s i = true) → (q.map s.addr).Nodup := by
        intro q
        induction q with
        | nil => simp
        | cons i q ih =>
          intro hn hs
          simp only [List.nodup_cons] at hn
          simp only [List.map_cons, List.nodup_cons]
          refine ⟨fun hm => ?_, ih hn.2 fun j hj => hs j (by simp [hj])⟩
          obtain ⟨j, hj, ha⟩ := List.mem_map.1 hm
          exact hn.1 (hI.inj j i (hs j (by simp [hj])) (hs i (by simp)) ha ▸ hj)
      exact this _ (hids.sublist List.filter_sublist) fun i hi => (hmem i).1 (List.mem_filter.1 hi).1
    · rw [hla a]
      constructor
      · intro h
        obtain ⟨i, hi, rfl⟩ := List.mem_map.1 h
        have hp : 0 < refs s i := by simpa using (List.mem_filter.1 hi).2
        obtain ⟨⟨x, j⟩, hx, rfl⟩ := of_refs_pos (i := i) hp
        obtain ⟨b, hb, hat⟩ := hS.rel.vars.lookup (lookup_of_mem hS.rel.nodup hx)
        refine ⟨x, b.key, b.val, ?_⟩
        have : b.addr = s.addr j := hat.choose_spec.2.2.symm
        rw [← this]
        exact (sees_iff hS).2 hb
      · rintro ⟨x, k, v, h⟩
        obtain ⟨i, hi, hat⟩ := lookup_of_var hS.rel ((sees_iff hS).1 h)
        exact List.mem_map.2 ⟨i, List.mem_filter.2 ⟨(hmem i).2 hat.some, by
          simpa using refs_pos (p := (x, i)) (lookup_mem hi)⟩, hat.choose_spec.2.2⟩
  have h2 : (ids.filter fun i => ¬ 0 < refs s i).length = m.length := by
    refine length_of_same (hids.sublist List.filter_sublist) hm fun i => ?_
    rw [List.mem_filter, hmem i, hma i]
    simp
  rw [List.length_map] at h1
  omega

/-- Policies that remove values at once when no flyweight has them: the specification of `refcounted`. -/
theorem prompt_sim (hJ : tr.Sound J N) (hprompt : ∀ d r p, J d r p → ∀ i, p i = true → 0 < r i) (hp : Nat → Nat)
    (ops : List (Op K V)) {fl : Nat → Bool} {s : St Rep (F × T)} {t : SSt K V} (hS : Sim S tr J fl s t)
    (l : List (Bind K V)) :
    ∃ outs s' t' l', exec S.P (tr.factory S.Fa) tr hp S.sp ops s = some (outs, s') ∧
      SRun .refcounted S.keq S.sp hp ⟨t.vars, l⟩ ops outs ⟨t'.vars, l'⟩ ∧ Sim S tr J fl s' t' := by
  have hkept : ∀ {s : St Rep (F × T)} {t : SSt K V}, Sim S tr J fl s t → ∀ b, b ∈ t.kept ↔ ∃ x, (x, b) ∈ t.vars := by
    intro s t hS b
    have hR := hS.sim.rel
    constructor
    · intro hb
      obtain ⟨i, hi⟩ := (hR.kept rfl b).1 hb
      obtain ⟨⟨x, j⟩, hx, rfl⟩ := of_refs_pos (i := i) (hprompt _ _ _ hS.data i hi.some)
      obtain ⟨c, hc, hat⟩ := hR.vars.lookup (lookup_of_mem hR.nodup hx)
      exact ⟨x, hi.unique hat ▸ hc⟩
    · rintro ⟨x, hx⟩
      obtain ⟨p, _, hat⟩ := hR.vars.of_var hx
      exact (hR.kept rfl b).2 ⟨_, hat⟩
  induction ops generalizing s t l with
  | nil => exact ⟨[], s, t, l, rfl, .nil _, hS⟩
  | cons op ops ih =>
    have hn : s.objs.map Prod.fst = t.names := hS.sim.rel.vars.names.symm
    unfold exec
    rw [hn]
    by_cases hv : op.valid S.sp t.names = true
    · rw [if_pos hv]
      have h := step_sim hJ hS hp hv s rfl
      cases hm : step S.P (tr.factory S.Fa) tr hp op s with
      | ok out s1 =>
        rw [hm] at h
        obtain ⟨_, t1, t2, h1, hc, h2⟩ := h
        obtain ⟨l1, k1⟩ := h1.prompt (hkept hS) l
        obtain ⟨outs, s', t', l', g1, g2, g3⟩ := ih h2 l1
        rw [hc.vars] at g2
        exact ⟨out :: outs, s', t', l', by simp [g1], .step hv k1 g2, g3⟩
      | exc s1 =>
        rw [hm] at h
        obtain ⟨t2, h1, h2⟩ := h
        rcases h1 with ⟨h1, rfl, _⟩ | ⟨_, x, src, b, t1, hop, _, hvars, hcol, _⟩
        · obtain ⟨l1, k1⟩ := h1.prompt (hkept hS) l
          obtain ⟨outs, s', t', l', g1, g2, g3⟩ := ih h2 l1
          exact ⟨.threw :: outs, s', t', l', by simp [g1], .step hv k1 g2, g3⟩
        · obtain ⟨outs, s', t', l', g1, g2, g3⟩ := ih h2 l
          rw [hcol.vars, hvars] at g2
          refine ⟨.threw :: outs, s', t', l', by simp [g1], .step hv ?_ g2, g3⟩
          rcases hop with rfl | rfl
          · exact .makeThrow _ x src
          · exact .assignValThrow _ x src
      | ub => rw [hm] at h; exact h.elim
    · rw [if_neg hv]
      obtain ⟨outs, s', t', l', g1, g2, g3⟩ := ih hS l
      have hv' : op.valid S.sp t.names = false := by simpa using hv
      exact ⟨.skipped :: outs, s', t', l', by simp [g1], .skip hv' g2, g3⟩

end Track
end Verif

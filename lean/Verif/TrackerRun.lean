import Verif.TrackerInsert
import Verif.SpecLemmas

/-!
# Tracking policies of the user's own: simulation of the specification
-/

set_option autoImplicit false

namespace Verif
open Setup Assoc

namespace Track
variable {K V Rep F T : Type} {S : Setup K V Rep F} {tr : Tracker T}
  {J : T → (Nat → Nat) → (Nat → Bool) → Prop} {N : Nat → T → (Nat → Nat) → (Nat → Bool) → Prop}

/-- Some values that nobody has are gone. -/
theorem rel_shrink {ext ext' : Nat → Nat} {s s' : St Rep (F × T)} {t : SSt K V} (h : Rel (tr.setup S) ext s t)
    (hI : (tr.setup S).Inv ext' s') (ho : s'.objs = s.objs)
    (sub : ∀ i b, (tr.setup S).At s' i b → (tr.setup S).At s i b)
    (keep : ∀ i b, (tr.setup S).At s i b → 0 < refs s i → (tr.setup S).At s' i b) :
    ∃ l, (∀ b ∈ l, b ∈ t.kept) ∧ Rel (tr.setup S) ext' s' { t with kept := l } := by
  classical
  refine ⟨t.kept.filter fun b => decide (∃ i, (tr.setup S).At s' i b), fun b hb => (List.mem_filter.1 hb).1,
    hI, ?_, by rw [ho]; exact h.nodup, fun _ b => ?_⟩
  · rw [ho]
    exact h.vars.mono fun p hp b hb => keep _ _ hb (refs_pos hp)
  · rw [List.mem_filter, h.kept rfl b]
    simp only [decide_eq_true_eq, and_iff_right_iff_imp]
    exact fun ⟨i, hi⟩ => ⟨i, sub i b hi⟩

/-- A value has been created, and some values that nobody has are gone. -/
theorem rel_created {ext : Nat → Nat} {s s1 s' : St Rep (F × T)} {t : SSt K V} (h : Rel (tr.setup S) none s t) {src : Src K V} {i : Nat}
    (hI : (tr.setup S).Inv ext s') (ho : s'.objs = s.objs) (hc : Created (tr.setup S) s src i s1)
    (sub : ∀ i b, (tr.setup S).At s' i b → (tr.setup S).At s1 i b)
    (keep : ∀ i b, (tr.setup S).At s1 i b → 0 < refs s i → (tr.setup S).At s' i b) :
    ∃ b t' l, Create .noTracking S.keq S.sp t src b t' ∧ (∀ b ∈ l, b ∈ t'.kept) ∧
      Rel (tr.setup S) ext s' { t' with kept := l } ∧ (tr.setup S).At s1 i b ∧ t'.vars = t.vars := by
  classical
  have hvars : (∀ j b, (tr.setup S).At s j b → (tr.setup S).At s1 j b) → Vars (tr.setup S) s' s'.objs t.vars := by
    intro hmono
    rw [ho]
    exact h.vars.mono fun p hp b hb => keep _ _ (hmono _ _ hb) (refs_pos hp)
  have hnodup : (s'.objs.map Prod.fst).Nodup := by rw [ho]; exact h.nodup
  have hpool : ∀ b, b ∈ t.pool .noTracking ↔ ∃ i, (tr.setup S).At s i b := fun b => h.kept rfl b
  rcases hc with ⟨b, hb, hk, hat⟩ | ⟨hne, hfr, a, ⟨n, l, hal⟩, ha, hat⟩
  · refine ⟨b, t, t.kept.filter fun b => decide (∃ i, (tr.setup S).At s' i b), .share t src b ((hpool b).2 ⟨i, hb⟩) hk,
      fun b hb => (List.mem_filter.1 hb).1, ⟨hI, hvars fun j c hc => (hat j c).2 hc, hnodup, fun _ c => ?_⟩,
      (hat i b).2 hb, rfl⟩
    rw [List.mem_filter, h.kept rfl c]
    simp only [decide_eq_true_eq, and_iff_right_iff_imp]
    exact fun ⟨j, hj⟩ => ⟨j, (hat j c).1 (sub j c hj)⟩
  · refine ⟨_, _, (⟨a, S.sp.key1 src, S.sp.val src⟩ :: t.kept).filter fun b => decide (∃ i, (tr.setup S).At s' i b),
      .fresh t src a ?_ ?_, fun b hb => (List.mem_filter.1 hb).1,
      ⟨hI, hvars fun j c hc => (hat j c).2 (.inl hc), hnodup, fun _ c => ?_⟩,
      (hat i _).2 (Or.inr ⟨rfl, rfl⟩), rfl⟩
    · intro b hb
      obtain ⟨j, hj⟩ := (hpool b).1 hb
      exact hne j b hj
    · intro b hb
      obtain ⟨j, hj⟩ := (hpool b).1 hb
      exact ha j b hj
    · rw [List.mem_filter]
      simp only [List.mem_cons, h.kept rfl c, decide_eq_true_eq, and_iff_right_iff_imp]
      rintro ⟨j, hj⟩
      rcases (hat j c).1 (sub j c hj) with hj | ⟨_, rfl⟩
      · exact Or.inr ⟨j, hj⟩
      · exact Or.inl rfl

/-- A creation. -/
theorem rel_insert {s s' : St Rep (F × T)} {t : SSt K V} (h : Rel (tr.setup S) none s t) {src : Src K V} {i : Nat}
    (hi : MadeOk S tr J none s src i s') :
    ∃ b t' l, Create .noTracking S.keq S.sp t src b t' ∧ (∀ b ∈ l, b ∈ t'.kept) ∧
      Rel (tr.setup S) (plus none i) s' { t' with kept := l } ∧ (tr.setup S).At s' i b ∧ t'.vars = t.vars := by
  obtain ⟨_, s1, hc, sub, keep⟩ := hi.made
  obtain ⟨b, t', l, h1, h2, h3, h4, h5⟩ := rel_created h hi.inv hi.frame.objs hc sub fun j b hb hp =>
    keep j b hb (by simp only [held]; omega)
  exact ⟨b, t', l, h1, h2, h3, keep i b h4 (by simp [held, plus]), h5⟩

/-- Between operations: related states, and the policy's data fit.  (No code of its own: used in statements and proofs.) -/
structure Sim (S : Setup K V Rep F) (tr : Tracker T) (J : T → (Nat → Nat) → (Nat → Bool) → Prop) (fl : Nat → Bool)
    (s : St Rep (F × T)) (t : SSt K V) : Prop where
  sim : Setup.Sim (tr.setup S) fl s t
  data : J s.fac.2 (refs s) (stored S s)

theorem held_none (s : St Rep (F × T)) : held s none = refs s := by
  funext i
  simp [held, Setup.none]

/-- The values of flyweights are still there. -/
theorem collect {ext : Nat → Nat} {s : St Rep (F × T)} {t : SSt K V} {l : List (Bind K V)}
    (h : Rel (tr.setup S) ext s { t with kept := l }) (hl : ∀ b ∈ l, b ∈ t.kept) : t.Collect { t with kept := l } := by
  refine ⟨rfl, hl, fun q hq => ?_⟩
  obtain ⟨p, _, hat⟩ := h.vars.of_var (q := q) hq
  exact (h.kept rfl q.2).2 ⟨_, hat⟩

/-- A handle is destroyed. -/
theorem rel_dtor (hJ : tr.Sound J N) {ext : Nat → Nat} {s : St Rep (F × T)} {t : SSt K V} {h : Nat}
    (hR : Rel (tr.setup S) (plus ext h) s t) (hj : J s.fac.2 (held s (plus ext h)) (stored S s)) :
    ∃ s' l, call S.P (tr.factory S.Fa) (fun d => tr.dtor d h) s = .ok () s' ∧ (∀ b ∈ l, b ∈ t.kept) ∧
      Rel (tr.setup S) ext s' { t with kept := l } ∧ Frame s s' ∧ J s'.fac.2 (held s' ext) (stored S s') := by
  have hs : stored S s h = true := hR.inv.ext h (by simp [plus])
  have hheld : held s ext = fewer (held s (plus ext h)) h := by
    funext i
    simp only [held, plus, fewer]
    split <;> simp
  obtain ⟨s', h1, h2⟩ := call_ok (S := S) (tr := tr) (J := J) (fun d => tr.dtor d h) (inv_minus hR.inv) (by
    rw [hheld]
    exact hJ.dtor _ _ _ _ hj hs (by simp only [held, plus, if_true]; omega))
  obtain ⟨l, hl, hR'⟩ := rel_shrink hR h2.inv h2.frame.objs h2.sub fun i b hb hp => h2.keep i b hb (by
    simp only [held]; omega)
  exact ⟨s', l, h1, hl, hR', h2.frame, h2.data⟩

/-- Assignment of a handle. -/
theorem rel_assign (hJ : tr.Sound J N) {ext : Nat → Nat} {s : St Rep (F × T)} {t : SSt K V}
    (hR : Rel (tr.setup S) ext s t) (hj : J s.fac.2 (held s ext) (stored S s)) {x h : Nat} {b : Bind K V}
    (hx : x ∈ t.names) (hb : (tr.setup S).At s h b) (hh : 0 < held s ext h) :
    ∃ s' l, assignHandle S.P (tr.factory S.Fa) tr x h s = .ok () s' ∧ (∀ b ∈ l, b ∈ t.kept) ∧
      Rel (tr.setup S) ext s' { vars := SSt.rebind t.vars x b, kept := l } ∧ s'.locals = s.locals ∧
      s'.depth = s.depth ∧ s'.env.faults = s.env.faults ∧ J s'.fac.2 (held s' ext) (stored S s') ∧
      (0 < ext h → (tr.setup S).At s' h b) := by
  obtain ⟨old, hold⟩ := lookup_of_name (l := s.objs) (x := x) (by rw [← hR.vars.names]; exact hx)
  have hhs : stored S s h = true := hb.some
  have hos : stored S s old = true := hR.inv.objs (x, old) (lookup_mem hold)
  have hor : 0 < held s ext old := by
    have : 0 < refs s old := refs_pos (p := (x, old)) (lookup_mem hold)
    simp only [held]; omega
  have hR1 : Rel (tr.setup S) (plus ext h) s t := ⟨inv_plus hR.inv hhs, hR.vars, hR.nodup, hR.kept⟩
  have hR2 := hR1.setHandle hold hb
  have hcnt : held { s with objs := setVar s.objs x h } ext = fewer (more (held s ext) h) old := by
    funext j
    have := setVar_count hR.nodup h hold j
    simp only [held, refs, fewer, more]
    split <;> split at this <;> (try split at this) <;> (try split) <;> omega
  obtain ⟨s', h1, h2⟩ := call_ok (S := S) (tr := tr) (J := J) (fun d => tr.assign d old h) (inv_minus hR2.inv) (by
    rw [hcnt]
    exact hJ.assign _ _ _ _ _ hj hos hor hhs hh)
  obtain ⟨l, hl, hR'⟩ := rel_shrink hR2 h2.inv h2.frame.objs h2.sub fun i b hb hp => h2.keep i b hb (by
    simp only [held]; omega)
  refine ⟨s', l, ?_, hl, hR', h2.frame.locals, h2.frame.depth, h2.frame.faults, h2.data, fun he => h2.keep h b hb ?_⟩
  · simp only [assignHandle, bind, M.bind, handleOf_ok hold]
    exact h1
  · simp only [held]; omega

/-- What a failed operation does: nothing, or it has created a value that no flyweight has.  (No code of its own: used in statements and
proofs.) -/
def Failed (S : Setup K V Rep F) (tr : Tracker T) (hp : Nat → Nat) (fl : Nat → Bool) (s : St Rep (F × T)) (t : SSt K V)
    (op : Op K V) (s' : St Rep (F × T)) (t' : SSt K V) : Prop :=
  (SStep .noTracking S.keq S.sp hp t op .threw t ∧ t' = t ∧ ∃ n, fl n = true) ∨
  (tr.Throws ∧ ∃ x src b t1, (op = .make x src ∨ op = .assignVal x src) ∧ Create .noTracking S.keq S.sp t src b t1 ∧
    t1.vars = t.vars ∧ t1.Collect t' ∧ (tr.Leaves → ∃ h, Created (tr.setup S) s src h s'))

/-- One operation. -/
theorem step_sim (hJ : tr.Sound J N) {fl : Nat → Bool} {s : St Rep (F × T)} {t : SSt K V} (hS : Sim S tr J fl s t)
    (hp : Nat → Nat) {op : Op K V} (hv : op.valid S.sp t.names = true) :
    Triple (· = s) (step S.P (tr.factory S.Fa) tr hp op)
      (fun out s' => out ≠ .threw ∧ ∃ t1 t', SStep .noTracking S.keq S.sp hp t op out t1 ∧ t1.Collect t' ∧ Sim S tr J fl s' t')
      (fun s' => ∃ t', Failed S tr hp fl s t op s' t' ∧ Sim S tr J fl s' t') := by
  obtain ⟨⟨hR, hid, hfl⟩, hj⟩ := hS
  have hj0 : J s.fac.2 (held s none) (stored S s) := by rw [held_none]; exact hj
  have hlk : ∀ x, t.names.contains x = true → ∃ h b, s.objs.lookup x = some h ∧ (x, b) ∈ t.vars ∧
      (tr.setup S).At s h b := by
    intro x hx
    obtain ⟨h, hh⟩ := lookup_of_name (l := s.objs) (x := x)
      (by rw [← hR.vars.names]; simpa [SSt.names] using hx)
    obtain ⟨b, hb, hat⟩ := hR.vars.lookup hh
    exact ⟨h, b, hh, hb, hat⟩
  have hpos : ∀ {x h}, s.objs.lookup x = some h → 0 < refs s h := fun {x h} hx => refs_pos (p := (x, h)) (lookup_mem hx)
  have hself : t.Collect t := collect (t := t) (l := t.kept) hR fun _ h => h
  have hfail : ∀ s' x src, MadeFail S tr J none s src s' → (op = .make x src ∨ op = .assignVal x src) →
      ∃ t', Failed S tr hp fl s t op s' t' ∧ Sim S tr J fl s' t' := by
    intro s' x src hF hop
    have hj' : J s'.fac.2 (refs s') (stored S s') := by rw [← held_none]; exact hF.unmade.1
    rcases hF.unmade.2 with ⟨hat, n, hn⟩ | ⟨hth, h, s1, hc, hsub, hkeep, hleft⟩
    · refine ⟨t, .inl ⟨?_, rfl, n, by rw [← hfl]; exact hn⟩, ⟨hR.frame hF.inv hF.frame.objs hat,
        ⟨hF.frame.locals.trans hid.locals, hF.frame.depth.trans hid.depth⟩, hF.frame.faults.trans hfl⟩, hj'⟩
      rcases hop with rfl | rfl
      · exact .makeThrow t x src
      · exact .assignValThrow t x src
    · obtain ⟨b, t1, l, h1, h2, h3, _, h5⟩ := rel_created hR hF.inv hF.frame.objs hc hsub fun i b hb hp =>
        hkeep i b hb (by rw [held_none]; exact hp)
      exact ⟨_, .inr ⟨hth, x, src, b, t1, hop, h1, h5, collect (t := t1) h3 h2, fun hl => ⟨h, hleft hl⟩⟩, ⟨h3,
        ⟨hF.frame.locals.trans hid.locals, hF.frame.depth.trans hid.depth⟩, hF.frame.faults.trans hfl⟩, hj'⟩
  have copy : ∀ x y, t.names.contains x = false → t.names.contains y = true →
      ∃ s' b l, Track.copy S.P (tr.factory S.Fa) tr x y s = .ok () s' ∧ (y, b) ∈ t.vars ∧
        ({ t with vars := (x, b) :: t.vars } : SSt K V).Collect { vars := (x, b) :: t.vars, kept := l } ∧
        Sim S tr J fl s' { vars := (x, b) :: t.vars, kept := l } := by
    intro x y hx hy
    obtain ⟨h, b, hh, hb, hat⟩ := hlk y hy
    obtain ⟨s1, h1, h2⟩ := call_ok (S := S) (tr := tr) (J := J) (fun d => tr.copy d h)
      (inv_plus hR.inv (h := h) hat.some) (by
        rw [held_plus, held_none]
        exact hJ.copy _ _ _ _ hj hat.some (hpos hh))
    obtain ⟨l, hl, hR1⟩ := rel_shrink hR h2.inv h2.frame.objs h2.sub fun i b hb hp => h2.keep i b hb (by
      simp only [held]; omega)
    have hat1 : (tr.setup S).At s1 h b := h2.keep h b hat (by simp [held, plus])
    have hR2 := hR1.newObj (x := x) (by simpa [SSt.names] using hx) hat1
    refine ⟨{ s1 with objs := (x, h) :: s1.objs }, b, l, ?_, hb,
      collect (t := { t with vars := (x, b) :: t.vars }) hR2 hl,
      ⟨hR2, ⟨h2.frame.locals.trans hid.locals, h2.frame.depth.trans hid.depth⟩, h2.frame.faults.trans hfl⟩, ?_⟩
    · simp only [Track.copy, bind, M.bind, handleOf_ok hh, h1]
      rfl
    · have h3 := h2.data
      have : held s1 (plus none h) = refs { s1 with objs := (x, h) :: s1.objs } := by
        funext j
        simp only [held, refs, plus, List.countP_cons, Setup.none]
        by_cases hjh : h = j
        · simp [hjh]
        · simp [hjh, Ne.symm hjh]
      rw [this] at h3
      exact h3
  cases op with
  | init =>
    refine .ofOk (a := .done) (e₂ := { s with inited := true }) rfl ⟨by simp, t, t, .init t, hself, ⟨?_, ⟨hid.locals, hid.depth⟩, hfl⟩, hj⟩
    exact hR.frame hR.inv.setInited rfl fun _ _ => Iff.rfl
  | make x src =>
    simp [Op.valid] at hv
    refine Triple.bind (R := fun _ s' => ∃ t1 t', SStep .noTracking S.keq S.sp hp t (.make x src) .done t1 ∧
      t1.Collect t' ∧ Sim S tr J fl s' t') ?_ fun _ => .ret fun s' h => ⟨by simp, h⟩
    refine Triple.bind ((insert_ok hJ hR.inv hj0 hv.2).conseq (fun _ h => h) (fun _ _ h => h) ?_) fun h => ?_
    · intro s' hF
      exact hfail s' x src hF (.inl rfl)
    · refine Triple.at ?_
      rintro s1 ⟨hO, _⟩
      obtain ⟨b, t', l, h1, hl, h2, h3, h4⟩ := rel_insert hR hO
      have hR2 := h2.newObj (x := x) (by simp only [SSt.names, h4]; exact hv.1) h3
      refine .ofOk (a := ()) rfl ⟨_, _, .make t x src b t' h1,
        collect (t := { t' with vars := (x, b) :: t'.vars }) hR2 hl, ⟨hR2, ?_, ?_⟩, ?_⟩
      · exact ⟨hO.frame.locals.trans hid.locals, hO.frame.depth.trans hid.depth⟩
      · exact hO.frame.faults.trans hfl
      · have h3 := hO.made.1
        have : held s1 (plus none h) = refs { s1 with objs := (x, h) :: s1.objs } := by
          funext j
          simp only [held, refs, plus, List.countP_cons, Setup.none]
          by_cases hjh : h = j
          · simp [hjh]
          · simp [hjh, Ne.symm hjh]
        rw [this] at h3
        exact h3
  | copy x y =>
    simp [Op.valid] at hv
    obtain ⟨s', b, l, h1, h2, h3, h4⟩ := copy x y (by simpa using hv.1) (by simpa using hv.2)
    refine .ofOk (a := .done) (e₂ := s') ?_ ⟨by simp, _, _, .copy t x y b h2, h3, h4⟩
    simp only [step, bind, M.bind, h1]; rfl
  | move x y =>
    simp [Op.valid] at hv
    obtain ⟨s', b, l, h1, h2, h3, h4⟩ := copy x y (by simpa using hv.1) (by simpa using hv.2)
    refine .ofOk (a := .done) (e₂ := s') ?_ ⟨by simp, _, _, .move t x y b h2, h3, h4⟩
    simp only [step, bind, M.bind, h1]; rfl
  | assign x y =>
    simp [Op.valid] at hv
    obtain ⟨h, b, hh, hb, hat⟩ := hlk y (by simpa using hv.2)
    obtain ⟨s', l, g1, hl, g2, g3, g4, g5, g6, _⟩ := rel_assign hJ hR hj0 hv.1 hat (by rw [held_none]; exact hpos hh)
    refine .ofOk (a := .done) (e₂ := s') ?_ ⟨by simp, _, _, .assign t x y b hb,
      collect (t := { t with vars := SSt.rebind t.vars x b }) g2 hl, ⟨g2,
      ⟨g3.trans hid.locals, g4.trans hid.depth⟩, g5.trans hfl⟩, by rw [← held_none]; exact g6⟩
    simp only [step, Track.assign, bind, M.bind, handleOf_ok hh, g1]
    rfl
  | assignVal x src =>
    simp [Op.valid] at hv
    refine Triple.bind (R := fun _ s' => ∃ t1 t', SStep .noTracking S.keq S.sp hp t (.assignVal x src) .done t1 ∧
      t1.Collect t' ∧ Sim S tr J fl s' t') ?_ fun _ => .ret fun s' h => ⟨by simp, h⟩
    refine Triple.bind ((insert_ok hJ hR.inv hj0 hv.2).conseq (fun _ h => h) (fun _ _ h => h) ?_) fun h => ?_
    · intro s' hF
      exact hfail s' x src hF (.inr rfl)
    · refine Triple.at ?_
      rintro s1 ⟨hO, _⟩
      obtain ⟨b, t', l, h1, hl, h2, h3, h4⟩ := rel_insert hR hO
      obtain ⟨s2, l2, g1, hl2, g2, g3, g4, g5, g6, _⟩ := rel_assign hJ h2 hO.made.1 (x := x)
        (by simp only [SSt.names, h4]; exact hv.1) h3 (by simp [held, plus])
      obtain ⟨s3, l3, k1, hl3, k2, k3, k4⟩ := rel_dtor hJ g2 g6
      refine .ofOk (a := ()) (e₂ := s3) ?_ ⟨_, _, .assignVal t x src b t' h1,
        collect (t := { t' with vars := SSt.rebind t'.vars x b }) k2 fun c hc => hl c (hl2 c (hl3 c hc)), ⟨k2, ?_, ?_⟩,
        by rw [← held_none]; exact k4⟩
      · simp only [bind, M.bind, g1, k1]
      · exact ⟨k3.locals.trans (g3.trans (hO.frame.locals.trans hid.locals)),
          k3.depth.trans (g4.trans (hO.frame.depth.trans hid.depth))⟩
      · exact k3.faults.trans (g5.trans (hO.frame.faults.trans hfl))
  | swap x y =>
    simp [Op.valid] at hv
    obtain ⟨h, b, hh, hb, hat⟩ := hlk x (by simpa using hv.1)
    obtain ⟨h', b', hh', hb', hat'⟩ := hlk y (by simpa using hv.2)
    have hn1 : ((setVar s.objs x h').map Prod.fst).Nodup := by rw [setVar_names]; exact hR.nodup
    have hl1 : (setVar s.objs x h').lookup y = some h' := by
      apply lookup_of_mem hn1
      unfold setVar
      refine List.mem_map.2 ⟨(y, h'), lookup_mem hh', ?_⟩
      by_cases hyx : y = x <;> simp [hyx]
    have hcnt : ∀ i, (setVar (setVar s.objs x h') y h).countP (fun p => p.2 == i) = refs s i := by
      intro i
      have e1 := setVar_count hR.nodup h' hh i
      have e2 := setVar_count hn1 h hl1 i
      unfold refs
      omega
    have hR1 : Rel (tr.setup S) none { s with objs := setVar (setVar s.objs x h') y h }
        { t with vars := SSt.rebind (SSt.rebind t.vars x b') y b } := by
      refine ⟨hR.inv.reobj fun i => by rw [hcnt], (hR.vars.set x hat').set y hat, ?_, hR.kept⟩
      show ((setVar (setVar s.objs x h') y h).map Prod.fst).Nodup
      rw [setVar_names]; exact hn1
    have hheld : held ({ s with objs := setVar (setVar s.objs x h') y h } : St Rep (F × T)) none = refs s := by
      rw [held_none]
      funext i
      exact hcnt i
    obtain ⟨s', k1, k2⟩ := call_ok (S := S) (tr := tr) (J := J) (fun d => tr.swap d h h') hR1.inv (by
      rw [hheld]
      exact hJ.swap _ _ _ _ _ hj hat.some (hpos hh) hat'.some (hpos hh'))
    obtain ⟨l, hl, hR2⟩ := rel_shrink hR1 k2.inv k2.frame.objs k2.sub fun i b hb hp => k2.keep i b hb (by
      simp only [held]; omega)
    refine .ofOk (a := .done) (e₂ := s') ?_
      ⟨by simp, _, _, .swap t x y b b' hb hb', collect (t := { t with vars := SSt.rebind (SSt.rebind t.vars x b') y b }) hR2 hl,
        ⟨hR2, ⟨k2.frame.locals.trans hid.locals, k2.frame.depth.trans hid.depth⟩, k2.frame.faults.trans hfl⟩,
        by rw [← held_none]; exact k2.data⟩
    have k1' := k1
    simp only [setVar] at k1'
    simp only [step, Track.swap, bind, M.bind, handleOf_ok hh, handleOf_ok hh', Core.setHandle, M.update, k1']
    rfl
  | destroy x =>
    simp [Op.valid] at hv
    obtain ⟨h, b, hh, hb, hat⟩ := hlk x (by simpa using hv)
    have hcnt : ∀ i, (s.objs.filter fun p => p.1 ≠ x).countP (fun p => p.2 == i) + plus none h i = refs s i := by
      intro i
      have := filter_count hR.nodup hh i
      unfold refs plus
      by_cases hi : i = h <;> simp [hi] at this ⊢ <;> omega
    have hR1 : Rel (tr.setup S) (plus none h) { s with objs := s.objs.filter fun p => p.1 ≠ x }
        { t with vars := t.vars.filter fun p => p.1 ≠ x } := by
      refine ⟨hR.inv.reobj fun i => by rw [hcnt]; simp [Setup.none], hR.vars.filter x, ?_, hR.kept⟩
      exact hR.nodup.sublist (List.filter_sublist.map _)
    have hheld : held ({ s with objs := s.objs.filter fun p => p.1 ≠ x } : St Rep (F × T)) (plus none h) = refs s := by
      funext i
      exact hcnt i
    obtain ⟨s', l, k1, hl, k2, k3, k4⟩ := rel_dtor hJ hR1 (by rw [hheld]; exact hj)
    refine .ofOk (a := .done) (e₂ := s') ?_ ⟨by simp, _, _, .destroy t x,
      collect (t := { t with vars := t.vars.filter fun p => p.1 ≠ x }) k2 hl, ⟨k2,
      ⟨k3.locals.trans hid.locals, k3.depth.trans hid.depth⟩, k3.faults.trans hfl⟩, by rw [← held_none]; exact k4⟩
    simp only [step, Track.destroy, bind, M.bind, handleOf_ok hh, M.update, k1]
    rfl
  | get x =>
    simp [Op.valid] at hv
    obtain ⟨h, b, hh, hb, hat⟩ := hlk x (by simpa using hv)
    have hg : Core.get S.P (tr.factory S.Fa) x s = .ok (b.addr, b.val) s := get_ok (S := tr.setup S) hR.inv hh hat
    refine .ofOk (a := .val b.addr b.val) (e₂ := s) ?_ ⟨by simp, t, t, .get t x b hb, hself, ⟨hR, hid, hfl⟩, hj⟩
    simp only [step, bind, M.bind, hg]
    rfl
  | getKey x =>
    simp [Op.valid] at hv
    obtain ⟨h, b, hh, hb, hat⟩ := hlk x (by simpa using hv)
    have hg : Core.getKey S.P (tr.factory S.Fa) x s = .ok b.key s := getKey_ok (S := tr.setup S) hR.inv hh hat
    refine .ofOk (a := .key b.key) (e₂ := s) ?_ ⟨by simp, t, t, .getKey t x b hb, hself, ⟨hR, hid, hfl⟩, hj⟩
    simp only [step, bind, M.bind, hg]
    rfl
  | eq x y =>
    simp [Op.valid] at hv
    obtain ⟨h, b, hh, hb, hat⟩ := hlk x (by simpa using hv.1)
    obtain ⟨h', b', hh', hb', hat'⟩ := hlk y (by simpa using hv.2)
    have hg : Core.get S.P (tr.factory S.Fa) x s = .ok (b.addr, b.val) s := get_ok (S := tr.setup S) hR.inv hh hat
    have hg' : Core.get S.P (tr.factory S.Fa) y s = .ok (b'.addr, b'.val) s := get_ok (S := tr.setup S) hR.inv hh' hat'
    refine .ofOk (a := .bool (b.addr == b'.addr)) (e₂ := s) ?_
      ⟨by simp, t, t, .eq t x y b b' hb hb', hself, ⟨hR, hid, hfl⟩, hj⟩
    simp only [step, Core.eq, bind, M.bind, hg, hg']
    rfl
  | hash x =>
    simp [Op.valid] at hv
    obtain ⟨h, b, hh, hb, hat⟩ := hlk x (by simpa using hv)
    have hg : Core.get S.P (tr.factory S.Fa) x s = .ok (b.addr, b.val) s := get_ok (S := tr.setup S) hR.inv hh hat
    refine .ofOk (a := .num (hp b.addr)) (e₂ := s) ?_ ⟨by simp, t, t, .hash t x b hb, hself, ⟨hR, hid, hfl⟩, hj⟩
    simp only [step, Core.hash, bind, M.bind, hg]
    rfl

theorem sim_start (hJ : tr.Sound J N) (fl : Nat → Bool) {alloc : Nat → List Nat → Nat}
    (hal : ∀ n l, alloc n l ∉ l) : Sim S tr J fl (Core.start (tr.factory S.Fa) fl alloc) SSt.start := by
  refine ⟨Setup.sim_start (tr.setup S) fl hal, ?_⟩
  have h := hJ.start
  have h1 : refs (Core.start (tr.factory S.Fa) fl alloc : St Rep (F × T)) = fun _ => 0 := by
    funext i
    simp [refs, Core.start]
  have h2 : stored S (Core.start (tr.factory S.Fa) fl alloc : St Rep (F × T)) = fun _ => false := by
    funext i
    simp [stored, Core.start, Tracker.factory, S.LF.entry_empty]
  rw [h1, h2]
  exact h

/-- Programs. -/
theorem exec_sim (hJ : tr.Sound J N) (hp : Nat → Nat) (ops : List (Op K V)) {fl : Nat → Bool} {s : St Rep (F × T)}
    {t : SSt K V} (hS : Sim S tr J fl s t) :
    ∃ outs s' t', exec S.P (tr.factory S.Fa) tr hp S.sp ops s = some (outs, s') ∧
      CRun tr.Throws S.keq S.sp hp t ops outs t' ∧ Sim S tr J fl s' t' ∧ (.threw ∈ outs → tr.Throws ∨ ∃ n, fl n = true) := by
  induction ops generalizing s t with
  | nil => exact ⟨[], s, t, rfl, .nil t, hS, by simp⟩
  | cons op ops ih =>
    have hn : s.objs.map Prod.fst = t.names := hS.sim.rel.vars.names.symm
    unfold exec
    rw [hn]
    by_cases hv : op.valid S.sp t.names = true
    · rw [if_pos hv]
      have h := step_sim hJ hS hp hv s rfl
      cases hm : step S.P (tr.factory S.Fa) tr hp op s with
      | ok out s1 =>
        rw [hm] at h
        obtain ⟨hne, t1, t2, h1, hc, h2⟩ := h
        obtain ⟨outs, s', t', g1, g2, g3, g4⟩ := ih h2
        refine ⟨out :: outs, s', t', by simp [g1], .step hv h1 hc g2, g3, fun hm => ?_⟩
        rcases List.mem_cons.1 hm with hm | hm
        · exact absurd hm.symm hne
        · exact g4 hm
      | exc s1 =>
        rw [hm] at h
        obtain ⟨t2, h1, h2⟩ := h
        obtain ⟨outs, s', t', g1, g2, g3, g4⟩ := ih h2
        have hR := hS.sim.rel
        rcases h1 with ⟨h1, rfl, h3⟩ | ⟨hth, x, src, b, t1, hop, hc, _, hcol, _⟩
        · exact ⟨.threw :: outs, s', t', by simp [g1],
            .step hv h1 (collect (t := t2) (l := t2.kept) hR fun _ h => h) g2, g3, fun _ => .inr h3⟩
        · exact ⟨.threw :: outs, s', t', by simp [g1], .left hth hv hop hc hcol g2, g3, fun _ => .inl hth⟩
      | ub => rw [hm] at h; exact h.elim
    · rw [if_neg hv]
      obtain ⟨outs, s', t', g1, g2, g3, g4⟩ := ih hS
      refine ⟨.skipped :: outs, s', t', by simp [g1], .skip (by simpa using hv) g2, g3, fun hm => ?_⟩
      rcases List.mem_cons.1 hm with hm | hm
      · cases hm
      · exact g4 hm

theorem _root_.Verif.SOk.collect {keq : K → K → Bool} {t t' : SSt K V} (h : SOk .noTracking keq t) (hc : t.Collect t') :
    SOk .noTracking keq t' := by
  refine ⟨?_, ?_, ?_, ?_⟩
  · simp only [SSt.names, hc.vars]; exact h.nodup
  · intro p hp
    rw [hc.vars] at hp
    exact hc.bound p hp
  · exact fun b hb c hc' => h.addr b (hc.less b hb) c (hc.less c hc')
  · exact fun b hb c hc' => h.key b (hc.less b hb) c (hc.less c hc')

theorem _root_.Verif.SOk.created {keq : K → K → Bool} {sp : SrcSpec K V} (L : sp.Lawful keq) {t t' : SSt K V}
    (h : SOk .noTracking keq t) {src : Src K V} {b : Bind K V} (hsup : sp.supports src = true)
    (hc : Create .noTracking keq sp t src b t') : SOk .noTracking keq t' := by
  have h1 := h.add L hsup hc (vars := t.vars) h.nodup fun p hp => .inl hp
  rw [← (h.create L hsup hc).1] at h1
  exact h1

theorem supports_of {sp : SrcSpec K V} {names : List Nat} {op : Op K V} {x : Nat} {src : Src K V} (hv : op.valid sp names = true)
    (ho : op = .make x src ∨ op = .assignVal x src) : sp.supports src = true := by
  rcases ho with rfl | rfl <;> simp [Op.valid] at hv <;> exact hv.2

/-- The specification keeps its own invariant when values are removed. -/
theorem _root_.Verif.CRun.ok {may : Prop} {keq : K → K → Bool} {sp : SrcSpec K V} (L : sp.Lawful keq) {hp : Nat → Nat} {t t' : SSt K V}
    {ops : List (Op K V)} {outs : List (Out K V)} (hr : CRun may keq sp hp t ops outs t') (h : SOk .noTracking keq t) :
    SOk .noTracking keq t' := by
  induction hr with
  | nil => exact h
  | step hv hs hc _ ih =>
    exact ih ((hs.ok L h hv).collect hc)
  | left _ hv ho hcr hc _ ih => exact ih ((h.created L (supports_of hv ho) hcr).collect hc)
  | skip _ _ ih => exact ih h

end Track
end Verif

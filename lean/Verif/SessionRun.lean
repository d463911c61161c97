import Verif.Session
import Verif.CFSeqLib

/-!
# Programs run with the factories of the library

The factories of `Verif.Setup` and `concurrent_factory` do what `Verif.Session` says.
-/

set_option autoImplicit false

namespace Verif
open Client (Store Made)

section
variable {K V : Type}

/-- The variables are those of `w`.  (No code of its own: used in statements and proofs.) -/
def AreVars (vars : List (Nat × Bind K V)) (w : Store K V) : Prop := ∀ x b, (x, b) ∈ vars ↔ w x = some b

theorem AreVars.name {vars : List (Nat × Bind K V)} {w : Store K V} (h : AreVars vars w) (x : Nat) :
    (vars.map Prod.fst).contains x = (w x).isSome := Client.View.name (t := ⟨vars, []⟩) h x

theorem AreVars.of_nodup {vars : List (Nat × Bind K V)} (h : (vars.map Prod.fst).Nodup) : AreVars vars fun x => vars.lookup x := by
  intro x b
  refine ⟨fun hx => ?_, Assoc.lookup_mem⟩
  obtain ⟨c, hc⟩ := Assoc.lookup_of_name (l := vars) (x := x) (List.mem_map.2 ⟨_, hx, rfl⟩)
  have := bind_unique h hx (Assoc.lookup_mem hc)
  exact this ▸ hc

/-- What an operation does to a list of variables.  (No code of its own: used in statements and proofs.) -/
inductive VStep (C : Cfg K V) (w : Store K V) (vars : List (Nat × Bind K V)) : Op K V → Out K V → List (Nat × Bind K V) → Prop
  | init : VStep C w vars .init .done vars
  | make (x src b) : Fits C w src b → VStep C w vars (.make x src) .done ((x, b) :: vars)
  | makeThrow (x src) : C.thr → VStep C w vars (.make x src) .threw vars
  | copy (x y b) : (y, b) ∈ vars → VStep C w vars (.copy x y) .done ((x, b) :: vars)
  | move (x y b) : (y, b) ∈ vars → VStep C w vars (.move x y) .done ((x, b) :: vars)
  | assign (x y b) : (y, b) ∈ vars → VStep C w vars (.assign x y) .done (SSt.rebind vars x b)
  | assignVal (x src b) : Fits C w src b → VStep C w vars (.assignVal x src) .done (SSt.rebind vars x b)
  | assignValThrow (x src) : C.thr → VStep C w vars (.assignVal x src) .threw vars
  | swap (x y b c) : (x, b) ∈ vars → (y, c) ∈ vars → VStep C w vars (.swap x y) .done (SSt.rebind (SSt.rebind vars x c) y b)
  | destroy (x) : VStep C w vars (.destroy x) .done (vars.filter fun p => p.1 ≠ x)
  | get (x b) : (x, b) ∈ vars → VStep C w vars (.get x) (.val b.addr b.val) vars
  | getKey (x b) : (x, b) ∈ vars → VStep C w vars (.getKey x) (.key b.key) vars
  | eq (x y b c) : (x, b) ∈ vars → (y, c) ∈ vars → VStep C w vars (.eq x y) (.bool (C.keq b.key c.key)) vars
  | hash (x b) : (x, b) ∈ vars → VStep C w vars (.hash x) (.num (C.hp b.addr)) vars

theorem act_threw {C : Cfg K V} {w : Store K V} {o : Op K V} (ho : o.creates = none) (b : Option (Bind K V)) (fail : Bool)
    (h : (act C b fail w o).1 = .threw) : False := by
  cases o <;> simp only [act] at h <;> first | (cases ho; done) | (cases h; done) | (split at h <;> cases h)

theorem VStep.act {C : Cfg K V} {w : Store K V} {vars vars' : List (Nat × Bind K V)} {o : Op K V} {out : Out K V} (h4 : AreVars vars w)
    (hv : o.valid C.sp (vars.map Prod.fst) = true) (h : VStep C w vars o out vars') :
    ∃ b fail, Allowed C w o b fail ∧ (act C b fail w o).1 = out ∧ AreVars vars' (act C b fail w o).2 := by
  have none_ : ∀ {x}, (!(vars.map Prod.fst).contains x) = true → w x = none := by
    intro x h
    rw [h4.name] at h
    simpa using h
  have some_ : ∀ {x}, (vars.map Prod.fst).contains x = true → ∃ b, w x = some b := by
    intro x h
    rw [h4.name] at h
    exact Option.isSome_iff_exists.1 h
  have free : ∀ {o : Op K V}, o.creates = none → Allowed C w o none false := fun ho =>
    ⟨fun h => (act_threw ho _ _ h).elim, fun _ src hs => by rw [ho] at hs; cases hs⟩
  cases h with
  | init => exact ⟨none, false, free rfl, rfl, h4⟩
  | make x src b hf =>
    simp only [Op.valid, Bool.and_eq_true] at hv
    have hx := none_ hv.1
    refine ⟨some b, false, ⟨fun h => ?_, fun _ src' e => ?_⟩, by simp [Verif.act, hx, hv.2], fun y c => ?_⟩
    · simp [Verif.act, hx, hv.2] at h
    · cases e; exact ⟨b, rfl, hf⟩
    · simp only [Verif.act, hx, hv.2]
      exact Client.cons_mem h4 hx
  | makeThrow x src ht =>
    simp only [Op.valid, Bool.and_eq_true] at hv
    have hx := none_ hv.1
    refine ⟨none, true, ⟨fun _ => ht, fun h => by simp [Verif.act, hx, hv.2] at h⟩, by simp [Verif.act, hx, hv.2], ?_⟩
    simp only [Verif.act, hx, hv.2]
    exact h4
  | copy x y b hb =>
    simp only [Op.valid, Bool.and_eq_true] at hv
    have hx := none_ hv.1
    have hy := (h4 y b).1 hb
    refine ⟨none, false, free rfl, by simp [Verif.act, hx, hy], fun z c => ?_⟩
    simp only [Verif.act, hx, hy]
    exact Client.cons_mem h4 hx
  | move x y b hb =>
    simp only [Op.valid, Bool.and_eq_true] at hv
    have hx := none_ hv.1
    have hy := (h4 y b).1 hb
    refine ⟨none, false, free rfl, by simp [Verif.act, hx, hy], fun z c => ?_⟩
    simp only [Verif.act, hx, hy]
    exact Client.cons_mem h4 hx
  | assign x y b hb =>
    simp only [Op.valid, Bool.and_eq_true] at hv
    obtain ⟨d, hx⟩ := some_ hv.1
    have hy := (h4 y b).1 hb
    refine ⟨none, false, free rfl, by simp [Verif.act, hx, hy], fun z c => ?_⟩
    simp only [Verif.act, hx, hy]
    exact Client.rebind_iff h4 hx
  | assignVal x src b hf =>
    simp only [Op.valid, Bool.and_eq_true] at hv
    obtain ⟨d, hx⟩ := some_ hv.1
    refine ⟨some b, false, ⟨fun h => ?_, fun _ src' e => ?_⟩, by simp [Verif.act, hx, hv.2], fun y c => ?_⟩
    · simp [Verif.act, hx, hv.2] at h
    · cases e; exact ⟨b, rfl, hf⟩
    · simp only [Verif.act, hx, hv.2]
      exact Client.rebind_iff h4 hx
  | assignValThrow x src ht =>
    simp only [Op.valid, Bool.and_eq_true] at hv
    obtain ⟨d, hx⟩ := some_ hv.1
    refine ⟨none, true, ⟨fun _ => ht, fun h => by simp [Verif.act, hx, hv.2] at h⟩, by simp [Verif.act, hx, hv.2], ?_⟩
    simp only [Verif.act, hx, hv.2]
    exact h4
  | swap x y b c hb hc =>
    have hx := (h4 x b).1 hb
    have hy := (h4 y c).1 hc
    obtain ⟨d, hd⟩ : ∃ d, upd w x (some c) y = some d := by
      by_cases hyx : y = x
      · exact ⟨c, by rw [hyx, upd_self]⟩
      · exact ⟨c, by rw [upd_ne _ _ hyx, hy]⟩
    refine ⟨none, false, free rfl, by simp [Verif.act, hx, hy], fun z e => ?_⟩
    simp only [Verif.act, hx, hy]
    exact Client.rebind_iff (fun z e => Client.rebind_iff h4 hx) hd
  | destroy x =>
    obtain ⟨d, hx⟩ := some_ hv
    refine ⟨none, false, free rfl, by simp [Verif.act, hx], fun z c => ?_⟩
    simp only [Verif.act, hx]
    rw [List.mem_filter, h4]
    by_cases hz : z = x
    · subst hz
      simp [upd_self]
    · simp [upd_ne _ _ hz, hz]
  | get x b hb =>
    have hx := (h4 x b).1 hb
    exact ⟨none, false, free rfl, by simp [Verif.act, hx], by simp only [Verif.act, hx]; exact h4⟩
  | getKey x b hb =>
    have hx := (h4 x b).1 hb
    exact ⟨none, false, free rfl, by simp [Verif.act, hx], by simp only [Verif.act, hx]; exact h4⟩
  | eq x y b c hb hc =>
    have hx := (h4 x b).1 hb
    have hy := (h4 y c).1 hc
    exact ⟨none, false, free rfl, by simp [Verif.act, hx, hy], by simp only [Verif.act, hx, hy]; exact h4⟩
  | hash x b hb =>
    have hx := (h4 x b).1 hb
    exact ⟨none, false, free rfl, by simp [Verif.act, hx], by simp only [Verif.act, hx]; exact h4⟩

/-- Invalid operations are skipped. -/
theorem act_skip {C : Cfg K V} {w : Store K V} {vars : List (Nat × Bind K V)} {o : Op K V} (h4 : AreVars vars w)
    (hv : o.valid C.sp (vars.map Prod.fst) = false) (b : Option (Bind K V)) (fail : Bool) : act C b fail w o = (.skipped, w) := by
  have hn := h4.name
  cases o <;> simp only [Op.valid, hn] at hv <;> simp only [act]
  all_goals first | (cases hv; done) | (split <;> simp_all)

end

/-! ## The factories of `Verif.Setup` -/

section
variable {K V Rep F : Type}

/-- The operations of /repo/include/boost/flyweight/flyweight.hpp:181-278, as `Client.Prog.fly`; code of the user that may throw is an operation of the user
like those called by the library.  (The user's program, no code of the library.) -/
def Engine.fly (S : Setup K V Rep F) (hp : Nat → Nat) : Engine K V where
  σ := St Rep F
  step o s :=
    if o.valid S.sp (s.objs.map Prod.fst) then
      match Core.step S.P S.Fa S.trk hp o s with
      | .ok out s' => some (out, s')
      | .exc s' => some (.threw, s')
      | .ub => none
    else some (.skipped, s)
  user s := match (Core.env mayThrow : M (St Rep F) Unit) s with
    | .ok _ s' => (false, s')
    | .exc s' => (true, s')
    | .ub => (false, s)

/-- (No code of its own: used in statements and proofs.) -/
def Setup.cfg (S : Setup K V Rep F) (hp : Nat → Nat) (thr : Prop) : Cfg K V := ⟨S.keq, S.sp, hp, thr⟩

variable {S : Setup K V Rep F} {fl : Nat → Bool} {hp : Nat → Nat}

theorem fits_of_create {t t' : SSt K V} {w : Store K V} {src : Src K V} {b : Bind K V} (h2 : SOk S.trk S.keq t) (h3 : Client.AllMade S.sp t)
    (h4 : AreVars t.vars w) (hs : S.sp.supports src = true) (hc : Create S.trk S.keq S.sp t src b t') :
    t'.vars = t.vars ∧ Fits (S.cfg hp (∃ n, fl n = true)) w src b := by
  obtain ⟨c1, c2, c3, _⟩ := h2.create S.LS hs hc
  refine ⟨c1, c2, (h3.create hs hc).2, fun y c hy => ?_, fun y c hy e => ?_⟩
  · have hp := h2.bound ((h4 y c).2 hy)
    refine ⟨fun e => ?_, fun e => by rw [c3 c hp (.inr e)]⟩
    rw [c3 c hp (.inl e)]
    exact S.LS.refl _
  · exact c3 c (h2.bound ((h4 y c).2 hy)) (.inl e)

theorem vstep_of_sstep {t t' : SSt K V} {w : Store K V} {o : Op K V} {out : Out K V} (h2 : SOk S.trk S.keq t) (h3 : Client.AllMade S.sp t)
    (h4 : AreVars t.vars w) (hv : o.valid S.sp t.names = true) (hs : SStep S.trk S.keq S.sp hp t o out t') (ht : out = .threw → ∃ n, fl n = true) :
    VStep (S.cfg hp (∃ n, fl n = true)) w t.vars o out t'.vars := by
  cases hs with
  | init => exact .init
  | make x src b t₁ hc =>
    simp [Op.valid] at hv
    obtain ⟨e, hf⟩ := fits_of_create (fl := fl) (hp := hp) h2 h3 h4 hv.2 hc
    rw [show ({ t₁ with vars := (x, b) :: t₁.vars } : SSt K V).vars = (x, b) :: t.vars by simp [e]]
    exact .make x src b hf
  | makeThrow x src => exact .makeThrow x src (ht rfl)
  | copy x y b hb => exact .copy x y b hb
  | move x y b hb => exact .move x y b hb
  | assign x y b hb => exact .assign x y b hb
  | assignVal x src b t₁ hc =>
    simp [Op.valid] at hv
    obtain ⟨e, hf⟩ := fits_of_create (fl := fl) (hp := hp) h2 h3 h4 hv.2 hc
    rw [show ({ t₁ with vars := SSt.rebind t₁.vars x b } : SSt K V).vars = SSt.rebind t.vars x b by simp [e]]
    exact .assignVal x src b hf
  | assignValThrow x src => exact .assignValThrow x src (ht rfl)
  | swap x y b c hb hc => exact .swap x y b c hb hc
  | destroy x => exact .destroy x
  | get x b hb => exact .get x b hb
  | getKey x b hb => exact .getKey x b hb
  | eq x y b c hb hc =>
    have : (b.addr == c.addr) = S.keq b.key c.key := by
      rw [Bool.eq_iff_iff, beq_iff_eq]
      refine ⟨fun e => ?_, fun e => by rw [h2.key b (h2.bound hb) c (h2.bound hc) e]⟩
      rw [h2.addr b (h2.bound hb) c (h2.bound hc) e]
      exact S.LS.refl _
    rw [this]
    exact .eq x y b c hb hc
  | hash x b hb => exact .hash x b hb

theorem Engine.fly_sound (S : Setup K V Rep F) (hp : Nat → Nat) (fl : Nat → Bool) :
    (Engine.fly S hp).Sound (S.cfg hp (∃ n, fl n = true)) fun s w => Client.View S fl w s where
  step := by
    rintro o s w ⟨t, h1, h2, h3, h4⟩
    have h4 : AreVars t.vars w := h4
    have hn : t.vars.map Prod.fst = s.objs.map Prod.fst := h1.rel.vars.names
    cases hv : o.valid S.sp (s.objs.map Prod.fst) with
    | false =>
      have hk := act_skip (C := S.cfg hp (∃ n, fl n = true)) h4 (by rw [hn]; exact hv) none false
      refine ⟨.skipped, s, none, false, by simp [Engine.fly, hv], ⟨?_, ?_⟩, by rw [hk], ?_⟩
      · rw [hk]; intro h; cases h
      · rw [hk]; intro h; cases h
      · rw [hk]; exact ⟨t, h1, h2, h3, h4⟩
    | true =>
      have hv' : o.valid S.sp t.names = true := by unfold SSt.names; rw [hn]; exact hv
      have := Setup.step_sim h1 hp hv' s rfl
      cases hm : Core.step S.P S.Fa S.trk hp o s with
      | ok out s' =>
        rw [hm] at this
        obtain ⟨hne, t', g1, g2⟩ := this
        have hV := vstep_of_sstep (fl := fl) h2 h3 h4 hv' g1 fun e => absurd e hne
        obtain ⟨b, fail, ha, e1, e2⟩ := hV.act h4 hv'
        exact ⟨out, s', b, fail, by simp [Engine.fly, hv, hm], ha, e1, t', g2, g1.ok S.LS h2 hv', h3.step hv' g1, e2⟩
      | exc s' =>
        rw [hm] at this
        obtain ⟨g1, g2, g3⟩ := this
        have hV := vstep_of_sstep (fl := fl) h2 h3 h4 hv' g1 fun _ => g3
        obtain ⟨b, fail, ha, e1, e2⟩ := hV.act h4 hv'
        exact ⟨.threw, s', b, fail, by simp [Engine.fly, hv, hm], ha, e1, t, g2, h2, h3, e2⟩
      | ub => rw [hm] at this; exact this.elim
  user := by
    rintro s w ⟨t, h1, h2, h3, h4⟩
    have e : ((Engine.fly S hp).user s).2 = Operators.ticked s ∧ ((Engine.fly S hp).user s).1 = s.env.faults s.env.tick := by
      by_cases h : s.env.faults s.env.tick = true <;> simp [Engine.fly, Core.env, mayThrow, h, Operators.ticked]
    rw [e.1, e.2]
    exact ⟨fun h => ⟨_, by rw [← h1.faults]; exact h⟩, t, h1.setTick _, h2, h3, h4⟩

end

/-! ## `concurrent_factory` -/

section
variable {K V Rep : Type}

/-- The garbage collector looks at these elements, one after the other, /repo/include/boost/flyweight/concurrent_factory.hpp:128. -/
def CFSeq.collects (P : Policy K V Rep) : List Nat → CFSeq.St Rep → Res (CFSeq.St Rep) Unit
  | [], s => .ok () s
  | i :: l, s =>
    match CFSeq.collect P i s with
    | .ok _ s' => collects P l s'
    | .exc s' => .exc s'
    | .ub => .ub

/-- The operations on flyweights with `concurrent_factory`; before the `n`-th one the garbage collector looks at the elements `gc n`,
/repo/include/boost/flyweight/concurrent_factory.hpp:116-130.  (The user's program and the scheduler, no code of the library.) -/
def Engine.cf (P : Policy K V Rep) (keq : K → K → Bool) (trk : Tracking) (sp : SrcSpec K V) (hp : Nat → Nat) (gc : Nat → List Nat) : Engine K V where
  σ := CFSeq.St Rep × Nat
  step o p :=
    match CFSeq.collects P (gc p.2) p.1 with
    | .ok _ s =>
      if o.valid sp (s.objs.map Prod.fst) then
        match CFSeq.step P keq trk hp o s with
        | .ok out s' => some (out, s', p.2 + 1)
        | .exc s' => some (.threw, s', p.2 + 1)
        | .ub => none
      else some (.skipped, s, p.2 + 1)
    | _ => none
  user p := match (CFSeq.env mayThrow : M (CFSeq.St Rep) Unit) p.1 with
    | .ok _ s' => (false, s', p.2)
    | .exc s' => (true, s', p.2)
    | .ub => (false, p)

variable {P : Policy K V Rep} {sp : SrcSpec K V} {keq : K → K → Bool} {L : P.Lawful sp}

/-- The state is sound and its variables are those of `w`.  (No code of its own: used in statements and proofs.) -/
def CFSeq.View (X : L.Leaves) (keq : K → K → Bool) (fl : Nat → Bool) (w : Store K V) (s : CFSeq.St Rep) : Prop :=
  ∃ t, CFSeq.Rel X keq CFSeq.zero s t ∧ CFSpec.Ok keq sp t ∧ s.env.faults = fl ∧ AreVars t.vars w

variable {X : L.Leaves} {fl : Nat → Bool} {hp : Nat → Nat} {w : Store K V} {s s' : CFSeq.St Rep}

theorem CFSeq.View.collect (h : CFSeq.View X keq fl w s) (i : Nat) : ∃ s', CFSeq.collect P i s = .ok () s' ∧ CFSeq.View X keq fl w s' := by
  obtain ⟨t, h1, h2, h3, h4⟩ := h
  obtain ⟨s', e, hw⟩ := CFSeq.collect_ok h1.inv h1.bal i
  obtain ⟨t', hC, hR'⟩ := h1.swept (q := fun n => !([i].contains n.id && n.cnt == 0)) (fun n _ h0 => by simp [h0]) hw.cont hw.inv hw.bal hw.objs
  exact ⟨s', e, t', hR', h2.collect hC, hw.faults.trans h3, by rw [hC.vars]; exact h4⟩

theorem CFSeq.View.collects (l : List Nat) : ∀ {s : CFSeq.St Rep}, CFSeq.View X keq fl w s →
    ∃ s', CFSeq.collects P l s = .ok () s' ∧ CFSeq.View X keq fl w s' := by
  induction l with
  | nil => exact fun {s} h => ⟨s, rfl, h⟩
  | cons i l ih =>
    intro s h
    obtain ⟨s1, e1, h1⟩ := h.collect i
    obtain ⟨s2, e2, h2⟩ := ih h1
    refine ⟨s2, ?_, h2⟩
    simp only [CFSeq.collects, e1, e2]

theorem CFSeq.View.sees (h : CFSeq.View X keq fl w s) (x : Nat) (b : Bind K V) : CFSeq.Sees P s x b ↔ w x = some b := by
  obtain ⟨t, h1, _, _, h4⟩ := h
  rw [h1.sees, h4]

/-- Every state a program reaches has a view. -/
theorem CFSeq.View.of_reach {trk : Tracking} (X : L.Leaves) (LS : sp.Lawful keq) (h : CFSeq.Reach P keq trk sp s) :
    ∃ w, CFSeq.View X keq s.env.faults w s := by
  obtain ⟨t, h1, h2⟩ := h.rel X LS
  exact ⟨_, t, h1, h2, rfl, .of_nodup h2.nodup⟩

theorem cf_fits (LS : sp.Lawful keq) (X : L.Leaves) {t : CFSpec.LSt K V} {src : Src K V} {b : Bind K V} {pool' : Bind K V → Prop}
    (h2 : CFSpec.Ok keq sp t) (h4 : AreVars t.vars w) (hs : sp.supports src = true) (hc : CFSpec.Create keq sp t src b pool') :
    Fits ⟨keq, sp, hp, ∃ n, fl n = true⟩ w src b := by
  obtain ⟨g1, g2, g3⟩ := h2.create LS X.supports X.key0 hs hc t.left
  refine ⟨g2, g3.made b g1, fun y c hy => ?_, fun y c hy e => ?_⟩
  · have hc := g3.bound y c ((h4 y c).2 hy)
    refine ⟨fun e => ?_, fun e => by rw [g3.keys c b hc g1 e]⟩
    rw [g3.addrs c b hc g1 e]
    exact LS.refl _
  · exact g3.addrs c b (g3.bound y c ((h4 y c).2 hy)) g1 e

theorem vstep_of_cfstep (LS : sp.Lawful keq) (X : L.Leaves) {t t' : CFSpec.LSt K V} {o : Op K V} {out : Out K V} (h2 : CFSpec.Ok keq sp t)
    (h4 : AreVars t.vars w) (hv : o.valid sp (t.vars.map Prod.fst) = true) (hs : CFSpec.Step keq sp hp t o out t')
    (ht : out = .threw → ∃ n, fl n = true) : VStep ⟨keq, sp, hp, ∃ n, fl n = true⟩ w t.vars o out t'.vars := by
  cases hs with
  | init => exact .init
  | make x src b pool' left' hc _ =>
    simp [Op.valid] at hv
    exact .make x src b (cf_fits LS X h2 h4 hv.2 hc)
  | makeThrow x src => exact .makeThrow x src (ht rfl)
  | copy x y b hb => exact .copy x y b hb
  | move x y b hb => exact .move x y b hb
  | assign x y b hb => exact .assign x y b hb
  | assignVal x src b pool' left' hc _ =>
    simp [Op.valid] at hv
    exact .assignVal x src b (cf_fits LS X h2 h4 hv.2 hc)
  | assignValThrow x src => exact .assignValThrow x src (ht rfl)
  | swap x y b c hb hc => exact .swap x y b c hb hc
  | destroy x => exact .destroy x
  | get x b hb => exact .get x b hb
  | getKey x b hb => exact .getKey x b hb
  | eq x y b c hb hc =>
    have hb' := h2.bound x b hb
    have hc' := h2.bound y c hc
    have : (b.addr == c.addr) = keq b.key c.key := by
      rw [Bool.eq_iff_iff, beq_iff_eq]
      refine ⟨fun e => ?_, fun e => by rw [h2.keys b c hb' hc' e]⟩
      rw [h2.addrs b c hb' hc' e]
      exact LS.refl _
    rw [this]
    exact .eq x y b c hb hc
  | hash x b hb => exact .hash x b hb

theorem cf_not_threw {trk : Tracking} {o : Op K V} {out : Out K V} (h : CFSeq.step P keq trk hp o s = .ok out s') : out ≠ .threw := by
  have aux : ∀ {α : Type} (m : M (CFSeq.St Rep) α) (f : α → Out K V), (∀ a, f a ≠ .threw) → (m >>= fun a => pure (f a)) s = .ok out s' →
      out ≠ .threw := by
    intro α m f hf h
    cases hm : m s with
    | ok a s1 => simp only [bind, M.bind, hm, pure, M.ret, Res.ok.injEq] at h; rw [← h.1]; exact hf _
    | exc s1 => simp only [bind, M.bind, hm] at h; cases h
    | ub => simp only [bind, M.bind, hm] at h; cases h
  cases o with
  | get x => exact aux (CFSeq.get P x) (fun a => .val a.1 a.2) (fun _ => nofun) h
  | getKey x => exact aux (CFSeq.getKey P x) .key (fun _ => nofun) h
  | eq x y => exact aux (CFSeq.eq P x y) .bool (fun _ => nofun) h
  | hash x => exact aux (CFSeq.hash P hp x) .num (fun _ => nofun) h
  | init => exact aux CFSeq.init (fun _ => .done) (fun _ => nofun) h
  | make x src => exact aux (CFSeq.make P keq trk x src) (fun _ => .done) (fun _ => nofun) h
  | copy x y => exact aux (CFSeq.copy trk x y) (fun _ => .done) (fun _ => nofun) h
  | move x y => exact aux (CFSeq.copy trk x y) (fun _ => .done) (fun _ => nofun) h
  | assign x y => exact aux (CFSeq.assign trk x y) (fun _ => .done) (fun _ => nofun) h
  | assignVal x src => exact aux (CFSeq.assignVal P keq trk x src) (fun _ => .done) (fun _ => nofun) h
  | swap x y => exact aux (CFSeq.swap x y) (fun _ => .done) (fun _ => nofun) h
  | destroy x => exact aux (CFSeq.destroy trk x) (fun _ => .done) (fun _ => nofun) h

theorem Engine.cf_sound (LS : sp.Lawful keq) (X : L.Leaves) (trk : Tracking) (hp : Nat → Nat) (gc : Nat → List Nat) (fl : Nat → Bool) :
    (Engine.cf P keq trk sp hp gc).Sound ⟨keq, sp, hp, ∃ n, fl n = true⟩ fun p w => CFSeq.View X keq fl w p.1 where
  step := by
    rintro o ⟨s0, n⟩ w h0
    obtain ⟨s, e0, t, h1, h2, h3, h4⟩ := CFSeq.View.collects (gc n) h0
    have hn : t.vars.map Prod.fst = s.objs.map Prod.fst := h1.vars.names
    cases hv : o.valid sp (s.objs.map Prod.fst) with
    | false =>
      have hk := act_skip (C := ⟨keq, sp, hp, ∃ n, fl n = true⟩) h4 (by rw [hn]; exact hv) none false
      refine ⟨.skipped, (s, n + 1), none, false, by simp [Engine.cf, show CFSeq.collects P (gc n) s0 = .ok () s from e0, hv], ⟨?_, ?_⟩, by rw [hk], ?_⟩
      · rw [hk]; intro h; cases h
      · rw [hk]; intro h; cases h
      · rw [hk]; exact ⟨t, h1, h2, h3, h4⟩
    | true =>
      have hv' : o.valid sp (t.vars.map Prod.fst) = true := by rw [hn]; exact hv
      have := CFSeq.step_sim LS trk hp h1 hv' s rfl
      cases hm : CFSeq.step P keq trk hp o s with
      | ok out s' =>
        rw [hm] at this
        obtain ⟨⟨t', g1, g2⟩, g3⟩ := this
        have hV := vstep_of_cfstep (fl := fl) LS X h2 h4 hv' g1 fun e => absurd e (cf_not_threw hm)
        obtain ⟨b, fail, ha, e1, e2⟩ := hV.act h4 hv'
        exact ⟨out, (s', n + 1), b, fail, by simp [Engine.cf, show CFSeq.collects P (gc n) s0 = .ok () s from e0, hv, hm], ha, e1, t', g2, h2.step LS X.supports X.key0 hv' g1, g3.trans h3, e2⟩
      | exc s' =>
        rw [hm] at this
        obtain ⟨⟨⟨t', g1, g2⟩, g3⟩, g4, _⟩ := this
        have hV := vstep_of_cfstep (fl := fl) LS X h2 h4 hv' g1 fun _ => by rw [← h3]; exact g4
        obtain ⟨b, fail, ha, e1, e2⟩ := hV.act h4 hv'
        exact ⟨.threw, (s', n + 1), b, fail, by simp [Engine.cf, show CFSeq.collects P (gc n) s0 = .ok () s from e0, hv, hm], ha, e1, t', g2, h2.step LS X.supports X.key0 hv' g1, g3.trans h3, e2⟩
      | ub => rw [hm] at this; exact this.elim
  user := by
    rintro ⟨s, n⟩ w ⟨t, h1, h2, h3, h4⟩
    have e : ((Engine.cf P keq trk sp hp gc).user (s, n)).2 = ({ s with env := { s.env with tick := s.env.tick + 1 } }, n) ∧
        ((Engine.cf P keq trk sp hp gc).user (s, n)).1 = s.env.faults s.env.tick := by
      by_cases h : s.env.faults s.env.tick = true <;> simp [Engine.cf, CFSeq.env, mayThrow, h]
    rw [e.1, e.2]
    refine ⟨fun h => ⟨_, by rw [← h3]; exact h⟩, t, ?_, h2, h3, h4⟩
    exact ⟨⟨h1.inv.alloc, h1.inv.ids, h1.inv.addrs, h1.inv.lt, h1.inv.good, h1.inv.keys, h1.inv.cnt, h1.inv.objs, h1.inv.ext, h1.inv.ini, h1.inv.names⟩,
      ⟨h1.bal.keys, h1.bal.vals⟩, h1.vars, h1.pool, h1.left⟩

end
end Verif

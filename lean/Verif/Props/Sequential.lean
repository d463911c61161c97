import Verif.ExplainLinger
import Verif.Props.Linear
import Verif.Props.Plain
import Verif.Props.Linger

/-!
# Concurrent executions are explained by sequential programs (C59)

The specification of flyweights used by one thread, `Verif.SRun` (which the code refines if used by one thread: C01), also
tells what several threads see: the calls of all threads, put in the order in which they take effect, are a sequential
program.
-/

set_option autoImplicit false

namespace Verif.Props
open Verif.Conc (Fw Act Cfg CfgOk)
open Verif.Explain
variable {K : Type}

/-- References inside stored values.  (No code of its own: used to state a property or an example.) -/
def inside (ents : Nat → Option (Conc.Ent K)) (ids : List Nat) : List Nat :=
  ids.flatMap fun i => match ents i with
    | some x => x.kids.map Fw.h
    | none => []

/-- The variables of the sequential program are the flyweights of the concurrent one.  (No code of its own: used to state a property
or an example.) -/
structure Same (s : Conc.St K) (t : SSt (Nat × K) (Atomic.Val K)) : Prop where
  /-- for each object there is a variable bound to the value it refers to: reading yields the same ... -/
  objs : ∀ w ∈ s.objs, ∃ x e, s.ents w.h = some e ∧ e.cted = true ∧ (x, ⟨w.h, (e.core, e.key), ⟨e.core, e.key, e.kids⟩⟩) ∈ t.vars
  /-- ... and there are as many variables, at least ... -/
  enough : ∀ h, (s.objs.map Fw.h).count h ≤ (t.vars.map fun p => p.2.addr).count h
  /-- ... which are bound to values that are stored and complete ... -/
  stored : ∀ p ∈ t.vars, ∃ e, s.ents p.2.addr = some e ∧ e.cted = true ∧ p.2 = ⟨p.2.addr, (e.core, e.key), ⟨e.core, e.key, e.kids⟩⟩
  /-- ... and if no thread is in the library the others are for the flyweights inside values -/
  quiet : (∀ st ∈ s.thr, st = []) → ∃ ids : List Nat, ids.Nodup ∧ (∀ i, i ∈ ids ↔ (s.ents i).isSome) ∧
    ∀ h, (t.vars.map fun p => p.2.addr).count h = (s.objs.map Fw.h).count h + (inside s.ents ids).count h

theorem same_of {cfg : Cfg K} {s : Conc.St K} (h : Conc.Inv cfg s) {t : SSt (Nat × K) (Atomic.Val K)}
    (hE : Explains (Conc.abs s) t) : Same s t := by
  have hA := agree_abs h
  obtain ⟨ids, hn, hids, hT⟩ := hE
  have hle : ∀ j, (s.objs.map Fw.h).count j ≤ (t.vars.map fun p => p.2.addr).count j := by
    intro j
    have := hT.count j
    unfold bound total at this
    have ho : (Conc.abs s).objs = s.objs := rfl
    rw [ho] at this
    omega
  refine ⟨fun w hw => ?_, hle, fun p hp => ?_, fun hq => ⟨ids, hn, fun i => ?_, fun j => ?_⟩⟩
  · obtain ⟨v, hv⟩ := hA.values w hw
    obtain ⟨e, he, hc, hve⟩ := hA.stored _ v hv
    have hpos : 0 < total (Conc.abs s) ids w.h := (total_pos hids w.h).2 (.inl ⟨w, hw, rfl⟩)
    obtain ⟨x, u, hx, hu⟩ := hT.some_var hpos
    rw [hv] at hu
    cases hu
    subst hve
    exact ⟨x, e, he, hc, hx⟩
  · obtain ⟨v, hv, hb⟩ := hT.vars p hp
    obtain ⟨e, he, hc, rfl⟩ := hA.stored _ v hv
    exact ⟨e, he, hc, hb⟩
  · rw [hids, ← hA.quiet hq i]
    cases s.ents i <;> simp
  · have := hT.count j
    unfold bound at this
    rw [this]
    unfold total inside
    have h1 : (Conc.abs s).thr.flatMap (fun st => st.flatMap Atomic.Call.refs) = [] := by
      rw [List.flatMap_eq_nil_iff]
      intro st hst
      obtain ⟨st', hst', rfl⟩ := List.mem_map.1 hst
      rw [hq st' hst']
      rfl
    have h2 : kidsOf (Conc.abs s).vals = fun i => match s.ents i with | some x => x.kids.map Fw.h | none => [] := by
      funext i
      unfold kidsOf
      rw [← hA.quiet hq i]
      cases s.ents i <;> rfl
    rw [h1, h2]
    rfl

/-- **C59.**  Step by step: whatever a thread does next, either the sequential program does nothing, being a step inside
the library; or it does what the step stands for (`Effect`): one operation when a call takes effect or a flyweight is
copied, else none.  No operation of the sequential program fails, and its variables are always the flyweights of the
concurrent one. -/
theorem C59_steps {cfg : Cfg K} (h : Std cfg) (hp : Nat → Nat) :
    ∃ R : Conc.St K → Atomic.St K → SSt (Nat × K) (Atomic.Val K) → Prop,
      (∀ n, R (Conc.start n) (Atomic.start n) SSt.start) ∧
      (∀ s a t, R s a t → Agree s a ∧ Same s t) ∧
      ∀ s a t i act s', R s a t → Conc.step cfg s i act = .ok s' →
        (act = .run ∧ R s' a t) ∨
        ∃ a' ops outs t', Atomic.Step cfg.eqv a i act a' ∧ SRun .refcounted (keq cfg.eqv) sp hp t ops outs t' ∧ (∀ o ∈ outs, o = .done) ∧
          Effect a a' i t t' act ops ∧ R s' a' t' := by
  refine ⟨fun s a t => Conc.Inv cfg s ∧ Conc.Fit s ∧ a = Conc.abs s ∧ Explains a t,
    fun n => ⟨Conc.start_inv n, Conc.start_fit n, (Conc.start_abs n).symm, .start n⟩, ?_, ?_⟩
  · rintro s a t ⟨h1, _, rfl, h2⟩
    exact ⟨agree_abs h1, same_of h1 h2⟩
  · rintro s a t i act s' ⟨h1, h2, rfl, h3⟩ hs
    obtain ⟨h4, h5, h6 | h6⟩ := Conc.step_sim h.toCfgOk h.locking h.deleter h1 h2 hs
    · exact Or.inl ⟨h6.2, h4, h5, h6.1.symm, h3⟩
    · obtain ⟨ops, outs, t', h7, h8, h9, h10⟩ := h3.step hp h6
      exact Or.inr ⟨_, ops, outs, t', h6, h7, h8, h10, h4, h5, rfl, h9⟩

/-- For whole executions: there is a sequential program, all operations of which succeed, that ends with the same
flyweights. -/
theorem C59_executions {cfg : Cfg K} (h : Std cfg) (hp : Nat → Nat) {n : Nat} {acts : List (Nat × Act K)} {s : Conc.St K}
    (hs : Conc.exec cfg acts (Conc.start n) = .ok s) :
    ∃ ops outs t, SRun .refcounted (keq cfg.eqv) sp hp SSt.start ops outs t ∧ (∀ o ∈ outs, o = .done) ∧ ops.length ≤ acts.length ∧
      Same s t := by
  obtain ⟨R, h1, h2, h3⟩ := C59_steps h hp
  have key : ∀ acts s0 a0 t0, R s0 a0 t0 → Conc.exec cfg acts s0 = .ok s → ∃ ops outs a t,
      SRun .refcounted (keq cfg.eqv) sp hp t0 ops outs t ∧ (∀ o ∈ outs, o = .done) ∧ ops.length ≤ acts.length ∧ R s a t := by
    intro acts
    induction acts with
    | nil =>
      intro s0 a0 t0 hR he
      cases he
      exact ⟨[], [], a0, t0, .nil _, (fun o h => by cases h), Nat.le_refl _, hR⟩
    | cons p acts ih =>
      obtain ⟨i, act⟩ := p
      intro s0 a0 t0 hR he
      unfold Conc.exec at he
      cases hst : Conc.step cfg s0 i act with
      | ok s1 =>
        rw [hst] at he
        rcases h3 _ _ _ _ _ _ hR hst with ⟨_, hR'⟩ | ⟨a1, ops1, outs1, t1, _, hrun, hd, hef, hR'⟩
        · obtain ⟨ops, outs, a, t, h4, h5, h6, h7⟩ := ih s1 a0 t0 hR' he
          exact ⟨ops, outs, a, t, h4, h5, Nat.le_succ_of_le h6, h7⟩
        · obtain ⟨ops, outs, a, t, h4, h5, h6, h7⟩ := ih s1 a1 t1 hR' he
          refine ⟨ops1 ++ ops, outs1 ++ outs, a, t, run_append hrun h4, fun o ho => ?_, ?_, h7⟩
          · rcases List.mem_append.1 ho with ho | ho
            · exact hd o ho
            · exact h5 o ho
          · have : ops1.length ≤ 1 := by cases hef <;> simp
            simp only [List.length_append, List.length_cons]
            omega
      | no =>
        rw [hst] at he
        obtain ⟨ops, outs, a, t, h4, h5, h6, h7⟩ := ih s0 a0 t0 hR he
        exact ⟨ops, outs, a, t, h4, h5, Nat.le_succ_of_le h6, h7⟩
      | ub => rw [hst] at he; cases he
      | reentrant => rw [hst] at he; cases he
  obtain ⟨ops, outs, a, t, h4, h5, h6, h7⟩ := key acts _ _ _ (h1 n) hs
  exact ⟨ops, outs, t, h4, h5, h6, (h2 _ _ _ h7).2⟩

/-- The schedule `race`: at the end there are two flyweights sharing a value, and so there are in the
sequential program, which sees the same address and value through both. -/
example : ∃ s ops outs t, Conc.exec sampleCfg race (Conc.start 3) = .ok s ∧
    SRun .refcounted (keq sampleCfg.eqv) sp id SSt.start ops outs t ∧ 2 ≤ (t.vars.map fun p => p.2.addr).count 0 := by
  have h1 : (match Conc.exec sampleCfg race (Conc.start 3) with | .ok s => s.objs.map Fw.h | _ => []) = [0, 0] := by decide
  cases he : Conc.exec sampleCfg race (Conc.start 3) with
  | ok s =>
    rw [he] at h1
    obtain ⟨ops, outs, t, h2, _, _, h3⟩ := C59_executions sampleStd id he
    refine ⟨s, ops, outs, t, rfl, h2, ?_⟩
    have := h3.enough 0
    have h1 : s.objs.map Fw.h = [0, 0] := h1
    rw [h1] at this
    exact this
  | _ => rw [he] at h1; cases h1

/-- What a thread sees when it reads two flyweights that it compares is what the sequential program would see: the addresses and
the values. -/
theorem C59_reads {cfg : Cfg K} {s : Conc.St K} {t : SSt (Nat × K) (Atomic.Val K)} (hp : Nat → Nat) (h : Same s t) {v w : Fw K}
    (hv : v ∈ s.objs) (hw : w ∈ s.objs) :
    ∃ x y e f, s.ents v.h = some e ∧ s.ents w.h = some f ∧
      SRun .refcounted (keq cfg.eqv) sp hp t [.get x, .getKey x, .get y, .eq x y]
        [.val v.h ⟨e.core, e.key, e.kids⟩, .key (e.core, e.key), .val w.h ⟨f.core, f.key, f.kids⟩, .bool (v.h == w.h)] t := by
  obtain ⟨x, e, he, _, hx⟩ := h.objs v hv
  obtain ⟨y, f, hf, _, hy⟩ := h.objs w hw
  have hxn : x ∈ t.names := List.mem_map.2 ⟨_, hx, rfl⟩
  have hyn : y ∈ t.names := List.mem_map.2 ⟨_, hy, rfl⟩
  refine ⟨x, y, e, f, he, hf, ?_⟩
  refine .step (by simp [Op.valid, hxn]) (.get t x _ hx) (.step (by simp [Op.valid, hxn]) (.getKey t x _ hx) (.step (by simp [Op.valid, hyn])
    (.get t y _ hy) (.step (by simp [Op.valid, hxn, hyn]) (.eq t x y _ _ hx hy) (.nil t))))

example : ∃ s t x y e f, Conc.exec sampleCfg race (Conc.start 3) = .ok s ∧ SRun .refcounted (keq sampleCfg.eqv) sp id t
    [.get x, .getKey x, .get y, .eq x y] [.val 0 e, .key (e.core, e.key), .val 0 f, .bool true] t := by
  have h1 : (match Conc.exec sampleCfg race (Conc.start 3) with | .ok s => s.objs | _ => []) = [⟨0, 0, 5⟩, ⟨0, 0, 5⟩] := by decide
  cases he : Conc.exec sampleCfg race (Conc.start 3) with
  | ok s =>
    rw [he] at h1
    have h1 : s.objs = [⟨0, 0, 5⟩, ⟨0, 0, 5⟩] := h1
    obtain ⟨ops, outs, t, _, _, _, h3⟩ := C59_executions sampleStd id he
    obtain ⟨x, y, e, f, _, _, h4⟩ := C59_reads (cfg := sampleCfg) id h3 (v := ⟨0, 0, 5⟩) (w := ⟨0, 0, 5⟩) (by rw [h1]; simp) (by rw [h1]; simp)
    exact ⟨s, t, x, y, _, _, rfl, h4⟩
  | _ => rw [he] at h1; cases h1

/-! ## Without tracking -/

/-- The same without tracking; values are those ever constructed.  (No code of its own: used to state a property or an example.) -/
structure SameP (s : Plain.St K) (t : SSt (Nat × K) (Atomic.Val K)) : Prop where
  objs : ∀ w ∈ s.objs, ∃ x e, s.ents w.h = some e ∧ e.cted = true ∧ (x, ⟨w.h, (e.core, e.key), ⟨e.core, e.key, e.kids⟩⟩) ∈ t.vars
  enough : ∀ h, (s.objs.map Fw.h).count h ≤ (t.vars.map fun p => p.2.addr).count h
  values : ∀ b, b ∈ t.kept ↔ ∃ e, s.ents b.addr = some e ∧ e.cted = true ∧ b = ⟨b.addr, (e.core, e.key), ⟨e.core, e.key, e.kids⟩⟩

theorem sameP_of {cfg : Cfg K} {s : Plain.St K} (hi : Plain.Inv cfg s) {t : SSt (Nat × K) (Atomic.Val K)}
    (hE : Explains' (Plain.abs s) t) : SameP s t := by
  obtain ⟨ids, hn, hids, hT⟩ := hE
  refine ⟨fun w hw => ?_, fun j => ?_, fun b => ?_⟩
  · obtain ⟨e, he, hc, _⟩ := hi.core.objsOk w hw
    have hpos : 0 < total (Plain.abs s) ids w.h := (total_pos hids w.h).2 (.inl ⟨w, hw, rfl⟩)
    obtain ⟨x, u, hx, hu⟩ := hT.some_var hpos
    have hv : (Plain.abs s).vals w.h = some ⟨e.core, e.key, e.kids⟩ := Plain.absV_some he hc
    rw [hv] at hu
    cases hu
    exact ⟨x, e, he, hc, hx⟩
  · have := hT.count j
    unfold bound total at this
    have ho : (Plain.abs s).objs = s.objs := rfl
    rw [ho] at this
    omega
  · constructor
    · intro hb
      obtain ⟨v, hv, hbe⟩ := hT.only b hb
      obtain ⟨e, he, hc, rfl⟩ := Plain.of_absV hv
      exact ⟨e, he, hc, hbe⟩
    · rintro ⟨e, he, hc, hb⟩
      rw [hb]
      exact hT.pool _ _ (Plain.absV_some he hc)

/-- Without tracking, step by step. -/
theorem C59_plain_steps {cfg : Cfg K} (h : CfgOk cfg) (hl : cfg.locking = true) (hp : Nat → Nat) :
    ∃ R : Plain.St K → Atomic.St K → SSt (Nat × K) (Atomic.Val K) → Prop,
      (∀ n, R (Plain.start n) (Atomic.start n) SSt.start) ∧
      (∀ s a t, R s a t → AgreeP s a ∧ SameP s t) ∧
      ∀ s a t i act s', R s a t → Plain.step cfg s i act = .ok s' →
        (act = .run ∧ R s' a t) ∨
        ∃ a' ops outs t', Lasting.Step cfg.eqv a i act a' ∧ SRun .noTracking (keq cfg.eqv) sp hp t ops outs t' ∧ (∀ o ∈ outs, o = .done) ∧
          Effect' a a' i t t' act ops ∧ R s' a' t' := by
  refine ⟨fun s a t => Plain.Inv cfg s ∧ a = Plain.abs s ∧ Explains' a t,
    fun n => ⟨Plain.start_inv n, (Plain.start_abs n).symm, .start n⟩, ?_, ?_⟩
  · rintro s a t ⟨hi, rfl, h2⟩
    refine ⟨⟨rfl, fun e v => ⟨Plain.of_absV, ?_⟩,
      fun t st ht hu => ⟨_, Plain.abs_top ht, Plain.inUser_abs (cfg := cfg) (fun f hf => ?_) hu⟩,
      fun t ht => Plain.abs_top ht⟩, sameP_of hi h2⟩
    · rintro ⟨x, hx, hc, rfl⟩
      exact Plain.absV_some hx hc
    · exact hi.core.frames f (List.mem_flatten.2 ⟨_, List.mem_of_getElem? ht, hf⟩)
  · rintro s a t i act s' ⟨hi, rfl, h3⟩ hs
    have hg := Plain.step_good h hl hi i act
    rw [hs] at hg
    rcases Plain.step_sim hi hs with ⟨h1, h2⟩ | h1
    · exact .inl ⟨h1, hg, h2.symm, h3⟩
    · obtain ⟨ops, outs, t', h7, h8, h9, h10⟩ := h3.step hp h1
      exact .inr ⟨_, ops, outs, t', h1, h7, h8, h10, hg, rfl, h9⟩

/-- Without tracking, for whole executions. -/
theorem C59_plain_executions {cfg : Cfg K} (h : CfgOk cfg) (hl : cfg.locking = true) (hp : Nat → Nat) {n : Nat} {acts : List (Nat × Act K)}
    {s : Plain.St K} (hs : Plain.exec cfg acts (Plain.start n) = .ok s) :
    ∃ ops outs t, SRun .noTracking (keq cfg.eqv) sp hp SSt.start ops outs t ∧ (∀ o ∈ outs, o = .done) ∧ SameP s t := by
  obtain ⟨R, h1, h2, h3⟩ := C59_plain_steps h hl hp
  have key : ∀ acts s0 a0 t0, R s0 a0 t0 → Plain.exec cfg acts s0 = .ok s → ∃ ops outs a t,
      SRun .noTracking (keq cfg.eqv) sp hp t0 ops outs t ∧ (∀ o ∈ outs, o = .done) ∧ R s a t := by
    intro acts
    induction acts with
    | nil =>
      intro s0 a0 t0 hR he
      cases he
      exact ⟨[], [], a0, t0, .nil _, (fun o h => by cases h), hR⟩
    | cons p acts ih =>
      obtain ⟨i, act⟩ := p
      intro s0 a0 t0 hR he
      unfold Plain.exec at he
      cases hst : Plain.step cfg s0 i act with
      | ok s1 =>
        rw [hst] at he
        rcases h3 _ _ _ _ _ _ hR hst with ⟨_, hR'⟩ | ⟨a1, ops1, outs1, t1, _, hrun, hd, _, hR'⟩
        · exact ih s1 a0 t0 hR' he
        · obtain ⟨ops, outs, a, t, h4, h5, h7⟩ := ih s1 a1 t1 hR' he
          refine ⟨ops1 ++ ops, outs1 ++ outs, a, t, run_append hrun h4, fun o ho => ?_, h7⟩
          rcases List.mem_append.1 ho with ho | ho
          · exact hd o ho
          · exact h5 o ho
      | no =>
        rw [hst] at he
        exact ih s0 a0 t0 hR he
      | ub => rw [hst] at he; cases he
      | reentrant => rw [hst] at he; cases he
  obtain ⟨ops, outs, a, t, h4, h5, h7⟩ := key acts _ _ _ (h1 n) hs
  exact ⟨ops, outs, t, h4, h5, (h2 _ _ _ h7).2⟩

/-- The schedule `mixed`: at the end there are flyweights for the values at 0 and 2, and so there are in the sequential program. -/
example : ∃ s ops outs t, Plain.exec sampleCfg mixed (Plain.start 2) = .ok s ∧
    SRun .noTracking (keq sampleCfg.eqv) sp id SSt.start ops outs t ∧ (∃ x b, (x, b) ∈ t.vars ∧ b.addr = 0) ∧
    (∃ x b, (x, b) ∈ t.vars ∧ b.addr = 2) := by
  obtain ⟨s, hs, _, ho⟩ := mixed_ok
  obtain ⟨ops, outs, t, h2, _, h3⟩ := C59_plain_executions sampleStd.toCfgOk rfl id hs
  have key : ∀ h, h ∈ s.objs.map Fw.h → ∃ x b, (x, b) ∈ t.vars ∧ b.addr = h := by
    intro h hh
    obtain ⟨w, hw, rfl⟩ := List.mem_map.1 hh
    obtain ⟨x, e, _, _, hx⟩ := h3.objs w hw
    exact ⟨x, _, hx, rfl⟩
  exact ⟨s, ops, outs, t, hs, h2, key 0 (by rw [ho]; decide), key 2 (by rw [ho]; decide)⟩

/-! ## With `concurrent_factory` -/

/-- References inside stored values.  (No code of its own: used to state a property or an example.) -/
def insideL (ents : Nat → Option (CFac.Ent K)) (ids : List Nat) : List Nat :=
  ids.flatMap fun i => match ents i with
    | some x => x.kids.map Fw.h
    | none => []

/-- The variables of the sequential program are the flyweights of the concurrent one, and one more for each complete value.  (No
code of its own: used to state a property or an example.) -/
structure SameL (s : CFac.St K) (t : SSt (Nat × K) (Atomic.Val K)) : Prop where
  objs : ∀ w ∈ s.objs, ∃ x e, s.ents w.h = some e ∧ e.cted = true ∧ (x, ⟨w.h, (e.core, e.key), ⟨e.core, e.key, e.kids⟩⟩) ∈ t.vars
  enough : ∀ w ∈ s.objs, (s.objs.map Fw.h).count w.h + 1 ≤ (t.vars.map fun p => p.2.addr).count w.h
  /-- variables are bound to values that are stored and complete -/
  stored : ∀ p ∈ t.vars, ∃ e, s.ents p.2.addr = some e ∧ e.cted = true ∧ p.2 = ⟨p.2.addr, (e.core, e.key), ⟨e.core, e.key, e.kids⟩⟩
  quiet : (∀ st ∈ s.thr, st = [] ∨ ∃ c, st = [.gcIdle c]) → ∃ ids : List Nat, ids.Nodup ∧ (∀ i, i ∈ ids ↔ (s.ents i).isSome) ∧
    ∀ h, (t.vars.map fun p => p.2.addr).count h = (s.objs.map Fw.h).count h + (insideL s.ents ids).count h +
      if (s.ents h).any CFac.Ent.cted then 1 else 0

theorem sameL_of {cfg : Cfg K} {s : CFac.St K} (h : CFac.Inv cfg s) {t : SSt (Nat × K) (Atomic.Val K)}
    (hE : ExplainsL (CFac.abs s) t) : SameL s t := by
  have hA := cf_agree_abs h
  obtain ⟨ids, hn, hids, hT⟩ := hE
  have ho : (CFac.abs s).objs = s.objs := rfl
  have hle : ∀ w ∈ s.objs, (s.objs.map Fw.h).count w.h + 1 ≤ (t.vars.map fun p => p.2.addr).count w.h := by
    intro w hw
    have h1 := hT.count w.h
    obtain ⟨v, hv, hf⟩ := hA.values w hw
    have h2 : own (CFac.abs s).vals w.h = 1 := by
      unfold own
      rw [complete_of hv hf]
      rfl
    unfold bound totalL at h1
    rw [ho, h2] at h1
    omega
  refine ⟨fun w hw => ?_, hle, fun p hp => ?_, fun hq => ⟨ids, hn, fun i => ?_, fun j => ?_⟩⟩
  · obtain ⟨v, hv, hf⟩ := hA.values w hw
    obtain ⟨e, he, hve⟩ := hA.stored _ v hv
    have hpos : 0 < totalL (CFac.abs s) ids w.h := by
      rw [← hT.count w.h]
      exact Nat.lt_of_lt_of_le (Nat.succ_pos _) (hle w hw)
    obtain ⟨x, u, hx, hu⟩ := hT.some_var hpos
    rw [complete_of hv hf] at hu
    cases hu
    subst hve
    exact ⟨x, e, he, hf, hx⟩
  · obtain ⟨u, hu, hb⟩ := hT.vars p hp
    obtain ⟨v, hv, hf, rfl⟩ := of_complete hu
    obtain ⟨e, he, rfl⟩ := hA.stored _ v hv
    exact ⟨e, he, hf, hb⟩
  · rw [hids, ← hA.quiet hq i]
    cases s.ents i <;> simp
  · have := hT.count j
    unfold bound at this
    rw [this]
    unfold totalL insideL
    have h1 : (CFac.abs s).thr.flatMap (fun st => st.flatMap refsL) = [] := by
      rw [List.flatMap_eq_nil_iff]
      intro st hst
      obtain ⟨st', hst', rfl⟩ := List.mem_map.1 hst
      rcases hq st' hst' with rfl | ⟨c, rfl⟩ <;> rfl
    have h2 : kidsOfL (CFac.abs s).vals = fun i => match s.ents i with | some x => x.kids.map Fw.h | none => [] := by
      funext i
      unfold kidsOfL
      rw [← hA.quiet hq i]
      cases s.ents i <;> rfl
    have h3 : own (CFac.abs s).vals j = if (s.ents j).any CFac.Ent.cted then 1 else 0 := by
      unfold own complete
      rw [← hA.quiet hq j]
      cases he : s.ents j with
      | none => rfl
      | some x => cases hc : x.cted <;> simp [hc]
    rw [h1, h2, h3]
    rfl

/-- With `concurrent_factory`, step by step. -/
theorem C59_lingering_steps {cfg : Cfg K} (h : CfgOk cfg) (hp : Nat → Nat) :
    ∃ R : CFac.St K → Linger.St K → SSt (Nat × K) (Atomic.Val K) → Prop,
      (∀ n gcs, R (CFac.start n gcs) (Linger.start n gcs) SSt.start) ∧
      (∀ s a t, R s a t → CF.Agree s a ∧ SameL s t) ∧
      ∀ s a t i act s', R s a t → CFac.step cfg s i act = .ok s' →
        ((act = .run ∨ ∃ e, act = .gcVisit e) ∧ R s' a t) ∨
        ∃ a' ops outs t', Linger.Step cfg.eqv a i act a' ∧ SRun .refcounted (keq cfg.eqv) sp hp t ops outs t' ∧ (∀ o ∈ outs, o = .done) ∧
          EffectL a a' i t t' act ops ∧ R s' a' t' := by
  refine ⟨fun s a t => CFac.Inv cfg s ∧ CFac.Nested s ∧ a = CFac.abs s ∧ Linger.Sound cfg.eqv a ∧ ExplainsL a t,
    fun n gcs => ⟨CFac.start_inv n gcs, CFac.start_nested n gcs, (CFac.start_abs n gcs).symm, Linger.start_sound n gcs, .start n gcs⟩, ?_, ?_⟩
  · rintro s a t ⟨hi, _, rfl, _, h2⟩
    exact ⟨cf_agree_abs hi, sameL_of hi h2⟩
  · rintro s a t i act s' ⟨hi, hnest, rfl, hS, h3⟩ hs
    have hi' : CFac.Inv cfg s' := by
      have := CFac.step_good h hi i act
      rwa [hs] at this
    have hnest' := CFac.step_nested hnest hs
    rcases CFac.step_sim hi hnest hs with ⟨h5, h6⟩ | h5
    · refine .inl ⟨?_, hi', hnest', h6.symm, hS, h3⟩
      cases act with
      | run => exact .inl rfl
      | gcVisit e => exact .inr ⟨e, rfl⟩
      | _ => cases h5
    · obtain ⟨ops, outs, t', h7, h8, h9, h10⟩ := h3.step hp hS h5
      exact .inr ⟨_, ops, outs, t', h5, h7, h8, h10, hi', hnest', rfl, hS.step h.refl h.symm h5, h9⟩

/-- With `concurrent_factory`, for whole executions. -/
theorem C59_lingering_executions {cfg : Cfg K} (h : CfgOk cfg) (hp : Nat → Nat) {n : Nat} {gcs : List Nat} {acts : List (Nat × CFac.Act K)}
    {s : CFac.St K} (hs : CFac.exec cfg acts (CFac.start n gcs) = .ok s) :
    ∃ ops outs t, SRun .refcounted (keq cfg.eqv) sp hp SSt.start ops outs t ∧ (∀ o ∈ outs, o = .done) ∧ ops.length ≤ 2 * acts.length ∧
      SameL s t := by
  obtain ⟨R, h1, h2, h3⟩ := C59_lingering_steps h hp
  have key : ∀ acts s0 a0 t0, R s0 a0 t0 → CFac.exec cfg acts s0 = .ok s → ∃ ops outs a t,
      SRun .refcounted (keq cfg.eqv) sp hp t0 ops outs t ∧ (∀ o ∈ outs, o = .done) ∧ ops.length ≤ 2 * acts.length ∧ R s a t := by
    intro acts
    induction acts with
    | nil =>
      intro s0 a0 t0 hR he
      cases he
      exact ⟨[], [], a0, t0, .nil _, (fun o h => by cases h), Nat.le_refl _, hR⟩
    | cons p acts ih =>
      obtain ⟨i, act⟩ := p
      intro s0 a0 t0 hR he
      unfold CFac.exec at he
      cases hst : CFac.step cfg s0 i act with
      | ok s1 =>
        rw [hst] at he
        rcases h3 _ _ _ _ _ _ hR hst with ⟨_, hR'⟩ | ⟨a1, ops1, outs1, t1, _, hrun, hd, hef, hR'⟩
        · obtain ⟨ops, outs, a, t, h4, h5, h6, h7⟩ := ih s1 a0 t0 hR' he
          exact ⟨ops, outs, a, t, h4, h5, by rw [List.length_cons]; omega, h7⟩
        · obtain ⟨ops, outs, a, t, h4, h5, h6, h7⟩ := ih s1 a1 t1 hR' he
          refine ⟨ops1 ++ ops, outs1 ++ outs, a, t, run_append hrun h4, fun o ho => ?_, ?_, h7⟩
          · rcases List.mem_append.1 ho with ho | ho
            · exact hd o ho
            · exact h5 o ho
          · have : ops1.length ≤ 2 := by cases hef <;> simp
            simp only [List.length_append, List.length_cons]
            omega
      | no =>
        rw [hst] at he
        obtain ⟨ops, outs, a, t, h4, h5, h6, h7⟩ := ih s0 a0 t0 hR he
        exact ⟨ops, outs, a, t, h4, h5, by rw [List.length_cons]; omega, h7⟩
      | ub => rw [hst] at he; cases he
      | reentrant => rw [hst] at he; cases he
  obtain ⟨ops, outs, a, t, h4, h5, h6, h7⟩ := key acts _ _ _ (h1 n gcs) hs
  exact ⟨ops, outs, t, h4, h5, h6, (h2 _ _ _ h7).2⟩

/-- The schedule `CF.race`: two flyweights share a value; the sequential program has three. -/
example : ∃ s ops outs t, CFac.exec CF.untracked CF.race (CFac.start 2 [0]) = .ok s ∧
    SRun .refcounted (keq CF.untracked.eqv) sp id SSt.start ops outs t ∧ 3 ≤ (t.vars.map fun p => p.2.addr).count 0 := by
  have h1 : (match CFac.exec CF.untracked CF.race (CFac.start 2 [0]) with | .ok s => s.objs.map Fw.h | _ => []) = [0, 0] := by decide
  cases he : CFac.exec CF.untracked CF.race (CFac.start 2 [0]) with
  | ok s =>
    rw [he] at h1
    have h1 : s.objs.map Fw.h = [0, 0] := h1
    obtain ⟨ops, outs, t, h2, _, _, h3⟩ := C59_lingering_executions CF.untrackedOk id he
    refine ⟨s, ops, outs, t, rfl, h2, ?_⟩
    have hm : (0 : Nat) ∈ s.objs.map Fw.h := by rw [h1]; decide
    obtain ⟨w, hw, hw0⟩ := List.mem_map.1 hm
    have := h3.enough w hw
    rw [hw0, h1] at this
    exact this
  | _ => rw [he] at h1; cases h1

end Verif.Props

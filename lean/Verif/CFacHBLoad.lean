import Verif.CFacHBStep

/-!
# What the collector's load of a count may return

A load of an atomic object need not return its latest value.  It may not return a value that has
been replaced by an operation that happens before the load, though
([intro.races] of the C++ standard, coherence).  Here it is shown that whenever a count has become
positive again, the increment happens before the next operation of the thread that has exclusive
access to the element.
-/

set_option autoImplicit false

namespace Verif.CFac
open HB
open Verif.Conc (Fw Cfg CfgOk pick)
variable {K : Type} {cfg : Cfg K}

theorem libEv_thr (mo : Orders) (s : St K) (nid t : Nat) (f : Frame K) : (libEv cfg mo s nid t f).thr = t := by
  unfold libEv
  cases f <;> try rfl
  dsimp only
  split <;> rfl

theorem label_thr (mo : Orders) (h : HSt K) (t : Nat) (st : List (Frame K)) (a : Act K) :
    (label cfg mo h t st a).1.thr = t := by
  unfold label
  cases a <;> try rfl
  all_goals dsimp only
  all_goals split
  all_goals first
    | rfl
    | exact libEv_thr ..

/-- How a step changes the access to element `e`.  (No code of its own: used in proofs.) -/
structure VisX (s s' : St K) (ev : Event) (e : Nat) : Prop where
  got : ∀ t, s'.vis e = some t → s.vis e = some t ∨ t = ev.thr ∧ .elemX e ∈ ev.acqs
  freed : ∀ t, s'.vis e = some t → .elemX e ∉ ev.rels
  kept : ∀ t, s.vis e = some t → s'.vis e = some t ∨ t = ev.thr ∧ .elemX e ∈ ev.rels

/-- Exclusive access begins with the acquisition of the element and ends with its release. -/
theorem step_vis {h : HSt K} {mo : Orders} {s' : St K} {t : Nat} {st : List (Frame K)} {a : Act K} (hi : Inv cfg h.s)
    (ht : h.s.thr[t]? = some st) (hs : act cfg h.s t st a = .ok s') (e : Nat) :
    VisX h.s s' (label cfg mo h t st a).1 e := by
  have hthr := label_thr (cfg := cfg) mo h t st a
  have same : s'.vis = h.s.vis → .elemX e ∉ (label cfg mo h t st a).1.rels → VisX h.s s' (label cfg mo h t st a).1 e :=
    fun h1 h2 => ⟨fun t' h3 => .inl (by rw [h1] at h3; exact h3), fun _ _ => h2, fun t' h3 => .inl (by rw [h1]; exact h3)⟩
  have take : ∀ i, h.s.vis i = none → s'.vis = setVis h.s.vis i (some t) → .elemX i ∈ (label cfg mo h t st a).1.acqs →
      .elemX e ∉ (label cfg mo h t st a).1.rels → VisX h.s s' (label cfg mo h t st a).1 e := by
    intro i hn h1 h2 h3
    refine ⟨fun t' h4 => ?_, fun _ _ => h3, fun t' h4 => .inl ?_⟩
    · by_cases hne : e = i
      · subst hne
        rw [h1, setVis_same] at h4
        cases h4
        exact .inr ⟨hthr.symm, h2⟩
      · rw [h1, setVis_ne _ _ hne] at h4
        exact .inl h4
    · have hne : e ≠ i := by
        rintro rfl
        rw [hn] at h4
        cases h4
      rw [h1, setVis_ne _ _ hne]
      exact h4
  have drop : ∀ i, h.s.vis i = some t → s'.vis = setVis h.s.vis i none →
      (label cfg mo h t st a).1.rels = [.elemX i] → VisX h.s s' (label cfg mo h t st a).1 e := by
    intro i hn h1 h2
    by_cases hne : e = i
    · subst hne
      refine ⟨fun t' h4 => ?_, fun t' h4 => ?_, fun t' h4 => .inr ?_⟩
      · rw [h1, setVis_same] at h4
        cases h4
      · rw [h1, setVis_same] at h4
        cases h4
      · rw [hn] at h4
        cases h4
        exact ⟨hthr.symm, by rw [h2]; exact List.mem_singleton.2 rfl⟩
    · refine ⟨fun t' h4 => .inl ?_, fun t' h4 => ?_, fun t' h4 => .inl ?_⟩
      · rw [h1, setVis_ne _ _ hne] at h4
        exact h4
      · rw [h2]
        simp [hne]
      · rw [h1, setVis_ne _ _ hne]
        exact h4
  have hlr : ∀ c, .elemX e ∉ lockRel cfg h.s c := by
    intro c hm
    unfold lockRel at hm
    repeat' split at hm
    all_goals simp at hm
  have hrm : ∀ b i, .elemX e ∉ rmw b i := by
    intro b i hm
    cases mem_rmw hm
  have htk : ∀ b i, .elemX e ∉ trk cfg b i := by
    intro b i hm
    cases mem_trk hm
  cases a with
  | run =>
    cases st with
    | nil => cases hs
    | cons f rest =>
      simp only [act] at hs
      unfold lib at hs
      dsimp only at hs
      cases f with
      | insFind c k loc pre =>
        dsimp only at hs
        split at hs
        · cases hs
        · split at hs
          · rename_i hf
            split at hs
            · rename_i hn
              cases hs
              exact take _ hn rfl (by simp [label, libEv, hf]) (by simp [label, libEv, hf])
            · cases hs
          · rename_i hf
            cases hs
            exact take _ (next_free hi) rfl (by simp [label, libEv, hf]) (by simp [label, libEv, hf])
      | insLeave c k i loc =>
        cases hs
        exact drop i (visits hi ht rfl) rfl (by simp [label, libEv])
      | insFail c i loc =>
        cases hs
        exact drop i (visits hi ht rfl) rfl (by simp [label, libEv])
      | gcUnlink c i =>
        dsimp only at hs
        split at hs <;> cases hs
        exact drop i (visits hi ht rfl) rfl (by simp [label, libEv])
      | gcLeave c i =>
        cases hs
        exact drop i (visits hi ht rfl) rfl (by simp [label, libEv])
      | _ =>
        dsimp only at hs
        repeat' split at hs
        all_goals cases hs
        all_goals exact same rfl (by simp [label, libEv, hlr, hrm, htk])
  | gcVisit i =>
    simp only [act] at hs
    split at hs
    · split at hs
      · cases hs
      · split at hs
        · rename_i hn
          cases hs
          exact take _ hn.2.2 rfl (by simp [label]) (by simp [label])
        · cases hs
    · cases hs
  | throw_ =>
    simp only [act] at hs
    repeat' split at hs
    all_goals cases hs
    all_goals exact same rfl (by simp [label])
  | finish m d =>
    simp only [act] at hs
    repeat' split at hs
    all_goals cases hs
    all_goals exact same rfl (by simp [label])
  | _ =>
    simp only [act] at hs
    repeat' split at hs
    all_goals cases hs
    all_goals exact same rfl (by simp [label, hrm, htk])

/-- A count becomes positive only by `add_ref` during a visit. -/
theorem ref_up {s s' : St K} {t : Nat} {st : List (Frame K)} {a : Act K} (hi : Inv cfg s)
    (ht : s.thr[t]? = some st) (hs : act cfg s t st a = .ok s') {e : Nat} {x y : Ent K}
    (hx : s.ents e = some x) (hy : s'.ents e = some y) (h0 : x.ref = 0) (h1 : y.ref ≠ 0) :
    ∃ c k loc rest, a = .run ∧ st = .insAddRef c k e loc :: rest ∧ s'.vis = s.vis ∧ y.ref = 1 := by
  have same : s'.ents = s.ents → ∃ c k loc rest, a = .run ∧ st = .insAddRef c k e loc :: rest ∧ s'.vis = s.vis ∧ y.ref = 1 := by
    intro h
    rw [h, hx] at hy
    cases hy
    exact absurd h0 h1
  have upd : ∀ i o, s'.ents = setEnt s.ents i o →
      (i = e → o = some y → ∃ c k loc rest, a = .run ∧ st = .insAddRef c k e loc :: rest ∧ s'.vis = s.vis ∧ y.ref = 1) →
      ∃ c k loc rest, a = .run ∧ st = .insAddRef c k e loc :: rest ∧ s'.vis = s.vis ∧ y.ref = 1 := by
    intro i o h h2
    by_cases hie : i = e
    · subst hie
      rw [h, setEnt_same] at hy
      exact h2 rfl hy
    · rw [h, setEnt_ne _ _ (Ne.symm hie), hx] at hy
      cases hy
      exact absurd h0 h1
  have chg : ∀ i z z', s.ents i = some z → s'.ents = setEnt s.ents i (some z') → z'.ref = z.ref ∨ z.ref ≠ 0 →
      ∃ c k loc rest, a = .run ∧ st = .insAddRef c k e loc :: rest ∧ s'.vis = s.vis ∧ y.ref = 1 := by
    intro i z z' hz h h2
    refine upd i _ h fun hie ho => ?_
    cases ho
    rw [hie, hx] at hz
    cases hz
    rcases h2 with h2 | h2
    · rw [h2] at h1
      exact absurd h0 h1
    · exact absurd h0 h2
  cases a with
  | run =>
    cases st with
    | nil => cases hs
    | cons f rest =>
      have hmem : f ∈ frames s := List.mem_flatten.2 ⟨_, List.mem_of_getElem? ht, List.mem_cons_self⟩
      simp only [act] at hs
      unfold lib at hs
      dsimp only at hs
      cases f with
      | insFind c k loc pre =>
        dsimp only at hs
        repeat' split at hs
        all_goals cases hs
        · exact same rfl
        · refine upd _ _ rfl fun h => ?_
          have := hi.core.lt_next hx
          omega
      | gcErase c i =>
        dsimp only at hs
        split at hs <;> cases hs
        rename_i z hz
        exact chg _ z _ hz rfl (.inl rfl)
      | gcUnlink c i =>
        dsimp only at hs
        split at hs <;> cases hs
        exact upd _ _ rfl fun _ h => by cases h
      | insDone c k i loc =>
        dsimp only at hs
        split at hs <;> cases hs
        rename_i z hz
        exact chg _ z _ hz rfl (.inl rfl)
      | insAddRef c k i loc =>
        dsimp only at hs
        split at hs <;> cases hs
        rename_i z hz
        refine upd _ _ rfl fun hie ho => ?_
        subst hie
        cases ho
        rw [hx] at hz
        cases hz
        exact ⟨c, k, loc, rest, rfl, rfl, rfl, by dsimp only; omega⟩
      | insTrack c k i =>
        dsimp only at hs
        split at hs <;> cases hs
        rename_i z hz
        exact chg _ z _ hz rfl (.inl rfl)
      | rel w =>
        dsimp only at hs
        split at hs
        · cases hs
        · rename_i z hz
          split at hs <;> cases hs
          · exact chg _ z _ hz rfl (.inl rfl)
          · exact same rfl
      | relDec w =>
        dsimp only at hs
        split at hs <;> cases hs
        rename_i z hz
        have := hi.core.ref_pos_frame hmem (e := w.h) (by simp [refF])
        simp only [refOf, hz] at this
        exact chg _ z _ hz rfl (.inr (by omega))
      | _ =>
        dsimp only at hs
        repeat' split at hs
        all_goals cases hs
        all_goals exact same rfl
  | copy i =>
    simp only [act] at hs
    split at hs
    · split at hs
      · cases hs
      · rename_i w hw
        obtain ⟨z, hz, _, _, _, hp⟩ := hi.core.fw_ent (List.mem_of_getElem? hw)
        rw [hz] at hs
        cases hs
        exact chg _ z _ hz rfl (.inr (by omega))
    · cases hs
  | copyKid i j =>
    simp only [act] at hs
    split at hs
    · split at hs
      · cases hs
      · rename_i w hw
        split at hs
        · cases hs
        · rename_i u hu
          split at hs
          · split at hs
            · cases hs
            · rename_i v hv
              obtain ⟨z, hz, _, _, _, hp⟩ := hi.core.kid_ent hu (List.mem_of_getElem? hv)
              rw [hz] at hs
              cases hs
              exact chg _ z _ hz rfl (.inr (by omega))
          · cases hs
    · cases hs
  | finish mask drop =>
    simp only [act] at hs
    split at hs
    · split at hs
      · cases hs
      · rename_i z hz
        split at hs <;> cases hs
        exact chg _ z _ hz rfl (.inl rfl)
    · cases hs
  | _ =>
    simp only [act] at hs
    repeat' split at hs
    all_goals cases hs
    all_goals exact same rfl

theorem next_mono {s s' : St K} {t : Nat} {st : List (Frame K)} {a : Act K} (hs : act cfg s t st a = .ok s') :
    s.next ≤ s'.next := by
  cases a with
  | run =>
    cases st with
    | nil => cases hs
    | cons f rest =>
      simp only [act] at hs
      unfold lib at hs
      dsimp only at hs
      cases f <;> dsimp only at hs <;> (repeat' split at hs) <;> cases hs <;> first
        | exact Nat.le_refl _
        | exact Nat.le_succ _
  | _ =>
    simp only [act] at hs
    repeat' split at hs
    all_goals cases hs
    all_goals exact Nat.le_refl _

/-- Entries are not made again under the same identity. -/
theorem ent_old {s s' : St K} {t : Nat} {st : List (Frame K)} {a : Act K}
    (hs : act cfg s t st a = .ok s') {e : Nat} (hlt : e < s.next) (hx : s.ents e = none) : s'.ents e = none := by
  have chg : ∀ i z z', s.ents i = some z → s'.ents = setEnt s.ents i z' → s'.ents e = none := by
    intro i z z' hz h
    have hne : e ≠ i := by
      rintro rfl
      rw [hx] at hz
      cases hz
    rw [h, setEnt_ne _ _ hne, hx]
  cases a with
  | run =>
    cases st with
    | nil => cases hs
    | cons f rest =>
      simp only [act] at hs
      unfold lib at hs
      dsimp only at hs
      cases f with
      | insFind c k loc pre =>
        dsimp only at hs
        repeat' split at hs
        all_goals cases hs
        · exact hx
        · dsimp only
          rw [setEnt_ne _ _ (by omega), hx]
      | _ =>
        dsimp only at hs
        repeat' split at hs
        all_goals cases hs
        all_goals first
          | exact hx
          | (rename_i z hz _ _; exact chg _ z _ hz rfl)
          | (rename_i z hz _; exact chg _ z _ hz rfl)
          | (rename_i z hz; exact chg _ z _ hz rfl)
  | finish mask drop =>
    simp only [act] at hs
    split at hs
    · split at hs
      · cases hs
      · rename_i z hz
        split at hs <;> cases hs
        exact chg _ z _ hz rfl
    · cases hs
  | _ =>
    simp only [act] at hs
    repeat' split at hs
    all_goals cases hs
    all_goals first
      | exact hx
      | (rename_i z hz _; exact chg _ z _ hz rfl)

/-- Since state `h1`, from which the actions `pre` have led to `h`: if the count of `e` has become
positive then by an action that those with exclusive access know.  (No code of its own: used in
proofs.) -/
def Raised (cfg : Cfg K) (mo : Orders) (e : Nat) (h1 : HSt K) (pre : List (Nat × Act K)) (h : HSt K) : Prop :=
  e < h.s.next ∧ ∀ y, h.s.ents e = some y → y.ref ≠ 0 → ∃ p q, p ++ [q] <+: pre ∧
    (∃ x, (hexec cfg mo p h1).s.ents e = some x ∧ x.ref = 0) ∧
    (∃ x, (hexec cfg mo (p ++ [q]) h1).s.ents e = some x ∧ x.ref = 1) ∧ Vk h e (hexec cfg mo p h1).tr.length

theorem Raised.step {e : Nat} {h1 h : HSt K} {pre : List (Nat × Act K)} {mo : Orders} {s' : St K} {t : Nat}
    {st : List (Frame K)} {a : Act K} (hpre : ∀ l, hexec cfg mo (pre ++ l) h1 = hexec cfg mo l h)
    (hpre' : hexec cfg mo (pre ++ [(t, a)]) h1 = ⟨s', (label cfg mo h t st a).2.1, (label cfg mo h t st a).2.2,
      h.tr ++ [(label cfg mo h t st a).1]⟩)
    (hi : Inv cfg h.s) (ht : h.s.thr[t]? = some st) (hs : act cfg h.s t st a = .ok s') (hf : Raised cfg mo e h1 pre h) :
    Raised cfg mo e h1 (pre ++ [(t, a)])
      ⟨s', (label cfg mo h t st a).2.1, (label cfg mo h t st a).2.2, h.tr ++ [(label cfg mo h t st a).1]⟩ := by
  obtain ⟨hlt, hf⟩ := hf
  refine ⟨Nat.lt_of_lt_of_le hlt (next_mono hs), fun y hy hy0 => ?_⟩
  have hthr := label_thr (cfg := cfg) mo h t st a
  cases hx : h.s.ents e with
  | none =>
    rw [show s'.ents e = none from ent_old hs hlt hx] at hy
    cases hy
  | some x =>
    by_cases h0 : x.ref = 0
    · have hp : hexec cfg mo pre h1 = h := by
        have := hpre []
        rwa [List.append_nil] at this
      obtain ⟨c, k, loc, rest, rfl, rfl, hv, h2⟩ := ref_up hi ht hs hx hy h0 hy0
      refine ⟨pre, (t, .run), List.prefix_refl _, ⟨x, by rw [hp]; exact hx, h0⟩, ⟨y, by rw [hpre']; exact hy, h2⟩, ?_⟩
      rw [hp]
      refine .inr ⟨t, ?_, ?_⟩
      · dsimp only
        rw [hv]
        exact visits hi ht rfl
      · have := know_new (tr := h.tr) (ev := (label cfg mo h t (.insAddRef c k e loc :: rest) .run).1)
        rwa [hthr] at this
    · obtain ⟨p, q, h2, h3, h4, h5⟩ := hf x hx h0
      refine ⟨p, q, h2.trans (List.prefix_append ..), h3, h4, ?_⟩
      rcases h5 with h5 | ⟨t', h5, h6⟩
      · exact .inl h5.old
      · rcases (step_vis (mo := mo) hi ht hs e).kept t' h5 with h7 | ⟨rfl, h7⟩
        · exact .inr ⟨t', h7, h6.old⟩
        · exact .inl (rel_new h7 h6.old)

theorem Raised.exec (hcfg : CfgOk cfg) {mo : Orders} {e : Nat} {h1 : HSt K} (acts : List (Nat × Act K))
    {pre : List (Nat × Act K)} {h : HSt K} (hpre : ∀ l, hexec cfg mo (pre ++ l) h1 = hexec cfg mo l h)
    (hi : Inv cfg h.s) (hf : Raised cfg mo e h1 pre h) : Raised cfg mo e h1 (pre ++ acts) (hexec cfg mo acts h) := by
  have weak : ∀ {p l : List (Nat × Act K)} {g : HSt K}, Raised cfg mo e h1 p g → Raised cfg mo e h1 (p ++ l) g := by
    rintro p l g ⟨h2, h3⟩
    refine ⟨h2, fun y hy h0 => ?_⟩
    obtain ⟨p', q, h4, h5⟩ := h3 y hy h0
    exact ⟨p', q, h4.trans (List.prefix_append ..), h5⟩
  induction acts generalizing h pre with
  | nil => exact weak hf
  | cons p acts ih =>
    obtain ⟨t, a⟩ := p
    rw [List.append_cons]
    unfold hexec
    cases ht : h.s.thr[t]? with
    | none =>
      refine ih (fun l => ?_) hi (weak hf)
      rw [List.append_assoc, hpre]
      simp [hexec, ht]
    | some st =>
      dsimp only
      cases hs : act cfg h.s t st a with
      | ok s' =>
        have hi' : Inv cfg s' := by
          have := act_good hcfg hi ht a
          rwa [hs] at this
        have hpre' : ∀ l, hexec cfg mo (pre ++ [(t, a)] ++ l) h1 = hexec cfg mo l ⟨s', (label cfg mo h t st a).2.1,
            (label cfg mo h t st a).2.2, h.tr ++ [(label cfg mo h t st a).1]⟩ := by
          intro l
          rw [List.append_assoc, hpre]
          simp [hexec, ht, hs]
        refine ih hpre' hi' (hf.step hpre ?_ hi ht hs)
        have := hpre' []
        rwa [List.append_nil] at this
      | no =>
        refine ih (fun l => ?_) hi (weak hf)
        rw [List.append_assoc, hpre]
        simp [hexec, ht, hs]
      | ub => exact weak (weak hf)
      | reentrant => exact weak (weak hf)

/-- Those who have exclusive access know what the element knows.  (No code of its own: used in
proofs.) -/
def VHold (h : HSt K) : Prop := ∀ e t i, h.s.vis e = some t → Rel h.tr (.elemX e) i → Know h.tr t i

theorem VHold.step {h : HSt K} {mo : Orders} {s' : St K} {t : Nat} {st : List (Frame K)} {a : Act K} (hi : Inv cfg h.s)
    (ht : h.s.thr[t]? = some st) (hs : act cfg h.s t st a = .ok s') (hv : VHold h) :
    VHold ⟨s', (label cfg mo h t st a).2.1, (label cfg mo h t st a).2.2, h.tr ++ [(label cfg mo h t st a).1]⟩ := by
  intro e t' i h1 h2
  have hx := step_vis (mo := mo) hi ht hs e
  rcases rel_cases h2 with h2 | ⟨h2, _⟩
  · rcases hx.got t' h1 with h3 | ⟨rfl, h3⟩
    · exact (hv e t' i h3 h2).old
    · exact know_acq h3 h2
  · exact absurd h2 (hx.freed t' h1)

theorem VHold.exec (hcfg : CfgOk cfg) {mo : Orders} (acts : List (Nat × Act K)) {h : HSt K} (hi : Inv cfg h.s)
    (hv : VHold h) : VHold (hexec cfg mo acts h) ∧ Inv cfg (hexec cfg mo acts h).s := by
  induction acts generalizing h with
  | nil => exact ⟨hv, hi⟩
  | cons p acts ih =>
    obtain ⟨t, a⟩ := p
    unfold hexec
    cases ht : h.s.thr[t]? with
    | none => exact ih hi hv
    | some st =>
      dsimp only
      cases hs : act cfg h.s t st a with
      | ok s' =>
        have hi' : Inv cfg s' := by
          have := act_good hcfg hi ht a
          rwa [hs] at this
        exact ih hi' (hv.step hi ht hs)
      | no => exact ih hi hv
      | ub => exact ⟨hv, hi⟩
      | reentrant => exact ⟨hv, hi⟩

theorem VHold.start (n : Nat) (gcs : List Nat) : VHold (hstart n gcs : HSt K) := by
  rintro e t i _ ⟨j, ev, h, _⟩
  simp [hstart] at h

end Verif.CFac

import Verif.CFacHB
import Verif.ConcHBStep

/-!
# No data races in the model of `concurrent_factory`: preservation of the invariant
-/

set_option autoImplicit false

namespace Verif.CFac
open HB
open Verif.Conc (Fw Cfg CfgOk pick acquire unlock fwCount tot nsum fwCount_pos exists_of_fwCount tot_pos
  exists_of_tot tot_eq_zero nsum_pos exists_of_nsum depthOf fwCount_cons fwCount_nil fwCount_append tot_nil tot_cons
  tot_append set_self pick_length mem_pick_zip zip_left zip_get)
variable {K : Type} {cfg : Cfg K}

theorem mem_readable {s : St K} {c e : Nat} (h : e ∈ readable s c) :
    ∃ x, s.ents e = some x ∧ x.core = c ∧ s.vis e = none := by
  have := (List.mem_filter.1 h).2
  cases hx : s.ents e with
  | none => simp [hx] at this
  | some x =>
    simp only [hx, Bool.and_eq_true, beq_iff_eq, Option.isNone_iff_eq_none] at this
    exact ⟨x, rfl, this⟩

theorem mem_reads {l : List Nat} {a : Loc × Kind} (h : a ∈ reads l) : ∃ e ∈ l, a = (.part e .body, .read) := by
  obtain ⟨e, he, rfl⟩ := List.mem_map.1 h
  exact ⟨e, he, rfl⟩

theorem mem_whole {e : Nat} {a : Loc × Kind} : a ∈ whole e ↔ ∃ p, a = (.part e p, .write) := by
  constructor
  · intro h
    simp only [whole, List.mem_cons, List.not_mem_nil, or_false] at h
    rcases h with rfl | rfl | rfl | rfl <;> exact ⟨_, rfl⟩
  · rintro ⟨p, rfl⟩
    cases p <;> simp [whole]

/-- A conflict with a read or an atomic operation that is allowed is with a write. -/
theorem conflict_write {e : Nat} {p : Part} {k k' : Kind} (h1 : okKind (.part e p, k) = true)
    (h2 : okKind (.part e p, k') = true) (h : k.conflict k' = true) (hp : p ≠ .del) (hk : k' ≠ .write) : k = .write := by
  cases p <;> cases k <;> cases k' <;> simp_all [okKind, Kind.conflict]

theorem of_rel {i : Nat} {v : Fw K} (h : 0 < refF i (.rel v)) : v.h = i := by
  simp only [refF] at h
  split at h
  · assumption
  · cases h

/-- A frame that refers to `e` refers to it by a flyweight in order. -/
theorem frame_fw {ents : Nat → Option (Ent K)} {f : Frame K} {e : Nat} (hf : FrameOk cfg ents f) (hr : 0 < refF e f) :
    ∃ w : Fw K, w.h = e ∧ FwOk cfg ents w := by
  have hloc : ∀ {loc : List (Fw K)}, 0 < fwCount e loc → (∀ w ∈ loc, FwOk cfg ents w) → ∃ w : Fw K, w.h = e ∧ FwOk cfg ents w := by
    intro loc h1 h2
    obtain ⟨w, hw, he⟩ := exists_of_fwCount h1
    exact ⟨w, he, h2 w hw⟩
  have hone : ∀ {w : Fw K}, 0 < (if w.h = e then 1 else 0) → FwOk cfg ents w → ∃ w : Fw K, w.h = e ∧ FwOk cfg ents w := by
    intro w h1 h2
    split at h1
    · exact ⟨w, ‹_›, h2⟩
    · cases h1
  cases f with
  | insLock c k loc pre => exact hloc hr hf
  | insHash c k loc pre => exact hloc hr hf
  | insFind c k loc pre => exact hloc hr hf
  | insVisit c k e loc => exact hloc hr hf.2
  | insUser c k e loc => exact hloc hr hf.2
  | insDone c k e loc => exact hloc hr hf.2
  | insAddRef c k e loc => exact hloc hr hf.2
  | insLeave c k i loc =>
    by_cases hi : i = e
    · subst hi
      exact ⟨_, rfl, hf.1⟩
    · simp only [refF, if_neg hi] at hr
      exact hloc hr hf.2
  | insFail c e loc => exact hloc hr hf.2
  | insTrack c k i => exact hone (w := ⟨i, c, k⟩) hr hf
  | insUnlock c k i => exact hone (w := ⟨i, c, k⟩) hr hf
  | rel w => exact hone hr hf
  | relLock w => exact hone hr hf
  | relCheck w => exact hone hr hf
  | relUnlock w => exact hone hr hf
  | relDec w => exact hone hr hf
  | _ => cases hr

/-- An entry that is referred to has a value. -/
theorem ref_cted {s : St K} (hi : Inv cfg s) {e : Nat} {x : Ent K} (hx : s.ents e = some x) (hr : x.ref ≠ 0) :
    x.cted = true := by
  have key : ∀ w : Fw K, w.h = e → FwOk cfg s.ents w → x.cted = true := by
    rintro w rfl ⟨y, hy, _, hc, _⟩
    rw [hx] at hy
    cases hy
    exact hc
  have h1 := hi.core.refs e
  simp only [refOf, hx] at h1
  by_cases h2 : 0 < fwCount e s.objs
  · obtain ⟨w, hw, he⟩ := exists_of_fwCount h2
    exact key w he (hi.core.objsOk w hw)
  · by_cases h3 : 0 < tot (refF e) (frames s)
    · obtain ⟨f, hf, hp⟩ := exists_of_tot h3
      obtain ⟨w, he, hw⟩ := frame_fw (hi.core.frames f hf) hp
      exact key w he hw
    · obtain ⟨i, _, hp⟩ := exists_of_nsum (f := fun i => kidsOf e (s.ents i)) (n := s.next) (by unfold kidsTo at h1; omega)
      cases hy : s.ents i with
      | none => simp [hy, kidsOf] at hp
      | some y =>
        obtain ⟨w, hw, he⟩ := exists_of_fwCount (show 0 < fwCount e y.kids by simpa [hy, kidsOf] using hp)
        exact key w he (hi.core.kids i y hy w hw)

theorem uncted_ref {s : St K} (hi : Inv cfg s) {e : Nat} {x : Ent K} (hx : s.ents e = some x) (hc : x.cted = false) :
    x.ref = 0 := by
  by_cases h : x.ref = 0
  · exact h
  · rw [ref_cted hi hx h] at hc
    cases hc

/-- An entry that is referred to is not about to be destroyed. -/
theorem no_era {s : St K} (hi : Inv cfg s) {e : Nat} {x : Ent K} (hx : s.ents e = some x) (hr : x.ref ≠ 0) : ¬ Era s e := by
  rintro ⟨t, st, ht, f, hf, hb⟩
  have hok := hi.core.frames f (List.mem_flatten.2 ⟨st, List.mem_of_getElem? ht, hf⟩)
  cases f <;> simp only [eraF, Bool.false_eq_true, beq_iff_eq] at hb
  · subst hb
    obtain ⟨y, hy, _, h0⟩ := hok
    rw [hx] at hy
    cases hy
    exact hr h0
  · subst hb
    obtain ⟨y, hy, _, h0, _⟩ := hok
    rw [hx] at hy
    cases hy
    exact hr h0

section
variable {h : HSt K} {s' : St K} {t : Nat} {mo : Orders}

/-- Accesses made with exclusive access to the element that are not writes. -/
theorem HInv.visRace (H : HInv cfg h) {n : Nat} {ev : Event} {e : Nat} {x : Ent K} {p : Part} {k k' : Kind}
    (hv : h.s.vis e = some ev.thr) (hx : h.s.ents e = some x) (hk' : okKind (.part e p, k') = true) (hp : p ≠ .del)
    (hk : k' ≠ .write) (ha : Acc h.tr n (.part e p, k)) (hcf : k.conflict k' = true) : Know (h.tr ++ [ev]) ev.thr n := by
  have := conflict_write (H.kinds n _ ha) hk' hcf hp hk
  subst this
  exact (H.visited hv (H.writes n e x p hx hp ha)).old

/-- An entry that nothing refers to, without value or about to be destroyed, is known to the
thread that has exclusive access. -/
theorem HInv.soleRace (H : HInv cfg h) {n : Nat} {ev : Event} {e : Nat} {x : Ent K} {p : Part} {k : Kind}
    (hv : h.s.vis e = some ev.thr) (hx : h.s.ents e = some x) (h0 : x.ref = 0)
    (hc : x.cted = false ∨ Era h.s e) (ha : Acc h.tr n (.part e p, k)) : Know (h.tr ++ [ev]) ev.thr n := by
  obtain ⟨P, hP, hn⟩ := H.cov n e x p k hx ha
  cases hP with
  | user P hu => exact (no_user H.inv hx h0 hu).elim
  | shared w o hm he => exact (no_user H.inv hx h0 (.obj w o hm he)).elim
  | count y hy hct her =>
    rw [hx] at hy
    cases hy
    rcases hc with hc | hc
    · rw [hct] at hc
      cases hc
    · exact absurd hc her
  | elemX => exact (H.visited hv hn).old
  | elemS => exact (H.vhold e _ n hv (.inr hn)).old

/-- A step of the library that accesses nothing and changes no entry. -/
theorem HInv.plainH (H : HInv cfg h) {f : Frame K} {rest new : List (Frame K)} {acqs rels : List Sync}
    (ht : h.s.thr[t]? = some (f :: rest)) (hinv : Inv cfg s') (hthr : s'.thr = h.s.thr.set t (new ++ rest))
    (hents : s'.ents = h.s.ents) (hnext : s'.next = h.s.next) (hobjs : s'.objs = h.s.objs)
    (hmx : MutexOk h.s s' ⟨t, acqs, [], rels⟩) (hvs : VisOk h.s s' ⟨t, acqs, [], rels⟩)
    (href : ∀ e, tot (refF e) new = refF e f) (hera : ∀ e, ∀ g ∈ new, eraF e g = false) :
    HInv cfg ⟨s', h.ids, h.nid, h.tr ++ [⟨t, acqs, [], rels⟩]⟩ := by
  refine H.quick (ev := ⟨t, acqs, [], rels⟩) (f := f) (rest := rest) (new := new) rfl hinv ht hthr hobjs rfl (fun _ => by rw [hents])
    ?_ (by simp) hnext.symm (by simp) hmx hvs (by simp) (by simp) (by simp) ?_ ?_ ?_ (by simp) (by simp)
  · intro e x x' hx hx' hc
    dsimp only at hx'
    rw [hents, hx] at hx'
    cases hx'
    exact hc
  · intro e g hg hr
    rw [← href e]
    exact .inl (tot_pos (g := refF e) hg hr)
  · intro e x hx hr
    rw [← href e] at hr
    obtain ⟨g, hg, hp⟩ := exists_of_tot hr
    exact .inl ⟨g, List.mem_append.2 (.inl hg), hp⟩
  · intro e g hg hb
    rw [hera e g hg] at hb
    cases hb

/-- Looking up a key. -/
theorem HInv.lookH (H : HInv cfg h) {f : Frame K} {rest new : List (Frame K)} {acqs : List Sync} {c : Nat}
    (ht : h.s.thr[t]? = some (f :: rest)) (hinv : Inv cfg s') (hthr : s'.thr = h.s.thr.set t (new ++ rest))
    (hents : s'.ents = h.s.ents) (hnext : s'.next = h.s.next) (hobjs : s'.objs = h.s.objs) (hlock : s'.lock = h.s.lock)
    (hvs : VisOk h.s s' ⟨t, acqs, reads (readable h.s c), (readable h.s c).map .elemS⟩)
    (hacqs : ∀ e ∈ readable h.s c, .elemX e ∈ acqs)
    (href : ∀ e, tot (refF e) new = refF e f) (hera : ∀ e, ∀ g ∈ new, eraF e g = false) :
    HInv cfg ⟨s', h.ids, h.nid, h.tr ++ [⟨t, acqs, reads (readable h.s c), (readable h.s c).map .elemS⟩]⟩ := by
  refine H.quick (ev := ⟨t, acqs, reads (readable h.s c), (readable h.s c).map .elemS⟩) (f := f) (rest := rest) (new := new)
    rfl hinv ht hthr hobjs rfl (fun _ => by rw [hents]) ?_ ?_ hnext.symm ?_ (.same hlock (by simp)) hvs ?_ ?_ ?_ ?_ ?_ ?_ ?_ ?_
  · intro e x x' hx hx' hc
    dsimp only at hx'
    rw [hents, hx] at hx'
    cases hx'
    exact hc
  · intro a ha
    obtain ⟨e, _, rfl⟩ := mem_reads ha
    rfl
  · intro e p k ha
    obtain ⟨e, he, ha⟩ := mem_reads ha
    cases ha
    obtain ⟨x, hx, _⟩ := mem_readable he
    exact ⟨x, by rw [hents]; exact hx⟩
  · intro e p x ha
    obtain ⟨e, he, ha⟩ := mem_reads ha
    cases ha
  · intro _ e k x ha
    obtain ⟨e, he, ha⟩ := mem_reads ha
    cases ha
  · intro e p x ha
    obtain ⟨e, he, ha⟩ := mem_reads ha
    cases ha
  · intro e g hg hr
    rw [← href e]
    exact .inl (tot_pos (g := refF e) hg hr)
  · intro e x hx hr
    rw [← href e] at hr
    obtain ⟨g, hg, hp⟩ := exists_of_tot hr
    exact .inl ⟨g, List.mem_append.2 (.inl hg), hp⟩
  · intro e g hg hb
    rw [hera e g hg] at hb
    cases hb
  · intro e p k x ha _
    obtain ⟨e, he, ha⟩ := mem_reads ha
    cases ha
    exact .inr (.inr (.inr (.inr (.inr (.inr (List.mem_map.2 ⟨_, he, rfl⟩))))))
  · intro n l k k' ha hn hcf _
    obtain ⟨e, he, ha⟩ := mem_reads ha
    cases ha
    obtain ⟨x, hx, _, hv⟩ := mem_readable he
    have := conflict_write (H.kinds n _ hn) (by rfl) hcf (by simp) (by simp)
    subst this
    rcases H.writes n e x _ hx (by simp) hn with h1 | ⟨t', h1, _⟩
    · exact know_acq (ev := (⟨t, acqs, reads (readable h.s c), (readable h.s c).map .elemS⟩ : Event)) (hacqs e he) h1
    · rw [hv] at h1
      cases h1

/-- A step of the library with a handle to entry `e`, on the counts of `e`. -/
theorem HInv.ownH (H : HInv cfg h) {f f' : Frame K} {rest : List (Frame K)} {acqs rels : List Sync}
    {accs : List (Loc × Kind)} {e : Nat} {x : Ent K}
    (ht : h.s.thr[t]? = some (f :: rest)) (hx : h.s.ents e = some x) (hf : 0 < refF e f)
    (hinv : Inv cfg s') (hthr : s'.thr = h.s.thr.set t (f' :: rest))
    (hck : ∀ e, (s'.ents e).map ck = (h.s.ents e).map ck)
    (hct : ∀ e x x', h.s.ents e = some x → s'.ents e = some x' → x.cted = true → x'.cted = true)
    (hnext : s'.next = h.s.next) (hobjs : s'.objs = h.s.objs) (hlock : s'.lock = h.s.lock) (hvis : s'.vis = h.s.vis)
    (hmu : ∀ c, .mutex c ∉ rels) (heX : ∀ e, .elemX e ∉ rels) (heS : ∀ e, .elemS e ∉ rels)
    (haccs : ∀ a ∈ accs, a = (.part e .ref, .atomic) ∨ a = (.part e .tref, .atomic) ∨
      a = (.part e .del, .write) ∧ cfg.tracks = true ∧ (cfg.locking = true → ∃ d, h.s.lock x.core = some (t, d)))
    (href : ∀ e, refF e f' = refF e f) (hera : ∀ e, eraF e f' = false) :
    HInv cfg ⟨s', h.ids, h.nid, h.tr ++ [⟨t, acqs, accs, rels⟩]⟩ := by
  have hf' : Tc ⟨s', h.ids, h.nid, h.tr ++ [⟨t, acqs, accs, rels⟩]⟩ ⟨t, acqs, accs, rels⟩ ([f'] ++ rest) e :=
    .inl ⟨f', by simp, by rw [href]; exact hf⟩
  obtain ⟨x', hx', hxc, _⟩ := ck_some (fun e => (hck e).symm) hx
  refine H.quick (ev := ⟨t, acqs, accs, rels⟩) (f := f) (rest := rest) (new := [f'])
    rfl hinv ht hthr hobjs rfl hck hct ?_ hnext.symm ?_ (.same hlock hmu) (.same hvis heX heS) ?_ ?_ ?_ ?_ ?_ ?_ ?_ ?_
  · intro a ha
    rcases haccs a ha with rfl | rfl | ⟨rfl, _⟩ <;> rfl
  · intro i p k ha
    rcases haccs _ ha with ha | ha | ⟨ha, _⟩ <;> cases ha <;> exact ⟨x', hx'⟩
  · intro i p y ha hp
    rcases haccs _ ha with ha | ha | ⟨ha, _⟩ <;> cases ha
    exact absurd rfl hp
  · intro hlk i k y ha hy
    rcases haccs _ ha with ha | ha | ⟨ha, _, hd⟩ <;> cases ha
    dsimp only at hy ⊢
    rw [hx'] at hy
    cases hy
    rw [hlock, hxc]
    exact hd hlk
  · intro i p y ha hp
    rcases haccs _ ha with ha | ha | ⟨ha, _⟩ <;> cases ha
    exact absurd rfl hp
  · intro i g hg hr
    rw [List.mem_singleton.1 hg, href] at hr
    exact .inl hr
  · intro i y hy hr
    exact .inl ⟨f', by simp, by rw [href]; exact hr⟩
  · intro i g hg hb
    rw [List.mem_singleton.1 hg, hera] at hb
    cases hb
  · intro i p k y ha _
    rcases haccs _ ha with ha | ha | ⟨ha, _⟩ <;> cases ha <;> exact hf'
  · intro n l k k' ha hn hcf hsy
    have hus : ∀ p, p ≠ .del → Acc h.tr n (.part e p, .write) → Know (h.tr ++ [⟨t, acqs, accs, rels⟩]) t n := fun p hp ha =>
      (H.user n e x p _ hx (.frame t _ f ht List.mem_cons_self hf) hp ha).old
    rcases haccs _ ha with ha | ha | ⟨ha, htr, hd⟩ <;> cases ha
    · have := conflict_write (H.kinds n _ hn) (by rfl) hcf (by simp) (by simp)
      subst this
      exact hus _ (by simp) hn
    · have := conflict_write (H.kinds n _ hn) (by rfl) hcf (by simp) (by simp)
      subst this
      exact hus _ (by simp) hn
    · rcases hsy with hlt | hw | hw
      · obtain ⟨d, hd⟩ := hd (hlt htr)
        exact (H.locked hd (H.dels (hlt htr) n e x k hx hn)).old
      · exact hus .body (by simp) hw
      · rcases haccs _ hw with hw | hw | ⟨hw, _⟩ <;> cases hw

theorem era_rel {loc : List (Fw K)} {f : Frame K} (hf : ∀ e, eraF e f = false) (e : Nat) (g : Frame K)
    (hg : g ∈ loc.map Frame.rel ++ [f]) : eraF e g = false := by
  rcases List.mem_append.1 hg with hg | hg
  · obtain ⟨v, _, rfl⟩ := List.mem_map.1 hg
    rfl
  · rw [List.mem_singleton.1 hg]
    exact hf e

theorem ct_set {ents : Nat → Option (Ent K)} {e : Nat} {x x' : Ent K} (hx : ents e = some x)
    (h : x.cted = true → x'.cted = true) (i : Nat) (y y' : Ent K) (hy : ents i = some y)
    (hy' : setEnt ents e (some x') i = some y') (hc : y.cted = true) : y'.cted = true := by
  by_cases hi : i = e
  · subst hi
    rw [setEnt_same] at hy'
    rw [hx] at hy
    cases hy
    cases hy'
    exact h hc
  · rw [setEnt_ne _ _ hi, hy] at hy'
    cases hy'
    exact hc

theorem mem_trk {order : Bool} {e : Nat} {o : Sync} (h : o ∈ trk cfg order e) : o = .tcount e := by
  unfold trk at h
  split at h
  · exact List.mem_singleton.1 h
  · cases h

theorem mem_rmw {order : Bool} {e : Nat} {o : Sync} (h : o ∈ rmw order e) : o = .count e := by
  unfold rmw at h
  split at h
  · exact List.mem_singleton.1 h
  · cases h

theorem mem_trkAcc {e : Nat} {a : Loc × Kind} (h : a ∈ trkAcc cfg e) : a = (.part e .tref, .atomic) := by
  unfold trkAcc at h
  split at h
  · exact List.mem_singleton.1 h
  · cases h

theorem mem_delAcc {e : Nat} {a : Loc × Kind} (h : a ∈ delAcc cfg e) : a = (.part e .del, .write) ∧ cfg.tracks = true := by
  unfold delAcc at h
  split at h
  · exact ⟨List.mem_singleton.1 h, ‹_›⟩
  · cases h

/-- Exclusive access is taken. -/
theorem VisOk.take {s s' : St K} {e : Nat} {acqs rels : List Sync} {accs : List (Loc × Kind)}
    (hv : s'.vis = setVis s.vis e (some t)) (hn : s.vis e = none)
    (ha : .elemX e ∈ acqs ∧ .elemS e ∈ acqs) (hr : ∀ i, .elemX i ∉ rels)
    (hr' : ∀ i, .elemS i ∈ rels → s.vis i = none) : VisOk s s' ⟨t, acqs, accs, rels⟩ := by
  have key : ∀ i t', s'.vis i = some t' → i = e ∧ t' = t ∨ s.vis i = some t' := by
    intro i t' h1
    rw [hv] at h1
    by_cases hi : i = e
    · subst hi
      rw [setVis_same] at h1
      cases h1
      exact .inl ⟨rfl, rfl⟩
    · rw [setVis_ne _ _ hi] at h1
      exact .inr h1
  refine ⟨fun i t' h1 => ?_, fun i t' h1 h2 => ?_, fun i t' h1 => .inl ?_⟩
  · rcases key i t' h1 with ⟨rfl, rfl⟩ | h1
    · exact .inr ⟨rfl, ha⟩
    · exact .inl h1
  · rcases h2 with h2 | h2
    · exact absurd h2 (hr i)
    · rcases key i t' h1 with ⟨rfl, rfl⟩ | h1
      · rfl
      · rw [hr' i h2] at h1
        cases h1
  · have hi : i ≠ e := by
      rintro rfl
      rw [hn] at h1
      cases h1
    rw [hv, setVis_ne _ _ hi]
    exact h1

/-- Exclusive access ends. -/
theorem VisOk.drop {s s' : St K} {e : Nat} {acqs : List Sync} {accs : List (Loc × Kind)}
    (hv : s'.vis = setVis s.vis e none) (hn : s.vis e = some t) : VisOk s s' ⟨t, acqs, accs, [.elemX e]⟩ := by
  have key : ∀ i t', s'.vis i = some t' → i ≠ e ∧ s.vis i = some t' := by
    intro i t' h1
    rw [hv] at h1
    by_cases hi : i = e
    · subst hi
      rw [setVis_same] at h1
      cases h1
    · rw [setVis_ne _ _ hi] at h1
      exact ⟨hi, h1⟩
  refine ⟨fun i t' h1 => .inl (key i t' h1).2, fun i t' h1 h2 => ?_, fun i t' h1 => ?_⟩
  · have := (key i t' h1).1
    simp [this] at h2
  · by_cases hi : i = e
    · subst hi
      rw [hn] at h1
      cases h1
      exact .inr ⟨rfl, by simp⟩
    · rw [hv, setVis_ne _ _ hi]
      exact .inl h1

/-- Inserting a new entry. -/
theorem HInv.newH (H : HInv cfg h) {rest : List (Frame K)} {c : Nat} {k : K} {loc : List (Fw K)} {pre : Bool}
    (ht : h.s.thr[t]? = some (.insFind c k loc pre :: rest))
    (hvn : h.s.vis h.s.next = none)
    (hinv : Inv cfg (⟨setEnt h.s.ents h.s.next (some ⟨c, k, pre, loc, 0, 0⟩), h.s.next + 1,
      setVis h.s.vis h.s.next (some t), h.s.lock, h.s.thr.set t (.insVisit c k h.s.next [] :: rest), h.s.objs⟩ : St K)) :
    HInv cfg ⟨(⟨setEnt h.s.ents h.s.next (some ⟨c, k, pre, loc, 0, 0⟩), h.s.next + 1,
      setVis h.s.vis h.s.next (some t), h.s.lock, h.s.thr.set t (.insVisit c k h.s.next [] :: rest), h.s.objs⟩ : St K),
      h.ids, h.nid, h.tr ++ [⟨t, .elemX h.s.next :: .elemS h.s.next :: (readable h.s c).map .elemX,
        whole h.s.next ++ reads (readable h.s c), (readable h.s c).map .elemS⟩]⟩ := by
  have hnone : h.s.ents h.s.next = none := H.inv.core.bound _ (Nat.le_refl _)
  have hmem : ∀ {a : Loc × Kind}, a ∈ whole h.s.next ++ reads (readable h.s c) →
      (∃ p, a = (.part h.s.next p, .write)) ∨
      ∃ i y, a = (.part i .body, .read) ∧ h.s.ents i = some y ∧ h.s.vis i = none ∧ i ∈ readable h.s c := by
    intro a ha
    rcases List.mem_append.1 ha with ha | ha
    · exact .inl (mem_whole.1 ha)
    · obtain ⟨i, hi, rfl⟩ := mem_reads ha
      obtain ⟨y, hy, _, hv⟩ := mem_readable hi
      exact .inr ⟨i, y, rfl, hy, hv, hi⟩
  have hold : ∀ {i y}, h.s.ents i = some y → setEnt h.s.ents h.s.next (some ⟨c, k, pre, loc, 0, 0⟩) i = some y := by
    intro i y hy
    rw [setEnt_ne, hy]
    rintro rfl
    rw [hnone] at hy
    cases hy
  refine H.next (ev := ⟨t, .elemX h.s.next :: .elemS h.s.next :: (readable h.s c).map .elemX,
        whole h.s.next ++ reads (readable h.s c), (readable h.s c).map .elemS⟩) rfl hinv H.len ht rfl ?_
    (Nat.le_succ _) ?_ (.same rfl (by simp)) (.take rfl hvn (by simp) (by simp) ?_) ?_ ?_ ?_ ?_ (fun w o hw => .inl hw) ?_ ?_
    (fun w o hw => .inl hw) ?_ ?_ ?_ ?_ ?_
  · intro a ha
    rcases hmem ha with ⟨p, rfl⟩ | ⟨i, y, rfl, _⟩
    · cases p <;> rfl
    · rfl
  · intro i p k' ha
    rcases hmem ha with ⟨p, ha⟩ | ⟨i, y, ha, hy, _⟩ <;> cases ha
    · exact Nat.lt_succ_self _
    · exact Nat.lt_succ_of_lt (H.inv.core.lt_next hy)
  · intro i hi
    obtain ⟨j, hj, he⟩ := List.mem_map.1 hi
    cases he
    obtain ⟨_, _, _, hv⟩ := mem_readable hj
    exact hv
  · intro i y hy
    by_cases hi : i = h.s.next
    · exact .inr (by omega)
    · exact .inl ⟨y, by simpa [setEnt, hi] using hy, rfl⟩
  · intro i p y ha _ hy
    rcases hmem ha with ⟨p, ha⟩ | ⟨i, y, ha, _⟩ <;> cases ha
    exact setVis_same ..
  · intro hlk i k' y ha hy
    rcases hmem ha with ⟨p, ha⟩ | ⟨i, y, ha, _⟩ <;> cases ha
    simp only [setEnt, if_true] at hy
    cases hy
    exact held hlk H.inv ht rfl
  · intro i p y ha _ hy
    rcases hmem ha with ⟨p, ha⟩ | ⟨i, y, ha, _⟩ <;> cases ha
    simp only [setEnt, if_true] at hy
    cases hy
    rfl
  · intro i g hg hr
    rcases List.mem_cons.1 hg with rfl | hg
    · simp [refF] at hr
    · exact .inl ⟨_, .frame _ _ g ht (List.mem_cons_of_mem _ hg) hr, fun i hi => hi.old⟩
  · intro i y v hy hv
    by_cases hi : i = h.s.next
    · subst hi
      simp only [setEnt, if_true] at hy
      cases hy
      exact .inr ⟨by simp [whole], .inl ⟨_, .frame _ _ _ ht List.mem_cons_self (fwCount_pos hv rfl), fun i hi => hi.old⟩⟩
    · exact .inl ⟨y, by simpa [setEnt, hi] using hy, hv⟩
  · intro i y hy g hg hr
    rcases List.mem_cons.1 hg with rfl | hg
    · obtain ⟨v, hv, hvi⟩ := exists_of_fwCount (show 0 < fwCount i loc from hr)
      exact .inr (.inr (.inr (.inl ⟨h.s.next, ⟨c, k, pre, loc, 0, 0⟩, v, by simp [setEnt], hv, hvi, by simp [whole]⟩)))
    · exact .inl ⟨g, List.mem_cons_of_mem _ hg, hr⟩
  · intro i y v hy hv
    exact .inl ⟨y, hold hy, hv⟩
  · intro i y y' hy hy' hc hf
    have := hold hy
    rw [show setEnt h.s.ents h.s.next (some ⟨c, k, pre, loc, 0, 0⟩) i = some y' from hy'] at this
    cases this
    refine .inl ⟨hc, fun g hg => ?_⟩
    rcases List.mem_cons.1 hg with rfl | hg
    · rfl
    · exact hf g (List.mem_cons_of_mem _ hg)
  · intro i p k' y ha hy
    rcases hmem ha with ⟨p, ha⟩ | ⟨i, y', ha, hy', _, hi⟩ <;> cases ha
    · exact .inr (.inl (setVis_same ..))
    · exact .inr (.inr (.inr (.inr (.inr (.inr (List.mem_map.2 ⟨_, hi, rfl⟩))))))
  · intro n l k₁ k₂ ha hn hcf _
    rcases hmem ha with ⟨p, ha⟩ | ⟨i, y', ha, hy', hv, hi⟩ <;> cases ha
    · exact absurd (H.bound n _ _ _ hn) (Nat.lt_irrefl _)
    · have := conflict_write (H.kinds n _ hn) (by rfl) hcf (by simp) (by simp)
      subst this
      rcases H.writes n i y' _ hy' (by simp) hn with h1 | ⟨t', h1, _⟩
      · exact know_acq (ev := (⟨t, .elemX h.s.next :: .elemS h.s.next :: (readable h.s c).map .elemX,
          whole h.s.next ++ reads (readable h.s c), (readable h.s c).map .elemS⟩ : Event)) (by simp [hi]) h1
      · rw [hv] at h1
        cases h1

/-- Destruction of an element: the flyweights inside it are going to be released. -/
theorem HInv.eraseH (H : HInv cfg h) {rest : List (Frame K)} {c e : Nat} {x : Ent K}
    (ht : h.s.thr[t]? = some (.gcErase c e :: rest)) (hx : h.s.ents e = some x) (h0 : x.ref = 0)
    (hinv : Inv cfg (⟨setEnt h.s.ents e (some { x with cted := false, kids := [] }), h.s.next, h.s.vis, h.s.lock,
      h.s.thr.set t (x.kids.map .rel ++ .gcUnlink c e :: rest), h.s.objs⟩ : St K)) :
    HInv cfg ⟨(⟨setEnt h.s.ents e (some { x with cted := false, kids := [] }), h.s.next, h.s.vis, h.s.lock,
      h.s.thr.set t (x.kids.map .rel ++ .gcUnlink c e :: rest), h.s.objs⟩ : St K), h.ids, h.nid,
      h.tr ++ [⟨t, [], [(.part e .body, .write)], []⟩]⟩ := by
  have hv := visits H.inv ht rfl
  have hat : ∀ {i y}, setEnt h.s.ents e (some { x with cted := false, kids := [] }) i = some y →
      i = e ∧ y = { x with cted := false, kids := [] } ∨ i ≠ e ∧ h.s.ents i = some y := by
    intro i y hy
    by_cases hi : i = e
    · subst hi
      rw [setEnt_same] at hy
      cases hy
      exact .inl ⟨rfl, rfl⟩
    · rw [setEnt_ne _ _ hi] at hy
      exact .inr ⟨hi, hy⟩
  have hpast : ∀ i, Past h.tr (.part e .body, .write) i → Know h.tr t i := by
    rintro i ⟨j, h1, h2⟩
    exact (H.visited hv (H.writes j e x _ hx (by simp) h1)).trans h2
  have hera : Era h.s e := ⟨t, _, ht, _, List.mem_cons_self, by simp [eraF]⟩
  refine H.next (ev := ⟨t, [], [(.part e .body, .write)], []⟩) rfl hinv H.len ht rfl
    (by simp [okKind]) (Nat.le_refl _) ?_ (.same rfl (by simp)) (.same rfl (by simp) (by simp)) ?_ ?_ (by simp) ?_
    (fun w o hw => .inl hw) ?_ ?_ (fun w o hw => .inl hw) ?_ ?_ ?_ ?_ ?_
  · intro i p k ha
    cases List.mem_singleton.1 ha
    exact H.inv.core.lt_next hx
  · intro i y hy
    rcases hat hy with ⟨rfl, rfl⟩ | ⟨_, hy⟩
    · exact .inl ⟨x, hx, rfl⟩
    · exact .inl ⟨y, hy, rfl⟩
  · intro i p y ha _ hy
    cases List.mem_singleton.1 ha
    exact hv
  · intro i p y ha _ hy
    cases List.mem_singleton.1 ha
    rcases hat hy with ⟨_, rfl⟩ | ⟨h1, _⟩
    · exact h0
    · exact absurd rfl h1
  · intro i g hg hr
    rcases List.mem_append.1 hg with hg | hg
    · obtain ⟨v, hv, rfl⟩ := List.mem_map.1 hg
      exact .inl ⟨_, .kid e x v hx hv (of_rel hr), fun i hi => (hpast i hi).old⟩
    · rcases List.mem_cons.1 hg with rfl | hg
      · cases hr
      · exact .inl ⟨_, .frame _ _ g ht (List.mem_cons_of_mem _ hg) hr, fun i hi => hi.old⟩
  · intro i y v hy hv
    rcases hat hy with ⟨rfl, rfl⟩ | ⟨_, hy⟩
    · cases hv
    · exact .inl ⟨y, hy, hv⟩
  · intro i y hy g hg hr
    rcases List.mem_cons.1 hg with rfl | hg
    · cases hr
    · exact .inl ⟨g, by simp [hg], hr⟩
  · intro i y v hy hv
    by_cases hi : i = e
    · subst hi
      rw [hx] at hy
      cases hy
      refine .inr ⟨fun i hi => (hpast i hi).old, .inl ⟨.rel v, ?_, ?_⟩⟩
      · exact List.mem_append.2 (.inl (List.mem_map.2 ⟨v, hv, rfl⟩))
      · simp [refF]
    · exact .inl ⟨y, by simpa [setEnt, hi] using hy, hv⟩
  · intro i y y' hy hy' hc hf
    rcases hat hy' with ⟨rfl, rfl⟩ | ⟨_, hy'⟩
    · have := hf _ List.mem_cons_self
      simp [eraF] at this
    · rw [hy] at hy'
      cases hy'
      refine .inl ⟨hc, fun g hg => ?_⟩
      rcases List.mem_append.1 hg with hg | hg
      · obtain ⟨v, _, rfl⟩ := List.mem_map.1 hg
        rfl
      · rcases List.mem_cons.1 hg with rfl | hg
        · exact hf (.gcErase c e) List.mem_cons_self
        · exact hf g (List.mem_cons_of_mem _ hg)
  · intro i p k y ha hy
    cases List.mem_singleton.1 ha
    exact .inr (.inl hv)
  · intro n l k₁ k₂ ha hn hcf _
    cases List.mem_singleton.1 ha
    exact H.soleRace (ev := ⟨t, [], [(.part e .body, .write)], []⟩) hv hx h0 (.inr hera) hn

/-- The element is gone. -/
theorem HInv.unlinkH (H : HInv cfg h) {rest : List (Frame K)} {c e : Nat} {x : Ent K}
    (ht : h.s.thr[t]? = some (.gcUnlink c e :: rest)) (hx : h.s.ents e = some x) (h0 : x.ref = 0) (hk : x.kids = [])
    (hinv : Inv cfg (⟨setEnt h.s.ents e none, h.s.next, setVis h.s.vis e none, h.s.lock,
      h.s.thr.set t rest, h.s.objs⟩ : St K)) :
    HInv cfg ⟨(⟨setEnt h.s.ents e none, h.s.next, setVis h.s.vis e none, h.s.lock,
      h.s.thr.set t rest, h.s.objs⟩ : St K), h.ids, h.nid, h.tr ++ [⟨t, [], whole e, [.elemX e]⟩]⟩ := by
  have hv := visits H.inv ht rfl
  have hgone : ∀ {i y}, setEnt h.s.ents e none i = some y → i ≠ e ∧ h.s.ents i = some y := by
    intro i y hy
    by_cases hi : i = e
    · subst hi; rw [setEnt_same] at hy; cases hy
    · rw [setEnt_ne _ _ hi] at hy; exact ⟨hi, hy⟩
  have hera : Era h.s e := ⟨t, _, ht, _, List.mem_cons_self, by simp [eraF]⟩
  refine H.next (ev := ⟨t, [], whole e, [.elemX e]⟩) rfl hinv H.len ht rfl ?_ (Nat.le_refl _) ?_
    (.same rfl (by simp)) (.drop rfl hv) ?_ ?_ ?_ ?_ (fun w o hw => .inl hw) ?_ ?_ (fun w o hw => .inl hw) ?_ ?_ ?_ ?_ ?_
  · intro a ha
    obtain ⟨p, rfl⟩ := mem_whole.1 ha
    cases p <;> rfl
  · intro i p k ha
    obtain ⟨p, ha⟩ := mem_whole.1 ha
    cases ha
    exact H.inv.core.lt_next hx
  · intro i y hy
    exact .inl ⟨y, (hgone hy).2, rfl⟩
  · intro i p y ha _ hy
    obtain ⟨p, ha⟩ := mem_whole.1 ha
    cases ha
    exact absurd rfl (hgone hy).1
  · intro _ i k y ha hy
    obtain ⟨p, ha⟩ := mem_whole.1 ha
    cases ha
    exact absurd rfl (hgone hy).1
  · intro i p y ha _ hy
    obtain ⟨p, ha⟩ := mem_whole.1 ha
    cases ha
    exact absurd rfl (hgone hy).1
  · intro i g hg hr
    exact .inl ⟨_, .frame _ _ g ht (List.mem_cons_of_mem _ hg) hr, fun i hi => hi.old⟩
  · intro i y v hy hv
    exact .inl ⟨y, (hgone hy).2, hv⟩
  · intro i y hy g hg hr
    rcases List.mem_cons.1 hg with rfl | hg
    · cases hr
    · exact .inl ⟨g, hg, hr⟩
  · intro i y v hy hv
    by_cases hi : i = e
    · subst hi
      rw [hx] at hy
      cases hy
      rw [hk] at hv
      cases hv
    · exact .inl ⟨y, by simpa [setEnt, hi] using hy, hv⟩
  · intro i y y' hy hy' hc hf
    rw [(hgone hy').2] at hy
    cases hy
    exact .inl ⟨hc, fun g hg => hf g (List.mem_cons_of_mem _ hg)⟩
  · intro i p k y ha hy
    obtain ⟨p, ha⟩ := mem_whole.1 ha
    cases ha
    exact absurd rfl (hgone hy).1
  · intro n l k k' ha hn hcf _
    obtain ⟨p, ha⟩ := mem_whole.1 ha
    cases ha
    exact H.soleRace (ev := ⟨t, [], whole e, [.elemX e]⟩) hv hx h0 (.inr hera) hn

/-- Only elements that exist are accessed. -/
theorem vis_ent {s : St K} (hi : Inv cfg s) {e t : Nat} (hv : s.vis e = some t) : ∃ x, s.ents e = some x := by
  have hlt := hi.locks.owner e t hv
  have h1 := hi.locks.elem t _ (List.getElem?_eq_getElem hlt) e
  rw [if_pos hv] at h1
  obtain ⟨f, hf, hp⟩ := exists_of_tot (g := elemF e) (l := s.thr[t]) (by omega)
  have hok := hi.core.frames f (List.mem_flatten.2 ⟨_, List.getElem_mem hlt, hf⟩)
  have he : elemOf f = some e := by
    unfold elemF at hp
    split at hp
    · assumption
    · cases hp
  cases f <;> simp only [elemOf, Option.some.injEq, reduceCtorEq] at he <;> subst he
  · exact ⟨_, hok.1.choose_spec.1⟩
  · exact ⟨_, hok.1.choose_spec.1⟩
  · exact ⟨_, hok.1.choose_spec.1⟩
  · exact ⟨_, hok.1.choose_spec.1⟩
  · exact ⟨_, hok.1.choose_spec.1⟩
  · exact ⟨_, hok.1.choose_spec.1⟩
  · exact ⟨_, hok.choose_spec.1⟩
  · exact ⟨_, hok.choose_spec.1⟩
  · exact ⟨_, hok.choose_spec.1⟩
  · exact ⟨_, hok.choose_spec.1⟩

theorem next_free {s : St K} (hi : Inv cfg s) : s.vis s.next = none := by
  cases hv : s.vis s.next with
  | none => rfl
  | some t =>
    obtain ⟨x, hx⟩ := vis_ent hi hv
    rw [hi.core.bound _ (Nat.le_refl _)] at hx
    cases hx

/-- Steps of the library. -/
theorem lib_h (hcfg : CfgOk cfg) (hmo : mo.decRel = true ∧ mo.load = true)
    (H : HInv cfg h) {f : Frame K} {rest : List (Frame K)} (ht : h.s.thr[t]? = some (f :: rest))
    (hs : lib cfg h.s t f rest = .ok s') :
    HInv cfg ⟨s', (label cfg mo h t (f :: rest) .run).2.1, (label cfg mo h t (f :: rest) .run).2.2,
      h.tr ++ [libEv cfg mo h.s h.nid t f]⟩ := by
  have hinv : Inv cfg s' := by
    have := lib_good hcfg H.inv ht
    rwa [hs] at this
  have hfr : FrameOk cfg h.s.ents f :=
    H.inv.core.frames f (List.mem_flatten.2 ⟨_, List.mem_of_getElem? ht, List.mem_cons_self⟩)
  have hread : ∀ c i, .elemS i ∈ (readable h.s c).map Sync.elemS → h.s.vis i = none := by
    intro c i hi
    obtain ⟨j, hj, he⟩ := List.mem_map.1 hi
    cases he
    obtain ⟨_, _, _, hv⟩ := mem_readable hj
    exact hv
  have hnl : ∀ c o, o ∈ lockRel cfg h.s c → o = .mutex c := by
    intro c o ho
    unfold lockRel at ho
    split at ho
    · split at ho
      · cases ho
      · split at ho
        · exact List.mem_singleton.1 ho
        · cases ho
    · cases ho
  cases f with
  | insLock c k loc pre =>
    simp only [lib] at hs
    cases ha : acquire cfg h.s.lock t c with
    | none => rw [ha] at hs; cases hs
    | some l =>
      rw [ha] at hs
      cases hs
      exact H.plainH (new := [.insHash c k loc pre]) ht hinv rfl rfl rfl rfl (acquire_facts ha rfl rfl rfl rfl)
        (.same rfl (by simp) (by simp)) (fun e => by simp [refF]) (by simp [eraF])
  | insHash c k loc pre =>
    cases hs
    exact H.plainH (new := [.insFind c k loc pre]) ht hinv rfl rfl rfl rfl (.same rfl (by simp))
      (.same rfl (by simp) (by simp)) (fun e => by simp [refF]) (by simp [eraF])
  | insFind c k loc pre =>
    simp only [lib] at hs
    split at hs
    · cases hs
    · cases hfd : find cfg h.s c k with
      | some e =>
        rw [hfd] at hs
        dsimp only at hs
        split at hs
        · rename_i hv
          cases hs
          simp only [libEv, hfd]
          exact H.lookH (new := [.insVisit c k e loc]) ht hinv rfl rfl rfl rfl rfl
            (.take rfl hv (by simp) (by simp) (hread c)) (fun i hi => by simp [hi]) (fun e => by simp [refF]) (by simp [eraF])
        · cases hs
      | none =>
        rw [hfd] at hs
        cases hs
        simp only [libEv, hfd]
        exact H.newH ht (next_free H.inv) hinv
  | insVisit c k e loc =>
    obtain ⟨⟨x, hx, _⟩, _⟩ := hfr
    have hv := visits H.inv ht rfl
    simp only [lib, hx] at hs
    cases hs
    refine H.quick (ev := ⟨t, [], [(.part e .body, .read)], []⟩)
      (new := [if x.cted then .insAddRef c k e loc else .insUser c k e loc])
      rfl hinv ht rfl rfl rfl (fun _ => rfl) ?_ (by simp [okKind]) rfl ?_ (.same rfl (by simp))
      (.same rfl (by simp) (by simp)) (by simp) (by simp) (by simp) ?_ ?_ ?_ ?_ ?_
    · intro e x x' hx hx' hc
      dsimp only at hx'
      rw [hx] at hx'
      cases hx'
      exact hc
    · intro i p k ha
      cases List.mem_singleton.1 ha
      exact ⟨x, hx⟩
    · intro i g hg hr
      rw [List.mem_singleton.1 hg] at hr
      split at hr <;> exact .inl hr
    · intro i y hy hr
      refine .inl ⟨_, List.mem_cons_self, ?_⟩
      split <;> exact hr
    · intro i g hg hb
      rw [List.mem_singleton.1 hg] at hb
      split at hb <;> cases hb
    · intro i p k y ha hy
      cases List.mem_singleton.1 ha
      exact .inr (.inl hv)
    · intro n l k k' ha hn hcf _
      cases List.mem_singleton.1 ha
      exact H.visRace (ev := ⟨t, [], [(.part e .body, .read)], []⟩) hv hx rfl (by simp) (by simp) hn hcf
  | insUser c k e loc => cases hs
  | insDone c k e loc =>
    obtain ⟨⟨x, hx, hxc, hct, _⟩, _⟩ := hfr
    have hv := visits H.inv ht rfl
    have h0 := uncted_ref H.inv hx hct
    simp only [lib, hx] at hs
    cases hs
    have hat : ∀ y, setEnt h.s.ents e (some { x with cted := true }) e = some y → y.ref = 0 := by
      intro y hy
      rw [setEnt_same] at hy
      cases hy
      exact h0
    refine H.quick (ev := ⟨t, [], [(.part e .body, .write)], []⟩) (new := [.insAddRef c k e loc])
      rfl hinv ht rfl rfl rfl (ck_set hx rfl) (ct_set hx (fun _ => rfl)) (by simp [okKind]) rfl ?_ (.same rfl (by simp))
      (.same rfl (by simp) (by simp)) ?_ (by simp) ?_ ?_ ?_ ?_ ?_ ?_
    · intro i p k ha
      cases List.mem_singleton.1 ha
      exact ⟨_, setEnt_same ..⟩
    · intro i p y ha _ hy
      cases List.mem_singleton.1 ha
      exact hv
    · intro i p y ha _ hy
      cases List.mem_singleton.1 ha
      exact hat y hy
    · intro i g hg hr
      rw [List.mem_singleton.1 hg] at hr
      exact .inl hr
    · intro i y hy hr
      exact .inl ⟨_, List.mem_cons_self, hr⟩
    · intro i g hg hb
      rw [List.mem_singleton.1 hg] at hb
      cases hb
    · intro i p k y ha hy
      cases List.mem_singleton.1 ha
      exact .inr (.inl hv)
    · intro n l k₁ k₂ ha hn hcf _
      cases List.mem_singleton.1 ha
      exact H.soleRace (ev := ⟨t, [], [(.part e .body, .write)], []⟩) hv hx h0 (.inl hct) hn
  | insAddRef c k e loc =>
    obtain ⟨⟨x, hx, _⟩, _⟩ := hfr
    have hv := visits H.inv ht rfl
    dsimp only at hx
    simp only [lib, hx] at hs
    cases hs
    refine H.quick (ev := ⟨t, rmw mo.inc e, [(.part e .ref, .atomic)], rmw mo.inc e⟩) (new := [.insLeave c k e loc])
      rfl hinv ht rfl rfl rfl (ck_set hx rfl) (ct_set hx (fun h => h)) (by simp [okKind]) rfl ?_ (.same rfl ?_)
      (.same rfl ?_ ?_) (by simp) (by simp) (by simp) ?_ ?_ ?_ ?_ ?_
    · intro i p k ha
      cases List.mem_singleton.1 ha
      exact ⟨_, setEnt_same ..⟩
    · intro c hm
      cases mem_rmw hm
    · intro c hm
      cases mem_rmw hm
    · intro c hm
      cases mem_rmw hm
    · intro i g hg hr
      rw [List.mem_singleton.1 hg] at hr
      by_cases hi : e = i
      · subst hi
        exact .inr hv
      · simp only [refF, if_neg hi, Nat.add_zero] at hr
        exact .inl hr
    · intro i y hy hr
      exact .inl ⟨_, List.mem_cons_self, by simp only [refF] at hr ⊢; omega⟩
    · intro i g hg hb
      rw [List.mem_singleton.1 hg] at hb
      cases hb
    · intro i p k y ha hy
      cases List.mem_singleton.1 ha
      exact .inr (.inl hv)
    · intro n l k k' ha hn hcf _
      cases List.mem_singleton.1 ha
      exact H.visRace (ev := ⟨t, rmw mo.inc e, [(.part e .ref, .atomic)], rmw mo.inc e⟩) hv hx rfl (by simp) (by simp) hn hcf
  | insLeave c k e loc =>
    cases hs
    exact H.plainH (new := loc.map .rel ++ [.insTrack c k e]) ht hinv (by simp) rfl rfl rfl (.same rfl (by simp))
      (.drop rfl (visits H.inv ht rfl)) (fun e => by simp [refF]) (era_rel fun _ => rfl)
  | insFail c e loc =>
    cases hs
    exact H.plainH (new := loc.map .rel ++ [.insUnwind c]) ht hinv (by simp) rfl rfl rfl (.same rfl (by simp))
      (.drop rfl (visits H.inv ht rfl)) (fun e => by simp [refF]) (era_rel fun _ => rfl)
  | insUnwind c =>
    simp only [lib] at hs
    cases ha : unlock cfg h.s.lock t c with
    | none => rw [ha] at hs; cases hs
    | some l =>
      rw [ha] at hs
      cases hs
      exact H.plainH (new := []) ht hinv rfl rfl rfl rfl (unlock_facts ha rfl rfl (fun _ => Iff.rfl))
        (.same rfl (fun e he => by cases hnl _ _ he) (fun e he => by cases hnl _ _ he)) (fun e => by simp [refF]) (by simp)
  | insTrack c k e =>
    obtain ⟨x, hx, hxc, _⟩ := hfr
    dsimp only at hx hxc
    simp only [lib, hx] at hs
    cases hs
    refine H.ownH (f' := .insUnlock c k e) ht hx (by simp [refF]) hinv rfl (ck_set hx rfl) (ct_set hx (fun h => h)) rfl rfl rfl rfl
      ?_ ?_ ?_ ?_ (fun _ => rfl) (fun _ => rfl)
    · intro c hm
      cases mem_trk hm
    · intro c hm
      cases mem_trk hm
    · intro c hm
      cases mem_trk hm
    · intro a ha
      rcases List.mem_append.1 ha with ha | ha
      · rcases List.mem_cons.1 ha with ha | ha
        · exact .inl ha
        · exact .inr (.inl (mem_trkAcc ha))
      · obtain ⟨h1, h2⟩ := mem_delAcc ha
        exact .inr (.inr ⟨h1, h2, fun hl => hxc ▸ held hl H.inv ht rfl⟩)
  | insUnlock c k e =>
    simp only [lib] at hs
    cases ha : unlock cfg h.s.lock t c with
    | none => rw [ha] at hs; cases hs
    | some l =>
      rw [ha] at hs
      cases hs
      have hum : MutexOk h.s (⟨h.s.ents, h.s.next, h.s.vis, l, h.s.thr.set t rest, ⟨e, c, k⟩ :: h.s.objs⟩ : St K)
          ⟨t, [], [], .owned h.nid :: lockRel cfg h.s c⟩ := unlock_facts ha rfl rfl (fun c' => by simp)
      refine H.next (ev := ⟨t, [], [], .owned h.nid :: lockRel cfg h.s c⟩) rfl hinv ?_ ht rfl (by simp) (Nat.le_refl _) (by simp)
        hum (.same rfl ?_ ?_) ?_ (by simp) (by simp) (by simp) ?_ ?_ ?_ ?_ ?_ ?_ ?_ (by simp) (by simp)
      · simp [label, H.len]
      · intro e he
        rcases List.mem_cons.1 he with he | he
        · cases he
        · cases hnl _ _ he
      · intro e he
        rcases List.mem_cons.1 he with he | he
        · cases he
        · cases hnl _ _ he
      · intro e x hx
        exact .inl ⟨x, hx, rfl⟩
      · intro w o hw
        rcases List.mem_cons.1 (show (w, o) ∈ (⟨e, c, k⟩, h.nid) :: h.s.objs.zip h.ids from hw) with hw | hw
        · cases hw
          exact .inr ⟨List.mem_cons_self, .inl ⟨_, .frame _ _ _ ht List.mem_cons_self (by simp [refF]), fun i hi => hi.old⟩⟩
        · exact .inl hw
      · intro i g hg hr
        exact .inl ⟨_, .frame _ _ g ht (List.mem_cons_of_mem _ hg) hr, fun i hi => hi.old⟩
      · intro i x v hx hv
        exact .inl ⟨x, hx, hv⟩
      · intro w o hw
        exact .inl (List.mem_cons_of_mem _ hw)
      · intro i x hx g hg hr
        rcases List.mem_cons.1 hg with rfl | hg
        · by_cases hi : e = i
          · subst hi
            exact .inr (.inr (.inl ⟨⟨e, c, k⟩, h.nid, List.mem_cons_self, rfl, .inl List.mem_cons_self⟩))
          · simp [refF, hi] at hr
        · exact .inl ⟨g, hg, hr⟩
      · intro i x v hx hv
        exact .inl ⟨x, hx, hv⟩
      · intro i x x' hx hx' hc hf
        dsimp only at hx'
        rw [hx] at hx'
        cases hx'
        exact .inl ⟨hc, fun g hg => hf g (List.mem_cons_of_mem _ hg)⟩
  | rel w =>
    obtain ⟨x, hx, hxc, _⟩ := hfr
    have hacc : ∀ a ∈ trkAcc cfg w.h, a = (.part w.h .ref, .atomic) ∨ a = (.part w.h .tref, .atomic) ∨
        a = (.part w.h .del, .write) ∧ cfg.tracks = true ∧ (cfg.locking = true → ∃ d, h.s.lock x.core = some (t, d)) :=
      fun a ha => .inr (.inl (mem_trkAcc ha))
    simp only [lib, hx] at hs
    split at hs
    · cases hs
      exact H.ownH (f' := if x.tref - 1 = 0 then .relLock w else .relDec w) ht hx (by simp [refF]) hinv rfl (ck_set hx rfl)
        (ct_set hx (fun h => h)) rfl rfl rfl rfl (fun c hm => by cases mem_trk hm) (fun c hm => by cases mem_trk hm)
        (fun c hm => by cases mem_trk hm) hacc (fun _ => by split <;> rfl) (fun _ => by split <;> rfl)
    · cases hs
      exact H.ownH (f' := .relDec w) ht hx (by simp [refF]) hinv rfl (fun _ => rfl)
        (fun e x x' h1 h2 h3 => by rw [h1] at h2; cases h2; exact h3) rfl rfl rfl rfl
        (fun c hm => by cases mem_trk hm) (fun c hm => by cases mem_trk hm)
        (fun c hm => by cases mem_trk hm) hacc (fun _ => rfl) (fun _ => rfl)
  | relLock w =>
    simp only [lib] at hs
    cases ha : acquire cfg h.s.lock t w.c with
    | none => rw [ha] at hs; cases hs
    | some l =>
      rw [ha] at hs
      cases hs
      exact H.plainH (new := [.relCheck w]) ht hinv rfl rfl rfl rfl (acquire_facts ha rfl rfl rfl rfl)
        (.same rfl (by simp) (by simp)) (fun e => by simp [refF]) (by simp [eraF])
  | relCheck w =>
    obtain ⟨x, hx, hxc, _⟩ := hfr
    simp only [lib, hx] at hs
    cases hs
    refine H.ownH (f' := .relUnlock w) ht hx (by simp [refF]) hinv rfl (fun _ => rfl)
      (fun e x x' h1 h2 h3 => by rw [h1] at h2; cases h2; exact h3) rfl rfl rfl rfl
      (by simp) (by simp) (by simp) ?_ (fun _ => rfl) (fun _ => rfl)
    intro a ha
    obtain ⟨h1, h2⟩ := mem_delAcc ha
    exact .inr (.inr ⟨h1, h2, fun hl => hxc ▸ held hl H.inv ht rfl⟩)
  | relUnlock w =>
    simp only [lib] at hs
    cases ha : unlock cfg h.s.lock t w.c with
    | none => rw [ha] at hs; cases hs
    | some l =>
      rw [ha] at hs
      cases hs
      exact H.plainH (new := [.relDec w]) ht hinv rfl rfl rfl rfl (unlock_facts ha rfl rfl (fun _ => Iff.rfl))
        (.same rfl (fun e he => by cases hnl _ _ he) (fun e he => by cases hnl _ _ he)) (fun e => by simp [refF]) (by simp [eraF])
  | relDec w =>
    obtain ⟨x, hx, hxc, hct, _⟩ := hfr
    have hpos : x.ref ≠ 0 := by
      intro h0
      exact no_user H.inv hx h0 (.frame t _ (.relDec w) ht List.mem_cons_self (by simp [refF]))
    have hne := no_era H.inv hx hpos
    simp only [lib, hx] at hs
    cases hs
    have hlt : t < h.s.thr.length := by
      rcases Nat.lt_or_ge t h.s.thr.length with h1 | h1
      · exact h1
      · rw [List.getElem?_eq_none h1] at ht; cases ht
    have htc : Tc ⟨(⟨setEnt h.s.ents w.h (some { x with ref := x.ref - 1 }), h.s.next, h.s.vis, h.s.lock, h.s.thr.set t rest,
        h.s.objs⟩ : St K), h.ids, h.nid, h.tr ++ [⟨t, rmw mo.decAcq w.h, [(.part w.h .ref, .atomic)], rmw mo.decRel w.h⟩]⟩
        (⟨t, rmw mo.decAcq w.h, [(.part w.h .ref, .atomic)], rmw mo.decRel w.h⟩ : Event) rest w.h := by
      refine .inr (.inr (.inr (.inr (.inl ⟨by simp [rmw, hmo.1], ?_, ?_⟩))))
      · intro y hy
        dsimp only at hy
        rw [setEnt_same] at hy
        cases hy
        exact hct
      · rintro ⟨t', st', ht', f, hf, hb⟩
        refine hne ?_
        dsimp only at ht'
        by_cases he : t' = t
        · subst he
          rw [List.getElem?_set_self hlt] at ht'
          cases ht'
          exact ⟨t', _, ht, f, List.mem_cons_of_mem _ hf, hb⟩
        · rw [List.getElem?_set_ne (Ne.symm he)] at ht'
          exact ⟨t', _, ht', f, hf, hb⟩
    refine H.quick (ev := ⟨t, rmw mo.decAcq w.h, [(.part w.h .ref, .atomic)], rmw mo.decRel w.h⟩) (new := [])
      rfl hinv ht rfl rfl rfl (ck_set hx rfl) (ct_set hx (fun h => h)) (by simp [okKind]) rfl ?_ (.same rfl ?_)
      (.same rfl ?_ ?_) (by simp) (by simp) (by simp) (by simp) ?_ (by simp) ?_ ?_
    · intro i p k ha
      cases List.mem_singleton.1 ha
      exact ⟨_, setEnt_same ..⟩
    · intro c hm
      cases mem_rmw hm
    · intro c hm
      cases mem_rmw hm
    · intro c hm
      cases mem_rmw hm
    · intro i y hy hr
      by_cases hi : w.h = i
      · subst hi
        exact htc
      · simp [refF, hi] at hr
    · intro i p k y ha hy
      cases List.mem_singleton.1 ha
      exact htc
    · intro n l k k' ha hn hcf _
      cases List.mem_singleton.1 ha
      have := conflict_write (H.kinds n _ hn) (by rfl) hcf (by simp) (by simp)
      subst this
      exact (H.user n w.h x _ _ hx (.frame t _ (.relDec w) ht List.mem_cons_self (by simp [refF])) (by simp) hn).old
  | gcIdle c =>
    cases hs
    exact H.plainH (new := [.gcPass c h.s.next (elems h.s c)]) ht hinv rfl rfl rfl rfl (.same rfl (by simp))
      (.same rfl (by simp) (by simp)) (fun e => by simp [refF]) (by simp [eraF])
  | gcPass c n todo =>
    simp only [lib] at hs
    split at hs
    · cases hs
      exact H.plainH (new := [.gcIdle c]) ht hinv rfl rfl rfl rfl (.same rfl (by simp))
        (.same rfl (by simp) (by simp)) (fun e => by simp [refF]) (by simp [eraF])
    · cases hs
  | gcTest c e =>
    obtain ⟨x, hx, hxc⟩ := hfr
    have hv := visits H.inv ht rfl
    simp only [lib, hx] at hs
    cases hs
    refine H.quick (ev := ⟨t, rmw mo.load e, [(.part e .ref, .atomic)], []⟩)
      (new := [if x.ref = 0 then .gcErase c e else .gcLeave c e])
      rfl hinv ht rfl rfl rfl (fun _ => rfl) ?_ (by simp [okKind]) rfl ?_ (.same rfl (by simp))
      (.same rfl (by simp) (by simp)) (by simp) (by simp) (by simp) ?_ ?_ ?_ ?_ ?_
    · intro e x x' hx hx' hc
      dsimp only at hx'
      rw [hx] at hx'
      cases hx'
      exact hc
    · intro i p k ha
      cases List.mem_singleton.1 ha
      exact ⟨x, hx⟩
    · intro i g hg hr
      rw [List.mem_singleton.1 hg] at hr
      split at hr <;> cases hr
    · intro i y hy hr
      cases hr
    · intro i g hg hb
      rw [List.mem_singleton.1 hg] at hb
      have hi : e = i := by
        split at hb
        · simpa [eraF] using hb
        · cases hb
      subst hi
      exact .inr ⟨by simp [rmw, hmo.2], .inr (.inl hv)⟩
    · intro i p k y ha hy
      cases List.mem_singleton.1 ha
      exact .inr (.inl hv)
    · intro n l k k' ha hn hcf _
      cases List.mem_singleton.1 ha
      exact H.visRace (ev := ⟨t, rmw mo.load e, [(.part e .ref, .atomic)], []⟩) hv hx rfl (by simp) (by simp) hn hcf
  | gcErase c e =>
    obtain ⟨x, hx, hxc, h0⟩ := hfr
    simp only [lib, hx] at hs
    cases hs
    exact H.eraseH ht hx h0 hinv
  | gcUnlink c e =>
    obtain ⟨x, hx, hxc, h0, hk⟩ := hfr
    simp only [lib, hx] at hs
    cases hs
    exact H.unlinkH ht hx h0 hk hinv
  | gcLeave c e =>
    cases hs
    exact H.plainH (new := []) ht hinv rfl rfl rfl rfl (.same rfl (by simp))
      (.drop rfl (visits H.inv ht rfl)) (fun e => by simp [refF]) (by simp)

theorem mem_excl {ids : List Nat} {o : Nat} (h : o ∈ ids) : .owned o ∈ excl ids ∧ .shared o ∈ excl ids := by
  simp [excl, h]

/-- An action that leaves mutexes and what values contain alone. -/
theorem HInv.userH (H : HInv cfg h) {h' : HSt K} {ev : Event} {st new : List (Frame K)} (htr : h'.tr = h.tr ++ [ev])
    (hinv : Inv cfg h'.s) (hlen : h'.ids.length = h'.s.objs.length) (hst : h.s.thr[ev.thr]? = some st)
    (hst' : h'.s.thr = h.s.thr.set ev.thr (new ++ st))
    (hck : ∀ e, (h'.s.ents e).map ck = (h.s.ents e).map ck)
    (hnext : h.s.next = h'.s.next) (hlk : h'.s.lock = h.s.lock) (hvi : h'.s.vis = h.s.vis)
    (hmu : ∀ c, .mutex c ∉ ev.rels ∧ .elemX c ∉ ev.rels ∧ .elemS c ∉ ev.rels)
    (hkind : ∀ a ∈ ev.accs, (∃ e x, a = (.part e .body, .read) ∧ h'.s.ents e = some x) ∨
      ∃ e x, (a = (.part e .ref, .atomic) ∨ a = (.part e .tref, .atomic)) ∧ h'.s.ents e = some x)
    (hu1 : ∀ w o, (w, o) ∈ h'.s.objs.zip h'.ids →
      (w, o) ∈ h.s.objs.zip h.ids ∨ .owned o ∈ ev.rels ∧ Tk h h' ev w.h)
    (hu2 : ∀ e, ∀ g ∈ new, 0 < refF e g → Tk h h' ev e)
    (hc1 : ∀ w o, (w, o) ∈ h.s.objs.zip h.ids → (w, o) ∈ h'.s.objs.zip h'.ids ∨
      .owned o ∈ ev.acqs ∧ .shared o ∈ ev.acqs ∧ Tc h' ev (new ++ st) w.h)
    (hc4 : ∀ e x x', h.s.ents e = some x → h'.s.ents e = some x' → x.cted = true → x'.cted = true)
    (hera : ∀ e, ∀ g ∈ new, eraF e g = false)
    (hacc : ∀ e p k x, (.part e p, k) ∈ ev.accs → h'.s.ents e = some x → Tc h' ev (new ++ st) e)
    (hrace : ∀ n e p x k, (.part e p, k) ∈ ev.accs → h.s.ents e = some x → p ≠ .del →
      Acc h.tr n (.part e p, .write) → Know h'.tr ev.thr n) : HInv cfg h' := by
  have kold : ∀ {t i}, Know h.tr t i → Know h'.tr t i := fun hk => by rw [htr]; exact hk.old
  refine H.next htr hinv hlen hst hst' ?_ (Nat.le_of_eq hnext) ?_ (.same hlk fun c => (hmu c).1)
    (.same hvi (fun c => (hmu c).2.1) fun c => (hmu c).2.2) ?_ ?_ ?_ ?_ hu1 ?_ ?_ hc1 ?_ ?_ ?_ hacc ?_
  · intro a ha
    rcases hkind a ha with ⟨e, x, rfl, _⟩ | ⟨e, x, rfl | rfl, _⟩ <;> rfl
  · intro e p k ha
    rcases hkind _ ha with ⟨e, x, he, hx⟩ | ⟨e, x, he | he, hx⟩ <;> cases he <;> exact hinv.core.lt_next hx
  · intro e x hx
    obtain ⟨y, hy, hc, _⟩ := ck_some hck hx
    exact .inl ⟨y, hy, hc⟩
  · intro e p x ha
    rcases hkind _ ha with ⟨e, x, he, hx⟩ | ⟨e, x, he | he, hx⟩ <;> cases he
  · intro _ e k x ha
    rcases hkind _ ha with ⟨e, x, he, hx⟩ | ⟨e, x, he | he, hx⟩ <;> cases he
  · intro e p x ha
    rcases hkind _ ha with ⟨e, x, he, hx⟩ | ⟨e, x, he | he, hx⟩ <;> cases he
  · intro e g hg hr
    rcases List.mem_append.1 hg with hg | hg
    · exact hu2 e g hg hr
    · exact .inl ⟨_, .frame _ _ g hst hg hr, fun i => kold⟩
  · intro e x v hx hv
    obtain ⟨y, hy, _, hk⟩ := ck_some hck hx
    exact .inl ⟨y, hy, hk ▸ hv⟩
  · intro e x hx g hg hr
    exact .inl ⟨g, List.mem_append.2 (.inr hg), hr⟩
  · intro e x v hx hv
    obtain ⟨y, hy, _, hk⟩ := ck_some (fun e => (hck e).symm) hx
    exact .inl ⟨y, hy, hk ▸ hv⟩
  · intro e x x' hx hx' hc hf
    refine .inl ⟨hc4 e x x' hx hx' hc, fun g hg => ?_⟩
    rcases List.mem_append.1 hg with hg | hg
    · exact hera e g hg
    · exact hf g hg
  · intro n l k k' ha hn hcf _
    have hok := hkind _ ha
    have key : ∀ e p x, l = .part e p → h'.s.ents e = some x → p ≠ .del → okKind (.part e p, k') = true → k' ≠ .write →
        Know h'.tr ev.thr n := by
      rintro e p x rfl hx hp hk hw
      obtain ⟨y, hy, _⟩ := ck_some hck hx
      have := conflict_write (H.kinds n _ hn) hk hcf hp hw
      subst this
      exact hrace n e p y k' ha hy hp hn
    rcases hok with ⟨e, x, he, hx⟩ | ⟨e, x, he | he, hx⟩ <;> cases he
    · exact key e .body x rfl hx (by simp) rfl (by simp)
    · exact key e .ref x rfl hx (by simp) rfl (by simp)
    · exact key e .tref x rfl hx (by simp) rfl (by simp)

/-- Objects are moved into a new operation, or destroyed. -/
theorem HInv.takeH (H : HInv cfg h) {st new : List (Frame K)} {m : List Bool} (ht : h.s.thr[t]? = some st)
    (hnew : ∀ e, (∃ g ∈ new, 0 < refF e g) ↔ 0 < fwCount e (pick m h.s.objs).1)
    (hera : ∀ e, ∀ g ∈ new, eraF e g = false)
    (hinv : Inv cfg (⟨h.s.ents, h.s.next, h.s.vis, h.s.lock, h.s.thr.set t (new ++ st), (pick m h.s.objs).2⟩ : St K)) :
    HInv cfg ⟨(⟨h.s.ents, h.s.next, h.s.vis, h.s.lock, h.s.thr.set t (new ++ st), (pick m h.s.objs).2⟩ : St K),
      (pick m h.ids).2, h.nid, h.tr ++ [⟨t, excl (pick m h.ids).1, [], []⟩]⟩ := by
  have hz := mem_pick_zip H.len.symm m
  have hpl := pick_length H.len.symm m
  refine H.userH (ev := ⟨t, excl (pick m h.ids).1, [], []⟩) (new := new) rfl hinv hpl.2.symm ht rfl (fun _ => rfl) rfl rfl rfl
    (by simp) (by simp) (fun w o hw => .inl ((hz _).2 (.inr hw))) ?_ ?_ ?_ hera (by simp) (by simp)
  · intro e g hg hr
    obtain ⟨w, hw, he⟩ := exists_of_fwCount ((hnew e).1 ⟨g, hg, hr⟩)
    obtain ⟨o, ho⟩ := zip_left hpl.1 hw
    exact .inl ⟨_, .obj w o ((hz _).2 (.inl ho)) he, fun i hi =>
      know_acq (ev := ⟨t, excl (pick m h.ids).1, [], []⟩) (mem_excl (List.of_mem_zip ho).2).1 hi⟩
  · intro w o hw
    rcases (hz _).1 hw with hw | hw
    · obtain ⟨h1, h2⟩ := mem_excl (List.of_mem_zip hw).2
      obtain ⟨g, hg, hr⟩ := (hnew w.h).2 (fwCount_pos (List.of_mem_zip hw).1 rfl)
      exact .inr ⟨h1, h2, .inl ⟨g, List.mem_append.2 (.inl hg), hr⟩⟩
    · exact .inl hw
  · intro e x x' hx hx' hp
    rw [show x' = x from Option.some.inj (hx'.symm.trans hx)]
    exact hp

/-- A flyweight is copied to a new object: either another object, or one inside the value of an
object. -/
theorem HInv.copyH (H : HInv cfg h) {st : List (Frame K)} {w v : Fw K} {o : Nat} {y : Ent K} {more : List (Loc × Kind)}
    (ht : h.s.thr[t]? = some st) (hw : (w, o) ∈ h.s.objs.zip h.ids) (hy : h.s.ents v.h = some y)
    (hm : ∀ a ∈ more, a = (.part w.h .body, .read))
    (hv : ∃ P, User h v.h P ∧ ∀ i, P i → Rel h.tr (.owned o) i)
    (hinv : Inv cfg (⟨setEnt h.s.ents v.h (some { y with
      ref := y.ref + 1, tref := if cfg.tracks then y.tref + 1 else y.tref }), h.s.next, h.s.vis, h.s.lock, h.s.thr, v :: h.s.objs⟩ : St K)) :
    HInv cfg ⟨(⟨setEnt h.s.ents v.h (some { y with
      ref := y.ref + 1, tref := if cfg.tracks then y.tref + 1 else y.tref }), h.s.next, h.s.vis, h.s.lock, h.s.thr, v :: h.s.objs⟩ : St K), h.nid :: h.ids, h.nid + 1, h.tr ++ [⟨t, .owned o :: (rmw mo.inc v.h ++ trk cfg mo.trk v.h),
        more ++ (.part v.h .ref, .atomic) :: trkAcc cfg v.h, .shared o :: .owned h.nid :: (rmw mo.inc v.h ++ trk cfg mo.trk v.h)⟩]⟩ := by
  have hck := ck_set (x' := { y with
      ref := y.ref + 1, tref := if cfg.tracks then y.tref + 1 else y.tref }) hy rfl
  have hex : ∀ {e x}, h.s.ents e = some x → ∃ z, setEnt h.s.ents v.h (some { y with
      ref := y.ref + 1, tref := if cfg.tracks then y.tref + 1 else y.tref }) e = some z ∧
      x.cted = z.cted := by
    intro e x hx
    by_cases he : e = v.h
    · subst he
      rw [setEnt_same]
      rw [hy] at hx
      cases hx
      exact ⟨_, rfl, rfl⟩
    · rw [setEnt_ne _ _ he]
      exact ⟨x, hx, rfl⟩
  obtain ⟨x, hx, -, -⟩ := H.inv.core.fw_ent (List.of_mem_zip hw).1
  obtain ⟨P, hP, hPo⟩ := hv
  have hk : ∀ {i}, Rel h.tr (.owned o) i → Know (h.tr ++ [⟨t, .owned o :: (rmw mo.inc v.h ++ trk cfg mo.trk v.h),
        more ++ (.part v.h .ref, .atomic) :: trkAcc cfg v.h, .shared o :: .owned h.nid :: (rmw mo.inc v.h ++ trk cfg mo.trk v.h)⟩]) t i := fun hi =>
    know_acq (ev := (⟨t, .owned o :: (rmw mo.inc v.h ++ trk cfg mo.trk v.h),
        more ++ (.part v.h .ref, .atomic) :: trkAcc cfg v.h, .shared o :: .owned h.nid :: (rmw mo.inc v.h ++ trk cfg mo.trk v.h)⟩ : Event)) List.mem_cons_self hi
  have hmem : ∀ {a : Loc × Kind}, a ∈ more ++ (.part v.h .ref, .atomic) :: trkAcc cfg v.h → a = (.part w.h .body, .read) ∨
      a = (.part v.h .ref, .atomic) ∨ a = (.part v.h .tref, .atomic) := by
    intro a ha
    rcases List.mem_append.1 ha with ha | ha
    · exact .inl (hm a ha)
    · rcases List.mem_cons.1 ha with ha | ha
      · exact .inr (.inl ha)
      · exact .inr (.inr (mem_trkAcc ha))
  refine H.userH (ev := ⟨t, .owned o :: (rmw mo.inc v.h ++ trk cfg mo.trk v.h), more ++ (.part v.h .ref, .atomic) :: trkAcc cfg v.h,
      .shared o :: .owned h.nid :: (rmw mo.inc v.h ++ trk cfg mo.trk v.h)⟩) (new := []) rfl hinv (by simp [H.len]) ht (set_self ht).symm hck rfl rfl rfl
    ?_ ?_ ?_ (by simp) ?_ ?_ (by simp) ?_ ?_
  · have key : ∀ s ∈ Sync.shared o :: .owned h.nid :: (rmw mo.inc v.h ++ trk cfg mo.trk v.h),
        s = .shared o ∨ s = .owned h.nid ∨ s = .count v.h ∨ s = .tcount v.h := by
      intro s hs
      rcases List.mem_cons.1 hs with hs | hs
      · exact .inl hs
      · rcases List.mem_cons.1 hs with hs | hs
        · exact .inr (.inl hs)
        · rcases List.mem_append.1 hs with hs | hs
          · exact .inr (.inr (.inl (mem_rmw hs)))
          · exact .inr (.inr (.inr (mem_trk hs)))
    intro c
    refine ⟨fun hm => ?_, fun hm => ?_, fun hm => ?_⟩ <;> rcases key _ hm with h1 | h1 | h1 | h1 <;> cases h1
  · intro a ha
    rcases hmem ha with rfl | rfl | rfl
    · obtain ⟨z, hz, _⟩ := hex hx
      exact .inl ⟨_, z, rfl, hz⟩
    · exact .inr ⟨_, _, .inl rfl, setEnt_same ..⟩
    · exact .inr ⟨_, _, .inr rfl, setEnt_same ..⟩
  · intro u o' hu
    rcases List.mem_cons.1 (show (u, o') ∈ (v, h.nid) :: h.s.objs.zip h.ids from hu) with hu | hu
    · cases hu
      exact .inr ⟨by simp, .inl ⟨P, hP, fun i hi => hk (hPo i hi)⟩⟩
    · exact .inl hu
  · intro u o' hu
    exact .inl (List.mem_cons_of_mem _ hu)
  · intro e x x' hx hx' hp
    obtain ⟨z, hz, hle⟩ := hex hx
    rw [show x' = z from Option.some.inj (hx'.symm.trans hz), ← hle]
    exact hp
  · intro e p k x ha hx
    rcases hmem ha with ha | ha | ha <;> cases ha
    · exact .inr (.inr (.inl ⟨w, o, List.mem_cons_of_mem _ hw, rfl, .inr (by simp)⟩))
    · exact .inr (.inr (.inl ⟨v, h.nid, List.mem_cons_self, rfl, .inl (by simp)⟩))
    · exact .inr (.inr (.inl ⟨v, h.nid, List.mem_cons_self, rfl, .inl (by simp)⟩))
  · intro n e p x k ha hx hp hn
    rcases hmem ha with ha | ha | ha <;> cases ha
    · exact hk (H.user n _ x _ _ hx (.obj w o hw rfl) hp hn)
    · exact hk (hPo n (H.user n _ x _ P hx hP hp hn))
    · exact hk (hPo n (H.user n _ x _ P hx hP hp hn))

/-- A value constructor returns. -/
theorem HInv.finishH (H : HInv cfg h) {rest : List (Frame K)} {c e : Nat} {loc : List (Fw K)} {k : K} {x : Ent K} {m : List Bool} {drop : Bool}
    (ht : h.s.thr[t]? = some (.insUser c k e loc :: rest)) (hx : h.s.ents e = some x) (hct : x.cted = false)
    (hl : h.s.vis e = some t) (h0 : x.ref = 0)
    (hinv : Inv cfg (⟨setEnt h.s.ents e (some { x with
        kids := if drop then (pick m h.s.objs).1 else x.kids ++ (pick m h.s.objs).1 }), h.s.next, h.s.vis, h.s.lock,
      h.s.thr.set t ((if drop then x.kids.map .rel else []) ++ .insDone c k e loc :: rest), (pick m h.s.objs).2⟩ : St K)) :
    HInv cfg ⟨(⟨setEnt h.s.ents e (some { x with
        kids := if drop then (pick m h.s.objs).1 else x.kids ++ (pick m h.s.objs).1 }), h.s.next, h.s.vis, h.s.lock,
      h.s.thr.set t ((if drop then x.kids.map .rel else []) ++ .insDone c k e loc :: rest), (pick m h.s.objs).2⟩ : St K), (pick m h.ids).2, h.nid,
      h.tr ++ [⟨t, excl (pick m h.ids).1, [(.part e .body, .write)], []⟩]⟩ := by
  have hz := mem_pick_zip H.len.symm m
  have hpl := pick_length H.len.symm m
  have hat : ∀ {i y}, setEnt h.s.ents e (some { x with
        kids := if drop then (pick m h.s.objs).1 else x.kids ++ (pick m h.s.objs).1 }) i = some y →
      i = e ∧ y = { x with kids := if drop then (pick m h.s.objs).1 else x.kids ++ (pick m h.s.objs).1 } ∨
      i ≠ e ∧ h.s.ents i = some y := by
    intro i y hy
    by_cases hi : i = e
    · subst hi
      rw [setEnt_same] at hy
      cases hy
      exact .inl ⟨rfl, rfl⟩
    · rw [setEnt_ne _ _ hi] at hy
      exact .inr ⟨hi, hy⟩
  have hpast : ∀ i, Past h.tr (.part e .body, .write) i → Know h.tr t i := by
    rintro i ⟨j, h1, h2⟩
    exact (H.visited hl (H.writes j e x _ hx (by simp) h1)).trans h2
  refine H.next (ev := ⟨t, excl (pick m h.ids).1, [(.part e .body, .write)], []⟩) rfl hinv hpl.2.symm ht rfl
    (by simp [okKind]) (Nat.le_refl _) ?_ (.same rfl (by simp)) (.same rfl (by simp) (by simp)) ?_ ?_ (by simp) ?_
    (fun w o hw => .inl ((hz _).2 (.inr hw))) ?_ ?_ ?_ ?_ ?_ ?_ ?_ ?_
  · intro i p k ha
    cases List.mem_singleton.1 ha
    exact H.inv.core.lt_next hx
  · intro i y hy
    rcases hat hy with ⟨rfl, rfl⟩ | ⟨_, hy⟩
    · exact .inl ⟨x, hx, rfl⟩
    · exact .inl ⟨y, hy, rfl⟩
  · intro i p y ha _ hy
    cases List.mem_singleton.1 ha
    exact hl
  · intro i p y ha _ hy
    cases List.mem_singleton.1 ha
    rcases hat hy with ⟨_, rfl⟩ | ⟨h1, _⟩
    · exact h0
    · exact absurd rfl h1
  · intro i g hg hr
    rcases List.mem_append.1 hg with hg | hg
    · split at hg
      · obtain ⟨v, hv, rfl⟩ := List.mem_map.1 hg
        exact .inl ⟨_, .kid e x v hx hv (of_rel hr), fun i hi => (hpast i hi).old⟩
      · cases hg
    · rcases List.mem_cons.1 hg with rfl | hg
      · exact .inl ⟨_, .frame _ _ (.insUser c k e loc) ht List.mem_cons_self hr, fun i hi => hi.old⟩
      · exact .inl ⟨_, .frame _ _ g ht (List.mem_cons_of_mem _ hg) hr, fun i hi => hi.old⟩
  · intro i y v hy hv
    rcases hat hy with ⟨rfl, rfl⟩ | ⟨_, hy⟩
    · have hv' : v ∈ x.kids ∨ v ∈ (pick m h.s.objs).1 := by
        dsimp only at hv
        split at hv
        · exact .inr hv
        · exact List.mem_append.1 hv
      rcases hv' with hv | hv
      · exact .inl ⟨x, hx, hv⟩
      · obtain ⟨o, ho⟩ := zip_left hpl.1 hv
        exact .inr ⟨List.mem_singleton.2 rfl, .inl ⟨_, .obj v o ((hz _).2 (.inl ho)) rfl, fun n hn =>
          know_acq (ev := ⟨t, excl (pick m h.ids).1, [(.part i .body, .write)], []⟩)
            (mem_excl (List.of_mem_zip ho).2).1 hn⟩⟩
    · exact .inl ⟨y, hy, hv⟩
  · intro w o hw
    rcases (hz _).1 hw with hw | hw
    · obtain ⟨h1, h2⟩ := mem_excl (List.of_mem_zip hw).2
      refine .inr ⟨h1, h2, .inr (.inr (.inr (.inl ⟨e, _, w, setEnt_same .., ?_, rfl, List.mem_singleton.2 rfl⟩)))⟩
      have := (List.of_mem_zip hw).1
      dsimp only
      split
      · exact this
      · exact List.mem_append.2 (.inr this)
    · exact .inl hw
  · intro i y hy g hg hr
    rcases List.mem_cons.1 hg with rfl | hg
    · exact .inl ⟨.insDone c k e loc, List.mem_append.2 (.inr List.mem_cons_self), hr⟩
    · exact .inl ⟨g, List.mem_append.2 (.inr (List.mem_cons_of_mem _ hg)), hr⟩
  · intro i y v hy hv
    by_cases hi : i = e
    · subst hi
      rw [hx] at hy
      cases hy
      by_cases hd : drop = true
      · refine .inr ⟨fun i hi => (hpast i hi).old, .inl ⟨.rel v, ?_, ?_⟩⟩
        · rw [if_pos hd]
          exact List.mem_append.2 (.inl (List.mem_map.2 ⟨v, hv, rfl⟩))
        · simp [refF]
      · refine .inl ⟨_, setEnt_same .., ?_⟩
        dsimp only
        rw [if_neg hd]
        exact List.mem_append.2 (.inl hv)
    · exact .inl ⟨y, by simpa [setEnt, hi] using hy, hv⟩
  · intro i y y' hy hy' hpos hf
    rcases hat hy' with ⟨rfl, rfl⟩ | ⟨_, hy'⟩
    · rw [hx] at hy
      cases hy
      rw [hct] at hpos
      cases hpos
    · rw [hy'] at hy
      cases hy
      refine .inl ⟨hpos, fun g hg => ?_⟩
      rcases List.mem_append.1 hg with hg | hg
      · split at hg
        · obtain ⟨v, _, rfl⟩ := List.mem_map.1 hg
          rfl
        · cases hg
      · rcases List.mem_cons.1 hg with rfl | hg
        · rfl
        · exact hf g (List.mem_cons_of_mem _ hg)
  · intro i p k y ha hy
    cases List.mem_singleton.1 ha
    exact .inr (.inl hl)
  · intro n l k₁ k₂ ha hn hcf _
    cases List.mem_singleton.1 ha
    exact H.soleRace (ev := ⟨t, excl (pick m h.ids).1, [(.part e .body, .write)], []⟩) hl hx h0 (.inl hct) hn

/-- Actions. -/
theorem act_h (hcfg : CfgOk cfg) (hmo : mo.decRel = true ∧ mo.load = true)
    (H : HInv cfg h) {st : List (Frame K)} (ht : h.s.thr[t]? = some st) {a : Act K} (hs : act cfg h.s t st a = .ok s') :
    HInv cfg ⟨s', (label cfg mo h t st a).2.1, (label cfg mo h t st a).2.2, h.tr ++ [(label cfg mo h t st a).1]⟩ := by
  have hinv : Inv cfg s' := by
    have := act_good hcfg H.inv ht a
    rwa [hs] at this
  have hself := set_self ht
  cases a with
  | run =>
    cases st with
    | nil => cases hs
    | cons f rest => exact lib_h hcfg hmo H ht hs
  | create c k m pre =>
    simp only [act] at hs
    split at hs
    · cases hs
      exact H.takeH (new := [.insLock c k (pick m h.s.objs).1 pre]) ht (fun e => by simp [refF]) (by simp [eraF]) hinv
    · cases hs
  | destroy m =>
    simp only [act] at hs
    split at hs
    · cases hs
      refine H.takeH (new := (pick m h.s.objs).1.map .rel) ht (fun e => ⟨?_, ?_⟩) ?_ hinv
      · rintro ⟨g, hg, hr⟩
        obtain ⟨v, hv, rfl⟩ := List.mem_map.1 hg
        exact fwCount_pos hv (of_rel hr)
      · intro hr
        obtain ⟨v, hv, he⟩ := exists_of_fwCount hr
        exact ⟨_, List.mem_map.2 ⟨v, hv, rfl⟩, by simp [refF, he]⟩
      · intro e g hg
        obtain ⟨v, hv, rfl⟩ := List.mem_map.1 hg
        rfl
    · cases hs
  | copy i =>
    simp only [act] at hs
    split at hs
    · cases hw : h.s.objs[i]? with
      | none => rw [hw] at hs; cases hs
      | some w =>
        have hz := zip_get H.len hw
        rw [hw] at hs
        dsimp only at hs
        cases hx : h.s.ents w.h with
        | none => rw [hx] at hs; cases hs
        | some x =>
          rw [hx] at hs
          cases hs
          simp only [label, target, hw]
          exact H.copyH (more := []) ht hz hx (by simp) ⟨_, .obj w _ hz rfl, fun i hi => hi⟩ hinv
    · cases hs
  | copyKid i j =>
    simp only [act] at hs
    split at hs
    · cases hw : h.s.objs[i]? with
      | none => rw [hw] at hs; cases hs
      | some w =>
        have hz := zip_get H.len hw
        rw [hw] at hs
        dsimp only at hs
        cases hx : h.s.ents w.h with
        | none => rw [hx] at hs; cases hs
        | some x =>
          rw [hx] at hs
          dsimp only at hs
          split at hs
          · cases hv : x.kids[j]? with
            | none => rw [hv] at hs; cases hs
            | some v =>
              rw [hv] at hs
              dsimp only at hs
              cases hy : h.s.ents v.h with
              | none => rw [hy] at hs; cases hs
              | some y =>
                rw [hy] at hs
                cases hs
                simp only [label, kidTarget, target, hw, hx, hv]
                refine H.copyH (more := [(.part w.h .body, .read)]) ht hz hy (by simp)
                  ⟨_, .kid w.h x v hx (List.mem_of_getElem? hv) rfl, ?_⟩ hinv
                rintro n ⟨j, h1, h2⟩
                exact (H.user j _ x _ _ hx (.obj w _ hz rfl) (by simp) h1).trans h2
          · cases hs
    · cases hs
  | swap i j =>
    simp only [act] at hs
    split at hs
    · cases hv : h.s.objs[i]? with
      | none => rw [hv] at hs; cases hs
      | some v =>
        cases hw : h.s.objs[j]? with
        | none => rw [hv, hw] at hs; cases hs
        | some w =>
          rw [hv, hw] at hs
          cases hs
          have hzv := zip_get H.len hv
          have hzw := zip_get H.len hw
          have hlen : ((h.s.objs.set i w).set j v).length = h.s.objs.length := by simp
          have hi : i < h.s.objs.length := by
            rcases Nat.lt_or_ge i h.s.objs.length with h1 | h1
            · exact h1
            · rw [List.getElem?_eq_none h1] at hv; cases hv
          have hj : j < h.s.objs.length := by
            rcases Nat.lt_or_ge j h.s.objs.length with h1 | h1
            · exact h1
            · rw [List.getElem?_eq_none h1] at hw; cases hw
          have hzv' : (v, h.ids.getD j 0) ∈ ((h.s.objs.set i w).set j v).zip h.ids :=
            zip_get (H.len.trans hlen.symm) (by rw [List.getElem?_set_self (by simpa using hj)])
          have hzw' : (w, h.ids.getD i 0) ∈ ((h.s.objs.set i w).set j v).zip h.ids := by
            refine zip_get (H.len.trans hlen.symm) ?_
            by_cases hij : j = i
            · subst hij
              rw [hv] at hw
              cases hw
              rw [List.getElem?_set_self (by simpa using hj)]
            · rw [List.getElem?_set_ne hij, List.getElem?_set_self hi]
          have hget : ∀ {n : Nat} {o : Nat}, h.ids[n]? = some o → o = h.ids.getD n 0 := by
            intro n o ho
            rw [List.getD_eq_getElem?_getD, ho]
            rfl
          refine H.userH (ev := ⟨t, excl [h.ids.getD i 0, h.ids.getD j 0], [],
              [.owned (h.ids.getD i 0), .owned (h.ids.getD j 0)]⟩) (new := []) rfl hinv (H.len.trans hlen.symm) ht hself.symm
            (fun _ => rfl) rfl rfl rfl (by simp) (by simp) ?_ (by simp) ?_ ?_ (by simp) (by simp) (by simp)
          · intro u o hu
            obtain ⟨n, hn⟩ := List.mem_iff_getElem?.1 hu
            obtain ⟨h1, h2⟩ := List.getElem?_zip_eq_some.1 hn
            dsimp only at h1 h2
            by_cases hnj : j = n
            · subst hnj
              rw [List.getElem?_set_self (by simpa using hj)] at h1
              cases h1
              have := hget h2
              subst this
              exact .inr ⟨by simp, .inl ⟨_, .obj v _ hzv rfl, fun m hm => know_acq
                (ev := ⟨t, excl [h.ids.getD i 0, h.ids.getD j 0], [], [.owned (h.ids.getD i 0), .owned (h.ids.getD j 0)]⟩)
                (mem_excl (by simp)).1 hm⟩⟩
            · rw [List.getElem?_set_ne hnj] at h1
              by_cases hni : i = n
              · subst hni
                rw [List.getElem?_set_self hi] at h1
                cases h1
                have := hget h2
                subst this
                exact .inr ⟨by simp, .inl ⟨_, .obj w _ hzw rfl, fun m hm => know_acq
                  (ev := ⟨t, excl [h.ids.getD i 0, h.ids.getD j 0], [], [.owned (h.ids.getD i 0), .owned (h.ids.getD j 0)]⟩)
                  (mem_excl (by simp)).1 hm⟩⟩
              · rw [List.getElem?_set_ne hni] at h1
                exact .inl (List.mem_of_getElem? (List.getElem?_zip_eq_some.2 ⟨h1, h2⟩))
          · intro u o hu
            obtain ⟨n, hn⟩ := List.mem_iff_getElem?.1 hu
            obtain ⟨h1, h2⟩ := List.getElem?_zip_eq_some.1 hn
            dsimp only at h1 h2
            by_cases hni : i = n
            · subst hni
              rw [hv] at h1
              cases h1
              have := hget h2
              subst this
              exact .inr ⟨(mem_excl (by simp)).1, (mem_excl (by simp)).2,
                .inr (.inr (.inl ⟨v, _, hzv', rfl, .inl (by simp)⟩))⟩
            · by_cases hnj : j = n
              · subst hnj
                rw [hw] at h1
                cases h1
                have := hget h2
                subst this
                exact .inr ⟨(mem_excl (by simp)).1, (mem_excl (by simp)).2,
                  .inr (.inr (.inl ⟨w, _, hzw', rfl, .inl (by simp)⟩))⟩
              · refine .inl (List.mem_of_getElem? (List.getElem?_zip_eq_some.2 ⟨?_, h2⟩))
                dsimp only
                rw [List.getElem?_set_ne hnj, List.getElem?_set_ne hni]
                exact h1
          · intro e x x' hx hx' hp
            rw [show x' = x from Option.some.inj (hx'.symm.trans hx)]
            exact hp
    · cases hs
  | read i =>
    simp only [act] at hs
    split at hs
    · cases hw : h.s.objs[i]? with
      | none => rw [hw] at hs; cases hs
      | some w =>
        have hz := zip_get H.len hw
        rw [hw] at hs
        dsimp only at hs
        cases hx : h.s.ents w.h with
        | none => rw [hx] at hs; cases hs
        | some x =>
          rw [hx] at hs
          dsimp only at hs
          split at hs
          · cases hs
            simp only [label, target, hw]
            refine H.userH (ev := ⟨t, [.owned (h.ids.getD i 0)], [(.part w.h .body, .read)], [.shared (h.ids.getD i 0)]⟩)
              (new := []) rfl hinv H.len ht hself.symm (fun _ => rfl) rfl rfl rfl (by simp) ?_ (fun w o hw => .inl hw) (by simp)
              (fun w o hw => .inl hw) ?_ (by simp) ?_ ?_
            · intro a ha
              exact .inl ⟨_, x, List.mem_singleton.1 ha, hx⟩
            · intro e x x' hx hx' hp
              rw [show x' = x from Option.some.inj (hx'.symm.trans hx)]
              exact hp
            · intro e p k x ha hx
              cases List.mem_singleton.1 ha
              exact .inr (.inr (.inl ⟨w, _, hz, rfl, .inr (by simp)⟩))
            · intro n e p x k ha hx hp hn
              cases List.mem_singleton.1 ha
              exact know_acq (ev := (⟨t, [.owned (h.ids.getD i 0)], [(.part w.h .body, .read)], [.shared (h.ids.getD i 0)]⟩ : Event))
                (List.mem_singleton.2 rfl) (H.user n _ x _ _ hx (.obj w _ hz rfl) hp hn)
          · cases hs
    · cases hs
  | finish m drop =>
    simp only [act] at hs
    split at hs
    · rename_i c k e loc rest
      obtain ⟨⟨x, hx, _, hct, _⟩, _⟩ : FrameOk cfg h.s.ents (.insUser c k e loc) :=
        H.inv.core.frames _ (List.mem_flatten.2 ⟨_, List.mem_of_getElem? ht, List.mem_cons_self⟩)
      rw [hx] at hs
      dsimp only at hs
      rw [if_neg (by simp [hct])] at hs
      cases hs
      exact H.finishH ht hx hct (visits H.inv ht rfl) (uncted_ref H.inv hx hct) hinv
    · cases hs
  | throw_ =>
    simp only [act] at hs
    split at hs
    · cases hs
      rename_i c k e loc rest
      exact H.plainH (new := [.insFail c e loc]) ht hinv rfl rfl rfl rfl (.same rfl (by simp))
        (.same rfl (by simp) (by simp)) (fun e => by simp [refF]) (by simp [eraF])
    · cases hs
      rename_i c k loc pre rest
      exact H.plainH (new := loc.map .rel ++ [.insUnwind c]) ht hinv (by simp) rfl rfl rfl (.same rfl (by simp))
        (.same rfl (by simp) (by simp)) (fun e => by simp [refF]) (era_rel fun _ => rfl)
    · rename_i c k loc pre rest
      split at hs
      · cases hs
        have hvs : VisOk h.s (⟨h.s.ents, h.s.next, h.s.vis, h.s.lock, h.s.thr.set t (loc.map .rel ++ .insUnwind c :: rest),
            h.s.objs⟩ : St K) ⟨t, (readable h.s c).map .elemX, reads (readable h.s c), (readable h.s c).map .elemS⟩ := by
          refine ⟨fun e t' h1 => .inl h1, fun e t' h1 h2 => ?_, fun e t' h1 => .inl h1⟩
          simp only [List.mem_map, Sync.elemS.injEq, exists_eq_right, reduceCtorEq, and_false, exists_false, false_or] at h2
          obtain ⟨_, _, _, hv⟩ := mem_readable h2
          dsimp only at h1
          rw [hv] at h1
          cases h1
        exact H.lookH (new := loc.map .rel ++ [.insUnwind c]) ht hinv (by simp) rfl rfl rfl rfl hvs
          (fun i hi => by simp [hi]) (fun e => by simp [refF]) (era_rel fun _ => rfl)
      · cases hs
    · cases hs
  | gcVisit e =>
    simp only [act] at hs
    split at hs
    · rename_i c n todo rest
      cases hx : h.s.ents e with
      | none => rw [hx] at hs; cases hs
      | some x =>
        rw [hx] at hs
        dsimp only at hs
        split at hs
        · rename_i hv
          cases hs
          exact H.plainH (new := [.gcTest c e, .gcPass c n (todo.filter (· ≠ e))]) ht hinv rfl rfl rfl rfl (.same rfl (by simp))
            (.take rfl hv.2.2 (by simp) (by simp) (by simp)) (fun e => by simp [refF]) (by simp [eraF])
        · cases hs
    · cases hs

/-- At the start nothing has been accessed. -/
theorem hstart_h (n : Nat) (gcs : List Nat) : HInv cfg (hstart n gcs : HSt K) where
  inv := start_inv n gcs
  len := rfl
  kinds := by rintro n a ⟨ev, h, _⟩; simp [hstart] at h
  bound := by rintro n e p k ⟨ev, h, _⟩; simp [hstart] at h
  hold := by rintro c t d i _ ⟨j, ev, h, _⟩; simp [hstart] at h
  vhold := by rintro e t i _ (⟨j, ev, h, _⟩ | ⟨j, ev, h, _⟩) <;> simp [hstart] at h
  writes := by rintro n e x p _ _ ⟨ev, h, _⟩; simp [hstart] at h
  dels := by rintro _ n e x k _ ⟨ev, h, _⟩; simp [hstart] at h
  user := by rintro n e x p P _ _ _ ⟨ev, h, _⟩; simp [hstart] at h
  cov := by rintro n e x p k _ ⟨ev, h, _⟩; simp [hstart] at h
  race := races_nil

/-- Executions. -/
theorem hexec_h (hcfg : CfgOk cfg) (hmo : mo.decRel = true ∧ mo.load = true)
    (H : HInv cfg h) (acts : List (Nat × Act K)) : HInv cfg (hexec cfg mo acts h) := by
  induction acts generalizing h with
  | nil => exact H
  | cons p acts ih =>
    obtain ⟨t, a⟩ := p
    unfold hexec
    cases ht : h.s.thr[t]? with
    | none => exact ih H
    | some st =>
      dsimp only
      cases hs : act cfg h.s t st a with
      | ok s' => exact ih (act_h hcfg hmo H ht hs)
      | no => exact ih H
      | ub => exact H
      | reentrant => exact H

end

end Verif.CFac

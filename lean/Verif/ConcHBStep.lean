import Verif.ConcHB

/-!
# No data races in the concurrent model: preservation of the invariant
-/

set_option autoImplicit false

namespace Verif.Conc
open HB
variable {K : Type} {cfg : Cfg K}

/-- Membership in the keys read by a lookup. -/
theorem mem_keysOf {s : St K} {c : Nat} {a : Loc × Kind} (h : a ∈ keysOf s c) :
    ∃ e x, a = (.part e .body, .read) ∧ s.ents e = some x ∧ x.core = c := by
  unfold keysOf at h
  obtain ⟨e, he, rfl⟩ := List.mem_map.1 h
  have := (List.mem_filter.1 he).2
  cases hx : s.ents e with
  | none => simp [hx] at this
  | some x =>
    simp only [hx, beq_iff_eq] at this
    exact ⟨e, x, rfl, hx, this⟩

theorem mem_whole {e : Nat} {a : Loc × Kind} : a ∈ whole e ↔ ∃ p, a = (.part e p, .write) := by
  constructor
  · intro h
    simp only [whole, List.mem_cons, List.not_mem_nil, or_false] at h
    rcases h with rfl | rfl | rfl <;> exact ⟨_, rfl⟩
  · rintro ⟨p, rfl⟩
    cases p <;> simp [whole]

/-- A conflict with a read or an atomic operation that is allowed is with a write. -/
theorem conflict_write {e : Nat} {p : Part} {k k' : Kind} (h1 : okKind (.part e p, k) = true)
    (h2 : okKind (.part e p, k') = true) (h : k.conflict k' = true) (hp : p ≠ .del) (hk : k' ≠ .write) : k = .write := by
  cases p <;> cases k <;> cases k' <;> simp_all [okKind, Kind.conflict]

theorem of_relDec {i : Nat} {v : Fw K} (h : 0 < refF i (.relDec v)) : v.h = i := by
  simp only [refF] at h
  split at h
  · assumption
  · cases h

section
variable {h : HSt K} {s' : St K} {ids : List Nat} {nid t : Nat} {mo : Orders}

/-- Accesses made while holding the mutex of type `c` do not race with each other. -/
theorem HInv.lockRace (H : HInv cfg h) {c d n : Nat} {ev : Event} {e : Nat} {x : Ent K} {p : Part} {k k' : Kind}
    (hl : h.s.lock c = some (ev.thr, d)) (hx : h.s.ents e = some x) (hc : x.core = c)
    (hk' : okKind (.part e p, k') = true) (hk : k' ≠ .write ∨ p = .del) (ha : Acc h.tr n (.part e p, k))
    (hcf : k.conflict k' = true) : Know (h.tr ++ [ev]) ev.thr n := by
  have hok := H.kinds n _ ha
  have hw : k = .write := by
    cases p <;> cases k <;> cases k' <;> simp_all [okKind, Kind.conflict]
  subst hw
  exact (H.locked (hc ▸ hl) (H.writes n e x p hx ha)).old

theorem HInv.tableRace (H : HInv cfg h) {c d n : Nat} {ev : Event} {k : Kind}
    (hl : h.s.lock c = some (ev.thr, d)) (ha : Acc h.tr n (.table c, k)) : Know (h.tr ++ [ev]) ev.thr n :=
  (H.locked hl (H.table n c k ha)).old

/-- An entry that nothing refers to, or is going to check, is known to the holder of the mutex. -/
theorem HInv.soleRace (H : HInv cfg h) {c d n : Nat} {ev : Event} {e : Nat} {x : Ent K} {p : Part} {k : Kind}
    (hl : h.s.lock c = some (ev.thr, d)) (hx : h.s.ents e = some x) (hc : x.core = c) (h0 : x.ref = 0)
    (hp : tot (pendF e) (frames h.s) = 0) (ha : Acc h.tr n (.part e p, k)) : Know (h.tr ++ [ev]) ev.thr n := by
  obtain ⟨P, hP, hn⟩ := H.cov n e x p k hx ha
  cases hP with
  | user P hu => exact (no_user H.inv hx h0 hu).elim
  | shared w o hm he =>
    exact (no_user H.inv hx h0 (.obj w o hm he)).elim
  | pend t st f ht hf hr =>
    have hm : f ∈ frames h.s := List.mem_flatten.2 ⟨st, List.mem_of_getElem? ht, hf⟩
    have := tot_pos (g := pendF e) hm hr
    omega
  | count y hy hp =>
    rw [hx] at hy
    cases hy
    omega
  | lock y hy =>
    rw [hx] at hy
    cases hy
    exact (H.locked (hc ▸ hl) hn).old

/-- An entry without value is not referred to. -/
theorem uncted_sole {s : St K} (hi : Inv cfg s) {e : Nat} {x : Ent K} (hx : s.ents e = some x) (hc : x.cted = false) :
    x.ref = 0 ∧ tot (pendF e) (frames s) = 0 := by
  have hst : ∀ c k, stat s.ents e ≠ some (c, k, true) := by
    intro c k h
    simp [stat, hx, hc] at h
  obtain ⟨h1, h2, h3⟩ := hi.core.ref_uncted hst
  have hr := hi.core.refs e
  simp only [refOf, hx] at hr
  refine ⟨by omega, tot_eq_zero fun f hf => ?_⟩
  have hok := hi.core.frames f hf
  cases f with
  | relLock c i =>
    simp only [pendF]
    rw [if_neg]
    rintro rfl
    obtain ⟨k, hk⟩ := hok
    exact hst _ _ hk
  | relCheck c i =>
    simp only [pendF]
    rw [if_neg]
    rintro rfl
    obtain ⟨k, hk⟩ := hok
    exact hst _ _ hk
  | _ => rfl

/-- Steps that leave mutexes alone. -/
theorem same_lock {s s' : St K} {ev : Event} (h : s'.lock = s.lock) :
    (∀ c t d, s'.lock c = some (t, d) → (∃ d', s.lock c = some (t, d')) ∨ t = ev.thr ∧ .mutex c ∈ ev.acqs) ∧
    ∀ c t d, s.lock c = some (t, d) → (∃ d', s'.lock c = some (t, d')) ∨ t = ev.thr ∧ .mutex c ∈ ev.rels := by
  rw [h]
  exact ⟨fun c t d h => .inl ⟨d, h⟩, fun c t d h => .inl ⟨d, h⟩⟩

/-- Erasing an entry that nothing refers to. -/
theorem HInv.eraseH (H : HInv cfg h) {f f' : Frame K} {rest : List (Frame K)} {c e : Nat} {x : Ent K}
    (ht : h.s.thr[t]? = some (f :: rest)) (hx : h.s.ents e = some x) (hf : holds f = some c) (hc : x.core = c)
    (h0 : x.ref = 0) (hp : tot (pendF e) (frames h.s) = 0) (hfr : ∀ i, refF i f = 0 ∧ pendF i f = 0)
    (hfr' : ∀ i, refF i f' = 0)
    (hinv : Inv cfg (⟨setEnt h.s.ents e none, h.s.next, h.s.lock,
      h.s.thr.set t (x.kids.map .relDec ++ f' :: rest), h.s.objs, h.s.clock⟩ : St K)) :
    HInv cfg ⟨(⟨setEnt h.s.ents e none, h.s.next, h.s.lock,
      h.s.thr.set t (x.kids.map .relDec ++ f' :: rest), h.s.objs, h.s.clock⟩ : St K), h.ids, h.nid,
      h.tr ++ [⟨t, [], (.table c, .write) :: whole e, []⟩]⟩ := by
  obtain ⟨d, hl⟩ := held H.inv ht hf
  have hgone : ∀ {i y}, setEnt h.s.ents e none i = some y → i ≠ e ∧ h.s.ents i = some y := by
    intro i y hy
    by_cases hi : i = e
    · subst hi; rw [setEnt_same] at hy; cases hy
    · rw [setEnt_ne _ _ hi] at hy; exact ⟨hi, hy⟩
  have hpast : ∀ i, Past h.tr (.part e .body, .write) i → Know h.tr t i := by
    rintro i ⟨j, h1, h2⟩
    exact (H.locked (hc ▸ hl) (H.writes j e x _ hx h1)).trans h2
  refine H.next (ev := ⟨t, [], (.table c, .write) :: whole e, []⟩) rfl hinv H.len ht rfl ?_ (Nat.le_refl _) ?_
    (same_lock rfl).1 (by simp) (same_lock rfl).2 ?_ ?_ ?_ ?_ (fun w o hw => .inl hw) ?_ ?_ (fun w o hw => .inl hw) ?_ ?_ ?_ ?_ ?_
  · intro a ha
    rcases List.mem_cons.1 ha with rfl | ha
    · rfl
    · obtain ⟨p, rfl⟩ := mem_whole.1 ha
      cases p <;> rfl
  · intro i p k ha
    rcases List.mem_cons.1 ha with ha | ha
    · cases ha
    · obtain ⟨p, ha⟩ := mem_whole.1 ha
      cases ha
      exact H.inv.core.lt_next hx
  · intro i y hy
    exact .inl ⟨y, (hgone hy).2, rfl⟩
  · intro c' k ha
    rcases List.mem_cons.1 ha with ha | ha
    · cases ha; exact ⟨d, hl⟩
    · obtain ⟨p, ha⟩ := mem_whole.1 ha
      cases ha
  · intro i p y ha hy
    rcases List.mem_cons.1 ha with ha | ha
    · cases ha
    · obtain ⟨p, ha⟩ := mem_whole.1 ha
      cases ha
      exact absurd rfl (hgone hy).1
  · intro i p y ha _ hy
    rcases List.mem_cons.1 ha with ha | ha
    · cases ha
    · obtain ⟨p, ha⟩ := mem_whole.1 ha
      cases ha
      exact absurd rfl (hgone hy).1
  · intro i g hg hr
    rcases List.mem_append.1 hg with hg | hg
    · obtain ⟨v, hv, rfl⟩ := List.mem_map.1 hg
      have hv' := of_relDec hr
      exact .inl ⟨_, .kid e x v hx hv hv', fun i hi => (hpast i hi).old⟩
    · rcases List.mem_cons.1 hg with rfl | hg
      · rw [hfr'] at hr; cases hr
      · exact .inl ⟨_, .frame _ _ g ht (List.mem_cons_of_mem _ hg) hr, fun i hi => hi.old⟩
  · intro i y v hy hv
    exact .inl ⟨y, (hgone hy).2, hv⟩
  · intro i y hy g hg hr
    rcases List.mem_cons.1 hg with rfl | hg
    · have := hfr i
      omega
    · exact .inl ⟨g, by simp [hg], hr⟩
  · intro i y v hy hv
    by_cases hi : i = e
    · subst hi
      rw [hx] at hy
      cases hy
      refine .inr ⟨fun i hi => (hpast i hi).old, .inl ⟨.relDec v, ?_, ?_⟩⟩
      · exact List.mem_append.2 (.inl (List.mem_map.2 ⟨v, hv, rfl⟩))
      · simp [refF]
    · exact .inl ⟨y, by simpa [setEnt, hi] using hy, hv⟩
  · intro i y y' hy hy' hpos
    rw [(hgone hy').2] at hy
    cases hy
    exact .inl hpos
  · intro i p k y ha hy
    rcases List.mem_cons.1 ha with ha | ha
    · cases ha
    · obtain ⟨p, ha⟩ := mem_whole.1 ha
      cases ha
      exact absurd rfl (hgone hy).1
  · intro n l k k' ha hn hcf
    rcases List.mem_cons.1 ha with ha | ha
    · cases ha
      exact H.tableRace (ev := ⟨t, [], (.table c, .write) :: whole e, []⟩) hl hn
    · obtain ⟨p, ha⟩ := mem_whole.1 ha
      cases ha
      exact H.soleRace (ev := ⟨t, [], (.table c, .write) :: whole e, []⟩) hl hx hc h0 hp hn

/-- Changing the deleter count. -/
theorem HInv.delH (H : HInv cfg h) {f f' : Frame K} {rest : List (Frame K)} {c e d : Nat} {x : Ent K} {del : Int}
    (ht : h.s.thr[t]? = some (f :: rest)) (hx : h.s.ents e = some x) (hc : x.core = c)
    (hl : h.s.lock c = some (t, d))
    (hinv : Inv cfg (⟨setEnt h.s.ents e (some { x with del := del }), h.s.next, h.s.lock,
      h.s.thr.set t (f' :: rest), h.s.objs, h.s.clock⟩ : St K))
    (hfr : ∀ i, 0 < refF i f' → 0 < refF i f)
    (hfr' : ∀ i, 0 < refF i f ∨ 0 < pendF i f → i = e ∨ ∃ g ∈ [f'], 0 < refF i g ∨ 0 < pendF i g) :
    HInv cfg ⟨(⟨setEnt h.s.ents e (some { x with del := del }), h.s.next, h.s.lock,
      h.s.thr.set t (f' :: rest), h.s.objs, h.s.clock⟩ : St K), h.ids, h.nid,
      h.tr ++ [⟨t, [], [(.part e .del, .write)], []⟩]⟩ := by
  have hck := ck_set (x' := { x with del := del }) hx rfl
  have hat : ∀ {i y}, setEnt h.s.ents e (some { x with del := del }) i = some y →
      ∃ z, h.s.ents i = some z ∧ z.ref = y.ref ∧ y.core = z.core := by
    intro i y hy
    by_cases hi : i = e
    · subst hi
      rw [setEnt_same] at hy
      cases hy
      exact ⟨x, hx, rfl, rfl⟩
    · rw [setEnt_ne _ _ hi] at hy
      exact ⟨y, hy, rfl, rfl⟩
  have hmine : ∀ y, setEnt h.s.ents e (some { x with del := del }) e = some y →
      ∃ d, h.s.lock y.core = some (t, d) := by
    intro y hy
    obtain ⟨z, hz, _, hzc⟩ := hat hy
    rw [hzc, show z = x from Option.some.inj (hz.symm.trans hx), hc]
    exact ⟨d, hl⟩
  refine H.quick (ev := ⟨t, [], [(.part e .del, .write)], []⟩) (new := [f'])
    rfl hinv ht rfl rfl rfl hck (by simp [okKind]) rfl ?_ (same_lock rfl).1 (by simp) (same_lock rfl).2
    (by simp) ?_ ?_ ?_ ?_ ?_ ?_ ?_
  · intro i p k ha
    cases List.mem_singleton.1 ha
    exact ⟨_, setEnt_same ..⟩
  · intro i p y ha hy
    cases List.mem_singleton.1 ha
    exact hmine y hy
  · intro i p y ha hp
    cases List.mem_singleton.1 ha
    exact absurd rfl hp
  · intro i g hg hr
    rw [List.mem_singleton.1 hg] at hr
    exact .inl (hfr i hr)
  · intro i y hy hr
    rcases hfr' i hr with rfl | ⟨g, hg, hr⟩
    · exact .inr (.inl hmine)
    · exact .inl ⟨g, List.mem_append.2 (.inl hg), hr⟩
  · intro i y y' hy hy' hp
    obtain ⟨z, hz, hzr, _⟩ := hat hy'
    rw [hy] at hz
    cases hz
    exact .inl (by omega)
  · intro i p k y ha hy
    cases List.mem_singleton.1 ha
    exact .inr (.inl hmine)
  · intro n l k₁ k₂ ha hn hcf
    cases List.mem_singleton.1 ha
    exact H.lockRace (ev := ⟨t, [], [(.part e .del, .write)], []⟩) hl hx hc rfl (.inr rfl) hn hcf

/-- Looking up a key. -/
theorem HInv.lookH (H : HInv cfg h) {f f' : Frame K} {rest : List (Frame K)} {c d : Nat} {kk : Kind}
    (ht : h.s.thr[t]? = some (f :: rest)) (hl : h.s.lock c = some (t, d))
    (hr1 : ∀ i, refF i f' = refF i f) (hp0 : ∀ i, pendF i f = 0)
    (hinv : Inv cfg (⟨h.s.ents, h.s.next, h.s.lock, h.s.thr.set t (f' :: rest), h.s.objs, h.s.clock⟩ : St K)) :
    HInv cfg ⟨(⟨h.s.ents, h.s.next, h.s.lock, h.s.thr.set t (f' :: rest), h.s.objs, h.s.clock⟩ : St K), h.ids, h.nid,
      h.tr ++ [⟨t, [], (.table c, kk) :: keysOf h.s c, []⟩]⟩ := by
  refine H.quick (ev := ⟨t, [], (.table c, kk) :: keysOf h.s c, []⟩) (new := [f'])
    rfl hinv ht rfl rfl rfl (fun _ => rfl) ?_ rfl ?_ (same_lock rfl).1 (by simp) (same_lock rfl).2 ?_ ?_ ?_ ?_ ?_ ?_ ?_ ?_
  · intro a ha
    rcases List.mem_cons.1 ha with rfl | ha
    · rfl
    · obtain ⟨i, y, rfl, _, _⟩ := mem_keysOf ha
      rfl
  · intro i p k' ha
    rcases List.mem_cons.1 ha with ha | ha
    · cases ha
    · obtain ⟨i, y, ha, hy, _⟩ := mem_keysOf ha
      cases ha
      exact ⟨y, hy⟩
  · intro c' k' ha
    rcases List.mem_cons.1 ha with ha | ha
    · cases ha; exact ⟨d, hl⟩
    · obtain ⟨i, y, ha, _, _⟩ := mem_keysOf ha
      cases ha
  · intro i p y ha
    rcases List.mem_cons.1 ha with ha | ha
    · cases ha
    · obtain ⟨i, y, ha, _, _⟩ := mem_keysOf ha
      cases ha
  · intro i p y ha
    rcases List.mem_cons.1 ha with ha | ha
    · cases ha
    · obtain ⟨i, y, ha, _, _⟩ := mem_keysOf ha
      cases ha
  · intro i g hg hr
    rw [List.mem_singleton.1 hg, hr1] at hr
    exact .inl hr
  · intro i x hx hr
    rw [← hr1, hp0] at hr
    exact .inl ⟨f', by simp, .inl (hr.resolve_right (Nat.lt_irrefl 0))⟩
  · intro i x x' hx hx' hp
    rw [show x' = x from Option.some.inj (hx'.symm.trans hx)]
    exact .inl hp
  · intro i p k' y ha hy
    rcases List.mem_cons.1 ha with ha | ha
    · cases ha
    · obtain ⟨i, y', ha, hy', hc'⟩ := mem_keysOf ha
      cases ha
      refine .inr (.inl fun z hz => ?_)
      rw [show z = y' from Option.some.inj (hz.symm.trans hy'), hc']
      exact ⟨d, hl⟩
  · intro n l k₁ k₂ ha hn hcf
    rcases List.mem_cons.1 ha with ha | ha
    · cases ha
      exact H.tableRace (ev := ⟨t, [], (.table c, kk) :: keysOf h.s c, []⟩) hl hn
    · obtain ⟨i, y', ha, hy', hc'⟩ := mem_keysOf ha
      cases ha
      exact H.lockRace (ev := ⟨t, [], (.table c, kk) :: keysOf h.s c, []⟩) hl hy' hc' rfl (.inl (by simp)) hn hcf

/-- The step of the library. -/
theorem lib_h (hcfg : CfgOk cfg) (hlk : cfg.locking = true) (hdl : cfg.deleter = true) (hmo : mo.decAcq = true ∧ mo.decRel = true)
    (H : HInv cfg h) {f : Frame K} {rest : List (Frame K)} (ht : h.s.thr[t]? = some (f :: rest))
    (hs : lib cfg h.s t f rest = .ok s') :
    HInv cfg ⟨s', (label cfg mo h t (f :: rest) .run).2.1, (label cfg mo h t (f :: rest) .run).2.2,
      h.tr ++ [libEv cfg mo h.s h.nid t f]⟩ := by
  have hinv : Inv cfg s' := by
    have := lib_good hcfg hlk hdl H.inv ht
    rwa [hs] at this
  have hfr : FrameOk cfg (stat h.s.ents) f :=
    H.inv.core.frames f (List.mem_flatten.2 ⟨_, List.mem_of_getElem? ht, List.mem_cons_self⟩)
  have hhold := fun c (hc : holds f = some c) => held H.inv ht hc
  cases f with
  | insLock c k loc pre =>
    simp only [lib] at hs
    cases ha : acquire cfg h.s.lock t c with
    | none => rw [ha] at hs; cases hs
    | some l =>
      rw [ha] at hs
      cases hs
      obtain ⟨h1, h2, h3⟩ := acquire_facts hlk ha
      refine H.quick (ev := ⟨t, lockAcq cfg h.s c, [], []⟩) (new := [.insFind c k loc pre]) rfl hinv ht rfl rfl rfl (fun _ => rfl) (by simp) rfl
        (by simp) h1 (by simp) (fun c t d hl => .inl (h2 c t d hl)) (by simp) (by simp) (by simp) ?_ ?_ ?_ (by simp) (by simp)
      · intro e g hg hr
        rw [List.mem_singleton.1 hg] at hr
        exact .inl hr
      · intro e x hx hr
        exact .inl ⟨.insFind c k loc pre, by simp, hr⟩
      · intro e x x' hx hx' hp
        rw [show x' = x from Option.some.inj (hx'.symm.trans hx)]
        exact .inl hp
  | insFind c k loc pre =>
    obtain ⟨d, hl⟩ := hhold c rfl
    simp only [lib] at hs
    cases hfd : find cfg h.s c k with
    | some e =>
      rw [hfd] at hs
      cases hs
      simp only [libEv, hfd]
      exact H.lookH ht hl (fun i => rfl) (fun i => rfl) hinv
    | none =>
      rw [hfd] at hs
      cases hs
      simp only [libEv, hfd]
      have hnone : h.s.ents h.s.next = none := H.inv.core.bound _ (Nat.le_refl _)
      have hne : ∀ {i y}, h.s.ents i = some y → i ≠ h.s.next := by
        rintro i y hy rfl
        rw [hnone] at hy
        cases hy
      have hmem : ∀ {a : Loc × Kind}, a ∈ (Loc.table c, Kind.write) :: (whole h.s.next ++ keysOf h.s c) →
          a = (.table c, .write) ∨ (∃ p, a = (.part h.s.next p, .write)) ∨
          ∃ i y, a = (.part i .body, .read) ∧ h.s.ents i = some y ∧ y.core = c := by
        intro a ha
        rcases List.mem_cons.1 ha with ha | ha
        · exact .inl ha
        · rcases List.mem_append.1 ha with ha | ha
          · exact .inr (.inl (mem_whole.1 ha))
          · exact .inr (.inr (mem_keysOf ha))
      have hold : ∀ {i y}, h.s.ents i = some y → setEnt h.s.ents h.s.next
          (some ⟨c, k, pre, loc, 0, 0, h.s.clock⟩) i = some y := fun hy => by
        rw [setEnt_ne _ _ (hne hy)]; exact hy
      refine H.next (ev := ⟨t, [], (.table c, .write) :: (whole h.s.next ++ keysOf h.s c), []⟩) rfl hinv H.len ht rfl ?_
        (Nat.le_succ _) ?_
        (same_lock rfl).1 (by simp) (same_lock rfl).2 ?_ ?_ ?_ ?_ (fun w o hw => .inl hw) ?_ ?_ (fun w o hw => .inl hw)
          ?_ ?_ ?_ ?_ ?_
      · intro a ha
        rcases hmem ha with rfl | ⟨p, rfl⟩ | ⟨i, y, rfl, _⟩
        · rfl
        · cases p <;> rfl
        · rfl
      · intro i p k' ha
        rcases hmem ha with ha | ⟨p, ha⟩ | ⟨i, y, ha, hy, _⟩
        · cases ha
        · cases ha; exact Nat.lt_succ_self _
        · cases ha; exact Nat.lt_succ_of_lt (H.inv.core.lt_next hy)
      · intro i y hy
        by_cases hi : i = h.s.next
        · exact .inr (by omega)
        · exact .inl ⟨y, by simpa [setEnt, hi] using hy, rfl⟩
      · intro c' k' ha
        rcases hmem ha with ha | ⟨p, ha⟩ | ⟨i, y, ha, hy, _⟩
        · cases ha; exact ⟨d, hl⟩
        · cases ha
        · cases ha
      · intro i p y ha hy
        rcases hmem ha with ha | ⟨p, ha⟩ | ⟨i, y, ha, _, _⟩
        · cases ha
        · cases ha
          simp only [setEnt, if_true] at hy
          cases hy
          exact ⟨d, hl⟩
        · cases ha
      · intro i p y ha _ hy
        rcases hmem ha with ha | ⟨p, ha⟩ | ⟨i, y, ha, _, _⟩
        · cases ha
        · cases ha
          simp only [setEnt, if_true] at hy
          cases hy
          rfl
        · cases ha
      · intro i g hg hr
        rcases List.mem_cons.1 hg with rfl | hg
        · simp [refF] at hr
        · exact .inl ⟨_, .frame _ _ g ht (List.mem_cons_of_mem _ hg) hr, fun i hi => hi.old⟩
      · intro i y v hy hv
        by_cases hi : i = h.s.next
        · subst hi
          simp only [setEnt, if_true] at hy
          cases hy
          exact .inr ⟨by simp [whole], .inl ⟨_, .frame _ _ _ ht List.mem_cons_self (fwCount_pos hv rfl),
            fun i hi => hi.old⟩⟩
        · exact .inl ⟨y, by simpa [setEnt, hi] using hy, hv⟩
      · intro i y hy g hg hr
        rcases List.mem_cons.1 hg with rfl | hg
        · have hr' : 0 < fwCount i loc := by simpa [refF, pendF] using hr
          obtain ⟨v, hv, hvi⟩ := exists_of_fwCount hr'
          exact .inr (.inr (.inr (.inl ⟨h.s.next, ⟨c, k, pre, loc, 0, 0, h.s.clock⟩, v, by simp [setEnt], hv, hvi,
            by simp [whole]⟩)))
        · exact .inl ⟨g, List.mem_cons_of_mem _ hg, hr⟩
      · intro i y v hy hv
        exact .inl ⟨y, hold hy, hv⟩
      · intro i y y' hy hy' hpos
        have := hold hy
        rw [show setEnt h.s.ents h.s.next (some ⟨c, k, pre, loc, 0, 0, h.s.clock⟩) i = some y' from hy'] at this
        cases this
        exact .inl hpos
      · intro i p k' y ha hy
        refine .inr (.inl fun z hz => ?_)
        rcases hmem ha with ha | ⟨p, ha⟩ | ⟨i, y', ha, hy', hc'⟩
        · cases ha
        · cases ha
          simp only [setEnt, if_true] at hz
          cases hz
          exact ⟨d, hl⟩
        · cases ha
          have := hold hy'
          rw [show setEnt h.s.ents h.s.next (some ⟨c, k, pre, loc, 0, 0, h.s.clock⟩) i = some z from hz] at this
          cases this
          rw [hc']
          exact ⟨d, hl⟩
      · intro n l k₁ k₂ ha hn hcf
        rcases hmem ha with ha | ⟨p, ha⟩ | ⟨i, y', ha, hy', hc'⟩
        · cases ha
          exact H.tableRace (ev := ⟨t, [], (.table c, .write) :: (whole h.s.next ++ keysOf h.s c), []⟩) hl hn
        · cases ha
          exact absurd (H.bound n _ _ _ hn) (Nat.lt_irrefl _)
        · cases ha
          exact H.lockRace (ev := ⟨t, [], (.table c, .write) :: (whole h.s.next ++ keysOf h.s c), []⟩) hl hy' hc' rfl
            (.inl (by simp)) hn hcf
  | insVisit c k e loc new =>
    obtain ⟨d, hl⟩ := hhold c rfl
    obtain ⟨⟨k', b, hst, _⟩, _, hnew⟩ := hfr
    obtain ⟨x, hx, hc, _, _⟩ := of_stat hst
    simp only [lib, hx] at hs
    have key : ∀ g : Frame K, (∀ i, refF i g = fwCount i loc) → Inv cfg { h.s with thr := h.s.thr.set t (g :: rest) } →
        HInv cfg ⟨{ h.s with thr := h.s.thr.set t (g :: rest) }, h.ids, h.nid,
          h.tr ++ [⟨t, [], [(.part e .body, .read)], []⟩]⟩ := by
      intro g hg hinv
      refine H.quick (ev := ⟨t, [], [(.part e .body, .read)], []⟩) (new := [g])
        rfl hinv ht rfl rfl rfl (fun _ => rfl) (by simp [okKind]) rfl ?_ (same_lock rfl).1 (by simp) (same_lock rfl).2
        (by simp) (by simp) (by simp) ?_ ?_ ?_ ?_ ?_
      · intro i p k ha
        cases List.mem_singleton.1 ha
        exact ⟨x, hx⟩
      · intro i g' hg' hr
        rw [List.mem_singleton.1 hg', hg] at hr
        exact .inl hr
      · intro i y hy hr
        refine .inl ⟨g, by simp, .inl ?_⟩
        rw [hg]
        simpa [refF, pendF] using hr
      · intro i x x' hx hx' hp
        rw [show x' = x from Option.some.inj (hx'.symm.trans hx)]
        exact .inl hp
      · intro i p k y ha hy
        cases List.mem_singleton.1 ha
        refine .inr (.inl fun z hz => ?_)
        rw [show z = x from Option.some.inj (hz.symm.trans hx), hc]
        exact ⟨d, hl⟩
      · intro n l k₁ k₂ ha hn hcf
        cases List.mem_singleton.1 ha
        exact H.lockRace (ev := ⟨t, [], [(.part e .body, .read)], []⟩) hl hx hc rfl (.inl (by simp)) hn hcf
    split at hs
    · cases hs
      exact key _ (fun i => rfl) hinv
    · split at hs
      · rename_i hn
        cases hs
        exact key _ (fun i => by simp [refF, hnew hn]) hinv
      · cases hs
  | insUser c k e => cases hs
  | insDone c k e =>
    obtain ⟨d, hl⟩ := hhold c rfl
    obtain ⟨k', hst, _⟩ := hfr
    obtain ⟨x, hx, hc, _, hct⟩ := of_stat hst
    obtain ⟨h0, hp0⟩ := uncted_sole H.inv hx hct
    simp only [lib, hx] at hs
    cases hs
    have hck := ck_set (x' := { x with cted := true, stamp := h.s.clock }) hx rfl
    have hat : ∀ {i y}, setEnt h.s.ents e (some { x with cted := true, stamp := h.s.clock }) i = some y → 
        ∃ z, h.s.ents i = some z ∧ y.ref = z.ref ∧ y.core = z.core := by
      intro i y hy
      by_cases hi : i = e
      · subst hi
        rw [setEnt_same] at hy
        cases hy
        exact ⟨x, hx, rfl, rfl⟩
      · rw [setEnt_ne _ _ hi] at hy
        exact ⟨y, hy, rfl, rfl⟩
    refine H.quick (ev := ⟨t, [], [(.part e .body, .write)], []⟩) (new := [.insAddRef c k e []])
      rfl hinv ht rfl rfl rfl hck (by simp [okKind]) rfl ?_ (same_lock rfl).1 (by simp) (same_lock rfl).2
      (by simp) ?_ ?_ ?_ ?_ ?_ ?_ ?_
    · intro i p k ha
      cases List.mem_singleton.1 ha
      exact ⟨_, setEnt_same ..⟩
    · intro i p y ha hy
      cases List.mem_singleton.1 ha
      obtain ⟨z, hz, _, hzc⟩ := hat hy
      rw [hzc, show z = x from Option.some.inj (hz.symm.trans hx), hc]
      exact ⟨d, hl⟩
    · intro i p y ha _ hy
      cases List.mem_singleton.1 ha
      obtain ⟨z, hz, hzr, _⟩ := hat hy
      rw [hzr, show z = x from Option.some.inj (hz.symm.trans hx), h0]
    · intro i g hg hr
      rw [List.mem_singleton.1 hg] at hr
      simp [refF] at hr
    · intro i y hy hr
      simp [refF, pendF] at hr
    · intro i y y' hy hy' hp
      obtain ⟨z, hz, hzr, _⟩ := hat hy'
      rw [hy] at hz
      cases hz
      exact .inl (by omega)
    · intro i p k y ha hy
      cases List.mem_singleton.1 ha
      refine .inr (.inl fun w hw => ?_)
      obtain ⟨z, hz, _, hzc⟩ := hat hw
      rw [hzc, show z = x from Option.some.inj (hz.symm.trans hx), hc]
      exact ⟨d, hl⟩
    · intro n l k₁ k₂ ha hn hcf
      cases List.mem_singleton.1 ha
      exact H.soleRace (ev := ⟨t, [], [(.part e .body, .write)], []⟩) hl hx hc h0 hp0 hn
  | insCatch c e =>
    obtain ⟨k', hst⟩ := hfr
    obtain ⟨x, hx, hc, _, hct⟩ := of_stat hst
    obtain ⟨h0, hp0⟩ := uncted_sole H.inv hx hct
    simp only [lib, hx] at hs
    cases hs
    exact H.eraseH ht hx rfl hc h0 hp0 (fun i => ⟨rfl, rfl⟩) (fun i => by simp [refF]) hinv
  | insUnwind c loc =>
    simp only [lib] at hs
    cases ha : unlock cfg h.s.lock t c with
    | none => rw [ha] at hs; cases hs
    | some l =>
      rw [ha] at hs
      cases hs
      obtain ⟨h1, h2, h3⟩ := unlock_facts hlk ha
      refine H.quick (ev := ⟨t, [], [], lockRel cfg h.s c⟩) (new := loc.map .relDec) rfl hinv ht rfl rfl rfl (fun _ => rfl)
        (by simp) rfl (by simp) (fun c t d hl => .inl (h1 c t d hl)) (fun c t d hl hm => absurd hm (h2 c t d hl)) h3
        (by simp) (by simp) (by simp) ?_ ?_ ?_ (by simp) (by simp)
      · intro e g hg hr
        obtain ⟨v, hv, rfl⟩ := List.mem_map.1 hg
        exact .inl (fwCount_pos hv (of_relDec hr))
      · intro e x hx hr
        have hr' : 0 < fwCount e loc := by simpa [refF, pendF] using hr
        obtain ⟨v, hv, hve⟩ := exists_of_fwCount hr'
        exact .inl ⟨.relDec v, List.mem_append.2 (.inl (List.mem_map.2 ⟨v, hv, rfl⟩)), by simp [refF, hve]⟩
      · intro e x x' hx hx' hp
        rw [show x' = x from Option.some.inj (hx'.symm.trans hx)]
        exact .inl hp
  | insAddRef c k e loc =>
    obtain ⟨d, hl⟩ := hhold c rfl
    obtain ⟨⟨k', hst, _⟩, _⟩ := hfr
    obtain ⟨x, hx, hc, _, _⟩ := of_stat hst
    simp only [lib, hx] at hs
    cases hs
    have hck := ck_set (x' := { x with ref := x.ref + 1 }) hx rfl
    have hat : ∀ {i y}, setEnt h.s.ents e (some { x with ref := x.ref + 1 }) i = some y → 
        ∃ z, h.s.ents i = some z ∧ z.ref ≤ y.ref ∧ y.core = z.core := by
      intro i y hy
      by_cases hi : i = e
      · subst hi
        rw [setEnt_same] at hy
        cases hy
        exact ⟨x, hx, by dsimp only; omega, rfl⟩
      · rw [setEnt_ne _ _ hi] at hy
        exact ⟨y, hy, Int.le_refl _, rfl⟩
    have hmine : ∀ y, setEnt h.s.ents e (some { x with ref := x.ref + 1 }) e = some y →
        ∃ d, h.s.lock y.core = some (t, d) := by
      intro y hy
      obtain ⟨z, hz, _, hzc⟩ := hat hy
      rw [hzc, show z = x from Option.some.inj (hz.symm.trans hx), hc]
      exact ⟨d, hl⟩
    have hnew : ∀ i, refF i (if x.ref + 1 = 1 then Frame.insAddDel c k e loc else .insUnlock c k e loc) =
        fwCount i loc + if e = i then 1 else 0 := by
      intro i
      split <;> rfl
    refine H.quick (ev := ⟨t, rmw mo.inc e, [(.part e .ref, .atomic)], rmw mo.inc e⟩)
      (new := [if x.ref + 1 = 1 then .insAddDel c k e loc else .insUnlock c k e loc])
      rfl hinv ht rfl rfl rfl hck (by simp [okKind]) rfl ?_ (same_lock rfl).1 ?_ (same_lock rfl).2
      (by simp) (by simp) (by simp) ?_ ?_ ?_ ?_ ?_
    · intro i p k ha
      cases List.mem_singleton.1 ha
      exact ⟨_, setEnt_same ..⟩
    · intro c t d _ hm
      unfold rmw at hm
      split at hm <;> simp at hm
    · intro i g hg hr
      rw [List.mem_singleton.1 hg, hnew] at hr
      by_cases hi : e = i
      · subst hi
        exact .inr hmine
      · rw [if_neg hi] at hr
        exact .inl hr
    · intro i y hy hr
      refine .inl ⟨_, List.mem_append.2 (.inl (List.mem_singleton.2 rfl)), .inl ?_⟩
      rw [hnew]
      have hr' : 0 < fwCount i loc := by simpa [refF, pendF] using hr
      omega
    · intro i y y' hy hy' hp
      obtain ⟨z, hz, hzr, _⟩ := hat hy'
      rw [hy] at hz
      cases hz
      exact .inl (by omega)
    · intro i p k y ha hy
      cases List.mem_singleton.1 ha
      exact .inr (.inl hmine)
    · intro n l k₁ k₂ ha hn hcf
      cases List.mem_singleton.1 ha
      exact H.lockRace (ev := ⟨t, rmw mo.inc e, [(.part e .ref, .atomic)], rmw mo.inc e⟩) hl hx hc rfl (.inl (by simp)) hn hcf
  | insAddDel c k e loc =>
    obtain ⟨d, hl⟩ := hhold c rfl
    obtain ⟨⟨k', hst, _⟩, _⟩ := hfr
    obtain ⟨x, hx, hc, _, _⟩ := of_stat hst
    simp only [lib, hx] at hs
    cases hs
    exact H.delH ht hx hc hl hinv (fun i hi => hi) (fun i hi => .inr ⟨_, List.mem_singleton.2 rfl, hi⟩)
  | insUnlock c k e loc =>
    simp only [lib] at hs
    cases ha : unlock cfg h.s.lock t c with
    | none => rw [ha] at hs; cases hs
    | some l =>
      rw [ha] at hs
      cases hs
      obtain ⟨h1, h2, h3⟩ := unlock_facts hlk ha
      have hmu : ∀ {c'}, .mutex c' ∈ Sync.owned h.nid :: lockRel cfg h.s c → .mutex c' ∈ lockRel cfg h.s c := by
        intro c' hm
        simpa using hm
      refine H.next (ev := ⟨t, [], [], .owned h.nid :: lockRel cfg h.s c⟩) rfl hinv (by simp [label, H.len]) ht rfl (by simp)
        (Nat.le_refl _) (by simp) (fun c t d hl => .inl (h1 c t d hl)) (fun c t d hl hm => absurd (hmu hm) (h2 c t d hl))
        (fun c t d hl => (h3 c t d hl).imp id fun ⟨a, b⟩ => ⟨a, List.mem_cons_of_mem _ b⟩)
        (fun e x hx => .inl ⟨x, hx, rfl⟩) (by simp) (by simp) (by simp) ?_ ?_ ?_ ?_ ?_ ?_ ?_ (by simp) (by simp)
      · intro w o hw
        rcases List.mem_cons.1 (show (w, o) ∈ ((⟨e, c, k⟩ : Fw K), h.nid) :: h.s.objs.zip h.ids from hw) with hw | hw
        · cases hw
          exact .inr ⟨List.mem_cons_self, .inl ⟨_, .frame _ _ _ ht List.mem_cons_self (by simp [refF]), fun i hi => hi.old⟩⟩
        · exact .inl hw
      · intro i g hg hr
        rcases List.mem_append.1 hg with hg | hg
        · obtain ⟨v, hv, rfl⟩ := List.mem_map.1 hg
          have := fwCount_pos hv (of_relDec hr)
          exact .inl ⟨_, .frame _ _ _ ht List.mem_cons_self (by simp only [refF]; omega), fun i hi => hi.old⟩
        · exact .inl ⟨_, .frame _ _ _ ht (List.mem_cons_of_mem _ hg) hr, fun i hi => hi.old⟩
      · intro i x v hx hv
        exact .inl ⟨x, hx, hv⟩
      · intro w o hw
        exact .inl (List.mem_cons_of_mem _ hw)
      · intro i x hx g hg hr
        rcases List.mem_cons.1 hg with rfl | hg
        · have hr' : 0 < fwCount i loc + if e = i then 1 else 0 := by simpa [refF, pendF] using hr
          by_cases hi : e = i
          · subst hi
            exact .inr (.inr (.inl ⟨⟨e, c, k⟩, h.nid, List.mem_cons_self, rfl, .inl List.mem_cons_self⟩))
          · rw [if_neg hi] at hr'
            obtain ⟨v, hv, hve⟩ := exists_of_fwCount (show 0 < fwCount i loc from hr')
            exact .inl ⟨.relDec v, List.mem_append.2 (.inl (List.mem_map.2 ⟨v, hv, rfl⟩)), by simp [refF, hve]⟩
        · exact .inl ⟨g, List.mem_append.2 (.inr hg), hr⟩
      · intro i x v hx hv
        exact .inl ⟨x, hx, hv⟩
      · intro i x x' hx hx' hp
        rw [show x' = x from Option.some.inj (hx'.symm.trans hx)]
        exact .inl hp
  | relDec w =>
    obtain ⟨k', hst, _⟩ := hfr
    obtain ⟨x, hx, hc, _, _⟩ := of_stat hst
    have hpos : 0 < x.ref := by
      have h1 := H.inv.core.refs w.h
      have h2 := tot_pos (g := refF w.h) (f := Frame.relDec w) (l := frames h.s)
        (List.mem_flatten.2 ⟨_, List.mem_of_getElem? ht, List.mem_cons_self⟩) (by simp [refF])
      simp only [refOf, hx] at h1
      omega
    simp only [lib, hx] at hs
    have key : ∀ new : List (Frame K), (∀ g ∈ new, ∀ i, refF i g = 0) →
        (x.ref - 1 = 0 → ∃ g ∈ new, 0 < pendF w.h g) →
        Inv cfg (⟨setEnt h.s.ents w.h (some { x with ref := x.ref - 1 }), h.s.next, h.s.lock,
          h.s.thr.set t (new ++ rest), h.s.objs, h.s.clock⟩ : St K) →
        HInv cfg ⟨(⟨setEnt h.s.ents w.h (some { x with ref := x.ref - 1 }), h.s.next, h.s.lock,
          h.s.thr.set t (new ++ rest), h.s.objs, h.s.clock⟩ : St K), h.ids, h.nid,
          h.tr ++ [⟨t, rmw mo.decAcq w.h, [(.part w.h .ref, .atomic)], rmw mo.decRel w.h⟩]⟩ := by
      intro new hnew hz hinv
      have hck := ck_set (x' := { x with ref := x.ref - 1 }) hx rfl
      have hra : rmw mo.decAcq w.h = [.count w.h] := by rw [hmo.1]; rfl
      have hrm : rmw mo.decRel w.h = [.count w.h] := by rw [hmo.2]; rfl
      have hTc : Tc ⟨(⟨setEnt h.s.ents w.h (some { x with ref := x.ref - 1 }), h.s.next, h.s.lock,
          h.s.thr.set t (new ++ rest), h.s.objs, h.s.clock⟩ : St K), h.ids, h.nid,
          h.tr ++ [⟨t, rmw mo.decAcq w.h, [(.part w.h .ref, .atomic)], rmw mo.decRel w.h⟩]⟩
          ⟨t, rmw mo.decAcq w.h, [(.part w.h .ref, .atomic)], rmw mo.decRel w.h⟩ (new ++ rest) w.h := by
        by_cases h0 : x.ref - 1 = 0
        · obtain ⟨g, hg, hp⟩ := hz h0
          exact .inl ⟨g, List.mem_append.2 (.inl hg), .inr hp⟩
        · refine .inr (.inr (.inr (.inr (.inl ⟨by rw [hrm]; simp, fun y hy => ?_⟩))))
          dsimp only at hy
          rw [setEnt_same] at hy
          cases hy
          dsimp only
          omega
      refine H.quick (ev := ⟨t, rmw mo.decAcq w.h, [(.part w.h .ref, .atomic)], rmw mo.decRel w.h⟩) (new := new)
        rfl hinv ht rfl rfl rfl hck (by simp [okKind]) rfl ?_ (same_lock rfl).1 (by simp [hrm]) (same_lock rfl).2
        (by simp) (by simp) (by simp) ?_ ?_ ?_ ?_ ?_
      · intro i p k ha
        cases List.mem_singleton.1 ha
        exact ⟨_, setEnt_same ..⟩
      · intro i g hg hr
        rw [hnew g hg] at hr
        cases hr
      · intro i y hy hr
        have hr' : 0 < refF i (.relDec w) := by simpa [pendF] using hr
        rw [← of_relDec hr']
        exact hTc
      · intro i y y' hy hy' hp
        by_cases hi : i = w.h
        · subst hi
          exact .inr ⟨by simp [hra], hTc⟩
        · dsimp only at hy'
          rw [setEnt_ne _ _ hi, hy] at hy'
          cases hy'
          exact .inl hp
      · intro i p k y ha hy
        cases List.mem_singleton.1 ha
        exact hTc
      · intro n l k₁ k₂ ha hn hcf
        cases List.mem_singleton.1 ha
        have hw := conflict_write (H.kinds n _ hn) (by rfl) hcf (by simp) (by simp)
        subst hw
        exact (H.user n w.h x .ref _ hx (.frame _ _ (.relDec w) ht List.mem_cons_self (by simp [refF])) (by simp) hn).old
    split at hs
    · cases hs
      exact key [.relLock w.c w.h] (by simp [refF]) (fun _ => ⟨_, List.mem_singleton.2 rfl, by simp [pendF]⟩) hinv
    · rename_i h0
      cases hs
      exact key [] (by simp) (fun h => absurd h h0) hinv
  | relLock c e =>
    simp only [lib] at hs
    cases ha : acquire cfg h.s.lock t c with
    | none => rw [ha] at hs; cases hs
    | some l =>
      rw [ha] at hs
      cases hs
      obtain ⟨h1, h2, h3⟩ := acquire_facts hlk ha
      refine H.quick (ev := ⟨t, lockAcq cfg h.s c, [], []⟩) (new := [.relCheck c e]) rfl hinv ht rfl rfl rfl (fun _ => rfl) (by simp) rfl
        (by simp) h1 (by simp) (fun c t d hl => .inl (h2 c t d hl)) (by simp) (by simp) (by simp) ?_ ?_ ?_ (by simp) (by simp)
      · intro e g hg hr
        rw [List.mem_singleton.1 hg] at hr
        exact .inl hr
      · intro i x hx hr
        exact .inl ⟨.relCheck c e, by simp, hr⟩
      · intro e x x' hx hx' hp
        rw [show x' = x from Option.some.inj (hx'.symm.trans hx)]
        exact .inl hp
  | relCheck c e =>
    obtain ⟨d, hl⟩ := hhold c rfl
    obtain ⟨k', hst⟩ := hfr
    obtain ⟨x, hx, hc, _, _⟩ := of_stat hst
    simp only [lib, hx, hdl] at hs
    cases hs
    simp only [libEv, hdl, if_true]
    refine H.delH ht hx hc hl hinv (fun i hi => ?_) (fun i hi => ?_)
    · split at hi <;> simp [refF] at hi
    · left
      simp only [refF, pendF] at hi
      rcases hi with hi | hi
      · cases hi
      · split at hi
        · rename_i h; exact h.symm
        · cases hi
  | relErase c e =>
    obtain ⟨k', hst⟩ := hfr
    obtain ⟨x, hx, hc, _, _⟩ := of_stat hst
    obtain ⟨h0, hp0⟩ := H.inv.core.era c e (List.mem_flatten.2 ⟨_, List.mem_of_getElem? ht, List.mem_cons_self⟩)
    simp only [refOf, hx] at h0
    simp only [lib, hx] at hs
    cases hs
    exact H.eraseH ht hx rfl hc h0 hp0 (fun i => ⟨rfl, rfl⟩) (fun i => by simp [refF]) hinv
  | relUnlock c =>
    simp only [lib] at hs
    cases ha : unlock cfg h.s.lock t c with
    | none => rw [ha] at hs; cases hs
    | some l =>
      rw [ha] at hs
      cases hs
      obtain ⟨h1, h2, h3⟩ := unlock_facts hlk ha
      refine H.quick (ev := ⟨t, [], [], lockRel cfg h.s c⟩) (new := []) rfl hinv ht rfl rfl rfl (fun _ => rfl)
        (by simp) rfl (by simp) (fun c t d hl => .inl (h1 c t d hl)) (fun c t d hl hm => absurd hm (h2 c t d hl)) h3
        (by simp) (by simp) (by simp) (by simp) ?_ ?_ (by simp) (by simp)
      · intro e x hx hr
        simp [refF, pendF] at hr
      · intro e x x' hx hx' hp
        rw [show x' = x from Option.some.inj (hx'.symm.trans hx)]
        exact .inl hp

/-! ## Actions of the program -/

theorem pick_length {α β : Type} {l : List α} {l' : List β} (hl : l.length = l'.length) (m : List Bool) :
    (pick m l).1.length = (pick m l').1.length ∧ (pick m l).2.length = (pick m l').2.length := by
  induction l generalizing l' m with
  | nil =>
    cases l' with
    | nil => cases m <;> simp [pick]
    | cons _ _ => simp at hl
  | cons a l ih =>
    cases l' with
    | nil => simp at hl
    | cons b l' =>
      have hl' : l.length = l'.length := by simpa using hl
      cases m with
      | nil => simp [pick, hl']
      | cons c m =>
        obtain ⟨h1, h2⟩ := ih hl' m
        cases c <;> simp [pick, h1, h2]

theorem mem_pick_zip {α β : Type} {l : List α} {l' : List β} (hl : l.length = l'.length) (m : List Bool) (p : α × β) :
    p ∈ l.zip l' ↔ p ∈ (pick m l).1.zip (pick m l').1 ∨ p ∈ (pick m l).2.zip (pick m l').2 := by
  induction l generalizing l' m with
  | nil => cases m <;> simp [pick]
  | cons a l ih =>
    cases l' with
    | nil => simp at hl
    | cons b l' =>
      have hl' : l.length = l'.length := by simpa using hl
      cases m with
      | nil => simp [pick]
      | cons c m =>
        have := ih hl' m
        cases c <;> simp only [pick, List.zip_cons_cons, List.mem_cons, this, if_true, if_false, Bool.false_eq_true]
        · exact or_left_comm
        · exact or_assoc.symm

theorem zip_left {α β : Type} {l : List α} {l' : List β} (hl : l.length = l'.length) {a : α} (ha : a ∈ l) :
    ∃ b, (a, b) ∈ l.zip l' := by
  induction l generalizing l' with
  | nil => cases ha
  | cons x l ih =>
    cases l' with
    | nil => simp at hl
    | cons b l' =>
      rcases List.mem_cons.1 ha with rfl | ha
      · exact ⟨b, by simp⟩
      · obtain ⟨b', hb⟩ := ih (by simpa using hl) ha
        exact ⟨b', by simp [hb]⟩

theorem zip_get {α : Type} {l : List α} {l' : List Nat} (hl : l'.length = l.length) {i : Nat} {a : α} (ha : l[i]? = some a) :
    (a, l'.getD i 0) ∈ l.zip l' := by
  have hlt : i < l.length := by
    rcases Nat.lt_or_ge i l.length with h | h
    · exact h
    · rw [List.getElem?_eq_none h] at ha; cases ha
  have hb : l'[i]? = some (l'.getD i 0) := by
    rw [List.getD_eq_getElem?_getD, List.getElem?_eq_getElem (hl ▸ hlt)]
    rfl
  refine List.mem_of_getElem? (i := i) ?_
  rw [List.getElem?_zip_eq_some]
  exact ⟨ha, hb⟩

theorem mem_excl {ids : List Nat} {o : Nat} (h : o ∈ ids) : .owned o ∈ excl ids ∧ .shared o ∈ excl ids := by
  simp [excl, h]

/-- An action that leaves mutexes and what values contain alone. -/
theorem HInv.userH (H : HInv cfg h) {h' : HSt K} {ev : Event} {st new : List (Frame K)} (htr : h'.tr = h.tr ++ [ev])
    (hinv : Inv cfg h'.s) (hlen : h'.ids.length = h'.s.objs.length) (hst : h.s.thr[ev.thr]? = some st)
    (hst' : h'.s.thr = h.s.thr.set ev.thr (new ++ st))
    (hck : ∀ e, (h'.s.ents e).map ck = (h.s.ents e).map ck)
    (hnext : h.s.next = h'.s.next) (hlk : h'.s.lock = h.s.lock)
    (hmu : ∀ c, .mutex c ∉ ev.rels)
    (hkind : ∀ a ∈ ev.accs, (∃ e x, a = (.part e .body, .read) ∧ h'.s.ents e = some x) ∨
      ∃ e x, a = (.part e .ref, .atomic) ∧ h'.s.ents e = some x)
    (hu1 : ∀ w o, (w, o) ∈ h'.s.objs.zip h'.ids →
      (w, o) ∈ h.s.objs.zip h.ids ∨ .owned o ∈ ev.rels ∧ Tk h h' ev w.h)
    (hu2 : ∀ e, ∀ g ∈ new, 0 < refF e g → Tk h h' ev e)
    (hc1 : ∀ w o, (w, o) ∈ h.s.objs.zip h.ids → (w, o) ∈ h'.s.objs.zip h'.ids ∨
      .owned o ∈ ev.acqs ∧ .shared o ∈ ev.acqs ∧ Tc h' ev (new ++ st) w.h)
    (hc4 : ∀ e x x', h.s.ents e = some x → h'.s.ents e = some x' → 0 < x.ref → 0 < x'.ref)
    (hacc : ∀ e p k x, (.part e p, k) ∈ ev.accs → h'.s.ents e = some x → Tc h' ev (new ++ st) e)
    (hrace : ∀ n e p x k, (.part e p, k) ∈ ev.accs → h.s.ents e = some x → p ≠ .del →
      Acc h.tr n (.part e p, .write) → Know h'.tr ev.thr n) : HInv cfg h' := by
  have kold : ∀ {t i}, Know h.tr t i → Know h'.tr t i := fun hk => by rw [htr]; exact hk.old
  refine H.next htr hinv hlen hst hst' ?_ (Nat.le_of_eq hnext) ?_ (same_lock hlk).1
    (fun c t d _ hm => absurd hm (hmu c)) (same_lock hlk).2 ?_ ?_ ?_ ?_ hu1 ?_ ?_ hc1 ?_ ?_
    (fun e x x' h1 h2 h3 => .inl (hc4 e x x' h1 h2 h3)) hacc ?_
  · intro a ha
    rcases hkind a ha with ⟨e, x, rfl, _⟩ | ⟨e, x, rfl, _⟩ <;> rfl
  · intro e p k ha
    rcases hkind _ ha with ⟨e, x, he, hx⟩ | ⟨e, x, he, hx⟩ <;> cases he <;> exact hinv.core.lt_next hx
  · intro e x hx
    obtain ⟨y, hy, hc, _⟩ := ck_some hck hx
    exact .inl ⟨y, hy, hc⟩
  · intro c k ha
    rcases hkind _ ha with ⟨e, x, he, hx⟩ | ⟨e, x, he, hx⟩ <;> cases he
  · intro e p x ha
    rcases hkind _ ha with ⟨e, x, he, hx⟩ | ⟨e, x, he, hx⟩ <;> cases he
  · intro e p x ha
    rcases hkind _ ha with ⟨e, x, he, hx⟩ | ⟨e, x, he, hx⟩ <;> cases he
  · intro e g hg hr
    rcases List.mem_append.1 hg with hg | hg
    · exact hu2 e g hg hr
    · exact .inl ⟨_, .frame _ _ g hst hg hr, fun i => kold⟩
  · intro e x v hx hv
    obtain ⟨y, hy, _, hk⟩ := ck_some hck hx
    exact .inl ⟨y, hy, hk ▸ hv⟩
  · intro e x hx g hg hr
    exact .inl ⟨g, List.mem_append.2 (.inr hg), hr⟩
  · intro e x v hx hv
    obtain ⟨y, hy, _, hk⟩ := ck_some (fun e => (hck e).symm) hx
    exact .inl ⟨y, hy, hk ▸ hv⟩
  · intro n l k k' ha hn hcf
    have hok := hkind _ ha
    have key : ∀ e p x, l = .part e p → h'.s.ents e = some x → p ≠ .del → okKind (.part e p, k') = true → k' ≠ .write →
        Know h'.tr ev.thr n := by
      rintro e p x rfl hx hp hk hw
      obtain ⟨y, hy, _⟩ := ck_some hck hx
      have := conflict_write (H.kinds n _ hn) hk hcf hp hw
      subst this
      exact hrace n e p y k' ha hy hp hn
    rcases hok with ⟨e, x, he, hx⟩ | ⟨e, x, he, hx⟩ <;> cases he
    · exact key e .body x rfl hx (by simp) rfl (by simp)
    · exact key e .ref x rfl hx (by simp) rfl (by simp)

/-- Objects are moved into a new operation, or destroyed. -/
theorem HInv.takeH (H : HInv cfg h) {st new : List (Frame K)} {m : List Bool} (ht : h.s.thr[t]? = some st)
    (hnew : ∀ e, (∃ g ∈ new, 0 < refF e g) ↔ 0 < fwCount e (pick m h.s.objs).1)
    (hinv : Inv cfg (⟨h.s.ents, h.s.next, h.s.lock, h.s.thr.set t (new ++ st), (pick m h.s.objs).2, h.s.clock⟩ : St K)) :
    HInv cfg ⟨(⟨h.s.ents, h.s.next, h.s.lock, h.s.thr.set t (new ++ st), (pick m h.s.objs).2, h.s.clock⟩ : St K),
      (pick m h.ids).2, h.nid, h.tr ++ [⟨t, excl (pick m h.ids).1, [], []⟩]⟩ := by
  have hz := mem_pick_zip H.len.symm m
  have hpl := pick_length H.len.symm m
  refine H.userH (ev := ⟨t, excl (pick m h.ids).1, [], []⟩) (new := new) rfl hinv hpl.2.symm ht rfl (fun _ => rfl) rfl rfl
    (by simp) (by simp) (fun w o hw => .inl ((hz _).2 (.inr hw))) ?_ ?_ ?_ (by simp) (by simp)
  · intro e g hg hr
    obtain ⟨w, hw, he⟩ := exists_of_fwCount ((hnew e).1 ⟨g, hg, hr⟩)
    obtain ⟨o, ho⟩ := zip_left hpl.1 hw
    exact .inl ⟨_, .obj w o ((hz _).2 (.inl ho)) he, fun i hi =>
      know_acq (ev := ⟨t, excl (pick m h.ids).1, [], []⟩) (mem_excl (List.of_mem_zip ho).2).1 hi⟩
  · intro w o hw
    rcases (hz _).1 hw with hw | hw
    · obtain ⟨h1, h2⟩ := mem_excl (List.of_mem_zip hw).2
      obtain ⟨g, hg, hr⟩ := (hnew w.h).2 (fwCount_pos (List.of_mem_zip hw).1 rfl)
      exact .inr ⟨h1, h2, .inl ⟨g, List.mem_append.2 (.inl hg), .inl hr⟩⟩
    · exact .inl hw
  · intro e x x' hx hx' hp
    rw [show x' = x from Option.some.inj (hx'.symm.trans hx)]
    exact hp

/-- A flyweight is copied to a new object: either another object, or one inside the value of an
object. -/
theorem HInv.copyH (H : HInv cfg h) {st : List (Frame K)} {w v : Fw K} {o : Nat} {y : Ent K} {more : List (Loc × Kind)}
    (ht : h.s.thr[t]? = some st) (hw : (w, o) ∈ h.s.objs.zip h.ids) (hy : h.s.ents v.h = some y)
    (hm : ∀ a ∈ more, a = (.part w.h .body, .read))
    (hv : ∃ P, User h v.h P ∧ ∀ i, P i → Rel h.tr (.owned o) i)
    (hinv : Inv cfg (⟨setEnt h.s.ents v.h (some { y with ref := y.ref + 1 }), h.s.next, h.s.lock, h.s.thr, v :: h.s.objs,
      h.s.clock⟩ : St K)) :
    HInv cfg ⟨(⟨setEnt h.s.ents v.h (some { y with ref := y.ref + 1 }), h.s.next, h.s.lock, h.s.thr, v :: h.s.objs,
      h.s.clock⟩ : St K), h.nid :: h.ids, h.nid + 1, h.tr ++ [⟨t, .owned o :: rmw mo.inc v.h,
        more ++ [(.part v.h .ref, .atomic)], .shared o :: .owned h.nid :: rmw mo.inc v.h⟩]⟩ := by
  have hck := ck_set (x' := { y with ref := y.ref + 1 }) hy rfl
  have hex : ∀ {e x}, h.s.ents e = some x → ∃ z, setEnt h.s.ents v.h (some { y with ref := y.ref + 1 }) e = some z ∧
      x.ref ≤ z.ref := by
    intro e x hx
    by_cases he : e = v.h
    · subst he
      rw [setEnt_same]
      refine ⟨_, rfl, ?_⟩
      rw [hy] at hx
      cases hx
      dsimp only
      omega
    · rw [setEnt_ne _ _ he]
      exact ⟨x, hx, Int.le_refl _⟩
  obtain ⟨x, hx, -, -⟩ := H.inv.core.fw_ent (List.of_mem_zip hw).1
  obtain ⟨P, hP, hPo⟩ := hv
  have hk : ∀ {i}, Rel h.tr (.owned o) i → Know (h.tr ++ [⟨t, .owned o :: rmw mo.inc v.h,
        more ++ [(.part v.h .ref, .atomic)], .shared o :: .owned h.nid :: rmw mo.inc v.h⟩]) t i := fun hi =>
    know_acq (ev := ⟨t, .owned o :: rmw mo.inc v.h,
        more ++ [(.part v.h .ref, .atomic)], .shared o :: .owned h.nid :: rmw mo.inc v.h⟩) List.mem_cons_self hi
  have hmem : ∀ {a : Loc × Kind}, a ∈ more ++ [(.part v.h .ref, .atomic)] → a = (.part w.h .body, .read) ∨
      a = (.part v.h .ref, .atomic) := by
    intro a ha
    rcases List.mem_append.1 ha with ha | ha
    · exact .inl (hm a ha)
    · exact .inr (List.mem_singleton.1 ha)
  refine H.userH (ev := ⟨t, .owned o :: rmw mo.inc v.h, more ++ [(.part v.h .ref, .atomic)],
      .shared o :: .owned h.nid :: rmw mo.inc v.h⟩) (new := []) rfl hinv (by simp [H.len]) ht (set_self ht).symm hck rfl rfl
    ?_ ?_ ?_ (by simp) ?_ ?_ ?_ ?_
  · intro c hm
    unfold rmw at hm
    split at hm <;> simp at hm
  · intro a ha
    rcases hmem ha with rfl | rfl
    · obtain ⟨z, hz, _⟩ := hex hx
      exact .inl ⟨_, z, rfl, hz⟩
    · exact .inr ⟨_, _, rfl, setEnt_same ..⟩
  · intro u o' hu
    rcases List.mem_cons.1 (show (u, o') ∈ (v, h.nid) :: h.s.objs.zip h.ids from hu) with hu | hu
    · cases hu
      exact .inr ⟨by simp, .inl ⟨P, hP, fun i hi => hk (hPo i hi)⟩⟩
    · exact .inl hu
  · intro u o' hu
    exact .inl (List.mem_cons_of_mem _ hu)
  · intro e x x' hx hx' hp
    obtain ⟨z, hz, hle⟩ := hex hx
    rw [show x' = z from Option.some.inj (hx'.symm.trans hz)]
    omega
  · intro e p k x ha hx
    rcases hmem ha with ha | ha <;> cases ha
    · exact .inr (.inr (.inl ⟨w, o, List.mem_cons_of_mem _ hw, rfl, .inr (by simp)⟩))
    · exact .inr (.inr (.inl ⟨v, h.nid, List.mem_cons_self, rfl, .inl (by simp)⟩))
  · intro n e p x k ha hx hp hn
    rcases hmem ha with ha | ha <;> cases ha
    · exact hk (H.user n _ x _ _ hx (.obj w o hw rfl) hp hn)
    · exact hk (hPo n (H.user n _ x _ P hx hP hp hn))

/-- A value constructor returns. -/
theorem HInv.finishH (H : HInv cfg h) {rest : List (Frame K)} {c e d : Nat} {k : K} {x : Ent K} {m : List Bool} {drop : Bool}
    (ht : h.s.thr[t]? = some (.insUser c k e :: rest)) (hx : h.s.ents e = some x) (hc : x.core = c)
    (hl : h.s.lock c = some (t, d)) (h0 : x.ref = 0) (hp : tot (pendF e) (frames h.s) = 0)
    (hinv : Inv cfg (⟨setEnt h.s.ents e (some { x with
        kids := if drop then (pick m h.s.objs).1 else x.kids ++ (pick m h.s.objs).1 }), h.s.next, h.s.lock,
      h.s.thr.set t ((if drop then x.kids.map .relDec else []) ++ .insDone c k e :: rest), (pick m h.s.objs).2,
      h.s.clock⟩ : St K)) :
    HInv cfg ⟨(⟨setEnt h.s.ents e (some { x with
        kids := if drop then (pick m h.s.objs).1 else x.kids ++ (pick m h.s.objs).1 }), h.s.next, h.s.lock,
      h.s.thr.set t ((if drop then x.kids.map .relDec else []) ++ .insDone c k e :: rest), (pick m h.s.objs).2,
      h.s.clock⟩ : St K), (pick m h.ids).2, h.nid,
      h.tr ++ [⟨t, excl (pick m h.ids).1, [(.part e .body, .write)], []⟩]⟩ := by
  have hz := mem_pick_zip H.len.symm m
  have hpl := pick_length H.len.symm m
  have hat : ∀ {i y}, setEnt h.s.ents e (some { x with
        kids := if drop then (pick m h.s.objs).1 else x.kids ++ (pick m h.s.objs).1 }) i = some y →
      i = e ∧ y = { x with kids := if drop then (pick m h.s.objs).1 else x.kids ++ (pick m h.s.objs).1 } ∨
      i ≠ e ∧ h.s.ents i = some y := by
    intro i y hy
    by_cases hi : i = e
    · subst hi
      rw [setEnt_same] at hy
      cases hy
      exact .inl ⟨rfl, rfl⟩
    · rw [setEnt_ne _ _ hi] at hy
      exact .inr ⟨hi, hy⟩
  have hmine : ∀ y, setEnt h.s.ents e (some { x with
        kids := if drop then (pick m h.s.objs).1 else x.kids ++ (pick m h.s.objs).1 }) e = some y →
      ∃ d, h.s.lock y.core = some (t, d) := by
    intro y hy
    rcases hat hy with ⟨_, rfl⟩ | ⟨h1, _⟩
    · exact ⟨d, hc ▸ hl⟩
    · exact absurd rfl h1
  have hpast : ∀ i, Past h.tr (.part e .body, .write) i → Know h.tr t i := by
    rintro i ⟨j, h1, h2⟩
    exact (H.locked (hc ▸ hl) (H.writes j e x _ hx h1)).trans h2
  refine H.next (ev := ⟨t, excl (pick m h.ids).1, [(.part e .body, .write)], []⟩) rfl hinv hpl.2.symm ht rfl
    (by simp [okKind]) (Nat.le_refl _) ?_ (same_lock rfl).1 (by simp) (same_lock rfl).2 ?_ (by simp) ?_ ?_
    (fun w o hw => .inl ((hz _).2 (.inr hw))) ?_ ?_ ?_ ?_ ?_ ?_ ?_ ?_
  · intro i p k ha
    cases List.mem_singleton.1 ha
    exact H.inv.core.lt_next hx
  · intro i y hy
    rcases hat hy with ⟨rfl, rfl⟩ | ⟨_, hy⟩
    · exact .inl ⟨x, hx, rfl⟩
    · exact .inl ⟨y, hy, rfl⟩
  · intro i p y ha hy
    cases List.mem_singleton.1 ha
    exact hmine y hy
  · intro i p y ha _ hy
    cases List.mem_singleton.1 ha
    rcases hat hy with ⟨_, rfl⟩ | ⟨h1, _⟩
    · exact h0
    · exact absurd rfl h1
  · intro i g hg hr
    rcases List.mem_append.1 hg with hg | hg
    · split at hg
      · obtain ⟨v, hv, rfl⟩ := List.mem_map.1 hg
        exact .inl ⟨_, .kid e x v hx hv (of_relDec hr), fun i hi => (hpast i hi).old⟩
      · cases hg
    · rcases List.mem_cons.1 hg with rfl | hg
      · cases hr
      · exact .inl ⟨_, .frame _ _ g ht (List.mem_cons_of_mem _ hg) hr, fun i hi => hi.old⟩
  · intro i y v hy hv
    rcases hat hy with ⟨rfl, rfl⟩ | ⟨_, hy⟩
    · have hv' : v ∈ x.kids ∨ v ∈ (pick m h.s.objs).1 := by
        dsimp only at hv
        split at hv
        · exact .inr hv
        · exact List.mem_append.1 hv
      rcases hv' with hv | hv
      · exact .inl ⟨x, hx, hv⟩
      · obtain ⟨o, ho⟩ := zip_left hpl.1 hv
        exact .inr ⟨List.mem_singleton.2 rfl, .inl ⟨_, .obj v o ((hz _).2 (.inl ho)) rfl, fun n hn =>
          know_acq (ev := ⟨t, excl (pick m h.ids).1, [(.part i .body, .write)], []⟩)
            (mem_excl (List.of_mem_zip ho).2).1 hn⟩⟩
    · exact .inl ⟨y, hy, hv⟩
  · intro w o hw
    rcases (hz _).1 hw with hw | hw
    · obtain ⟨h1, h2⟩ := mem_excl (List.of_mem_zip hw).2
      refine .inr ⟨h1, h2, .inr (.inr (.inr (.inl ⟨e, _, w, setEnt_same .., ?_, rfl, List.mem_singleton.2 rfl⟩)))⟩
      have := (List.of_mem_zip hw).1
      dsimp only
      split
      · exact this
      · exact List.mem_append.2 (.inr this)
    · exact .inl hw
  · intro i y hy g hg hr
    rcases List.mem_cons.1 hg with rfl | hg
    · simp [refF, pendF] at hr
    · exact .inl ⟨g, List.mem_append.2 (.inr (List.mem_cons_of_mem _ hg)), hr⟩
  · intro i y v hy hv
    by_cases hi : i = e
    · subst hi
      rw [hx] at hy
      cases hy
      by_cases hd : drop = true
      · refine .inr ⟨fun i hi => (hpast i hi).old, .inl ⟨.relDec v, ?_, ?_⟩⟩
        · rw [if_pos hd]
          exact List.mem_append.2 (.inl (List.mem_map.2 ⟨v, hv, rfl⟩))
        · simp [refF]
      · refine .inl ⟨_, setEnt_same .., ?_⟩
        dsimp only
        rw [if_neg hd]
        exact List.mem_append.2 (.inl hv)
    · exact .inl ⟨y, by simpa [setEnt, hi] using hy, hv⟩
  · intro i y y' hy hy' hpos
    rcases hat hy' with ⟨rfl, rfl⟩ | ⟨_, hy'⟩
    · rw [hx] at hy
      cases hy
      exact .inl hpos
    · rw [hy'] at hy
      cases hy
      exact .inl hpos
  · intro i p k y ha hy
    cases List.mem_singleton.1 ha
    exact .inr (.inl hmine)
  · intro n l k₁ k₂ ha hn hcf
    cases List.mem_singleton.1 ha
    exact H.soleRace (ev := ⟨t, excl (pick m h.ids).1, [(.part e .body, .write)], []⟩) hl hx hc h0 hp hn

/-- Actions. -/
theorem act_h (hcfg : CfgOk cfg) (hlk : cfg.locking = true) (hdl : cfg.deleter = true) (hmo : mo.decAcq = true ∧ mo.decRel = true)
    (H : HInv cfg h) {st : List (Frame K)} (ht : h.s.thr[t]? = some st) {a : Act K} (hs : act cfg h.s t st a = .ok s') :
    HInv cfg ⟨s', (label cfg mo h t st a).2.1, (label cfg mo h t st a).2.2, h.tr ++ [(label cfg mo h t st a).1]⟩ := by
  have hinv : Inv cfg s' := by
    have := act_good hcfg hlk hdl H.inv ht a
    rwa [hs] at this
  have hself := set_self ht
  cases a with
  | run =>
    cases st with
    | nil => cases hs
    | cons f rest => exact lib_h hcfg hlk hdl hmo H ht hs
  | create c k m pre =>
    simp only [act] at hs
    split at hs
    · cases hs
      exact H.takeH (new := [.insLock c k (pick m h.s.objs).1 pre]) ht (fun e => by simp [refF]) hinv
    · cases hs
  | destroy m =>
    simp only [act] at hs
    split at hs
    · cases hs
      refine H.takeH (new := (pick m h.s.objs).1.map .relDec) ht (fun e => ⟨?_, ?_⟩) hinv
      · rintro ⟨g, hg, hr⟩
        obtain ⟨v, hv, rfl⟩ := List.mem_map.1 hg
        exact fwCount_pos hv (of_relDec hr)
      · intro hr
        obtain ⟨v, hv, he⟩ := exists_of_fwCount hr
        exact ⟨_, List.mem_map.2 ⟨v, hv, rfl⟩, by simp [refF, he]⟩
    · cases hs
  | copy i =>
    simp only [act] at hs
    split at hs
    · cases hw : h.s.objs[i]? with
      | none => rw [hw] at hs; cases hs
      | some w =>
        have hz := zip_get H.len hw
        rw [hw] at hs
        dsimp only at hs
        cases hx : h.s.ents w.h with
        | none => rw [hx] at hs; cases hs
        | some x =>
          rw [hx] at hs
          cases hs
          simp only [label, target, hw]
          exact H.copyH (more := []) ht hz hx (by simp) ⟨_, .obj w _ hz rfl, fun i hi => hi⟩ hinv
    · cases hs
  | copyKid i j =>
    simp only [act] at hs
    split at hs
    · cases hw : h.s.objs[i]? with
      | none => rw [hw] at hs; cases hs
      | some w =>
        have hz := zip_get H.len hw
        rw [hw] at hs
        dsimp only at hs
        cases hx : h.s.ents w.h with
        | none => rw [hx] at hs; cases hs
        | some x =>
          rw [hx] at hs
          dsimp only at hs
          split at hs
          · cases hv : x.kids[j]? with
            | none => rw [hv] at hs; cases hs
            | some v =>
              rw [hv] at hs
              dsimp only at hs
              cases hy : h.s.ents v.h with
              | none => rw [hy] at hs; cases hs
              | some y =>
                rw [hy] at hs
                cases hs
                simp only [label, kidTarget, target, hw, hx, hv]
                refine H.copyH (more := [(.part w.h .body, .read)]) ht hz hy (by simp)
                  ⟨_, .kid w.h x v hx (List.mem_of_getElem? hv) rfl, ?_⟩ hinv
                rintro n ⟨j, h1, h2⟩
                exact (H.user j _ x _ _ hx (.obj w _ hz rfl) (by simp) h1).trans h2
          · cases hs
    · cases hs
  | swap i j =>
    simp only [act] at hs
    split at hs
    · cases hv : h.s.objs[i]? with
      | none => rw [hv] at hs; cases hs
      | some v =>
        cases hw : h.s.objs[j]? with
        | none => rw [hv, hw] at hs; cases hs
        | some w =>
          rw [hv, hw] at hs
          cases hs
          have hzv := zip_get H.len hv
          have hzw := zip_get H.len hw
          have hlen : ((h.s.objs.set i w).set j v).length = h.s.objs.length := by simp
          have hi : i < h.s.objs.length := by
            rcases Nat.lt_or_ge i h.s.objs.length with h1 | h1
            · exact h1
            · rw [List.getElem?_eq_none h1] at hv; cases hv
          have hj : j < h.s.objs.length := by
            rcases Nat.lt_or_ge j h.s.objs.length with h1 | h1
            · exact h1
            · rw [List.getElem?_eq_none h1] at hw; cases hw
          have hzv' : (v, h.ids.getD j 0) ∈ ((h.s.objs.set i w).set j v).zip h.ids :=
            zip_get (H.len.trans hlen.symm) (by rw [List.getElem?_set_self (by simpa using hj)])
          have hzw' : (w, h.ids.getD i 0) ∈ ((h.s.objs.set i w).set j v).zip h.ids := by
            refine zip_get (H.len.trans hlen.symm) ?_
            by_cases hij : j = i
            · subst hij
              rw [hv] at hw
              cases hw
              rw [List.getElem?_set_self (by simpa using hj)]
            · rw [List.getElem?_set_ne hij, List.getElem?_set_self hi]
          have hget : ∀ {n : Nat} {o : Nat}, h.ids[n]? = some o → o = h.ids.getD n 0 := by
            intro n o ho
            rw [List.getD_eq_getElem?_getD, ho]
            rfl
          refine H.userH (ev := ⟨t, excl [h.ids.getD i 0, h.ids.getD j 0], [],
              [.owned (h.ids.getD i 0), .owned (h.ids.getD j 0)]⟩) (new := []) rfl hinv (H.len.trans hlen.symm) ht hself.symm
            (fun _ => rfl) rfl rfl (by simp) (by simp) ?_ (by simp) ?_ ?_ (by simp) (by simp)
          · intro u o hu
            obtain ⟨n, hn⟩ := List.mem_iff_getElem?.1 hu
            obtain ⟨h1, h2⟩ := List.getElem?_zip_eq_some.1 hn
            dsimp only at h1 h2
            by_cases hnj : j = n
            · subst hnj
              rw [List.getElem?_set_self (by simpa using hj)] at h1
              cases h1
              have := hget h2
              subst this
              exact .inr ⟨by simp, .inl ⟨_, .obj v _ hzv rfl, fun m hm => know_acq
                (ev := ⟨t, excl [h.ids.getD i 0, h.ids.getD j 0], [], [.owned (h.ids.getD i 0), .owned (h.ids.getD j 0)]⟩)
                (mem_excl (by simp)).1 hm⟩⟩
            · rw [List.getElem?_set_ne hnj] at h1
              by_cases hni : i = n
              · subst hni
                rw [List.getElem?_set_self hi] at h1
                cases h1
                have := hget h2
                subst this
                exact .inr ⟨by simp, .inl ⟨_, .obj w _ hzw rfl, fun m hm => know_acq
                  (ev := ⟨t, excl [h.ids.getD i 0, h.ids.getD j 0], [], [.owned (h.ids.getD i 0), .owned (h.ids.getD j 0)]⟩)
                  (mem_excl (by simp)).1 hm⟩⟩
              · rw [List.getElem?_set_ne hni] at h1
                exact .inl (List.mem_of_getElem? (List.getElem?_zip_eq_some.2 ⟨h1, h2⟩))
          · intro u o hu
            obtain ⟨n, hn⟩ := List.mem_iff_getElem?.1 hu
            obtain ⟨h1, h2⟩ := List.getElem?_zip_eq_some.1 hn
            dsimp only at h1 h2
            by_cases hni : i = n
            · subst hni
              rw [hv] at h1
              cases h1
              have := hget h2
              subst this
              exact .inr ⟨(mem_excl (by simp)).1, (mem_excl (by simp)).2,
                .inr (.inr (.inl ⟨v, _, hzv', rfl, .inl (by simp)⟩))⟩
            · by_cases hnj : j = n
              · subst hnj
                rw [hw] at h1
                cases h1
                have := hget h2
                subst this
                exact .inr ⟨(mem_excl (by simp)).1, (mem_excl (by simp)).2,
                  .inr (.inr (.inl ⟨w, _, hzw', rfl, .inl (by simp)⟩))⟩
              · refine .inl (List.mem_of_getElem? (List.getElem?_zip_eq_some.2 ⟨?_, h2⟩))
                dsimp only
                rw [List.getElem?_set_ne hnj, List.getElem?_set_ne hni]
                exact h1
          · intro e x x' hx hx' hp
            rw [show x' = x from Option.some.inj (hx'.symm.trans hx)]
            exact hp
    · cases hs
  | read i =>
    simp only [act] at hs
    split at hs
    · cases hw : h.s.objs[i]? with
      | none => rw [hw] at hs; cases hs
      | some w =>
        have hz := zip_get H.len hw
        rw [hw] at hs
        dsimp only at hs
        cases hx : h.s.ents w.h with
        | none => rw [hx] at hs; cases hs
        | some x =>
          rw [hx] at hs
          dsimp only at hs
          split at hs
          · cases hs
            simp only [label, target, hw]
            refine H.userH (ev := ⟨t, [.owned (h.ids.getD i 0)], [(.part w.h .body, .read)], [.shared (h.ids.getD i 0)]⟩)
              (new := []) rfl hinv H.len ht hself.symm (fun _ => rfl) rfl rfl (by simp) ?_ (fun w o hw => .inl hw) (by simp)
              (fun w o hw => .inl hw) ?_ ?_ ?_
            · intro a ha
              exact .inl ⟨_, x, List.mem_singleton.1 ha, hx⟩
            · intro e x x' hx hx' hp
              rw [show x' = x from Option.some.inj (hx'.symm.trans hx)]
              exact hp
            · intro e p k x ha hx
              cases List.mem_singleton.1 ha
              exact .inr (.inr (.inl ⟨w, _, hz, rfl, .inr (by simp)⟩))
            · intro n e p x k ha hx hp hn
              cases List.mem_singleton.1 ha
              exact know_acq (ev := (⟨t, [.owned (h.ids.getD i 0)], [(.part w.h .body, .read)], [.shared (h.ids.getD i 0)]⟩ : Event))
                (List.mem_singleton.2 rfl) (H.user n _ x _ _ hx (.obj w _ hz rfl) hp hn)
          · cases hs
    · cases hs
  | finish m drop =>
    simp only [act] at hs
    split at hs
    · rename_i c k e rest
      obtain ⟨d, hl⟩ := held H.inv ht rfl
      obtain ⟨k', hstat, _⟩ : FrameOk cfg (stat h.s.ents) (.insUser c k e) :=
        H.inv.core.frames _ (List.mem_flatten.2 ⟨_, List.mem_of_getElem? ht, List.mem_cons_self⟩)
      obtain ⟨x, hx, hc, _, hct⟩ := of_stat hstat
      obtain ⟨h0, hp0⟩ := uncted_sole H.inv hx hct
      rw [hx] at hs
      dsimp only at hs
      rw [if_neg (by simp [hct])] at hs
      cases hs
      exact H.finishH ht hx hc hl h0 hp0 hinv
    · cases hs
  | throw_ =>
    simp only [act] at hs
    split at hs
    · cases hs
      rename_i c k e rest
      refine H.quick (ev := ⟨t, [], [], []⟩) (new := [.insCatch c e]) rfl hinv ht rfl rfl rfl (fun _ => rfl) (by simp) rfl
        (by simp) (same_lock rfl).1 (by simp) (same_lock rfl).2 (by simp) (by simp) (by simp) ?_ ?_ ?_ (by simp) (by simp)
      · intro i g hg hr
        rw [List.mem_singleton.1 hg] at hr
        cases hr
      · intro i x hx hr
        simp [refF, pendF] at hr
      · intro i x x' hx hx' hp
        rw [show x' = x from Option.some.inj (hx'.symm.trans hx)]
        exact .inl hp
    · cases hs
      rename_i c k loc pre rest
      obtain ⟨d, hl⟩ := held H.inv ht rfl
      exact H.lookH ht hl (fun i => rfl) (fun i => rfl) hinv
    · cases hs

/-- At the start nothing has been accessed. -/
theorem hstart_h (n : Nat) : HInv cfg (hstart n : HSt K) where
  inv := start_inv n
  len := rfl
  kinds := by rintro n a ⟨ev, h, _⟩; simp [hstart] at h
  bound := by rintro n e p k ⟨ev, h, _⟩; simp [hstart] at h
  hold := by rintro c t d i _ ⟨j, ev, h, _⟩; simp [hstart] at h
  table := by rintro n c k ⟨ev, h, _⟩; simp [hstart] at h
  writes := by rintro n e x p _ ⟨ev, h, _⟩; simp [hstart] at h
  user := by rintro n e x p P _ _ _ ⟨ev, h, _⟩; simp [hstart] at h
  cov := by rintro n e x p k _ ⟨ev, h, _⟩; simp [hstart] at h
  race := raceFree_nil

/-- Executions. -/
theorem hexec_h (hcfg : CfgOk cfg) (hlk : cfg.locking = true) (hdl : cfg.deleter = true) (hmo : mo.decAcq = true ∧ mo.decRel = true)
    (H : HInv cfg h) (acts : List (Nat × Act K)) : HInv cfg (hexec cfg mo acts h) := by
  induction acts generalizing h with
  | nil => exact H
  | cons p acts ih =>
    obtain ⟨t, a⟩ := p
    unfold hexec
    cases ht : h.s.thr[t]? with
    | none => exact ih H
    | some st =>
      dsimp only
      cases hs : act cfg h.s t st a with
      | ok s' => exact ih (act_h hcfg hlk hdl hmo H ht hs)
      | no => exact ih H
      | ub => exact H
      | reentrant => exact H

end

end Verif.Conc

import Verif.ConcLinStep

/-!
# The concurrent model refines the atomic specification: steps of the library
-/

set_option autoImplicit false

namespace Verif.Conc
open Verif.Atomic (Val Call drops setVal)
variable {K : Type} {cfg : Cfg K}

theorem abs_top {s : St K} {t : Nat} {st : List (Frame K)} (ht : s.thr[t]? = some st) :
    (abs s).thr[t]? = some (absS (info s.ents (frames s)) st) := by
  simp [abs, ht]

/-- A step that changes nothing about entries. -/
theorem quiet {s : St K} (hF : Fit s) {t : Nat} {st : List (Frame K)} (ht : s.thr[t]? = some st)
    {new rest : List (Frame K)} (hr : ∀ g ∈ rest, g ∈ st)
    {ents : Nat → Option (Ent K)} {next clock : Nat} {objs : List (Fw K)} {lock : Nat → Option (Nat × Nat)}
    (h1 : info ents (new ++ (s.thr.set t rest).flatten) = info s.ents (frames s))
    (h2 : ∀ g ∈ new, FitF (info s.ents (frames s)) g) :
    Fit ⟨ents, next, lock, s.thr.set t (new ++ rest), objs, clock⟩ ∧
    abs ⟨ents, next, lock, s.thr.set t (new ++ rest), objs, clock⟩ =
      { (abs s).go t (absS (info s.ents (frames s)) new ++ absS (info s.ents (frames s)) rest) with objs := objs } := by
  have := abs_step (ents := ents) (next := next) (clock := clock) (objs := objs) (lock := lock) hF ht hr (new := new)
    (fun _ _ _ _ => by rw [h1]) (by rw [h1]; exact h2)
  rw [h1] at this
  exact this

theorem go_self {s : St K} {t : Nat} {st : List (Frame K)} (ht : s.thr[t]? = some st) :
    { (abs s).go t (absS (info s.ents (frames s)) st) with objs := s.objs } = abs s := by
  have := set_self (abs_top ht)
  unfold Atomic.St.go
  rw [this]
  rfl

/-- Changes of the counts of one entry. -/
theorem info_count {ents : Nat → Option (Ent K)} {L L' : List (Frame K)} {e : Nat} {x x' : Ent K} (hx : ents e = some x)
    (hs : shape x' = shape x) (h1 : ∀ i, i ≠ e → tot (pendF i) L' = tot (pendF i) L)
    (h2 : x.cted = true → ((0 < x'.ref ∨ 0 < tot (pendF e) L') ↔ (0 < x.ref ∨ 0 < tot (pendF e) L))) :
    info (setEnt ents e (some x')) L' = info ents L := by
  funext i
  refine info_eq ?_ ?_
  · by_cases hi : i = e
    · subst hi
      rw [setEnt_same, hx, Option.map_some, Option.map_some, hs]
    · rw [setEnt_ne _ _ hi]
  · intro y y' hy hy'
    by_cases hi : i = e
    · subst hi
      rw [setEnt_same] at hy'
      rw [hx] at hy
      cases hy
      cases hy'
      exact h2
    · rw [setEnt_ne _ _ hi, hy] at hy'
      cases hy'
      intro _
      rw [h1 i hi]

/-- Nobody lays claim to an entry that is not there. -/
theorem claim_absent {st : Nat → Option (Nat × K × Bool)} {g : Frame K} {e : Nat}
    (hg : FrameOk cfg st g) (hst : st e = none) : claimF e g = 0 := by
  rcases Nat.eq_zero_or_pos (claimF e g) with h | h
  · exact h
  · cases g with
    | insVisit c k i loc new => obtain ⟨⟨k', b, h3, _⟩, _⟩ := hg; rw [ite_pos h, hst] at h3; cases h3
    | insUser c k i => obtain ⟨k', h3, _⟩ := hg; rw [ite_pos h, hst] at h3; cases h3
    | insDone c k i => obtain ⟨k', h3, _⟩ := hg; rw [ite_pos h, hst] at h3; cases h3
    | insCatch c i => obtain ⟨k', h3⟩ := hg; rw [ite_pos h, hst] at h3; cases h3
    | insAddRef c k i loc => obtain ⟨⟨k', h3, _⟩, _⟩ := hg; simp only [ite_pos h, hst] at h3; cases h3
    | relLock c i => obtain ⟨k', h3⟩ := hg; rw [ite_pos h, hst] at h3; cases h3
    | relCheck c i => obtain ⟨k', h3⟩ := hg; rw [ite_pos h, hst] at h3; cases h3
    | relErase c i => obtain ⟨k', h3⟩ := hg; rw [ite_pos h, hst] at h3; cases h3
    | _ => cases h

/-- Nobody is about to erase an entry without value. -/
theorem pend_uncted {st : Nat → Option (Nat × K × Bool)} {L : List (Frame K)} {e : Nat}
    (hL : ∀ g ∈ L, FrameOk cfg st g) (hst : ∀ c k, st e ≠ some (c, k, true)) : tot (pendF e) L = 0 := by
  refine tot_eq_zero fun g hg => ?_
  rcases Nat.eq_zero_or_pos (pendF e g) with h | h
  · exact h
  · have hok := hL g hg
    cases g with
    | relLock c i => obtain ⟨k', h3⟩ := hok; rw [ite_pos h] at h3; exact absurd h3 (hst _ _)
    | relCheck c i => obtain ⟨k', h3⟩ := hok; rw [ite_pos h] at h3; exact absurd h3 (hst _ _)
    | _ => cases h

/-- Information about other entries does not change. -/
theorem info_other {ents : Nat → Option (Ent K)} {L L' : List (Frame K)} {e i : Nat} (o : Option (Ent K)) (hi : i ≠ e)
    (h : tot (pendF i) L' = tot (pendF i) L) : info (setEnt ents e o) L' i = info ents L i := by
  simp only [info, setEnt_ne _ _ hi, h]

/-- Values of other entries do not change. -/
theorem absV_set {ents : Nat → Option (Ent K)} {L L' : List (Frame K)} {e : Nat} {o : Option (Ent K)} {v : Option (Val K)}
    (h : ∀ i, i ≠ e → tot (pendF i) L' = tot (pendF i) L) (hv : absV (info (setEnt ents e o) L') e = v) :
    absV (info (setEnt ents e o) L') = setVal (absV (info ents L)) e v := by
  funext i
  unfold setVal
  by_cases hi : i = e
  · subst hi
    rw [if_pos rfl, hv]
  · rw [if_neg hi]
    unfold absV
    rw [info_other o hi (h i hi)]

theorem absV_keep {ents : Nat → Option (Ent K)} {L L' : List (Frame K)} {e : Nat} {o : Option (Ent K)}
    (h : ∀ i, i ≠ e → tot (pendF i) L' = tot (pendF i) L)
    (hv : absV (info (setEnt ents e o) L') e = absV (info ents L) e) :
    absV (info (setEnt ents e o) L') = absV (info ents L) := by
  rw [absV_set h hv]
  funext i
  unfold setVal
  split
  · rename_i hi; rw [hi]
  · rfl

/-- A flyweight type's mutex is held: a value found is live. -/
theorem found_live {s : St K} (h : Inv cfg s) {t : Nat} {f : Frame K} {rest : List (Frame K)}
    (ht : s.thr[t]? = some (f :: rest)) {e : Nat} {x : Ent K} (hx : s.ents e = some x) (hc : x.cted = true)
    (hh : holds f = some x.core) (hcl : claimF e f = 0) : 0 < x.ref ∨ 0 < tot (pendF e) (frames s) := by
  have hcore := h.core' ht
  have hnn := hcore.ref_nonneg e
  simp only [refOf, hx] at hnn
  by_cases hr : 0 < x.ref
  · exact Or.inl hr
  refine Or.inr ?_
  obtain ⟨g, hg, h1⟩ := exists_of_tot (hcore.claim e x hx (by omega))
  rcases List.mem_cons.1 hg with rfl | hg
  · omega
  · rcases Nat.eq_zero_or_pos (pendF e g) with h2 | h2
    · have := claim_zero (hcore.frames g (List.mem_cons_of_mem _ hg)) (stat_some hx)
        (h.excl ht g hg x.core hh) (fun _ => h2) (fun h3 => by rw [hc] at h3; cases h3)
      omega
    · rw [tot_perm (frames_cons ht), tot_cons]
      have := tot_le (g := pendF e) hg
      omega

theorem lib_sim (hcfg : CfgOk cfg) (hlk : cfg.locking = true) (hdl : cfg.deleter = true) {s s' : St K} (h : Inv cfg s)
    (hF : Fit s) {t : Nat} {f : Frame K} {rest : List (Frame K)} (ht : s.thr[t]? = some (f :: rest))
    (hs : lib cfg s t f rest = .ok s') :
    Fit s' ∧ (abs s' = abs s ∨ Atomic.Step cfg.eqv (abs s) t .run (abs s')) := by
  have hgood := lib_good hcfg hlk hdl h ht
  rw [hs] at hgood
  replace hgood : Inv cfg s' := hgood
  have hmem : f ∈ frames s := List.mem_flatten.2 ⟨_, List.mem_of_getElem? ht, List.mem_cons_self⟩
  have hfr := h.core.frames f hmem
  have hfit := hF f hmem
  have htop := abs_top ht
  have hself := go_self ht
  have hr : ∀ g ∈ rest, g ∈ f :: rest := fun g hg => List.mem_cons_of_mem _ hg
  have hcore := h.core' ht
  have hex := h.excl ht
  have hp := frames_cons ht
  have hinfo : info s.ents (frames s) = info s.ents (f :: (s.thr.set t rest).flatten) := info_perm hp
  rw [absS_cons] at htop hself
  -- silent steps in which the entries do not change
  have silent : ∀ (new : List (Frame K)) (lock : Nat → Option (Nat × Nat)),
      (∀ e, tot (pendF e) new = pendF e f) → (∀ g ∈ new, FitF (info s.ents (frames s)) g) →
      absS (info s.ents (frames s)) new = absF (info s.ents (frames s)) f →
      s' = ⟨s.ents, s.next, lock, s.thr.set t (new ++ rest), s.objs, s.clock⟩ → Fit s' ∧ abs s' = abs s := by
    rintro new lock h1 h2 h3 rfl
    have hq := quiet (next := s.next) (clock := s.clock) (objs := s.objs) (lock := lock) (new := new) (ents := s.ents)
      hF ht hr (by rw [hinfo]; funext e; exact info_frames (by simp [h1])) h2
    rw [h3, hself] at hq
    exact hq
  unfold lib at hs
  dsimp only at hs
  cases f with
  | insLock c k loc pre =>
    dsimp only at hs
    cases ha : acquire cfg s.lock t c with
    | none => rw [ha] at hs; cases hs
    | some l =>
      rw [ha] at hs
      injection hs with hs
      obtain ⟨h1, h2⟩ := silent [.insFind c k loc pre] l (by simp [pendF]) (by simp [FitF]) (by simp [absF]) hs.symm
      exact ⟨h1, Or.inl h2⟩
  | insFind c k loc pre =>
    dsimp only at hs
    cases hfi : find cfg s c k with
    | some e =>
      rw [hfi] at hs
      injection hs with hs
      obtain ⟨x, hx, hxc, hxk⟩ := find_some hfi
      obtain ⟨h1, h2⟩ := silent [.insVisit c k e loc false] s.lock (by simp [pendF]) (by
        intro g hg
        rw [List.mem_singleton.1 hg]
        refine ⟨_, info_some hx, ?_⟩
        intro hc
        exact live_iff.2 ⟨hc, found_live h ht hx hc (by rw [hxc]; rfl) rfl⟩) (by simp [absF]) hs.symm
      exact ⟨h1, Or.inl h2⟩
    | none =>
      rw [hfi] at hs
      injection hs with hs
      have hno := find_none h.core.bound hfi
      have hnx : s.ents s.next = none := h.core.bound _ (Nat.le_refl _)
      have hst : stat s.ents s.next = none := by simp [stat, hnx]
      have hpe : tot (pendF s.next) (s.thr.set t rest).flatten = 0 :=
        pend_uncted (fun g hg => hcore.frames g (List.mem_cons_of_mem _ hg)) (by rw [hst]; simp)
      have hpd : ∀ i, i ≠ s.next → tot (pendF i) ([.insVisit c k s.next [] true] ++ (s.thr.set t rest).flatten) =
          tot (pendF i) (Frame.insFind c k loc pre :: (s.thr.set t rest).flatten) := by
        intro i _; simp [pendF]
      have hI' := info_some (L := [.insVisit c k s.next [] true] ++ (s.thr.set t rest).flatten)
        (setEnt_same s.ents s.next (some ⟨c, k, pre, loc, 0, 0, s.clock⟩))
      have hq := abs_step (next := s.next + 1) (clock := if pre then s.clock + 1 else s.clock) (objs := s.objs) (lock := s.lock)
        (new := [.insVisit c k s.next [] true]) (ents := setEnt s.ents s.next (some ⟨c, k, pre, loc, 0, 0, s.clock⟩))
        hF ht hr (by
          intro g hg i hcl
          rw [hinfo]
          refine info_other _ ?_ (by simp [pendF])
          rintro rfl
          rw [claim_absent (hcore.frames g (List.mem_cons_of_mem _ hg)) hst] at hcl
          cases hcl) (by
          intro g hg
          rw [List.mem_singleton.1 hg]
          exact ⟨_, hI', rfl, by simp [hpe, pendF]⟩)
      have hv : absV (info (setEnt s.ents s.next (some ⟨c, k, pre, loc, 0, 0, s.clock⟩))
          ([.insVisit c k s.next [] true] ++ (s.thr.set t rest).flatten)) = (abs s).vals := by
        show _ = absV (info s.ents (frames s))
        rw [hinfo]
        refine absV_keep hpd ?_
        rw [absV_dead, absV_dead]
        · intro x hx; rw [hnx] at hx; cases hx
        · intro x hx
          rw [setEnt_same] at hx
          cases hx
          intro _
          exact ⟨by simp, by simp [hpe, pendF]⟩
      rw [hv] at hq
      rw [← hs]
      refine ⟨hq.1, Or.inr ?_⟩
      refine hq.2.symm ▸ ?_
      have hfree : (abs s).Free cfg.eqv c k := by
        intro e v hv hc
        obtain ⟨x, hx, _, _, rfl⟩ := of_absV hv
        exact hno e x hx hc
      simp only [absS_cons, absS_nil, List.append_nil, absF, hI', if_true]
      cases pre with
      | true => exact .keep htop hfree
      | false => exact .start htop hfree
  | insVisit c k e loc new =>
    dsimp only at hs
    obtain ⟨⟨k', b, hst, hk⟩, hloc, hnew⟩ := hfr
    obtain ⟨x, hx, e1, e2, e3⟩ := of_stat hst
    rw [hx] at hs
    dsimp only at hs
    obtain ⟨i, hi, hfit⟩ := hfit
    obtain ⟨y, hy, rfl⟩ := of_info hi
    rw [hx] at hy
    cases hy
    split at hs
    · rename_i hc
      injection hs with hs
      obtain ⟨h1, h2⟩ := silent [.insAddRef c k e loc] s.lock (by simp [pendF]) (by
        intro g hg
        rw [List.mem_singleton.1 hg]
        refine ⟨_, hi, ?_⟩
        cases new with
        | true =>
          rw [if_pos rfl] at hfit
          exact Or.inr ⟨hfit.1, hnew rfl⟩
        | false => exact Or.inl (hfit hc)) (by
        cases new with
        | true =>
          rw [if_pos rfl] at hfit
          have h2 : (x.cted && (decide (0 < x.ref) || decide (0 < tot (pendF e) (frames s)))) = false := hfit.2
          simp only [absS_cons, absS_nil, List.append_nil, absF, hi, h2, if_true]
          simp [hc]
        | false =>
          simp only [absS_cons, absS_nil, List.append_nil, absF, hi]
          rw [if_pos (hfit hc)]
          rfl) hs.symm
      exact ⟨h1, Or.inl h2⟩
    · rename_i hc
      split at hs
      · rename_i hn
        subst hn
        injection hs with hs
        rw [if_pos rfl] at hfit
        obtain ⟨h1, h2⟩ := silent [.insUser c k e] s.lock (by simp [pendF]) (by
          intro g hg
          rw [List.mem_singleton.1 hg]
          exact ⟨_, hi, hfit.1⟩) (by
          simp [absF, hi, kidsI, hc]) hs.symm
        exact ⟨h1, Or.inl h2⟩
      · cases hs
  | insUser c k e => cases hs
  | insDone c k e =>
    obtain ⟨k', hst, hk⟩ := hfr
    obtain ⟨x, hx, e1, e2, e3⟩ := of_stat hst
    dsimp only at hs
    rw [hx] at hs
    injection hs with hs
    obtain ⟨i, hi, hfit⟩ := hfit
    obtain ⟨y, hy, rfl⟩ := of_info hi
    rw [hx] at hy
    cases hy
    have hpe : tot (pendF e) (s.thr.set t rest).flatten = 0 :=
      pend_uncted (fun g hg => hcore.frames g (List.mem_cons_of_mem _ hg)) (by rw [hst]; simp)
    have h0 := hcore.ref_uncted (e := e) fun c' k'' => by rw [hst]; simp
    have hx0 : x.ref = 0 := by
      have := hcore.refs e
      rw [h0.1, h0.2.1, h0.2.2] at this
      simpa [refOf, hx] using this
    have hI' := info_some (L := [.insAddRef c k e []] ++ (s.thr.set t rest).flatten)
      (setEnt_same s.ents e (some { x with cted := true, stamp := s.clock }))
    have hq := abs_step (next := s.next) (clock := s.clock + 1) (objs := s.objs) (lock := s.lock)
      (new := [.insAddRef c k e []]) (ents := setEnt s.ents e (some { x with cted := true, stamp := s.clock }))
      hF ht hr (by
        intro g hg i hcl
        rw [hinfo]
        refine info_other _ ?_ (by simp [pendF])
        rintro rfl
        have ho := hcore.own i
        simp only [tot_cons, ownF, if_true] at ho
        have := tot_le (g := ownF i) hg
        have hz := claim_zero (hcore.frames g (List.mem_cons_of_mem _ hg)) hst (hex g hg c rfl) (fun h => by cases h)
          (fun _ => by omega)
        omega) (by
        intro g hg
        rw [List.mem_singleton.1 hg]
        exact ⟨_, hI', Or.inr ⟨hfit, rfl⟩⟩)
    have hv : absV (info (setEnt s.ents e (some { x with cted := true, stamp := s.clock }))
        ([.insAddRef c k e []] ++ (s.thr.set t rest).flatten)) = (abs s).vals := by
      show _ = absV (info s.ents (frames s))
      rw [hinfo]
      refine absV_keep (fun i _ => by simp [pendF]) ?_
      rw [absV_dead, absV_dead]
      · intro y hy hc
        rw [hx] at hy
        cases hy
        rw [e3] at hc
        cases hc
      · intro y hy
        rw [setEnt_same] at hy
        cases hy
        intro _
        exact ⟨by simp [hx0], by simp [hpe, pendF]⟩
    rw [hv] at hq
    rw [← hs]
    refine ⟨hq.1, Or.inl ?_⟩
    refine hq.2.trans (Eq.trans ?_ hself)
    have hd : (true && (decide (0 < x.ref) ||
        decide (0 < tot (pendF e) ([.insAddRef c k e []] ++ (s.thr.set t rest).flatten)))) = false := by
      simp [hx0, hpe, pendF]
    simp only [absS_cons, absS_nil, absF, hI', kidsI_some hx, hd, List.append_nil]
    rfl
  | insCatch c e =>
    obtain ⟨k', hst⟩ := hfr
    obtain ⟨x, hx, e1, e2, e3⟩ := of_stat hst
    dsimp only at hs
    rw [hx] at hs
    injection hs with hs
    rw [show x.kids.map Frame.relDec ++ .insUnwind c [] :: rest = (x.kids.map .relDec ++ [.insUnwind c []]) ++ rest by simp] at hs
    have hq := abs_step (next := s.next) (clock := s.clock) (objs := s.objs) (lock := s.lock)
      (new := x.kids.map .relDec ++ [.insUnwind c []]) (ents := setEnt s.ents e none)
      hF ht hr (by
        intro g hg i hcl
        rw [hinfo]
        refine info_other _ ?_ (by simp [pendF])
        rintro rfl
        have ho := hcore.own i
        simp only [tot_cons, ownF, if_true] at ho
        have := tot_le (g := ownF i) hg
        have hz := claim_zero (hcore.frames g (List.mem_cons_of_mem _ hg)) hst (hex g hg c rfl) (fun h => by cases h)
          (fun _ => by omega)
        omega) (by
        intro g hg
        rcases List.mem_append.1 hg with hg | hg
        · obtain ⟨w, _, rfl⟩ := List.mem_map.1 hg
          trivial
        · rw [List.mem_singleton.1 hg]
          trivial)
    have hv : absV (info (setEnt s.ents e none)
        (x.kids.map .relDec ++ [.insUnwind c []] ++ (s.thr.set t rest).flatten)) = (abs s).vals := by
      show _ = absV (info s.ents (frames s))
      rw [hinfo]
      refine absV_keep (fun i _ => by simp [pendF]) ?_
      rw [absV_dead, absV_dead]
      · intro y hy hc
        rw [hx] at hy
        cases hy
        rw [e3] at hc
        cases hc
      · intro y hy
        rw [setEnt_same] at hy
        cases hy
    rw [hv] at hq
    rw [← hs]
    refine ⟨hq.1, Or.inl ?_⟩
    refine hq.2.trans (Eq.trans ?_ hself)
    simp only [absS_append, absS_relDec, absS_cons, absS_nil, absF, kidsI_some hx, drops_nil, List.append_nil]
    rfl
  | insUnwind c loc =>
    dsimp only at hs
    cases ha : unlock cfg s.lock t c with
    | none => rw [ha] at hs; cases hs
    | some l =>
      rw [ha] at hs
      injection hs with hs
      obtain ⟨h1, h2⟩ := silent (loc.map .relDec) l (by simp [pendF]) (by
        intro g hg
        obtain ⟨w, _, rfl⟩ := List.mem_map.1 hg
        trivial) (by simp [absF]) hs.symm
      exact ⟨h1, Or.inl h2⟩
  | insAddRef c k e loc =>
    obtain ⟨⟨k', hst, hk⟩, hloc⟩ := hfr
    replace hst : stat s.ents e = some (c, k', true) := hst
    replace hk : cfg.eqv c k' k = true := hk
    obtain ⟨x, hx, e1, e2, e3⟩ := of_stat hst
    dsimp only at hs
    rw [hx] at hs
    injection hs with hs
    obtain ⟨i, hi, hfit⟩ := hfit
    obtain ⟨y, hy, rfl⟩ := of_info hi
    rw [hx] at hy
    cases hy
    have hnn : 0 ≤ x.ref := by
      have := h.core.ref_nonneg e
      simpa [refOf, hx] using this
    have hfn : ∀ g ∈ [if x.ref + 1 = 1 then Frame.insAddDel c k e loc else .insUnlock c k e loc],
        ∀ I : Nat → Option (Info K), FitF I g ∧ absF I g = [.made ⟨e, c, k⟩ loc] := by
      intro g hg I
      rw [List.mem_singleton.1 hg]
      split <;> exact ⟨trivial, rfl⟩
    have hpn : ∀ i, tot (pendF i) ([if x.ref + 1 = 1 then Frame.insAddDel c k e loc else .insUnlock c k e loc] ++
        (s.thr.set t rest).flatten) = tot (pendF i) (Frame.insAddRef c k e loc :: (s.thr.set t rest).flatten) := by
      intro i
      split <;> simp [pendF]
    have habs : ∀ I : Nat → Option (Info K), absS I [if x.ref + 1 = 1 then Frame.insAddDel c k e loc else .insUnlock c k e loc] =
        [.made ⟨e, c, k⟩ loc] := by
      intro I
      rw [absS_cons, (hfn _ (List.mem_singleton.2 rfl) I).2]
      rfl
    by_cases hl : 0 < x.ref ∨ 0 < tot (pendF e) (frames s)
    · have hq := quiet (next := s.next) (clock := s.clock) (objs := s.objs) (lock := s.lock)
        (new := [if x.ref + 1 = 1 then .insAddDel c k e loc else .insUnlock c k e loc])
        (ents := setEnt s.ents e (some { x with ref := x.ref + 1 })) hF ht hr (by
          rw [hinfo]
          refine info_count hx rfl (fun i _ => hpn i) fun _ => ?_
          rw [hpn e, ← tot_perm hp]
          refine iff_of_true (Or.inl ?_) hl
          show 0 < x.ref + 1
          omega) (fun g hg => (hfn g hg _).1)
      rw [habs] at hq
      rw [← hs]
      refine ⟨hq.1, Or.inr ?_⟩
      refine hq.2.symm ▸ ?_
      have hlv : absF (info s.ents (frames s)) (.insAddRef c k e loc) = [.create c k loc] := by
        simp only [absF, hi]
        rw [if_pos (live_iff.2 ⟨e3, hl⟩)]
      rw [hlv] at htop
      exact .share htop (absV_some hx e3 hl) e1 (e2 ▸ hk)
    · have hlf : (x.cted && (decide (0 < x.ref) || decide (0 < tot (pendF e) (frames s)))) = false := by
        rw [Bool.eq_false_iff]
        intro h1
        exact hl (live_iff.1 h1).2
      rcases hfit with hfit | ⟨hkk, hll⟩
      · rw [hlf] at hfit
        cases hfit
      have hkk : x.key = k := hkk
      subst hll
      have hx0 : x.ref = 0 := by omega
      have hpe : tot (pendF e) (frames s) = 0 := by omega
      have hpe' := hpe
      rw [tot_perm hp, tot_cons] at hpe'
      have hq := abs_step (next := s.next) (clock := s.clock) (objs := s.objs) (lock := s.lock)
        (new := [if x.ref + 1 = 1 then .insAddDel c k e [] else .insUnlock c k e []])
        (ents := setEnt s.ents e (some { x with ref := x.ref + 1 })) hF ht hr (by
          intro g hg i hcl
          rw [hinfo]
          refine info_other _ ?_ (hpn i)
          rintro rfl
          have := tot_le (g := pendF i) hg
          have hz := claim_zero (hcore.frames g (List.mem_cons_of_mem _ hg)) hst (hex g hg c rfl) (fun _ => by omega)
            (fun h => by cases h)
          omega) (fun g hg => (hfn g hg _).1)
      rw [habs] at hq
      have hv : absV (info (setEnt s.ents e (some { x with ref := x.ref + 1 }))
          ([if x.ref + 1 = 1 then .insAddDel c k e [] else .insUnlock c k e []] ++ (s.thr.set t rest).flatten)) =
          setVal (abs s).vals e (some ⟨c, k, x.kids⟩) := by
        show _ = setVal (absV (info s.ents (frames s))) e _
        rw [hinfo]
        refine absV_set (fun i _ => hpn i) ?_
        rw [absV_some (x := { x with ref := x.ref + 1 }) (setEnt_same _ _ _) e3 (Or.inl (by show 0 < x.ref + 1; omega))]
        simp only [e1, hkk]
      rw [hv] at hq
      rw [← hs]
      refine ⟨hq.1, Or.inr ?_⟩
      refine hq.2.symm ▸ ?_
      have hlv : absF (info s.ents (frames s)) (.insAddRef c k e []) = [.built c k x.kids] := by
        simp only [absF, hi]
        rw [if_neg (by rw [hlf]; simp)]
      rw [hlv] at htop
      refine .store (h := e) htop ?_ ?_ ?_
      · intro j v hv hc
        obtain ⟨y, hy, hyc, hyl, rfl⟩ := of_absV hv
        rw [Bool.eq_false_iff]
        intro heq
        have : y.core = x.core := by rw [e1]; exact hc
        have hje := h.core.uniq j e y x hy hx this (by rw [this, e1, hkk]; exact heq)
        subst hje
        rw [hx] at hy
        cases hy
        exact hl hyl
      · show absV (info s.ents (frames s)) e = none
        refine absV_dead fun y hy _ => ?_
        rw [hx] at hy
        cases hy
        omega
      · rw [refs_iff h hF]
        simp only [refOf, hx]
        omega
  | insAddDel c k e loc =>
    obtain ⟨⟨k', hst, hk⟩, hloc⟩ := hfr
    replace hst : stat s.ents e = some (c, k', true) := hst
    replace hk : cfg.eqv c k' k = true := hk
    obtain ⟨x, hx, e1, e2, e3⟩ := of_stat hst
    dsimp only at hs
    rw [hx] at hs
    injection hs with hs
    have hq := quiet (next := s.next) (clock := s.clock) (objs := s.objs) (lock := s.lock)
      (new := [.insUnlock c k e loc]) (ents := setEnt s.ents e (some { x with del := x.del + 1 })) hF ht hr (by
        rw [hinfo]
        exact info_count hx rfl (fun i _ => by simp [pendF]) fun _ => by simp [pendF]) (by simp [FitF])
    rw [← hs]
    refine ⟨hq.1, Or.inl ?_⟩
    refine hq.2.trans (Eq.trans ?_ hself)
    simp [absF]
  | insUnlock c k e loc =>
    dsimp only at hs
    cases ha : unlock cfg s.lock t c with
    | none => rw [ha] at hs; cases hs
    | some l =>
      rw [ha] at hs
      injection hs with hs
      have hq := quiet (next := s.next) (clock := s.clock) (objs := ⟨e, c, k⟩ :: s.objs) (lock := l)
        (new := loc.map .relDec) (ents := s.ents) hF ht hr (by
          rw [hinfo]
          funext i
          exact info_frames (by simp [pendF])) (by
          intro g hg
          obtain ⟨w, _, rfl⟩ := List.mem_map.1 hg
          trivial)
      rw [absS_relDec] at hq
      rw [← hs]
      refine ⟨hq.1, Or.inr ?_⟩
      refine hq.2.symm ▸ ?_
      exact .ret htop
  | relDec w =>
    obtain ⟨k', hst, hk⟩ := hfr
    obtain ⟨x, hx, e1, e2, e3⟩ := of_stat hst
    dsimp only at hs
    rw [hx] at hs
    injection hs with hs
    rw [show (if x.ref - 1 = 0 then Frame.relLock w.c w.h :: rest else rest) =
      (if x.ref - 1 = 0 then [Frame.relLock w.c w.h] else []) ++ rest by split <;> simp] at hs
    have hpos : 0 < x.ref := by
      have := hcore.refs w.h
      simp only [refOf, hx, tot_cons, refF, if_true] at this
      omega
    have hq := quiet (next := s.next) (clock := s.clock) (objs := s.objs) (lock := s.lock)
      (new := if x.ref - 1 = 0 then [Frame.relLock w.c w.h] else [])
      (ents := setEnt s.ents w.h (some { x with ref := x.ref - 1 })) hF ht hr (by
        rw [hinfo]
        refine info_count hx rfl (fun i hi => by split <;> simp [pendF, Ne.symm hi]) fun _ => ?_
        refine iff_of_true ?_ (Or.inl hpos)
        dsimp only
        split
        · refine Or.inr ?_
          simp [pendF]
          omega
        · exact Or.inl (by omega)) (by
        intro g hg
        split at hg
        · rw [List.mem_singleton.1 hg]; trivial
        · cases hg)
    have hs2 := hs
    rw [← hs]
    refine ⟨hq.1, ?_⟩
    split at hq
    · rename_i h0
      refine Or.inl ?_
      rw [if_pos h0]
      refine hq.2.trans (Eq.trans ?_ hself)
      simp [absF]
    · rename_i h0
      refine Or.inr ?_
      rw [if_neg h0]
      have h2 := hq.2
      simp only [absS_nil, List.nil_append] at h2
      have h3 : abs s' = (abs s).go t (absS (info s.ents (frames s)) rest) := by
        rw [← hs2, if_neg h0]
        exact h2
      refine h2.symm ▸ ?_
      refine .drop htop ?_
      rw [← h3]
      have hF' : Fit s' := by
        rw [← hs2, if_neg h0]
        exact hq.1
      rw [refs_iff hgood hF', ← hs2]
      left
      simp only [refOf, setEnt_same]
      omega
  | relLock c e =>
    dsimp only at hs
    cases ha : acquire cfg s.lock t c with
    | none => rw [ha] at hs; cases hs
    | some l =>
      rw [ha] at hs
      injection hs with hs
      obtain ⟨h1, h2⟩ := silent [.relCheck c e] l (by simp [pendF]) (by simp [FitF]) (by simp [absF]) hs.symm
      exact ⟨h1, Or.inl h2⟩
  | relCheck c e =>
    obtain ⟨k', hst⟩ := hfr
    obtain ⟨x, hx, e1, e2, e3⟩ := of_stat hst
    dsimp only at hs
    rw [hx] at hs
    dsimp only at hs
    rw [if_pos hdl] at hs
    injection hs with hs
    have hadd : tot (addF e) (s.thr.set t rest).flatten = 0 := by
      refine tot_eq_zero fun g hg => ?_
      cases g with
      | insAddDel c' k'' i loc =>
        by_cases hi : i = e
        · subst hi
          obtain ⟨⟨k3, h1, _⟩, _⟩ := hcore.frames _ (List.mem_cons_of_mem _ hg)
          rw [hst] at h1
          cases h1
          cases hex _ hg _ rfl rfl
        · simp [addF, hi]
      | _ => rfl
    have hdels := hcore.dels e x hx
    have hnn := hcore.ref_nonneg e
    simp only [refOf, hx] at hnn
    simp only [tot_cons, addF, pendF, if_true, hadd] at hdels
    have hlive : 0 < tot (pendF e) (frames s) := by
      rw [tot_perm hp]
      simp [pendF]
      omega
    by_cases h0 : x.del - 1 = 0
    · rw [if_pos h0] at hs
      have hx0 : x.ref = 0 := by
        split at hdels <;> omega
      have hpe : tot (pendF e) (s.thr.set t rest).flatten = 0 := by omega
      have hq := abs_step (next := s.next) (clock := s.clock) (objs := s.objs) (lock := s.lock)
        (new := [.relErase c e]) (ents := setEnt s.ents e (some { x with del := x.del - 1 })) hF ht hr (by
          intro g hg i hcl
          rw [hinfo]
          have hne : i ≠ e := by
            rintro rfl
            have := tot_le (g := pendF i) hg
            have hz := claim_zero (hcore.frames g (List.mem_cons_of_mem _ hg)) hst (hex g hg c rfl) (fun _ => by omega)
              (fun h => by cases h)
            omega
          exact info_other _ hne (by simp [pendF, Ne.symm hne])) (by simp [FitF])
      have hv : absV (info (setEnt s.ents e (some { x with del := x.del - 1 }))
          ([.relErase c e] ++ (s.thr.set t rest).flatten)) = setVal (abs s).vals e none := by
        show _ = setVal (absV (info s.ents (frames s))) e _
        rw [hinfo]
        refine absV_set (fun i hi => by simp [pendF, Ne.symm hi]) ?_
        refine absV_dead fun y hy _ => ?_
        rw [setEnt_same] at hy
        cases hy
        exact ⟨by simp [hx0], by simp [pendF, hpe]⟩
      rw [hv] at hq
      have hks : absS (info (setEnt s.ents e (some { x with del := x.del - 1 }))
          ([.relErase c e] ++ (s.thr.set t rest).flatten)) [.relErase c e] = drops x.kids := by
        simp only [absS_cons, absS_nil, List.append_nil, absF]
        rw [kidsI_some (setEnt_same _ _ _)]
      rw [hks] at hq
      have hs2 := hs
      rw [← hs]
      refine ⟨hq.1, Or.inr ?_⟩
      have hFs : Fit s' := by
        rw [← hs2]
        exact hq.1
      have habs := hq.2
      rw [show (⟨setEnt s.ents e (some { x with del := x.del - 1 }), s.next, s.lock,
          s.thr.set t ([.relErase c e] ++ rest), s.objs, s.clock⟩ : St K) = s' from hs2] at habs
      refine hq.2.symm ▸ ?_
      have hval : (abs s).vals e = some ⟨x.core, x.key, x.kids⟩ := absV_some hx e3 (Or.inr hlive)
      refine .last (v := ⟨x.core, x.key, x.kids⟩) htop ?_ hval
      intro href
      have hlt : t < (abs s).thr.length := (List.getElem?_eq_some_iff.1 htop).1
      have : (abs s').Referenced e := by
        rw [habs]
        rcases href with ⟨w, hw, he⟩ | ⟨i, v, hvi, w, hw, he⟩ | ⟨st, h1, f, h2, h3⟩
        · exact Or.inl ⟨w, hw, he⟩
        · replace hvi : (abs s).vals i = some v := hvi
          by_cases hi : i = e
          · subst hi
            rw [hval] at hvi
            cases hvi
            refine Or.inr (Or.inr ⟨_, List.mem_of_getElem? (List.getElem?_set_self hlt), .destroy w.h, ?_, by simp [Call.refs, he]⟩)
            exact List.mem_append_left _ (List.mem_map.2 ⟨w, hw, rfl⟩)
          · exact Or.inr (Or.inl ⟨i, v, by simp only [setVal, if_neg hi]; exact hvi, w, hw, he⟩)
        · refine Or.inr (Or.inr ?_)
          obtain ⟨j, hj⟩ := List.mem_iff_getElem?.1 h1
          by_cases hjt : j = t
          · subst hjt
            have hj : ((abs s).thr.set j _)[j]? = some st := hj
            rw [List.getElem?_set_self hlt] at hj
            cases hj
            exact ⟨_, List.mem_of_getElem? (List.getElem?_set_self hlt), f, List.mem_append_right _ h2, h3⟩
          · have hj : ((abs s).thr.set t _)[j]? = some st := hj
            rw [List.getElem?_set_ne (Ne.symm hjt)] at hj
            exact ⟨st, List.mem_of_getElem? ((List.getElem?_set_ne (Ne.symm hjt)).trans hj), f, h2, h3⟩
      rw [refs_iff hgood hFs] at this
      rw [← hs2] at this
      simp only [refOf, setEnt_same] at this
      have hfr' : tot (pendF e) (frames (⟨setEnt s.ents e (some { x with del := x.del - 1 }), s.next, s.lock,
          s.thr.set t ([.relErase c e] ++ rest), s.objs, s.clock⟩ : St K)) = 0 := by
        show tot (pendF e) (s.thr.set t ([.relErase c e] ++ rest)).flatten = 0
        rw [tot_perm (frames_perm ht _ _)]
        simp [pendF, hpe]
      rcases this with h1 | h1
      · omega
      · have h1 : 0 < tot (pendF e) (frames (⟨setEnt s.ents e (some { x with del := x.del - 1 }), s.next, s.lock,
          s.thr.set t ([.relErase c e] ++ rest), s.objs, s.clock⟩ : St K)) := h1
        omega
    · rw [if_neg h0] at hs
      have hl : 0 < x.ref ∨ 0 < tot (pendF e) (s.thr.set t rest).flatten := by
        split at hdels
        · exact Or.inl (by assumption)
        · exact Or.inr (by omega)
      have hq := quiet (next := s.next) (clock := s.clock) (objs := s.objs) (lock := s.lock)
        (new := [.relUnlock c]) (ents := setEnt s.ents e (some { x with del := x.del - 1 })) hF ht hr (by
          rw [hinfo]
          refine info_count hx rfl (fun i hi => by simp [pendF, Ne.symm hi]) fun _ => ?_
          rw [← tot_perm hp]
          refine iff_of_true ?_ (Or.inr hlive)
          simpa [pendF] using hl) (by simp [FitF])
      have hs2 := hs
      rw [← hs]
      refine ⟨hq.1, Or.inr ?_⟩
      have h2 := hq.2
      simp only [absS_cons, absS_nil, absF, List.nil_append] at h2
      have h3 : abs s' = (abs s).go t (absS (info s.ents (frames s)) rest) := by
        rw [← hs2]
        exact h2
      refine h2.symm ▸ ?_
      refine .drop htop ?_
      rw [← h3]
      have hFs : Fit s' := by
        rw [← hs2]
        exact hq.1
      rw [refs_iff hgood hFs, ← hs2]
      simp only [refOf, setEnt_same]
      refine hl.imp id fun h1 => ?_
      show 0 < tot (pendF e) (s.thr.set t ([.relUnlock c] ++ rest)).flatten
      rw [tot_perm (frames_perm ht _ _)]
      simpa [pendF] using h1
  | relErase c e =>
    obtain ⟨k', hst⟩ := hfr
    obtain ⟨x, hx, e1, e2, e3⟩ := of_stat hst
    dsimp only at hs
    rw [hx] at hs
    injection hs with hs
    rw [show x.kids.map Frame.relDec ++ .relUnlock c :: rest = (x.kids.map .relDec ++ [.relUnlock c]) ++ rest by simp] at hs
    obtain ⟨h1, h2⟩ := hcore.era c e List.mem_cons_self
    have hq := abs_step (next := s.next) (clock := s.clock) (objs := s.objs) (lock := s.lock)
      (new := x.kids.map .relDec ++ [.relUnlock c]) (ents := setEnt s.ents e none)
      hF ht hr (by
        intro g hg i hcl
        rw [hinfo]
        refine info_other _ ?_ (by simp [pendF])
        rintro rfl
        have := tot_le (g := pendF i) hg
        simp only [tot_cons] at h2
        have hz := claim_zero (hcore.frames g (List.mem_cons_of_mem _ hg)) hst (hex g hg c rfl) (fun _ => by omega)
          (fun h => by cases h)
        omega) (by
        intro g hg
        rcases List.mem_append.1 hg with hg | hg
        · obtain ⟨w, _, rfl⟩ := List.mem_map.1 hg
          trivial
        · rw [List.mem_singleton.1 hg]
          trivial)
    have hv : absV (info (setEnt s.ents e none)
        (x.kids.map .relDec ++ [.relUnlock c] ++ (s.thr.set t rest).flatten)) = (abs s).vals := by
      show _ = absV (info s.ents (frames s))
      rw [hinfo]
      refine absV_keep (fun i _ => by simp [pendF]) ?_
      rw [absV_dead, absV_dead]
      · intro y hy _
        rw [hx] at hy
        cases hy
        simp only [refOf, hx] at h1
        omega
      · intro y hy
        rw [setEnt_same] at hy
        cases hy
    rw [hv] at hq
    rw [← hs]
    refine ⟨hq.1, Or.inl ?_⟩
    refine hq.2.trans (Eq.trans ?_ hself)
    simp only [absS_append, absS_relDec, absS_cons, absS_nil, absF, kidsI_some hx, drops_nil, List.append_nil]
    rfl
  | relUnlock c =>
    dsimp only at hs
    cases ha : unlock cfg s.lock t c with
    | none => rw [ha] at hs; cases hs
    | some l =>
      rw [ha] at hs
      injection hs with hs
      obtain ⟨h1, h2⟩ := silent [] l (by simp [pendF]) (by simp) (by simp [absF]) hs.symm
      exact ⟨h1, Or.inl h2⟩

end Verif.Conc

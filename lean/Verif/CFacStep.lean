import Verif.CFacInv

/-!
# Invariant of the model of `concurrent_factory`: preservation
-/

set_option autoImplicit false

namespace Verif.CFac
open Verif.Conc (Fw Cfg CfgOk pick acquire unlock fwCount tot nsum fwCount_pos exists_of_fwCount tot_pos tot_le
  exists_of_tot tot_eq_zero tot_perm nsum_congr nsum_change nsum_pos exists_of_nsum pick_count pick_mem
  depthOf depth_excl LockStep acquire_some unlock_some fwCount_cons fwCount_nil fwCount_append tot_nil tot_cons
  tot_append split set_self swap_mem swap_count)
variable {K : Type} {cfg : Cfg K}

theorem setVis_same (f : Nat → Option Nat) (e : Nat) (x : Option Nat) : setVis f e x e = x := by simp [setVis]
theorem setVis_ne (f : Nat → Option Nat) {e i : Nat} (x : Option Nat) (h : i ≠ e) : setVis f e x i = f i := by
  simp [setVis, h]

/-- What changes of the accesses by thread `t` leave alone.  (No code of its own: used in
statements and proofs.) -/
structure VisStep (vis vis' : Nat → Option Nat) (t : Nat) : Prop where
  other : ∀ t' e, t' ≠ t → (vis' e = some t' ↔ vis e = some t')

theorem VisStep.refl {vis : Nat → Option Nat} {t : Nat} : VisStep vis vis t := ⟨fun _ _ _ => Iff.rfl⟩

theorem VisStep.take {vis : Nat → Option Nat} {t e : Nat} (h : vis e = none) : VisStep vis (setVis vis e (some t)) t := by
  refine ⟨fun t' i hne => ?_⟩
  by_cases hi : i = e
  · subst hi
    rw [setVis_same, h]
    simp [Ne.symm hne]
  · rw [setVis_ne _ _ hi]

theorem VisStep.drop {vis : Nat → Option Nat} {t e : Nat} (h : vis e = some t) : VisStep vis (setVis vis e none) t := by
  refine ⟨fun t' i hne => ?_⟩
  by_cases hi : i = e
  · subst hi
    rw [setVis_same, h]
    simp [Ne.symm hne]
  · rw [setVis_ne _ _ hi]

/-- General form of a step of thread `t`. -/
theorem Inv.step_of {s : St K} (h : Inv cfg s) {t : Nat} {st st' : List (Frame K)} (ht : s.thr[t]? = some st)
    {ents : Nat → Option (Ent K)} {next : Nat} {objs : List (Fw K)} {vis : Nat → Option Nat}
    {lock : Nat → Option (Nat × Nat)}
    (hc : ∀ AB, Core cfg s.ents s.next s.objs (st ++ AB) →
      (∀ f ∈ AB, ∀ e, 0 < tot (elemF e) st → elemOf f ≠ some e) → Core cfg ents next objs (st' ++ AB))
    (hv : VisStep s.vis vis t) (hve : ∀ e, tot (elemF e) st' = if vis e = some t then 1 else 0)
    (hl : LockStep s.lock lock t) (hd : cfg.locking = true → ∀ c, tot (holdF c) st' = depthOf lock t c) :
    Inv cfg ⟨ents, next, vis, lock, s.thr.set t st', objs⟩ := by
  obtain ⟨A, B, h1, h2, h3⟩ := split ht
  have hlt : t < s.thr.length := by
    rcases Nat.lt_or_ge t s.thr.length with h' | h'
    · exact h'
    · rw [List.getElem?_eq_none h'] at ht; cases ht
  have hp : ∀ st'' : List (Frame K), (A ++ st'' ++ B).Perm (st'' ++ (A ++ B)) := fun st'' => by
    rw [List.append_assoc]
    refine (List.perm_append_comm (l₁ := A) (l₂ := st'' ++ B)).trans ?_
    rw [List.append_assoc]
    exact (List.perm_append_comm).append_left st''
  constructor
  · show Core cfg ents next objs (s.thr.set t st').flatten
    rw [h2]
    refine (hc (A ++ B) ?_ ?_).perm (hp st').symm
    · have := h.core
      unfold frames at this
      rw [h1] at this
      exact this.perm (hp st)
    · intro f hf e hpos he
      obtain ⟨t', st'', h4, h5, h6⟩ := h3 f hf
      rw [h.locks.elem t st ht] at hpos
      have h7 := h.locks.elem t' st'' h5 e
      have h8 := tot_pos (g := elemF e) h6 (by simp [elemF, he])
      rw [h7] at h8
      have h9 : s.vis e = some t := by
        by_cases h : s.vis e = some t
        · exact h
        · simp [h] at hpos
      rw [h9] at h8
      simp [Ne.symm h4] at h8
  · constructor
    · intro t' st'' ht' e
      by_cases he : t' = t
      · subst he
        rw [List.getElem?_set_self hlt] at ht'
        cases ht'
        exact hve e
      · rw [List.getElem?_set_ne (Ne.symm he)] at ht'
        rw [h.locks.elem t' st'' ht' e]
        simp only [hv.other t' e he]
    · intro e t' he
      rw [List.length_set]
      by_cases hh : t' = t
      · rw [hh]; exact hlt
      · exact h.locks.owner e t' ((hv.other t' e hh).1 he)
    · intro hlk t' st'' ht' c
      by_cases he : t' = t
      · subst he
        rw [List.getElem?_set_self hlt] at ht'
        cases ht'
        exact hd hlk c
      · rw [List.getElem?_set_ne (Ne.symm he)] at ht'
        rw [h.locks.depth hlk t' st'' ht' c]
        exact (hl.other t' c he).symm
    · intro c o d ho
      obtain ⟨h4, h5⟩ := hl.pos c o d ho
      refine ⟨h4, ?_⟩
      rw [List.length_set]
      rcases h5 with rfl | ⟨d', h5⟩
      · exact hlt
      · exact (h.locks.pos c o d' h5).2

theorem Locks.pos1 {vis : Nat → Option Nat} {lock : Nat → Option (Nat × Nat)} {thr : List (List (Frame K))}
    (h : Locks cfg vis lock thr) : ∀ c o d, lock c = some (o, d) → 0 < d := fun c o d hl => (h.pos c o d hl).1

theorem Locks.refl {vis : Nat → Option Nat} {lock : Nat → Option (Nat × Nat)} {thr : List (List (Frame K))}
    (h : Locks cfg vis lock thr) {t : Nat} : LockStep lock lock t :=
  ⟨fun _ _ _ => rfl, fun c o d hl => ⟨(h.pos c o d hl).1, .inr ⟨d, hl⟩⟩⟩

/-- General form of a step of the library. -/
theorem Inv.lib_of {s : St K} (h : Inv cfg s) {t : Nat} {f : Frame K} {rest new : List (Frame K)}
    (ht : s.thr[t]? = some (f :: rest))
    {ents : Nat → Option (Ent K)} {next : Nat} {objs : List (Fw K)} {vis : Nat → Option Nat}
    {lock : Nat → Option (Nat × Nat)} (hv : VisStep s.vis vis t)
    (hve : ∀ e, tot (elemF e) new + (if s.vis e = some t then 1 else 0) =
      (if vis e = some t then 1 else 0) + elemF e f)
    (hl : LockStep s.lock lock t)
    (hd : cfg.locking = true → ∀ c, tot (holdF c) new + depthOf s.lock t c = depthOf lock t c + holdF c f)
    (hc : ∀ oth, Core cfg s.ents s.next s.objs (f :: oth) → (∀ g ∈ oth, ∀ e, elemOf f = some e → elemOf g ≠ some e) →
      Core cfg ents next objs (new ++ oth)) :
    Inv cfg ⟨ents, next, vis, lock, s.thr.set t (new ++ rest), objs⟩ := by
  refine h.step_of ht (fun AB hcore hex => ?_) hv ?_ hl ?_
  · rw [List.append_assoc]
    refine hc (rest ++ AB) hcore fun g hg e h1 h2 => ?_
    rcases List.mem_append.1 hg with h3 | h3
    · have h4 := h.locks.elem t _ ht e
      have h5 := tot_pos (g := elemF e) h3 (by simp [elemF, h2])
      simp only [tot_cons] at h4
      have h6 : elemF e f = 1 := by simp [elemF, h1]
      split at h4 <;> omega
    · exact hex g h3 e (by simp [elemF, h1]; omega) h2
  · intro e
    have h1 := h.locks.elem t _ ht e
    have h2 := hve e
    simp only [tot_cons, tot_append] at h1 ⊢
    omega
  · intro hlk c
    have h1 := h.locks.depth hlk t _ ht c
    have h2 := hd hlk c
    simp only [tot_cons, tot_append] at h1 ⊢
    omega

/-- Steps that touch neither mutexes nor accesses. -/
theorem Inv.lib_plain {s : St K} (h : Inv cfg s) {t : Nat} {f : Frame K} {rest new : List (Frame K)}
    (ht : s.thr[t]? = some (f :: rest)) {ents : Nat → Option (Ent K)} {next : Nat} {objs : List (Fw K)}
    (hve : ∀ e, tot (elemF e) new = elemF e f) (hd : ∀ c, tot (holdF c) new = holdF c f)
    (hc : ∀ oth, Core cfg s.ents s.next s.objs (f :: oth) → (∀ g ∈ oth, ∀ e, elemOf f = some e → elemOf g ≠ some e) →
      Core cfg ents next objs (new ++ oth)) :
    Inv cfg ⟨ents, next, s.vis, s.lock, s.thr.set t (new ++ rest), objs⟩ :=
  h.lib_of ht .refl (fun e => by rw [hve]; omega) h.locks.refl (fun _ c => by rw [hd]; omega) hc

theorem find_some {s : St K} {c : Nat} {k : K} {e : Nat} (h : find cfg s c k = some e) :
    ∃ x, s.ents e = some x ∧ x.core = c ∧ cfg.eqv c x.key k = true := by
  unfold find at h
  have := List.find?_some h
  cases hx : s.ents e with
  | none => simp [hx] at this
  | some x =>
    simp only [hx, Bool.and_eq_true, beq_iff_eq] at this
    exact ⟨x, rfl, this⟩

theorem find_none {s : St K} {c : Nat} {k : K} (hb : ∀ e, s.next ≤ e → s.ents e = none)
    (h : find cfg s c k = none) :
    ∀ e x, s.ents e = some x → x.core = c → cfg.eqv c x.key k = false := by
  intro e x hx hc
  unfold find at h
  rw [List.find?_eq_none] at h
  have hlt : e < s.next := by
    rcases Nat.lt_or_ge e s.next with h1 | h1
    · exact h1
    · rw [hb e h1] at hx; cases hx
  have := h e (List.mem_range.2 hlt)
  simpa [hx, hc] using this

theorem elemF_some {f : Frame K} {e : Nat} (h : elemOf f = some e) (i : Nat) : elemF i f = if e = i then 1 else 0 := by
  simp [elemF, h]

theorem FwOk.of_set {ents : Nat → Option (Ent K)} {e : Nat} {x x' : Ent K} (hx : ents e = some x) (h1 : x'.core = x.core)
    (h2 : x'.key = x.key) (h3 : x.cted = true → x'.cted = true) {w : Fw K} (hw : FwOk cfg ents w) :
    FwOk cfg (setEnt ents e (some x')) w := by
  refine hw.upd fun y hy => ?_
  by_cases he : w.h = e
  · rw [he] at hy ⊢
    rw [hx] at hy
    cases hy
    exact ⟨x', setEnt_same _ _ _, h1, h2, h3⟩
  · exact ⟨y, by rw [setEnt_ne _ _ he, hy], rfl, rfl, id⟩

/-- Steps that change the counts of one entry. -/
theorem Core.count {ents : Nat → Option (Ent K)} {next : Nat} {objs objs' : List (Fw K)} {old new oth : List (Frame K)}
    (h : Core cfg ents next objs (old ++ oth)) {e : Nat} {x : Ent K} (hx : ents e = some x) {r tr : Int}
    (hz : (x.ref = 0 → r = 0) ∨ ∀ f ∈ oth, elemOf f ≠ some e)
    (hnew : ∀ f ∈ new, FrameOk cfg (setEnt ents e (some { x with ref := r, tref := tr })) f)
    (ho : ∀ w ∈ objs', FwOk cfg ents w)
    (href : ∀ i, (if i = e then r - x.ref else 0) + fwCount i objs + tot (refF i) old =
      fwCount i objs' + tot (refF i) new) :
    Core cfg (setEnt ents e (some { x with ref := r, tref := tr })) next objs' (new ++ oth) := by
  refine h.change hx rfl rfl (fun _ h => h) ?_ hnew (fun w hw => (ho w hw).of_set hx (by rfl) (by rfl) (by exact id))
    (fun w hw => (h.kids e x hx w hw).of_set hx (by rfl) (by rfl) (by exact id)) fun i => ?_
  · rcases hz with h1 | h1
    · exact .inl ⟨rfl, rfl, h1⟩
    · exact .inr h1
  · have := href i
    dsimp only
    omega

theorem lib_good (hcfg : CfgOk cfg) {s : St K} (h : Inv cfg s)
    {t : Nat} {f : Frame K} {rest : List (Frame K)} (ht : s.thr[t]? = some (f :: rest)) :
    Good cfg (lib cfg s t f rest) := by
  have hmem : f ∈ frames s := List.mem_flatten.2 ⟨_, List.mem_of_getElem? ht, List.mem_cons_self⟩
  have hfr := h.core.frames f hmem
  have hvis : ∀ e, elemOf f = some e → s.vis e = some t := by
    intro e he
    have h1 := h.locks.elem t _ ht e
    rw [tot_cons, elemF_some he] at h1
    by_cases h2 : s.vis e = some t
    · exact h2
    · simp [h2] at h1
  have hacq : ∀ c l, acquire cfg s.lock t c = some l →
      LockStep s.lock l t ∧ (cfg.locking = true → ∀ c', depthOf l t c' = depthOf s.lock t c' + if c = c' then 1 else 0) := by
    intro c l ha
    by_cases hlk : cfg.locking = true
    · obtain ⟨h1, h2⟩ := acquire_some hlk h.locks.pos1 ha
      exact ⟨h1, fun _ => h2⟩
    · simp only [acquire, hlk] at ha
      cases ha
      exact ⟨h.locks.refl, fun h' => absurd h' hlk⟩
  have hunl : ∀ c, holds f = some c → ∃ l, unlock cfg s.lock t c = some l ∧ LockStep s.lock l t ∧
      (cfg.locking = true → ∀ c', depthOf l t c' + (if c = c' then 1 else 0) = depthOf s.lock t c') := by
    intro c hc
    by_cases hlk : cfg.locking = true
    · obtain ⟨l, h1, h2, h3⟩ := unlock_some hlk h.locks.pos1 (t := t) (c := c) (by
        rw [← h.locks.depth hlk t _ ht c]
        simp [holdF, hc]
        omega)
      exact ⟨l, h1, h2, fun _ => h3⟩
    · exact ⟨s.lock, by simp [unlock, hlk], h.locks.refl, fun h' => absurd h' hlk⟩
  have one : ∀ {g : Frame K} {P : Frame K → Prop}, P g → ∀ g' ∈ [g], P g' := by
    intro g P hg g' hg'
    rw [List.mem_singleton.1 hg']
    exact hg
  unfold lib
  dsimp only
  cases f with
  | insLock c k loc pre =>
    dsimp only
    cases ha : acquire cfg s.lock t c with
    | none => trivial
    | some l =>
      obtain ⟨h1, h2⟩ := hacq c l ha
      refine h.lib_of (new := [.insHash c k loc pre]) ht .refl (by simp [elemF, elemOf]) h1 ?_ fun oth hc hex => ?_
      · intro hlk c'
        rw [h2 hlk]
        simp [holdF, holds]
        omega
      · exact hc.same (old := [_]) (one hfr) hc.objsOk (by simp [refF])
  | insHash c k loc pre =>
    refine h.lib_plain (new := [.insFind c k loc pre]) ht (by simp [elemF, elemOf]) (by simp [holdF, holds])
      fun oth hc hex => ?_
    exact hc.same (old := [_]) (one hfr) hc.objsOk (by simp [refF])
  | insFind c k loc pre =>
    dsimp only
    split
    · trivial
    cases hfi : find cfg s c k with
    | some e =>
      obtain ⟨x, hx, hxc, hxk⟩ := find_some hfi
      dsimp only
      split
      · rename_i hv
        refine h.lib_of (new := [.insVisit c k e loc]) ht (.take hv) ?_ h.locks.refl ?_ fun oth hc hex => ?_
        · intro i
          by_cases hi : i = e
          · subst hi
            simp [elemF, elemOf, setVis_same, hv]
          · simp [elemF, elemOf, setVis_ne _ _ hi, Ne.symm hi]
        · intro _ c'; simp [holdF, holds]; omega
        · exact hc.same (old := [_]) (one ⟨⟨x, hx, hxc, hxk⟩, hfr⟩) hc.objsOk (by simp [refF])
      · trivial
    | none =>
      have hv : s.vis s.next = none := by
        cases hv : s.vis s.next with
        | none => rfl
        | some t' =>
          obtain ⟨st', hst'⟩ : ∃ st', s.thr[t']? = some st' := ⟨_, List.getElem?_eq_getElem (h.locks.owner _ _ hv)⟩
          have h1 := h.locks.elem t' st' hst' s.next
          rw [if_pos hv] at h1
          obtain ⟨g, hg, hpos⟩ := exists_of_tot (g := elemF s.next) (l := st') (by omega)
          have hge : elemOf g = some s.next := by
            by_cases h2 : elemOf g = some s.next
            · exact h2
            · simp [elemF, h2] at hpos
          have hgok := h.core.frames g (List.mem_flatten.2 ⟨_, List.mem_of_getElem? hst', hg⟩)
          have hn := h.core.bound s.next (Nat.le_refl _)
          cases g with
          | insVisit c' k' e' loc' => cases hge; obtain ⟨⟨x, hx, _⟩, _⟩ := hgok; rw [hn] at hx; cases hx
          | insUser c' k' e' loc' => cases hge; obtain ⟨⟨x, hx, _⟩, _⟩ := hgok; rw [hn] at hx; cases hx
          | insDone c' k' e' loc' => cases hge; obtain ⟨⟨x, hx, _⟩, _⟩ := hgok; rw [hn] at hx; cases hx
          | insAddRef c' k' e' loc' => cases hge; obtain ⟨⟨x, hx, _⟩, _⟩ := hgok; rw [hn] at hx; cases hx
          | insLeave c' k' e' loc' => cases hge; obtain ⟨⟨x, hx, _⟩, _⟩ := hgok; rw [hn] at hx; cases hx
          | insFail c' e' loc' => cases hge; obtain ⟨⟨x, hx, _⟩, _⟩ := hgok; rw [hn] at hx; cases hx
          | gcTest c' e' => cases hge; obtain ⟨x, hx, _⟩ := hgok; rw [hn] at hx; cases hx
          | gcErase c' e' => cases hge; obtain ⟨x, hx, _⟩ := hgok; rw [hn] at hx; cases hx
          | gcUnlink c' e' => cases hge; obtain ⟨x, hx, _⟩ := hgok; rw [hn] at hx; cases hx
          | gcLeave c' e' => cases hge; obtain ⟨x, hx, _⟩ := hgok; rw [hn] at hx; cases hx
          | _ => cases hge
      refine h.lib_of (new := [.insVisit c k s.next []]) ht (.take hv) ?_ h.locks.refl ?_ fun oth hc hex => ?_
      · intro i
        by_cases hi : i = s.next
        · subst hi
          simp [elemF, elemOf, setVis_same, hv]
        · simp [elemF, elemOf, setVis_ne _ _ hi, Ne.symm hi]
      · intro _ c'; simp [holdF, holds]; omega
      · exact hc.insert hcfg (find_none h.core.bound hfi)
  | insVisit c k e loc =>
    dsimp only
    obtain ⟨⟨x, hx, e1, e2⟩, hloc⟩ := hfr
    rw [hx]
    dsimp only
    refine h.lib_plain (new := [if x.cted then .insAddRef c k e loc else .insUser c k e loc]) ht ?_ ?_ fun oth hc hex => ?_
    · intro i; split <;> simp [elemF, elemOf]
    · intro i; split <;> simp [holdF, holds]
    · refine hc.same (old := [_]) (one ?_) hc.objsOk ?_
      · split
        · rename_i hxc
          exact ⟨⟨x, hx, e1, hxc, e2⟩, hloc⟩
        · rename_i hxc
          exact ⟨⟨x, hx, e1, by simpa using hxc, e2⟩, hloc⟩
      · intro i; split <;> simp [refF]
  | insUser c k e loc => trivial
  | insDone c k e loc =>
    obtain ⟨⟨x, hx, e1, e2, e3⟩, hloc⟩ := hfr
    dsimp only
    rw [hx]
    dsimp only
    refine h.lib_plain (new := [.insAddRef c k e loc]) ht (by simp [elemF, elemOf]) (by simp [holdF, holds])
      fun oth hc hex => ?_
    have hs : ∀ w, FwOk cfg s.ents w → FwOk cfg (setEnt s.ents e (some { x with cted := true })) w :=
      fun w hw => hw.of_set hx (by rfl) (by rfl) (by intro _; rfl)
    refine hc.change (old := [_]) hx rfl rfl (fun _ _ => rfl) (.inr fun g hg => hex g hg e rfl)
      (one ⟨⟨_, setEnt_same _ _ _, e1, rfl, e3⟩, fun w hw => hs w (hloc w hw)⟩) (fun w hw => hs w (hc.objsOk w hw))
      (fun w hw => hs w (hc.kids e x hx w hw)) ?_
    intro i; simp [refF]
  | insAddRef c k e loc =>
    obtain ⟨hok, hloc⟩ := hfr
    obtain ⟨x, hx, e1, e2, e3⟩ := id hok
    dsimp only at hx ⊢
    rw [hx]
    dsimp only
    refine h.lib_plain (new := [.insLeave c k e loc]) ht (by simp [elemF, elemOf]) (by simp [holdF, holds])
      fun oth hc hex => ?_
    refine hc.count (old := [_]) hx (.inr fun g hg => hex g hg e rfl)
      (one ⟨hok.of_set hx (by rfl) (by rfl) (by exact id), fun w hw => (hloc w hw).of_set hx (by rfl) (by rfl) (by exact id)⟩) hc.objsOk ?_
    intro i
    by_cases hi : i = e
    · subst hi
      simp [refF]
      omega
    · simp [refF, hi, Ne.symm hi]
  | insLeave c k e loc =>
    obtain ⟨hok, hloc⟩ := hfr
    dsimp only
    rw [show loc.map Frame.rel ++ .insTrack c k e :: rest = (loc.map .rel ++ [.insTrack c k e]) ++ rest by simp]
    refine h.lib_of ht (.drop (hvis e rfl)) ?_ h.locks.refl ?_ fun oth hc hex => ?_
    · intro i
      by_cases hi : i = e
      · subst hi
        simp [elemF, elemOf, setVis_same, hvis i rfl]
      · simp [elemF, elemOf, setVis_ne _ _ hi, Ne.symm hi]
    · intro _ c'; simp [holdF, holds]; omega
    · refine hc.same (old := [_]) ?_ hc.objsOk (by simp [refF])
      intro g hg
      rcases List.mem_append.1 hg with h1 | h1
      · obtain ⟨w, hw, rfl⟩ := List.mem_map.1 h1
        exact hloc w hw
      · rw [List.mem_singleton.1 h1]
        exact hok
  | insFail c e loc =>
    obtain ⟨hok, hloc⟩ := hfr
    dsimp only
    rw [show loc.map Frame.rel ++ .insUnwind c :: rest = (loc.map .rel ++ [.insUnwind c]) ++ rest by simp]
    refine h.lib_of ht (.drop (hvis e rfl)) ?_ h.locks.refl ?_ fun oth hc hex => ?_
    · intro i
      by_cases hi : i = e
      · subst hi
        simp [elemF, elemOf, setVis_same, hvis i rfl]
      · simp [elemF, elemOf, setVis_ne _ _ hi, Ne.symm hi]
    · intro _ c'; simp [holdF, holds]; omega
    · refine hc.same (old := [_]) ?_ hc.objsOk (by simp [refF])
      intro g hg
      rcases List.mem_append.1 hg with h1 | h1
      · obtain ⟨w, hw, rfl⟩ := List.mem_map.1 h1
        exact hloc w hw
      · rw [List.mem_singleton.1 h1]
        trivial
  | insUnwind c =>
    dsimp only
    obtain ⟨l, hl, h1, h2⟩ := hunl c rfl
    rw [hl]
    dsimp only
    refine h.lib_of (new := []) ht .refl (by simp [elemF, elemOf]) h1 ?_ fun oth hc hex => ?_
    · intro hlk c'
      have := h2 hlk c'
      simp [holdF, holds]
      omega
    · exact hc.same (old := [_]) (new := []) (by simp) hc.objsOk (by simp [refF])
  | insTrack c k e =>
    have hok : FwOk cfg s.ents ⟨e, c, k⟩ := hfr
    obtain ⟨x, hx, e1, e2, e3⟩ := id hok
    dsimp only at hx ⊢
    rw [hx]
    dsimp only
    refine h.lib_plain (new := [.insUnlock c k e]) ht (by simp [elemF, elemOf]) (by simp [holdF, holds])
      fun oth hc hex => ?_
    refine hc.count (old := [_]) hx (.inl id) (one (hok.of_set hx (by rfl) (by rfl) (by exact id))) hc.objsOk ?_
    intro i
    simp [refF]
  | insUnlock c k e =>
    dsimp only
    obtain ⟨l, hl, h1, h2⟩ := hunl c rfl
    rw [hl]
    dsimp only
    refine h.lib_of (new := []) ht .refl (by simp [elemF, elemOf]) h1 ?_ fun oth hc hex => ?_
    · intro hlk c'
      have := h2 hlk c'
      simp [holdF, holds]
      omega
    · refine hc.same (old := [_]) (new := []) (by simp) ?_ ?_
      · intro w hw
        rcases List.mem_cons.1 hw with rfl | hw
        · exact hfr
        · exact hc.objsOk w hw
      · intro i; simp [refF]
  | rel w =>
    have hok : FwOk cfg s.ents w := hfr
    obtain ⟨x, hx, e1, e2, e3⟩ := id hok
    dsimp only
    rw [hx]
    dsimp only
    split
    · refine h.lib_plain (new := [if x.tref - 1 = 0 then .relLock w else .relDec w]) ht ?_ ?_ fun oth hc hex => ?_
      · intro i; split <;> simp [elemF, elemOf]
      · intro i; split <;> simp [holdF, holds]
      · refine hc.count (old := [_]) hx (.inl id) (one ?_) hc.objsOk ?_
        · split <;> exact hok.of_set hx (by rfl) (by rfl) (by exact id)
        · intro i; by_cases hz : x.tref - 1 = 0 <;> simp [refF, hz]
    · refine h.lib_plain (new := [.relDec w]) ht (by simp [elemF, elemOf]) (by simp [holdF, holds]) fun oth hc hex => ?_
      exact hc.same (old := [_]) (one hok) hc.objsOk (by simp [refF])
  | relLock w =>
    dsimp only
    cases ha : acquire cfg s.lock t w.c with
    | none => trivial
    | some l =>
      obtain ⟨h1, h2⟩ := hacq w.c l ha
      refine h.lib_of (new := [.relCheck w]) ht .refl (by simp [elemF, elemOf]) h1 ?_ fun oth hc hex => ?_
      · intro hlk c'
        rw [h2 hlk]
        simp [holdF, holds]
        omega
      · exact hc.same (old := [_]) (one hfr) hc.objsOk (by simp [refF])
  | relCheck w =>
    have hok : FwOk cfg s.ents w := hfr
    obtain ⟨x, hx, e1, e2, e3⟩ := id hok
    dsimp only
    rw [hx]
    dsimp only
    refine h.lib_plain (new := [.relUnlock w]) ht (by simp [elemF, elemOf]) (by simp [holdF, holds]) fun oth hc hex => ?_
    exact hc.same (old := [_]) (one hok) hc.objsOk (by simp [refF])
  | relUnlock w =>
    dsimp only
    obtain ⟨l, hl, h1, h2⟩ := hunl w.c rfl
    rw [hl]
    dsimp only
    refine h.lib_of (new := [.relDec w]) ht .refl (by simp [elemF, elemOf]) h1 ?_ fun oth hc hex => ?_
    · intro hlk c'
      have := h2 hlk c'
      simp [holdF, holds]
      omega
    · exact hc.same (old := [_]) (one hfr) hc.objsOk (by simp [refF])
  | relDec w =>
    have hok : FwOk cfg s.ents w := hfr
    obtain ⟨x, hx, e1, e2, e3⟩ := id hok
    dsimp only
    rw [hx]
    dsimp only
    refine h.lib_plain (new := []) ht (by simp [elemF, elemOf]) (by simp [holdF, holds]) fun oth hc hex => ?_
    have hpos : 0 < x.ref := by
      have := hc.ref_pos_frame (e := w.h) List.mem_cons_self (by simp [refF])
      simpa [refOf, hx] using this
    refine hc.count (old := [_]) hx (.inl fun h0 => by omega) (by simp) hc.objsOk ?_
    intro i
    by_cases hi : i = w.h
    · subst hi
      simp [refF]
      omega
    · simp [refF, hi, Ne.symm hi]
  | gcIdle c =>
    refine h.lib_plain (new := [.gcPass c s.next (elems s c)]) ht (by simp [elemF, elemOf]) (by simp [holdF, holds])
      fun oth hc hex => ?_
    exact hc.same (old := [_]) (one trivial) hc.objsOk (by simp [refF])
  | gcPass c fr todo =>
    dsimp only
    split
    · refine h.lib_plain (new := [.gcIdle c]) ht (by simp [elemF, elemOf]) (by simp [holdF, holds])
        fun oth hc hex => ?_
      exact hc.same (old := [_]) (one trivial) hc.objsOk (by simp [refF])
    · trivial
  | gcTest c e =>
    obtain ⟨x, hx, e1⟩ := hfr
    dsimp only
    rw [hx]
    dsimp only
    refine h.lib_plain (new := [if x.ref = 0 then .gcErase c e else .gcLeave c e]) ht ?_ ?_ fun oth hc hex => ?_
    · intro i; split <;> simp [elemF, elemOf]
    · intro i; split <;> simp [holdF, holds]
    · refine hc.same (old := [_]) (one ?_) hc.objsOk ?_
      · split
        · rename_i hr
          exact ⟨x, hx, e1, hr⟩
        · exact ⟨x, hx, e1⟩
      · intro i; split <;> simp [refF]
  | gcErase c e =>
    obtain ⟨x, hx, e1, e2⟩ := hfr
    dsimp only
    rw [hx]
    dsimp only
    rw [show x.kids.map Frame.rel ++ .gcUnlink c e :: rest = (x.kids.map .rel ++ [.gcUnlink c e]) ++ rest by simp]
    refine h.lib_plain ht (by simp [elemF, elemOf]) (by simp [holdF, holds]) fun oth hc hex => ?_
    have hz : refOf s.ents e = 0 := by simp [refOf, hx, e2]
    have hs : ∀ w, 0 < refOf s.ents w.h → FwOk cfg s.ents w →
        FwOk cfg (setEnt s.ents e (some { x with cted := false, kids := [] })) w := by
      rintro w hw ⟨y, hy, h2⟩
      refine ⟨y, ?_, h2⟩
      rw [setEnt_ne _ _ ?_, hy]
      intro he
      rw [he] at hw
      omega
    refine hc.change (old := [_]) hx rfl rfl (fun h0 => by omega) (.inr fun g hg => hex g hg e rfl) ?_
      (fun w hw => hs w (hc.ref_pos_obj hw) (hc.objsOk w hw)) (by simp) ?_
    · intro g hg
      rcases List.mem_append.1 hg with h1 | h1
      · obtain ⟨w, hw, rfl⟩ := List.mem_map.1 h1
        exact hs w (hc.ref_pos_kid hx hw) (hc.kids e x hx w hw)
      · rw [List.mem_singleton.1 h1]
        exact ⟨_, setEnt_same _ _ _, e1, e2, rfl⟩
    · intro i
      simp [refF]
  | gcUnlink c e =>
    obtain ⟨x, hx, e1, e2, e3⟩ := hfr
    dsimp only
    rw [hx]
    dsimp only
    refine h.lib_of (new := []) ht (.drop (hvis e rfl)) ?_ h.locks.refl ?_ fun oth hc hex => ?_
    · intro i
      by_cases hi : i = e
      · subst hi
        simp [elemF, elemOf, setVis_same, hvis i rfl]
      · simp [elemF, elemOf, setVis_ne _ _ hi, Ne.symm hi]
    · intro _ c'; simp [holdF, holds]
    · exact hc.unlink fun g hg => hex g hg e rfl
  | gcLeave c e =>
    dsimp only
    refine h.lib_of (new := []) ht (.drop (hvis e rfl)) ?_ h.locks.refl ?_ fun oth hc hex => ?_
    · intro i
      by_cases hi : i = e
      · subst hi
        simp [elemF, elemOf, setVis_same, hvis i rfl]
      · simp [elemF, elemOf, setVis_ne _ _ hi, Ne.symm hi]
    · intro _ c'; simp [holdF, holds]
    · exact hc.same (old := [_]) (new := []) (by simp) hc.objsOk (by simp [refF])

/-- General form of a step of user code. -/
theorem Inv.user_of {s : St K} (h : Inv cfg s) {t : Nat} {st new : List (Frame K)} (ht : s.thr[t]? = some st)
    {ents : Nat → Option (Ent K)} {objs : List (Fw K)}
    (he : ∀ e, tot (elemF e) new = 0) (hd : ∀ c, tot (holdF c) new = 0)
    (hc : ∀ oth, Core cfg s.ents s.next s.objs ([] ++ oth) → Core cfg ents s.next objs (new ++ oth)) :
    Inv cfg ⟨ents, s.next, s.vis, s.lock, s.thr.set t (new ++ st), objs⟩ := by
  refine h.step_of ht (fun AB hcore hex => ?_) .refl ?_ h.locks.refl ?_
  · rw [List.append_assoc]
    exact hc (st ++ AB) hcore
  · intro e
    rw [tot_append, he, Nat.zero_add]
    exact h.locks.elem t _ ht e
  · intro hlk c
    rw [tot_append, hd, Nat.zero_add]
    exact h.locks.depth hlk t _ ht c

theorem Inv.user_same {s : St K} (h : Inv cfg s) {t : Nat} {st : List (Frame K)} (ht : s.thr[t]? = some st)
    {ents : Nat → Option (Ent K)} {objs : List (Fw K)}
    (hc : ∀ oth, Core cfg s.ents s.next s.objs ([] ++ oth) → Core cfg ents s.next objs ([] ++ oth)) :
    Inv cfg ⟨ents, s.next, s.vis, s.lock, s.thr, objs⟩ := by
  have := h.user_of (new := []) ht (ents := ents) (objs := objs) (by simp) (by simp) hc
  rwa [List.nil_append, set_self ht] at this

/-- Copying a flyweight. -/
theorem Core.copy {ents : Nat → Option (Ent K)} {next : Nat} {objs : List (Fw K)} {oth : List (Frame K)}
    (hc : Core cfg ents next objs ([] ++ oth)) {w : Fw K} (hw : FwOk cfg ents w) {x : Ent K} (hx : ents w.h = some x)
    (hpos : 0 < x.ref) (tr : Int) :
    Core cfg (setEnt ents w.h (some { x with ref := x.ref + 1, tref := tr })) next (w :: objs) ([] ++ oth) := by
  refine hc.count (new := []) hx (.inl fun h0 => by omega) (by simp) ?_ ?_
  · intro v hv
    rcases List.mem_cons.1 hv with rfl | hv
    · exact hw
    · exact hc.objsOk v hv
  · intro i
    by_cases hi : i = w.h
    · subst hi
      simp
      omega
    · simp [hi, Ne.symm hi]

theorem act_good (hcfg : CfgOk cfg) {s : St K} (h : Inv cfg s) {t : Nat} {st : List (Frame K)}
    (ht : s.thr[t]? = some st) (a : Act K) : Good cfg (act cfg s t st a) := by
  have one : ∀ {g : Frame K} {P : Frame K → Prop}, P g → ∀ g' ∈ [g], P g' := by
    intro g P hg g' hg'
    rw [List.mem_singleton.1 hg']
    exact hg
  cases a with
  | run =>
    cases st with
    | nil => trivial
    | cons f rest => exact lib_good hcfg h ht
  | create c k mask pre =>
    simp only [act]
    split
    · refine h.user_of (new := [.insLock c k (pick mask s.objs).1 pre]) ht (by simp [elemF, elemOf])
        (by simp [holdF, holds]) fun oth hc => ?_
      refine hc.same (one fun w hw => hc.objsOk w (pick_mem.2 (.inl hw)))
        (fun w hw => hc.objsOk w (pick_mem.2 (.inr hw))) fun e => ?_
      have := pick_count (e := e) mask s.objs
      simp [refF]
      omega
    · trivial
  | destroy mask =>
    simp only [act]
    split
    · refine h.user_of (new := (pick mask s.objs).1.map .rel) ht (by simp) (by simp) fun oth hc => ?_
      refine hc.same ?_ (fun w hw => hc.objsOk w (pick_mem.2 (.inr hw))) ?_
      · intro f hf
        obtain ⟨w, hw, rfl⟩ := List.mem_map.1 hf
        exact hc.objsOk w (pick_mem.2 (.inl hw))
      · intro e
        have := pick_count (e := e) mask s.objs
        simp
        omega
    · trivial
  | copy i =>
    simp only [act]
    split
    · cases hi : s.objs[i]? with
      | none => trivial
      | some w =>
        have hw := List.mem_of_getElem? hi
        obtain ⟨x, hx, e1, e2, e3, hpos⟩ := h.core.fw_ent hw
        dsimp only
        rw [hx]
        exact h.user_same ht fun oth hc => hc.copy (hc.objsOk w hw) hx hpos _
    · trivial
  | copyKid i j =>
    simp only [act]
    split
    · cases hi : s.objs[i]? with
      | none => trivial
      | some w =>
        have hw := List.mem_of_getElem? hi
        obtain ⟨x, hx, e1, e2, e3, hpos⟩ := h.core.fw_ent hw
        dsimp only
        rw [hx]
        dsimp only
        rw [if_pos e3]
        cases hj : x.kids[j]? with
        | none => trivial
        | some v =>
          have hv := List.mem_of_getElem? hj
          obtain ⟨y, hy, _, _, _, hpos'⟩ := h.core.kid_ent hx hv
          dsimp only
          rw [hy]
          exact h.user_same ht fun oth hc => hc.copy (hc.kids _ x hx v hv) hy hpos' _
    · trivial
  | swap i j =>
    simp only [act]
    split
    · split
      · rename_i v w hi hj
        refine h.user_same ht fun oth hc => ?_
        exact hc.same (new := []) (by simp) (fun u hu' => hc.objsOk u (swap_mem hi hj hu')) (by simp [swap_count hi hj])
      · trivial
    · trivial
  | read i =>
    simp only [act]
    split
    · cases hi : s.objs[i]? with
      | none => trivial
      | some w =>
        obtain ⟨x, hx, e1, e2, e3, hpos⟩ := h.core.fw_ent (List.mem_of_getElem? hi)
        dsimp only
        rw [hx]
        dsimp only
        rw [if_pos e3]
        exact h
    · trivial
  | finish mask drop =>
    simp only [act]
    split
    · rename_i c k e loc rest
      have hmem : Frame.insUser c k e loc ∈ frames s :=
        List.mem_flatten.2 ⟨_, List.mem_of_getElem? ht, List.mem_cons_self⟩
      obtain ⟨⟨x, hx, e1, e2, e3⟩, hloc⟩ := h.core.frames _ hmem
      rw [hx]
      dsimp only
      rw [if_neg (by rw [e2]; simp)]
      rw [show (if drop = true then x.kids.map Frame.rel else []) ++ .insDone c k e loc :: rest =
        ((if drop = true then x.kids.map Frame.rel else []) ++ [.insDone c k e loc]) ++ rest by simp]
      refine h.lib_plain ht ?_ ?_ fun oth hc hex => ?_
      · intro i
        cases drop <;> simp [elemF, elemOf]
      · intro i
        cases drop <;> simp [holdF, holds]
      · have hs : ∀ {l : List (Fw K)} (w : Fw K), FwOk cfg s.ents w → FwOk cfg (setEnt s.ents e (some { x with kids := l })) w :=
          fun w hw => hw.of_set hx (by rfl) (by rfl) (by exact id)
        refine hc.change (old := [_]) hx rfl rfl (fun _ h => h) (.inr fun g hg => hex g hg e rfl) ?_
          (fun w hw => hs w (hc.objsOk w (pick_mem.2 (.inr hw)))) ?_ ?_
        · intro g hg
          rcases List.mem_append.1 hg with h1 | h1
          · cases drop
            · cases h1
            · obtain ⟨w, hw, rfl⟩ := List.mem_map.1 (show g ∈ x.kids.map Frame.rel by simpa using h1)
              exact hs w (hc.kids e x hx w hw)
          · rw [List.mem_singleton.1 h1]
            exact ⟨⟨_, setEnt_same _ _ _, e1, e2, e3⟩, fun w hw => hs w (hloc w hw)⟩
        · intro w hw
          cases drop
          · rcases List.mem_append.1 (show w ∈ x.kids ++ (pick mask s.objs).1 by simpa using hw) with h1 | h1
            · exact hs w (hc.kids e x hx w h1)
            · exact hs w (hc.objsOk w (pick_mem.2 (.inl h1)))
          · exact hs w (hc.objsOk w (pick_mem.2 (.inl (by simpa using hw))))
        · intro i
          have := pick_count (e := i) mask s.objs
          cases drop <;> simp [refF] <;> omega
    · trivial
  | throw_ =>
    simp only [act]
    split
    · rename_i c k e loc rest
      have hmem : Frame.insUser c k e loc ∈ frames s :=
        List.mem_flatten.2 ⟨_, List.mem_of_getElem? ht, List.mem_cons_self⟩
      obtain ⟨⟨x, hx, e1, e2, e3⟩, hloc⟩ := h.core.frames _ hmem
      refine h.lib_plain (new := [.insFail c e loc]) ht (by simp [elemF, elemOf]) (by simp [holdF, holds])
        fun oth hc hex => ?_
      exact hc.same (old := [_]) (one ⟨⟨x, hx, e1⟩, hloc⟩) hc.objsOk (by simp [refF])
    · rename_i c k loc pre rest
      have hmem : Frame.insHash c k loc pre ∈ frames s :=
        List.mem_flatten.2 ⟨_, List.mem_of_getElem? ht, List.mem_cons_self⟩
      have hfr := h.core.frames _ hmem
      rw [show loc.map Frame.rel ++ .insUnwind c :: rest = (loc.map .rel ++ [.insUnwind c]) ++ rest by simp]
      refine h.lib_plain ht (by simp [elemF, elemOf]) (by simp [holdF, holds]) fun oth hc hex => ?_
      refine hc.same (old := [_]) ?_ hc.objsOk (by simp [refF])
      intro g hg
      rcases List.mem_append.1 hg with h1 | h1
      · obtain ⟨w, hw, rfl⟩ := List.mem_map.1 h1
        exact hfr w hw
      · rw [List.mem_singleton.1 h1]
        trivial
    · rename_i c k loc pre rest
      split
      · have hmem : Frame.insFind c k loc pre ∈ frames s :=
          List.mem_flatten.2 ⟨_, List.mem_of_getElem? ht, List.mem_cons_self⟩
        have hfr := h.core.frames _ hmem
        rw [show loc.map Frame.rel ++ .insUnwind c :: rest = (loc.map .rel ++ [.insUnwind c]) ++ rest by simp]
        refine h.lib_plain ht (by simp [elemF, elemOf]) (by simp [holdF, holds]) fun oth hc hex => ?_
        refine hc.same (old := [_]) ?_ hc.objsOk (by simp [refF])
        intro g hg
        rcases List.mem_append.1 hg with h1 | h1
        · obtain ⟨w, hw, rfl⟩ := List.mem_map.1 h1
          exact hfr w hw
        · rw [List.mem_singleton.1 h1]
          trivial
      · trivial
    · trivial
  | gcVisit e =>
    simp only [act]
    split
    · rename_i c fr todo rest
      split
      · trivial
      · rename_i x hx
        split
        · rename_i hcond
          obtain ⟨h1, h2, h3⟩ := hcond
          refine h.lib_of (new := [.gcTest c e, .gcPass c fr (todo.filter (· ≠ e))]) ht (.take h3) ?_ h.locks.refl ?_
            fun oth hc hex => ?_
          · intro i
            by_cases hi : i = e
            · subst hi
              simp [elemF, elemOf, setVis_same, h3]
            · simp [elemF, elemOf, setVis_ne _ _ hi, Ne.symm hi]
          · intro _ c'; simp [holdF, holds]
          · refine hc.same (old := [_]) ?_ hc.objsOk (by simp [refF])
            intro g hg
            rcases List.mem_cons.1 hg with rfl | hg
            · exact ⟨x, hx, h1⟩
            · rw [List.mem_singleton.1 hg]
              trivial
        · trivial
    · trivial

theorem step_good (hcfg : CfgOk cfg) {s : St K} (h : Inv cfg s) (t : Nat) (a : Act K) : Good cfg (step cfg s t a) := by
  unfold step
  split
  · trivial
  · rename_i st ht
    exact act_good hcfg h ht a

/-- At the start threads run user code or are idle collectors. -/
theorem start_thr {n : Nat} {gcs : List Nat} {t : Nat} {st : List (Frame K)} (h : (start n gcs : St K).thr[t]? = some st) :
    st = [] ∨ ∃ c ∈ gcs, st = [.gcIdle c] := by
  have := List.mem_of_getElem? h
  rcases List.mem_append.1 this with h1 | h1
  · exact .inl (List.eq_of_mem_replicate h1)
  · obtain ⟨c, hc, rfl⟩ := List.mem_map.1 h1
    exact .inr ⟨c, hc, rfl⟩

theorem start_inv (n : Nat) (gcs : List Nat) : Inv cfg (start n gcs : St K) := by
  have hf : ∀ f ∈ frames (start n gcs : St K), ∃ c, f = .gcIdle c := by
    intro f hf
    obtain ⟨st, h1, h2⟩ := List.mem_flatten.1 hf
    obtain ⟨t, ht⟩ := List.mem_iff_getElem?.1 h1
    rcases start_thr ht with rfl | ⟨c, _, rfl⟩
    · cases h2
    · exact ⟨c, List.mem_singleton.1 h2⟩
  have hz : ∀ (g : Frame K → Nat), (∀ c, g (.gcIdle c) = 0) → ∀ L, (∀ f ∈ L, ∃ c, f = .gcIdle c) → tot g L = 0 := by
    intro g hg L hL
    refine tot_eq_zero fun f hf' => ?_
    obtain ⟨c, rfl⟩ := hL f hf'
    exact hg c
  have hst : ∀ (t : Nat) (st : List (Frame K)), (start n gcs : St K).thr[t]? = some st → ∀ f ∈ st, ∃ c, f = .gcIdle c := by
    intro t st ht f hf'
    exact hf f (List.mem_flatten.2 ⟨st, List.mem_of_getElem? ht, hf'⟩)
  constructor
  · refine ⟨fun _ _ => rfl, ?_, ?_, ?_, ?_, ?_⟩
    · intro f hf'
      obtain ⟨c, rfl⟩ := hf f hf'
      trivial
    · intro w hw; cases hw
    · intro e x hx; cases hx
    · intro e
      rw [hz _ (fun _ => rfl) _ hf]
      simp [start, refOf, kidsTo, nsum]
    · intro e e' x x' hx; cases hx
  · refine ⟨?_, ?_, ?_, ?_⟩
    · intro t st ht e
      rw [hz _ (fun _ => rfl) _ (hst t st ht)]
      simp [start]
    · intro e t h; cases h
    · intro _ t st ht c
      rw [hz _ (fun _ => rfl) _ (hst t st ht)]
      rfl
    · intro c o d h; cases h

theorem exec_good (hcfg : CfgOk cfg) {s : St K} (h : Inv cfg s) (l : List (Nat × Act K)) : Good cfg (exec cfg l s) := by
  induction l generalizing s with
  | nil => exact h
  | cons p l ih =>
    obtain ⟨t, a⟩ := p
    have hg := step_good hcfg h t a
    unfold exec
    cases hs : step cfg s t a with
    | ok s' => rw [hs] at hg; exact ih hg
    | no => exact ih h
    | ub => rw [hs] at hg; exact hg
    | reentrant => trivial

end Verif.CFac

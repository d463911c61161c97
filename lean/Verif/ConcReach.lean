import Verif.ConcStep

/-!
# Reachability of entries, cascaded destruction, single-threaded runs
-/

set_option autoImplicit false

namespace Verif.Conc
variable {K : Type} {cfg : Cfg K}

/-- Entries reachable from flyweight objects through the flyweights inside values.  (No code of
its own: used in statements and proofs.) -/
inductive Reach (ents : Nat → Option (Ent K)) (objs : List (Fw K)) : Nat → Prop
  | obj {w : Fw K} : w ∈ objs → Reach ents objs w.h
  | kid {e : Nat} {x : Ent K} {w : Fw K} : Reach ents objs e → ents e = some x → w ∈ x.kids → Reach ents objs w.h

/-- No thread is inside the library.  (No code of its own: used in statements and proofs.) -/
def Quiet (s : St K) : Prop := ∀ st ∈ s.thr, st = []

theorem Quiet.frames {s : St K} (h : Quiet s) : frames s = [] := by
  unfold Conc.frames
  rw [List.flatten_eq_nil_iff]
  exact h

/-- At a quiescent point the entries are those reachable from objects. -/
theorem Inv.reach {s : St K} (h : Inv cfg s) (hq : Quiet s) (e : Nat) :
    (∃ x, s.ents e = some x) ↔ Reach s.ents s.objs e := by
  have hcore := h.core
  rw [hq.frames] at hcore
  constructor
  · suffices H : ∀ n e x, s.ents e = some x → s.clock ≤ x.stamp + n → Reach s.ents s.objs e by
      rintro ⟨x, hx⟩
      exact H s.clock e x hx (by omega)
    intro n
    induction n with
    | zero =>
      intro e x hx hn
      have hc : x.cted = true := by
        cases hc : x.cted with
        | true => rfl
        | false => have := hcore.uncted e x hx hc; simp at this
      have := (hcore.time e x hx hc).1
      omega
    | succ n ih =>
      intro e x hx hn
      have href := hcore.refs e
      simp only [refOf, hx, tot_nil] at href
      have hne : x.ref ≠ 0 := fun h0 => by
        have := hcore.claim e x hx h0
        simp at this
      by_cases ho : 0 < fwCount e s.objs
      · obtain ⟨w, hw, rfl⟩ := exists_of_fwCount ho
        exact .obj hw
      · obtain ⟨i, hi, hk⟩ := exists_of_nsum (show 0 < kidsTo s.ents s.next e by omega)
        cases hy : s.ents i with
        | none => simp [hy, kidsOf] at hk
        | some y =>
          simp only [hy, kidsOf] at hk
          obtain ⟨w, hw, rfl⟩ := exists_of_fwCount hk
          have hc : y.cted = true := by
            cases hc : y.cted with
            | true => rfl
            | false => have := hcore.uncted i y hy hc; simp at this
          have := (hcore.time i y hy hc).2 w hw x hx
          exact .kid (ih i y hy (by omega)) hy hw
  · intro hr
    induction hr with
    | obj hw =>
      obtain ⟨x, hx, _⟩ := hcore.fw_ent hw
      exact ⟨x, hx⟩
    | kid _ hx hw _ =>
      obtain ⟨y, hy, _⟩ := hcore.kid_ent hx hw
      exact ⟨y, hy⟩

/-! ## Cascaded destruction -/

/-- Frames of the destruction of a flyweight.  (No code of its own: used in statements and
proofs.) -/
def isRel : Frame K → Bool
  | .relDec _ => true
  | .relLock .. => true
  | .relCheck .. => true
  | .relErase .. => true
  | .relUnlock _ => true
  | _ => false

/-- Steps a frame of a destruction can still take, the entries aside.  (No code of its own: used
in statements and proofs.) -/
def weight : Frame K → Nat
  | .relDec _ => 5
  | .relLock .. => 4
  | .relCheck .. => 3
  | .relErase .. => 2
  | .relUnlock _ => 1
  | _ => 0

/-- Number of flyweights inside an entry.  (No code of its own: used in statements and proofs.) -/
def numKids (o : Option (Ent K)) : Nat :=
  match o with
  | none => 0
  | some x => x.kids.length

/-- Bound on the number of steps a destruction can still take.  (No code of its own: used in
statements and proofs.) -/
def bound (s : St K) (st : List (Frame K)) : Nat :=
  5 * nsum (fun i => numKids (s.ents i)) s.next + tot weight st

/-- Entries of `s'` are those of `s` with other counts, or fewer.  (No code of its own: used in
statements and proofs.) -/
def Shrunk (s s' : St K) : Prop :=
  ∀ e y, s'.ents e = some y → ∃ x, s.ents e = some x ∧ shape y = shape x

theorem Shrunk.refl (s : St K) : Shrunk s s := fun _ y h => ⟨y, h, rfl⟩
theorem Shrunk.trans {s s' s'' : St K} (h : Shrunk s s') (h' : Shrunk s' s'') : Shrunk s s'' := fun e z hz => by
  obtain ⟨y, hy, h1⟩ := h' e z hz
  obtain ⟨x, hx, h2⟩ := h e y hy
  exact ⟨x, hx, h1.trans h2⟩

theorem Shrunk.set {s s' : St K} {e : Nat} {x x' : Ent K} (hx : s.ents e = some x) (h : shape x' = shape x)
    (hs : s'.ents = setEnt s.ents e (some x')) : Shrunk s s' := by
  intro i y hy
  rw [hs] at hy
  by_cases hi : i = e
  · subst hi
    rw [setEnt_same] at hy
    cases hy
    exact ⟨x, hx, h⟩
  · rw [setEnt_ne _ _ hi] at hy
    exact ⟨y, hy, rfl⟩

theorem numKids_set {ents : Nat → Option (Ent K)} {e n : Nat} {x : Ent K} (hx : ents e = some x) (hn : e < n)
    (o : Option (Ent K)) :
    nsum (fun i => numKids (setEnt ents e o i)) n + x.kids.length = nsum (fun i => numKids (ents i)) n + numKids o := by
  have := nsum_change (f := fun i => numKids (setEnt ents e o i)) (g := fun i => numKids (ents i)) hn
    fun j hj => by rw [setEnt_ne _ _ hj]
  simp only [setEnt_same, hx] at this
  exact this

theorem weight_relDec (l : List (Fw K)) : tot weight (l.map Frame.relDec) = 5 * l.length := by
  induction l with
  | nil => rfl
  | cons w l ih => simp only [List.map_cons, tot_cons, ih, weight, List.length_cons]; omega

theorem isRel_relDec {l : List (Fw K)} : ∀ f ∈ l.map Frame.relDec, isRel f = true := by
  intro f hf
  obtain ⟨w, _, rfl⟩ := List.mem_map.1 hf
  rfl

/-- Other threads are outside the library.  (No code of its own: used in statements and proofs.) -/
def Alone (s : St K) (t : Nat) : Prop := ∀ t' st, t' ≠ t → s.thr[t']? = some st → st = []

theorem acquire_alone {s : St K} (h : Inv cfg s) {t : Nat} (ha : Alone s t) (hlk : cfg.locking = true) (c : Nat) :
    ∃ l, acquire cfg s.lock t c = some l := by
  unfold acquire
  rw [if_pos hlk]
  cases hx : s.lock c with
  | none => exact ⟨_, rfl⟩
  | some p =>
    obtain ⟨o, d⟩ := p
    by_cases ho : o = t
    · simp [ho]
    · obtain ⟨h1, h2⟩ := h.locks.pos c o d hx
      have h3 : s.thr[o]? = some s.thr[o] := List.getElem?_eq_getElem h2
      have h4 := h.locks.depth o _ h3 c
      rw [ha o _ ho h3] at h4
      simp [depthOf, hx] at h4
      omega

/-- A step of a destruction makes progress and only removes entries. -/
theorem rel_step (hcfg : CfgOk cfg) (hlk : cfg.locking = true) (hdl : cfg.deleter = true) {s : St K} (h : Inv cfg s)
    {t : Nat} (ha : Alone s t) {f : Frame K} {rest : List (Frame K)} (ht : s.thr[t]? = some (f :: rest))
    (hr : ∀ g ∈ f :: rest, isRel g = true) :
    ∃ s' st', step cfg s t .run = .ok s' ∧ Inv cfg s' ∧ s'.thr = s.thr.set t st' ∧ (∀ g ∈ st', isRel g = true) ∧
      s'.objs = s.objs ∧ Shrunk s s' ∧ bound s' st' < bound s (f :: rest) := by
  have hg := step_good hcfg hlk hdl h t .run
  have hstep : step cfg s t .run = lib cfg s t f rest := by simp [step, ht, act]
  have hrest : ∀ g ∈ rest, isRel g = true := fun g hg => hr g (List.mem_cons_of_mem _ hg)
  have hcons : ∀ f', isRel f' = true → ∀ g ∈ f' :: rest, isRel g = true := by
    intro f' hf' g hg
    rcases List.mem_cons.1 hg with rfl | hg
    · exact hf'
    · exact hrest g hg
  have hmem : f ∈ frames s := List.mem_flatten.2 ⟨_, List.mem_of_getElem? ht, List.mem_cons_self⟩
  rw [hstep] at hg ⊢
  unfold lib at hg ⊢
  dsimp only at hg ⊢
  cases f with
  | relDec w =>
    dsimp only at hg ⊢
    cases hx : s.ents w.h with
    | none => rw [hx] at hg; exact hg.elim
    | some x =>
      rw [hx] at hg
      refine ⟨_, _, rfl, hg, rfl, ?_, rfl, Shrunk.set hx (x' := { x with ref := x.ref - 1 }) rfl rfl, ?_⟩
      · split
        · exact hcons _ rfl
        · exact hrest
      · have := numKids_set hx (h.core.lt_next hx) (some { x with ref := x.ref - 1 })
        simp only [numKids] at this
        unfold bound
        dsimp only
        split <;> simp only [tot_cons, weight] <;> unfold numKids <;> omega
  | relLock c e =>
    obtain ⟨l, hl⟩ := acquire_alone h ha hlk c
    dsimp only at hg ⊢
    rw [hl] at hg ⊢
    refine ⟨_, _, rfl, hg, rfl, hcons _ rfl, rfl, Shrunk.refl _, ?_⟩
    unfold bound
    simp only [tot_cons, weight]
    omega
  | relCheck c e =>
    dsimp only at hg ⊢
    cases hx : s.ents e with
    | none => rw [hx] at hg; exact hg.elim
    | some x =>
      rw [hx] at hg
      dsimp only at hg ⊢
      rw [if_pos hdl] at hg ⊢
      refine ⟨_, _, rfl, hg, rfl, ?_, rfl, Shrunk.set hx (x' := { x with del := x.del - 1 }) rfl rfl, ?_⟩
      · split <;> exact hcons _ rfl
      · have := numKids_set hx (h.core.lt_next hx) (some { x with del := x.del - 1 })
        simp only [numKids] at this
        unfold bound
        dsimp only
        split <;> simp only [tot_cons, weight] <;> unfold numKids <;> omega
  | relErase c e =>
    dsimp only at hg ⊢
    cases hx : s.ents e with
    | none => rw [hx] at hg; exact hg.elim
    | some x =>
      rw [hx] at hg
      dsimp only at hg ⊢
      refine ⟨_, _, rfl, hg, rfl, ?_, rfl, ?_, ?_⟩
      · intro g hg
        rcases List.mem_append.1 hg with h1 | h1
        · exact isRel_relDec g h1
        · exact hcons _ rfl g h1
      · intro i y hy
        by_cases hi : i = e
        · subst hi
          simp [setEnt_same] at hy
        · simp only [setEnt_ne _ _ hi] at hy
          exact ⟨y, hy, rfl⟩
      · have := numKids_set hx (h.core.lt_next hx) none
        simp only [numKids] at this
        unfold bound
        dsimp only
        simp only [tot_append, tot_cons, weight, weight_relDec]
        unfold numKids
        omega
  | relUnlock c =>
    dsimp only at hg ⊢
    cases hl : unlock cfg s.lock t c with
    | none => rw [hl] at hg; exact hg.elim
    | some l =>
      rw [hl] at hg
      refine ⟨_, _, rfl, hg, rfl, hrest, rfl, Shrunk.refl _, ?_⟩
      unfold bound
      simp only [tot_cons, weight]
      omega
  | _ => have := hr _ List.mem_cons_self; cases this

/-- A destruction runs to completion if no other thread is in the library. -/
theorem rel_run (hcfg : CfgOk cfg) (hlk : cfg.locking = true) (hdl : cfg.deleter = true) {t : Nat} :
    ∀ (n : Nat) {s : St K} {st : List (Frame K)}, Inv cfg s → Alone s t → s.thr[t]? = some st →
      (∀ g ∈ st, isRel g = true) → bound s st ≤ n →
      ∃ m s', exec cfg (List.replicate m (t, .run)) s = .ok s' ∧ Inv cfg s' ∧ Quiet s' ∧ s'.objs = s.objs ∧
        Shrunk s s' := by
  have quiet : ∀ {s : St K}, Alone s t → s.thr[t]? = some [] → Quiet s := by
    intro s ha ht st hst
    obtain ⟨i, hi⟩ := List.mem_iff_getElem?.1 hst
    by_cases he : i = t
    · subst he
      rw [ht] at hi
      cases hi
      rfl
    · exact ha i st he hi
  intro n
  induction n with
  | zero =>
    intro s st h ha ht hr hb
    cases st with
    | nil => exact ⟨0, s, rfl, h, quiet ha ht, rfl, Shrunk.refl s⟩
    | cons f rest =>
      obtain ⟨_, _, _, _, _, _, _, _, h1⟩ := rel_step hcfg hlk hdl h ha ht hr
      omega
  | succ n ih =>
    intro s st h ha ht hr hb
    cases st with
    | nil => exact ⟨0, s, rfl, h, quiet ha ht, rfl, Shrunk.refl s⟩
    | cons f rest =>
      obtain ⟨s', st', h1, h2, h3, h4, h5, h6, h7⟩ := rel_step hcfg hlk hdl h ha ht hr
      have hlt : t < s.thr.length := by
        rcases Nat.lt_or_ge t s.thr.length with h' | h'
        · exact h'
        · rw [List.getElem?_eq_none h'] at ht; cases ht
      have ha' : Alone s' t := by
        intro t' st'' hne hst
        rw [h3, List.getElem?_set_ne (Ne.symm hne)] at hst
        exact ha t' st'' hne hst
      obtain ⟨m, s'', g1, g2, g3, g4, g5⟩ := ih h2 ha' (by rw [h3, List.getElem?_set_self hlt]) h4 (by omega)
      refine ⟨m + 1, s'', ?_, g2, g3, g4.trans h5, h6.trans g5⟩
      rw [List.replicate_succ]
      unfold exec
      rw [h1]
      exact g1

/-- Destroying flyweights at a quiescent point removes exactly the entries that are
not reachable from the remaining ones, and changes no other. -/
theorem cascade (hcfg : CfgOk cfg) (hlk : cfg.locking = true) (hdl : cfg.deleter = true) {s : St K} (h : Inv cfg s)
    (hq : Quiet s) {t : Nat} (ht : t < s.thr.length) (mask : List Bool) :
    ∃ m s', exec cfg ((t, .destroy mask) :: List.replicate m (t, .run)) s = .ok s' ∧ Quiet s' ∧
      s'.objs = (pick mask s.objs).2 ∧
      ∀ e, (Reach s.ents (pick mask s.objs).2 e → ∃ x y, s.ents e = some x ∧ s'.ents e = some y ∧ shape y = shape x) ∧
        (¬ Reach s.ents (pick mask s.objs).2 e → s'.ents e = none) := by
  have hst : s.thr[t]? = some [] := by
    rw [List.getElem?_eq_getElem ht, hq _ (List.getElem_mem ht)]
  have h1 : step cfg s t (.destroy mask) = .ok { s with
      objs := (pick mask s.objs).2, thr := s.thr.set t ((pick mask s.objs).1.map .relDec ++ []) } := by
    simp only [step, hst, act, inUser, if_true]
  have hg := step_good hcfg hlk hdl h t (.destroy mask)
  rw [h1] at hg
  obtain ⟨m, s', g1, g2, g3, g4, g5⟩ := rel_run hcfg hlk hdl (t := t) _ (show Inv cfg _ from hg)
    (by
      intro t' st hne hst'
      rw [List.getElem?_set_ne (Ne.symm hne)] at hst'
      exact hq st (List.mem_of_getElem? hst'))
    (List.getElem?_set_self ht) (by rw [List.append_nil]; exact isRel_relDec) (Nat.le_refl _)
  have hpres : ∀ e, Reach s.ents (pick mask s.objs).2 e →
      ∃ x y, s.ents e = some x ∧ s'.ents e = some y ∧ shape y = shape x := by
    intro e hr
    induction hr with
    | @obj w hw =>
      obtain ⟨y, hy, _⟩ := g2.core.fw_ent (w := w) (by rw [g4]; exact hw)
      obtain ⟨x, hx, hs⟩ := g5 _ y hy
      exact ⟨x, y, hx, hy, hs⟩
    | @kid e x w _ hx hw ih =>
      obtain ⟨x', y, hx', hy, hs⟩ := ih
      rw [hx] at hx'
      cases hx'
      have hw' : w ∈ y.kids := by
        simp only [shape, Prod.mk.injEq] at hs
        rw [hs.2.2.2.1]
        exact hw
      obtain ⟨z, hz, _⟩ := g2.core.kid_ent hy hw'
      obtain ⟨u, hu, hs'⟩ := g5 _ z hz
      exact ⟨u, z, hu, hz, hs'⟩
  refine ⟨m, s', ?_, g3, g4, fun e => ⟨hpres e, fun hn => ?_⟩⟩
  · unfold exec
    rw [h1]
    exact g1
  · cases hy : s'.ents e with
    | none => rfl
    | some y =>
      refine absurd ?_ hn
      have hr := (g2.reach g3 e).1 ⟨y, hy⟩
      clear hn hy
      induction hr with
      | obj hw => rw [g4] at hw; exact .obj hw
      | @kid e x w _ hx hw ih =>
        obtain ⟨u, hu, hs⟩ := g5 _ x hx
        simp only [shape, Prod.mk.injEq] at hs
        exact .kid ih hu (hs.2.2.2.1 ▸ hw)

/-! ## Single-threaded runs without a mutex -/

/-- The same outcome but for the mutexes.  (No code of its own: used in statements and proofs.) -/
def Sim : Out K → Out K → Prop
  | .ok s, .ok s' => ∃ l, s' = { s with lock := l }
  | .no, .no => True
  | .ub, .ub => True
  | .reentrant, .reentrant => True
  | _, _ => False

theorem single_alone {s : St K} {t : Nat} (h1 : s.thr.length = 1) (ht : t < s.thr.length) : Alone s t := by
  intro t' st hne h
  have : t' < s.thr.length := by
    rcases Nat.lt_or_ge t' s.thr.length with h' | h'
    · exact h'
    · rw [List.getElem?_eq_none h'] at h; cases h
  omega

/-- With a single thread, the mutex makes no difference. -/
theorem sim_step (cfg : Cfg K) (hcfg : CfgOk cfg) (hdl : cfg.deleter = true) (hl : cfg.locking = false) {s : St K}
    (h : Inv { cfg with locking := true } s) (h1 : s.thr.length = 1) (l : Nat → Option (Nat × Nat)) (t : Nat) (a : Act K) :
    Sim (step { cfg with locking := true } s t a) (step cfg { s with lock := l } t a) := by
  have hcfg' : CfgOk { cfg with locking := true } := ⟨hcfg.refl, hcfg.symm, hcfg.trans⟩
  have hg := step_good hcfg' rfl hdl h t a
  have hacq : ∀ c, acquire cfg l t c = some l := by simp [acquire, hl]
  have hunl : ∀ c, unlock cfg l t c = some l := by simp [unlock, hl]
  unfold step at *
  cases ht : s.thr[t]? with
  | none => trivial
  | some st =>
    have hlt : t < s.thr.length := by
      rcases Nat.lt_or_ge t s.thr.length with h' | h'
      · exact h'
      · rw [List.getElem?_eq_none h'] at ht; cases ht
    have hal := acquire_alone h (single_alone h1 hlt) rfl
    rw [ht] at hg
    dsimp only at *
    cases a with
    | run =>
      cases st with
      | nil => trivial
      | cons f rest =>
        simp only [act] at *
        unfold lib at *
        dsimp only at *
        cases f with
        | insLock c k loc pre =>
          obtain ⟨l', hl'⟩ := hal c
          dsimp only at *
          rw [hl', hacq]
          exact ⟨_, rfl⟩
        | relLock c e =>
          obtain ⟨l', hl'⟩ := hal c
          dsimp only at *
          rw [hl', hacq]
          exact ⟨_, rfl⟩
        | insUnwind c loc =>
          dsimp only at *
          rw [hunl]
          cases hu : unlock { cfg with locking := true } s.lock t c with
          | none => rw [hu] at hg; exact hg.elim
          | some l' => exact ⟨_, rfl⟩
        | insUnlock c k e loc =>
          dsimp only at *
          rw [hunl]
          cases hu : unlock { cfg with locking := true } s.lock t c with
          | none => rw [hu] at hg; exact hg.elim
          | some l' => exact ⟨_, rfl⟩
        | relUnlock c =>
          dsimp only at *
          rw [hunl]
          cases hu : unlock { cfg with locking := true } s.lock t c with
          | none => rw [hu] at hg; exact hg.elim
          | some l' => exact ⟨_, rfl⟩
        | insFind c k loc pre =>
          have : find cfg { s with lock := l } c k = find { cfg with locking := true } s c k := rfl
          dsimp only
          rw [this]
          cases find { cfg with locking := true } s c k <;> exact ⟨_, rfl⟩
        | insVisit c k e loc new =>
          dsimp only
          cases s.ents e with
          | none => trivial
          | some x =>
            dsimp only
            cases x.cted
            · cases new
              · trivial
              · exact ⟨_, rfl⟩
            · exact ⟨_, rfl⟩
        | insUser c k e => trivial
        | insDone c k e =>
          dsimp only
          cases s.ents e with
          | none => trivial
          | some x => exact ⟨_, rfl⟩
        | insCatch c e =>
          dsimp only
          cases s.ents e with
          | none => trivial
          | some x => exact ⟨_, rfl⟩
        | insAddRef c k e loc =>
          dsimp only
          cases s.ents e with
          | none => trivial
          | some x => exact ⟨_, rfl⟩
        | insAddDel c k e loc =>
          dsimp only
          cases s.ents e with
          | none => trivial
          | some x => exact ⟨_, rfl⟩
        | relDec w =>
          dsimp only
          cases s.ents w.h with
          | none => trivial
          | some x => exact ⟨_, rfl⟩
        | relCheck c e =>
          dsimp only
          cases s.ents e with
          | none => trivial
          | some x =>
            dsimp only
            split <;> exact ⟨_, rfl⟩
        | relErase c e =>
          dsimp only
          cases s.ents e with
          | none => trivial
          | some x => exact ⟨_, rfl⟩
    | create c k mask pre =>
      simp only [act]
      split
      · exact ⟨_, rfl⟩
      · trivial
    | destroy mask =>
      simp only [act]
      split
      · exact ⟨_, rfl⟩
      · trivial
    | copy i =>
      simp only [act]
      split
      · cases s.objs[i]? with
        | none => trivial
        | some w =>
          dsimp only
          cases s.ents w.h with
          | none => trivial
          | some x => exact ⟨_, rfl⟩
      · trivial
    | copyKid i j =>
      simp only [act]
      split
      · cases s.objs[i]? with
        | none => trivial
        | some w =>
          dsimp only
          cases s.ents w.h with
          | none => trivial
          | some x =>
            dsimp only
            split
            · cases x.kids[j]? with
              | none => trivial
              | some v =>
                dsimp only
                cases s.ents v.h with
                | none => trivial
                | some y => exact ⟨_, rfl⟩
            · trivial
      · trivial
    | swap i j =>
      simp only [act]
      split
      · split
        · exact ⟨_, rfl⟩
        · trivial
      · trivial
    | read i =>
      simp only [act]
      split
      · cases s.objs[i]? with
        | none => trivial
        | some w =>
          dsimp only
          cases s.ents w.h with
          | none => trivial
          | some x =>
            dsimp only
            split
            · exact ⟨_, rfl⟩
            · trivial
      · trivial
    | finish mask drop =>
      simp only [act]
      split
      · split
        · trivial
        · split
          · trivial
          · exact ⟨_, rfl⟩
      · trivial
    | throw_ =>
      simp only [act]
      split
      · exact ⟨_, rfl⟩
      · exact ⟨_, rfl⟩
      · trivial

theorem step_length {s s' : St K} {t : Nat} {a : Act K} (h : step cfg s t a = .ok s') :
    s'.thr.length = s.thr.length := by
  unfold step at h
  split at h
  · cases h
  · rename_i st _
    cases a with
    | run =>
      cases st with
      | nil => cases h
      | cons f rest =>
        simp only [act] at h
        unfold lib at h
        dsimp only at h
        cases f <;> dsimp only at h <;> repeat' split at h
        all_goals first | cases h; done | (cases h; simp)
    | _ =>
      simp only [act] at h
      repeat' split at h
      all_goals first | cases h; done | (cases h; simp) | (cases h; rfl)

theorem sim_exec (cfg : Cfg K) (hcfg : CfgOk cfg) (hdl : cfg.deleter = true) (hl : cfg.locking = false)
    (acts : List (Nat × Act K)) {s : St K}
    (h : Inv { cfg with locking := true } s) (h1 : s.thr.length = 1) (l : Nat → Option (Nat × Nat)) :
    Sim (exec { cfg with locking := true } acts s) (exec cfg acts { s with lock := l }) := by
  have hcfg' : CfgOk { cfg with locking := true } := ⟨hcfg.refl, hcfg.symm, hcfg.trans⟩
  induction acts generalizing s l with
  | nil => exact ⟨l, rfl⟩
  | cons p acts ih =>
    obtain ⟨t, a⟩ := p
    have hg := step_good hcfg' rfl hdl h t a
    have hs := sim_step cfg hcfg hdl hl h h1 l t a
    unfold exec
    cases hx : step { cfg with locking := true } s t a with
    | ok s' =>
      rw [hx] at hs hg
      cases hy : step cfg { s with lock := l } t a with
      | ok s'' =>
        rw [hy] at hs
        obtain ⟨l', rfl⟩ := hs
        exact ih hg ((step_length hx).trans h1) l'
      | no => rw [hy] at hs; exact hs.elim
      | ub => rw [hy] at hs; exact hs.elim
      | reentrant => rw [hy] at hs; exact hs.elim
    | no =>
      rw [hx] at hs
      cases hy : step cfg { s with lock := l } t a with
      | no => exact ih h h1 l
      | ok s'' => rw [hy] at hs; exact hs.elim
      | ub => rw [hy] at hs; exact hs.elim
      | reentrant => rw [hy] at hs; exact hs.elim
    | ub => rw [hx] at hg; exact hg.elim
    | reentrant =>
      rw [hx] at hs
      cases hy : step cfg { s with lock := l } t a with
      | reentrant => trivial
      | ok s'' => rw [hy] at hs; exact hs.elim
      | ub => rw [hy] at hs; exact hs.elim
      | no => rw [hy] at hs; exact hs.elim

end Verif.Conc

import Verif.CFacLin

/-!
# The model of `concurrent_factory` refines the atomic specification with lingering values: steps
-/

set_option autoImplicit false

namespace Verif.CFac
open Verif.Conc (Fw Cfg CfgOk pick acquire unlock fwCount tot fwCount_pos tot_pos tot_le exists_of_tot tot_perm
  tot_eq_zero tot_nil tot_cons tot_append split set_self nsum_pos)
open Verif.Linger (Val Call drops setVal)
variable {K : Type} {cfg : Cfg K}

/-- Actions that may have no counterpart in the specification: those of the library.  (No code of its own: used in statements and
proofs.) -/
def silent : Act K → Bool
  | .run => true
  | .gcVisit _ => true
  | _ => false

theorem of_eq {eqv : Nat → K → K → Bool} {a a1 a2 : Linger.St K} {t : Nat} {act : Act K} (h : Linger.Step eqv a t act a1)
    (he : a2 = a1) : Linger.Step eqv a t act a2 := he ▸ h

/-- The garbage collector works on an element in the course of a pass.  (No code of its own: used in statements and proofs.) -/
def Shaped : List (Frame K) → Prop
  | [] => True
  | .gcTest c _ :: rest => (∃ n todo r, rest = .gcPass c n todo :: r) ∧ Shaped rest
  | .gcErase c _ :: rest => (∃ n todo r, rest = .gcPass c n todo :: r) ∧ Shaped rest
  | .gcUnlink c _ :: rest => (∃ n todo r, rest = .gcPass c n todo :: r) ∧ Shaped rest
  | .gcLeave c _ :: rest => (∃ n todo r, rest = .gcPass c n todo :: r) ∧ Shaped rest
  | _ :: rest => Shaped rest

/-- ... on all threads.  (No code of its own: used in statements and proofs.) -/
def Nested (s : St K) : Prop := ∀ st ∈ s.thr, Shaped st

theorem Shaped.tail {f : Frame K} {rest : List (Frame K)} (h : Shaped (f :: rest)) : Shaped rest := by
  cases f <;> first | exact h.2 | exact h

theorem Shaped.rel {rest : List (Frame K)} (h : Shaped rest) (l : List (Fw K)) : Shaped (l.map .rel ++ rest) := by
  induction l with
  | nil => exact h
  | cons w l ih => exact ih

theorem Nested.set {s : St K} (h : Nested s) {t : Nat} {st : List (Frame K)} (hst : Shaped st) :
    ∀ st' ∈ s.thr.set t st, Shaped st' := by
  intro st' h1
  rcases List.mem_or_eq_of_mem_set h1 with h1 | rfl
  · exact h _ h1
  · exact hst

theorem lib_nested {s s' : St K} (h : Nested s) {t : Nat} {f : Frame K} {rest : List (Frame K)}
    (ht : s.thr[t]? = some (f :: rest)) (hs : lib cfg s t f rest = .ok s') : Nested s' := by
  have h0 : Shaped (f :: rest) := h _ (List.mem_of_getElem? ht)
  have h1 := h0.tail
  cases f <;> dsimp only [lib] at hs
  case insLeave c k e loc => cases hs; exact h.set (Shaped.rel (rest := .insTrack c k e :: rest) h1 loc)
  case insFail c e loc => cases hs; exact h.set (Shaped.rel (rest := .insUnwind c :: rest) h1 loc)
  case insVisit => 
    split at hs <;> cases hs
    refine h.set ?_
    split <;> exact h1
  case rel w =>
    split at hs
    · cases hs
    split at hs <;> cases hs
    · refine h.set ?_
      split <;> exact h1
    · exact h.set h1
  case gcTest c e =>
    split at hs <;> cases hs
    refine h.set ?_
    split <;> exact ⟨h0.1, h1⟩
  case gcErase c e =>
    split at hs <;> cases hs
    exact h.set (Shaped.rel (rest := .gcUnlink c e :: rest) ⟨h0.1, h1⟩ _)
  all_goals
    repeat' split at hs
    all_goals cases hs
    all_goals exact h.set h1

theorem step_nested {s s' : St K} (h : Nested s) {t : Nat} {a : Act K} (hs : step cfg s t a = .ok s') : Nested s' := by
  unfold step at hs
  cases ht : s.thr[t]? with
  | none => rw [ht] at hs; cases hs
  | some st =>
    rw [ht] at hs
    have h0 : Shaped st := h _ (List.mem_of_getElem? ht)
    cases a with
    | run =>
      dsimp only [act] at hs
      split at hs
      · cases hs
      · exact lib_nested h ht hs
    | destroy mask =>
      dsimp only [act] at hs
      split at hs <;> cases hs
      exact h.set (h0.rel _)
    | finish mask dr =>
      dsimp only [act] at hs
      split at hs
      · split at hs
        · cases hs
        split at hs
        · cases hs
        cases hs
        refine h.set ?_
        cases dr with
        | true => exact Shaped.rel (rest := .insDone _ _ _ _ :: _) h0.tail _
        | false => exact h0.tail
      · cases hs
    | throw_ =>
      dsimp only [act] at hs
      split at hs
      · cases hs; exact h.set h0.tail
      · cases hs; exact h.set (Shaped.rel (rest := .insUnwind _ :: _) h0.tail _)
      · split at hs
        · cases hs; exact h.set (Shaped.rel (rest := .insUnwind _ :: _) h0.tail _)
        · cases hs
      · cases hs
    | gcVisit e =>
      dsimp only [act] at hs
      split at hs
      · split at hs
        · cases hs
        split at hs <;> cases hs
        exact h.set ⟨⟨_, _, _, rfl⟩, h0.tail⟩
      · cases hs
    | create c k mask pre =>
      dsimp only [act] at hs
      split at hs <;> cases hs
      exact h.set (st := .insLock _ _ _ _ :: st) h0
    | _ =>
      dsimp only [act] at hs
      repeat' split at hs
      all_goals cases hs
      all_goals exact h

theorem start_nested (n : Nat) (gcs : List Nat) : Nested (start n gcs : St K) := by
  intro st hst
  rcases List.mem_append.1 hst with h | h
  · rw [List.eq_of_mem_replicate h]; trivial
  · obtain ⟨c, _, rfl⟩ := List.mem_map.1 h
    trivial

/-- A step of the library. -/
theorem lib_sim {s s' : St K} (hi : Inv cfg s) (hn : Nested s) {t : Nat} {f : Frame K} {rest : List (Frame K)}
    (ht : s.thr[t]? = some (f :: rest)) (hs : lib cfg s t f rest = .ok s') :
    abs s' = abs s ∨ Linger.Step cfg.eqv (abs s) t .run (abs s') := by
  have hmem : f ∈ frames s := List.mem_flatten.2 ⟨_, List.mem_of_getElem? ht, List.mem_cons_self⟩
  have hf := hi.core.frames f hmem
  have ha := abs_top ht
  rw [absS_cons] at ha
  have ht1 : s.thr[t]? = some ([f] ++ rest) := ht
  have idle : ∀ {new : List (Frame K)} {ents : Nat → Option (Ent K)} {vis : Nat → Option Nat} {lock : Nat → Option (Nat × Nat)},
      (∀ e, (ents e).map valOf = (s.ents e).map valOf) → (∀ e, tot (unlF e) new = unlF e f) →
      absS s.ents new = absF s.ents f → abs ⟨ents, s.next, vis, lock, s.thr.set t (new ++ rest), s.objs⟩ = abs s := by
    intro new ents vis lock h1 h2 h3
    rw [abs_same ht1 h1 (by simpa using h2), h3]
    exact go_self ha
  cases f with
  | insLock c k loc pre =>
    dsimp only [lib] at hs
    split at hs <;> cases hs
    exact .inl (idle (new := [.insHash c k loc pre]) (fun _ => rfl) (fun _ => rfl) rfl)
  | insHash c k loc pre =>
    cases hs
    exact .inl (idle (new := [.insFind c k loc pre]) (fun _ => rfl) (fun _ => rfl) rfl)
  | insFind c k loc pre =>
    dsimp only [lib] at hs
    split at hs
    · cases hs
    cases hfi : find cfg s c k with
    | some e =>
      rw [hfi] at hs
      dsimp only at hs
      split at hs <;> cases hs
      rename_i hv
      obtain ⟨x, hx, h1, h2⟩ := find_some hfi
      have hval := abs_val hx (hi.shown_vis hv)
      have hEq := abs_same (new := [.insVisit c k e loc]) (next := s.next) (objs := s.objs) (vis := setVis s.vis e (some t))
        (lock := s.lock) ht1 (ents := s.ents) (fun _ => rfl) (fun _ => rfl)
      cases hc : x.cted with
      | true =>
        refine .inr (of_eq (Linger.Step.share (h := e) ha hval hc h1 h2) (hEq.trans ?_))
        simp [absF, hx, hc, abs, Linger.St.go]
      | false =>
        refine .inr (of_eq (Linger.Step.resume (h := e) ha hval hc (hi.left hx hc hv) h1 h2) (hEq.trans ?_))
        simp [absF, hx, hc, abs, Linger.St.go]
    | none =>
      rw [hfi] at hs
      cases hs
      have hnext := hi.core.bound s.next (Nat.le_refl _)
      have hfree := find_none hi.core.bound hfi
      have hF : (abs s).Free cfg.eqv c k := by
        intro e v hv hc
        obtain ⟨x, hx, rfl⟩ := of_absV hv
        exact hfree e x hx hc
      have hnone : (abs s).vals s.next = none := by
        cases hv : (abs s).vals s.next with
        | none => rfl
        | some v =>
          obtain ⟨x, hx, _⟩ := of_absV hv
          rw [hnext] at hx
          cases hx
      have hex : ∀ g ∈ (s.thr.set t rest).flatten, elemOf g ≠ some s.next := by
        intro g hg he
        obtain ⟨x, hx⟩ := elem_ent (hi.core.frames g ((frames_cons ht).mem_iff.2 (List.mem_cons_of_mem _ hg))) he
        rw [hnext] at hx
        cases hx
      have hEq := abs_chg (new := [.insVisit c k s.next []]) (next := s.next + 1) (objs := s.objs)
        (vis := setVis s.vis s.next (some t)) (lock := s.lock) ht1 (x := some ⟨c, k, pre, loc, 0, 0⟩) hex (fun _ _ => rfl)
      cases pre with
      | true =>
        refine .inr (of_eq (Linger.Step.keep (h := s.next) ha hF hnone (hi.fresh hnext)) (hEq.trans ?_))
        simp [absF, setEnt_same, abs, Linger.St.go, unlF, valOf]
      | false =>
        refine .inr (of_eq (Linger.Step.start (h := s.next) ha hF hnone (hi.fresh hnext)) (hEq.trans ?_))
        simp [absF, setEnt_same, abs, Linger.St.go, unlF, valOf]
  | insVisit c k e loc =>
    obtain ⟨⟨x, hx, h1, h2⟩, h3⟩ := hf
    dsimp only [lib] at hs
    rw [hx] at hs
    cases hs
    cases hc : x.cted with
    | true => exact .inl (idle (new := [.insAddRef c k e loc]) (fun _ => rfl) (fun _ => rfl) (by simp [absF, hx, hc]))
    | false => exact .inl (idle (new := [.insUser c k e loc]) (fun _ => rfl) (fun _ => rfl) (by simp [absF, hx, hc]))
  | insUser c k e loc => cases hs
  | insDone c k e loc =>
    obtain ⟨⟨x, hx, h1, h2, h3⟩, h4⟩ := hf
    dsimp only [lib] at hs
    rw [hx] at hs
    cases hs
    have hEq := abs_chg (new := [.insAddRef c k e loc]) (next := s.next) (objs := s.objs) (vis := s.vis) (lock := s.lock) ht1
      (x := some { x with cted := true }) (hi.excl ht (e := e) rfl) (fun _ _ => rfl)
    refine .inr (of_eq (Linger.Step.store (h := e) ha (abs_val hx (hi.shown hmem rfl rfl))) (hEq.trans ?_))
    simp [absF, abs, Linger.St.go, unlF, valOf]
  | insAddRef c k e loc =>
    obtain ⟨⟨x, hx, _⟩, _⟩ := hf
    dsimp only [lib] at hs
    rw [show s.ents e = some x from hx] at hs
    cases hs
    exact .inl (idle (new := [.insLeave c k e loc]) (map_val hx rfl) (fun _ => rfl) rfl)
  | insLeave c k e loc =>
    cases hs
    have hEq := abs_same (new := loc.map .rel ++ [.insTrack c k e]) (next := s.next) (objs := s.objs) (vis := setVis s.vis e none)
      (lock := s.lock) ht1 (ents := s.ents) (fun _ => rfl) (fun e => by rw [tot_append, unl_rel]; rfl)
    rw [List.append_assoc] at hEq
    refine .inr (of_eq (Linger.Step.tidy ha) (hEq.trans ?_))
    simp [absF, abs, Linger.St.go]
  | insFail c e loc =>
    cases hs
    have := idle (new := loc.map .rel ++ [.insUnwind c]) (ents := s.ents) (vis := setVis s.vis e none) (lock := s.lock)
      (fun _ => rfl) (fun e => by rw [tot_append, unl_rel]; rfl) (by simp [absF])
    rw [List.append_assoc] at this
    exact .inl this
  | insUnwind c =>
    dsimp only [lib] at hs
    split at hs <;> cases hs
    exact .inl (idle (new := []) (fun _ => rfl) (fun _ => rfl) rfl)
  | insTrack c k e =>
    obtain ⟨x, hx, _⟩ := hf
    dsimp only [lib] at hs
    rw [show s.ents e = some x from hx] at hs
    cases hs
    exact .inl (idle (new := [.insUnlock c k e]) (map_val hx rfl) (fun _ => rfl) rfl)
  | insUnlock c k e =>
    dsimp only [lib] at hs
    split at hs <;> cases hs
    rename_i l _
    have hEq := abs_same (new := []) (next := s.next) (objs := ⟨e, c, k⟩ :: s.objs) (vis := s.vis)
      (lock := l) ht1 (ents := s.ents) (fun _ => rfl) (fun e => rfl)
    refine .inr (of_eq (Linger.Step.ret ha) (hEq.trans ?_))
    simp [abs, Linger.St.go]
  | rel w =>
    obtain ⟨x, hx, _⟩ := hf
    dsimp only [lib] at hs
    rw [hx] at hs
    dsimp only at hs
    split at hs <;> cases hs
    · refine .inl ?_
      split
      · exact idle (new := [.relLock w]) (map_val hx rfl) (fun _ => rfl) rfl
      · exact idle (new := [.relDec w]) (map_val hx rfl) (fun _ => rfl) rfl
    · exact .inl (idle (new := [.relDec w]) (fun _ => rfl) (fun _ => rfl) rfl)
  | relLock w =>
    dsimp only [lib] at hs
    split at hs <;> cases hs
    exact .inl (idle (new := [.relCheck w]) (fun _ => rfl) (fun _ => rfl) rfl)
  | relCheck w =>
    dsimp only [lib] at hs
    split at hs <;> cases hs
    exact .inl (idle (new := [.relUnlock w]) (fun _ => rfl) (fun _ => rfl) rfl)
  | relUnlock w =>
    dsimp only [lib] at hs
    split at hs <;> cases hs
    exact .inl (idle (new := [.relDec w]) (fun _ => rfl) (fun _ => rfl) rfl)
  | relDec w =>
    obtain ⟨x, hx, _⟩ := hf
    dsimp only [lib] at hs
    rw [hx] at hs
    cases hs
    have hEq := abs_same (new := []) (next := s.next) (objs := s.objs) (vis := s.vis)
      (lock := s.lock) ht1 (map_val hx (x' := { x with ref := x.ref - 1 }) rfl) (fun e => rfl)
    refine .inr (of_eq (Linger.Step.drop ha) (hEq.trans ?_))
    simp [abs, Linger.St.go]
  | gcIdle c =>
    cases hs
    exact .inl (idle (new := [.gcPass c s.next (elems s c)]) (fun _ => rfl) (fun _ => rfl) rfl)
  | gcPass c from_ todo =>
    dsimp only [lib] at hs
    split at hs <;> cases hs
    exact .inl (idle (new := [.gcIdle c]) (fun _ => rfl) (fun _ => rfl) rfl)
  | gcTest c e =>
    dsimp only [lib] at hs
    split at hs <;> cases hs
    refine .inl ?_
    split
    · exact idle (new := [.gcErase c e]) (fun _ => rfl) (fun _ => rfl) rfl
    · exact idle (new := [.gcLeave c e]) (fun _ => rfl) (fun _ => rfl) rfl
  | gcErase c e =>
    obtain ⟨x, hx, h1, h2⟩ := hf
    dsimp only [lib] at hs
    rw [hx] at hs
    cases hs
    obtain ⟨⟨n, todo, r, rfl⟩, _⟩ := hn _ (List.mem_of_getElem? ht)
    have hEq := abs_chg (new := x.kids.map .rel ++ [.gcUnlink c e]) (next := s.next) (objs := s.objs) (vis := s.vis)
      (lock := s.lock) ht1 (x := some { x with cted := false, kids := [] }) (hi.excl ht (e := e) rfl)
      (fun i hne => by rw [tot_append, unl_rel]; simp [unlF, Ne.symm hne])
    rw [List.append_assoc] at hEq
    simp only [absF, absS_cons, List.nil_append] at ha
    refine .inr (of_eq (Linger.Step.collect (h := e) ha (abs_val hx (hi.shown hmem rfl rfl)) h1 (hi.garbage ht hx h2))
      (hEq.trans ?_))
    simp [absF, abs, Linger.St.go, unlF, valOf]
  | gcUnlink c e =>
    obtain ⟨x, hx, h1, h2, h3⟩ := hf
    dsimp only [lib] at hs
    rw [hx] at hs
    cases hs
    refine .inl ?_
    have hEq := abs_chg (new := []) (next := s.next) (objs := s.objs) (vis := setVis s.vis e none) (lock := s.lock) ht1
      (x := none) (hi.excl ht (e := e) rfl) (fun i hne => by simp [unlF, Ne.symm hne])
    refine hEq.trans ?_
    have hv : setVal (abs s).vals e none = (abs s).vals := by
      funext i
      unfold setVal
      split
      · rename_i he
        subst he
        have : 0 < tot (unlF i) (frames s) := tot_pos hmem (by simp [unlF])
        simp [abs, absV, this]
      · rfl
    have := go_self ha
    simp only [absS_nil, tot_nil, Nat.lt_irrefl, if_false, Option.map_none, hv]
    exact this
  | gcLeave c e =>
    cases hs
    exact .inl (idle (new := []) (fun _ => rfl) (fun _ => rfl) rfl)

/-- Whatever a thread does next, the specification does the same or, if it is a step in the library, nothing. -/
theorem step_sim {s s' : St K} (hi : Inv cfg s) (hn : Nested s) {t : Nat} {a : Act K} (hs : step cfg s t a = .ok s') :
    (silent a = true ∧ abs s' = abs s) ∨ Linger.Step cfg.eqv (abs s) t a (abs s') := by
  unfold step at hs
  cases ht : s.thr[t]? with
  | none => rw [ht] at hs; cases hs
  | some st =>
    rw [ht] at hs
    have ha := abs_top ht
    have ht0 : s.thr[t]? = some ([] ++ st) := ht
    cases a with
    | run =>
      dsimp only [act] at hs
      cases st with
      | nil => cases hs
      | cons f rest => exact (lib_sim hi hn ht hs).imp (fun h => ⟨rfl, h⟩) id
    | create c k mask pre =>
      dsimp only [act] at hs
      split at hs <;> cases hs
      rename_i hu
      have hEq := abs_same (new := [.insLock c k (pick mask s.objs).1 pre]) (next := s.next) (objs := (pick mask s.objs).2)
        (vis := s.vis) (lock := s.lock) ht0 (ents := s.ents) (fun _ => rfl) (fun _ => rfl)
      refine .inr (of_eq (Linger.Step.create ha (inUser_abs hu)) (hEq.trans ?_))
      simp [absF, abs, Linger.St.go]
    | destroy mask =>
      dsimp only [act] at hs
      split at hs <;> cases hs
      rename_i hu
      have hEq := abs_same (new := (pick mask s.objs).1.map .rel) (next := s.next) (objs := (pick mask s.objs).2)
        (vis := s.vis) (lock := s.lock) ht0 (ents := s.ents) (fun _ => rfl) (fun e => unl_rel e _)
      refine .inr (of_eq (Linger.Step.destroy (mask := mask) ha (inUser_abs hu)) (hEq.trans ?_))
      simp [abs, Linger.St.go]
    | copy i =>
      dsimp only [act] at hs
      split at hs
      case isFalse => cases hs
      rename_i hu
      split at hs
      · cases hs
      rename_i w hw
      split at hs
      · cases hs
      rename_i x hx
      cases hs
      have hEq := abs_same (new := []) (next := s.next) (objs := w :: s.objs) (vis := s.vis) (lock := s.lock) ht0
        (map_val hx (x' := { x with ref := x.ref + 1, tref := if cfg.tracks then x.tref + 1 else x.tref }) rfl) (fun _ => rfl)
      simp only [List.nil_append, absS_nil, set_self ht, go_self ha] at hEq
      exact .inr (of_eq (Linger.Step.copy ha (inUser_abs hu) hw
        (abs_val hx (hi.shown_ref (hi.core.ref_pos_obj (List.mem_of_getElem? hw))))) hEq)
    | copyKid i j =>
      dsimp only [act] at hs
      split at hs
      case isFalse => cases hs
      rename_i hu
      split at hs
      · cases hs
      rename_i w hw
      split at hs
      · cases hs
      rename_i x hx
      split at hs
      case isFalse => cases hs
      rename_i hc
      split at hs
      · cases hs
      rename_i v hv
      split at hs
      · cases hs
      rename_i y hy
      cases hs
      have hEq := abs_same (new := []) (next := s.next) (objs := v :: s.objs) (vis := s.vis) (lock := s.lock) ht0
        (map_val hy (x' := { y with ref := y.ref + 1, tref := if cfg.tracks then y.tref + 1 else y.tref }) rfl) (fun _ => rfl)
      simp only [List.nil_append, absS_nil, set_self ht, go_self ha] at hEq
      exact .inr (of_eq (Linger.Step.copyKid ha (inUser_abs hu) hw
        (abs_val hx (hi.shown_ref (hi.core.ref_pos_obj (List.mem_of_getElem? hw)))) hc hv) hEq)
    | swap i j =>
      dsimp only [act] at hs
      repeat' split at hs
      all_goals cases hs
      rename_i hu _ _ _ _ hv hw
      exact .inr (.swap ha (inUser_abs hu) hv hw)
    | read i =>
      dsimp only [act] at hs
      repeat' split at hs
      all_goals cases hs
      rename_i hu _ w hw _ x hx hc
      exact .inr (.read ha (inUser_abs hu) hw (abs_val hx (hi.shown_ref (hi.core.ref_pos_obj (List.mem_of_getElem? hw)))) hc)
    | finish mask dr =>
      dsimp only [act] at hs
      split at hs
      · rename_i c k e loc rest
        have hmem : Frame.insUser c k e loc ∈ frames s :=
          List.mem_flatten.2 ⟨_, List.mem_of_getElem? ht, List.mem_cons_self⟩
        obtain ⟨⟨x, hx, h1, h2, h3⟩, h4⟩ := hi.core.frames _ hmem
        rw [hx] at hs
        dsimp only at hs
        rw [if_neg (by simp [h2])] at hs
        cases hs
        rw [absS_cons] at ha
        have hEq := abs_chg (old := [.insUser c k e loc]) (new := (if dr then x.kids.map .rel else []) ++ [.insDone c k e loc])
          (next := s.next) (objs := (pick mask s.objs).2) (vis := s.vis) (lock := s.lock) ht
          (x := some { x with kids := if dr then (pick mask s.objs).1 else x.kids ++ (pick mask s.objs).1 })
          (hi.excl ht (e := e) rfl) (fun i _ => by cases dr <;> simp [unlF])
        rw [List.append_assoc] at hEq
        refine .inr (of_eq (Linger.Step.finish (h := e) (mask := mask) (dr := dr) ha
          (abs_val hx (hi.shown hmem rfl rfl))) (hEq.trans ?_))
        cases dr <;> simp [absF, abs, Linger.St.go, unlF, valOf]
      · cases hs
    | throw_ =>
      dsimp only [act] at hs
      split at hs
      · rename_i c k e loc rest
        cases hs
        rw [absS_cons] at ha
        have hEq := abs_same (old := [.insUser c k e loc]) (new := [.insFail c e loc]) (next := s.next) (objs := s.objs)
          (vis := s.vis) (lock := s.lock) ht (ents := s.ents) (fun _ => rfl) (fun _ => rfl)
        refine .inr (of_eq (Linger.Step.throwBuild ha) (hEq.trans ?_))
        simp [absF, abs, Linger.St.go]
      · rename_i c k loc pre rest
        cases hs
        rw [absS_cons] at ha
        have hEq := abs_same (old := [.insHash c k loc pre]) (new := loc.map .rel ++ [.insUnwind c]) (next := s.next) (objs := s.objs)
          (vis := s.vis) (lock := s.lock) ht (ents := s.ents) (fun _ => rfl) (fun e => by rw [tot_append, unl_rel]; rfl)
        rw [List.append_assoc] at hEq
        refine .inr (of_eq (Linger.Step.throwFind ha) (hEq.trans ?_))
        simp [absF, abs, Linger.St.go]
      · rename_i c k loc pre rest
        split at hs <;> cases hs
        rw [absS_cons] at ha
        have hEq := abs_same (old := [.insFind c k loc pre]) (new := loc.map .rel ++ [.insUnwind c]) (next := s.next) (objs := s.objs)
          (vis := s.vis) (lock := s.lock) ht (ents := s.ents) (fun _ => rfl) (fun e => by rw [tot_append, unl_rel]; rfl)
        rw [List.append_assoc] at hEq
        refine .inr (of_eq (Linger.Step.throwFind ha) (hEq.trans ?_))
        simp [absF, abs, Linger.St.go]
      · cases hs
    | gcVisit e =>
      dsimp only [act] at hs
      split at hs
      · rename_i c f todo rest
        split at hs
        · cases hs
        split at hs <;> cases hs
        refine .inl ⟨rfl, ?_⟩
        have hEq := abs_same (old := [.gcPass c f todo]) (new := [.gcTest c e, .gcPass c f (todo.filter (· ≠ e))]) (next := s.next)
          (objs := s.objs) (vis := setVis s.vis e (some t)) (lock := s.lock) ht (ents := s.ents) (fun _ => rfl) (fun _ => rfl)
        rw [absS_cons] at ha
        refine hEq.trans (Eq.trans ?_ (go_self ha))
        simp [absF, abs, Linger.St.go]
      · cases hs

end Verif.CFac

import Verif.PlainInv
import Verif.ConcRank

/-!
# Flyweights without tracking, used by several threads: order of mutexes
-/

set_option autoImplicit false

namespace Verif.Plain
open Verif.Conc (Fw Act Cfg CfgOk pick acquire unlock tot tot_cons exists_of_tot depthOf NoCycles strict_of_ne)
open Relation
variable {K : Type} {cfg : Cfg K} {uses : Nat → Nat → Prop}

/-- The flyweight type a frame deals with.  (No code of its own: used in statements and proofs.) -/
def typ : Frame K → Nat
  | .lock c .. => c
  | .find c .. => c
  | .visit c .. => c
  | .user c .. => c
  | .done c .. => c
  | .catch_ c _ => c
  | .unwind c => c
  | .unlock c .. => c

/-- Constructors of values of type `c` create flyweights of type `c'` only if `uses c c'`: what the action of a thread
with stack `st` must respect.  (No code of its own: used in statements and proofs.) -/
def Disc (uses : Nat → Nat → Prop) (st : List (Frame K)) : Act K → Prop
  | .create c _ _ _ => ∀ c' k' e rest, st = .user c' k' e :: rest → uses c' c
  | _ => True

/-- The states that programs respecting `uses` can reach with `n` threads.  (No code of its own: used in statements and
proofs.) -/
inductive Reachable (cfg : Cfg K) (uses : Nat → Nat → Prop) (n : Nat) : St K → Prop
  | start : Reachable cfg uses n (start n)
  | step {s s' : St K} {t : Nat} {st : List (Frame K)} {a : Act K} : Reachable cfg uses n s → s.thr[t]? = some st →
      Disc uses st a → step cfg s t a = .ok s' → Reachable cfg uses n s'

/-- Nesting of calls follows `uses`.  (No code of its own: used in proofs.) -/
def Order (uses : Nat → Nat → Prop) (thr : List (List (Frame K))) : Prop :=
  ∀ (t : Nat) (st : List (Frame K)), thr[t]? = some st → st.Pairwise fun f g => TransGen uses (typ g) (typ f)

theorem Order.set {thr : List (List (Frame K))} (h : Order uses thr) (t : Nat) {st : List (Frame K)}
    (hs : st.Pairwise fun f g => TransGen uses (typ g) (typ f)) : Order uses (thr.set t st) := by
  intro t' st' ht
  rw [List.getElem?_set] at ht
  split at ht
  · split at ht <;> cases ht
    exact hs
  · exact h t' st' ht

theorem Order.top {thr : List (List (Frame K))} (h : Order uses thr) {t : Nat} {f : Frame K} {rest : List (Frame K)}
    (ht : thr[t]? = some (f :: rest)) (g : Frame K) (hg : typ g = typ f) : Order uses (thr.set t (g :: rest)) := by
  have := h t _ ht
  rw [List.pairwise_cons] at this
  exact h.set t (List.pairwise_cons.2 ⟨fun g' hg' => by rw [hg]; exact this.1 g' hg', this.2⟩)

theorem Order.pop {thr : List (List (Frame K))} (h : Order uses thr) {t : Nat} {f : Frame K} {rest : List (Frame K)}
    (ht : thr[t]? = some (f :: rest)) : Order uses (thr.set t rest) :=
  h.set t (List.pairwise_cons.1 (h t _ ht)).2

theorem act_order {s s' : St K} (h : Order uses s.thr) {t : Nat} {st : List (Frame K)}
    (ht : s.thr[t]? = some st) {a : Act K} (hd : Disc uses st a) (hs : act cfg s t st a = .ok s') : Order uses s'.thr := by
  cases a with
  | run =>
    dsimp only [act] at hs
    cases st with
    | nil => cases hs
    | cons f rest =>
      cases f <;> dsimp only [lib] at hs
      all_goals repeat' split at hs
      all_goals cases hs
      all_goals first | exact h.top ht _ rfl | exact h.pop ht
  | create c k mask pre =>
    dsimp only [act] at hs
    split at hs
    · rename_i hu
      cases hs
      have := h t _ ht
      refine h.set t (List.pairwise_cons.2 ⟨fun g hg => ?_, this⟩)
      cases st with
      | nil => cases hg
      | cons f rest =>
        cases f with
        | user c' k' e =>
          have h1 : TransGen uses c' c := .single (hd c' k' e rest rfl)
          rcases List.mem_cons.1 hg with rfl | hg
          · exact h1
          · exact ((List.pairwise_cons.1 this).1 g hg).trans h1
        | _ => cases hu
    · cases hs
  | finish mask drop =>
    dsimp only [act] at hs
    repeat' split at hs
    all_goals cases hs
    all_goals exact h.top ht _ rfl
  | throw_ =>
    dsimp only [act] at hs
    repeat' split at hs
    all_goals cases hs
    all_goals exact h.top ht _ rfl
  | _ =>
    dsimp only [act] at hs
    repeat' split at hs
    all_goals cases hs
    all_goals exact h

theorem Reachable.inv (hcfg : CfgOk cfg) (hlk : cfg.locking = true) {n : Nat} {s : St K}
    (h : Reachable cfg uses n s) : Inv cfg s ∧ Order uses s.thr := by
  induction h with
  | start =>
    refine ⟨start_inv n, fun t st ht => ?_⟩
    rw [List.eq_of_mem_replicate (List.mem_of_getElem? ht)]
    exact .nil
  | @step s s' t st a _ ht hd hs ih =>
    have hg := step_good hcfg hlk ih.1 t a
    rw [hs] at hg
    refine ⟨hg, act_order (cfg := cfg) ih.2 ht hd ?_⟩
    simpa [Plain.step, ht] using hs

/-! ## Waiting for each other -/

/-- Thread `t` waits for the mutex of type `c`.  (No code of its own: used in statements and proofs.) -/
def wants (s : St K) (t c : Nat) : Prop := ∃ k loc pre rest, s.thr[t]? = some (.lock c k loc pre :: rest)

/-- Thread `t` waits for a mutex that thread `t'` holds.  (No code of its own: used in statements and proofs.) -/
def Waits (s : St K) (t t' : Nat) : Prop := t ≠ t' ∧ ∃ c d, wants s t c ∧ s.lock c = some (t', d)

/-- Thread `t` is in the library, not in a value constructor, and cannot go on.  (No code of its own: used in statements
and proofs.) -/
def Blocked (cfg : Cfg K) (s : St K) (t : Nat) : Prop :=
  ∃ st, s.thr[t]? = some st ∧ inUser st = false ∧ step cfg s t .run = .no

theorem Blocked.waits {s : St K} (hlk : cfg.locking = true) {t : Nat} (h : Blocked cfg s t) : ∃ t', Waits s t t' := by
  obtain ⟨st, ht, hu, hs⟩ := h
  cases st with
  | nil => cases hu
  | cons f rest =>
    simp only [step, ht] at hs
    cases f with
    | lock c k loc pre =>
      dsimp only [act, lib] at hs
      split at hs
      · rename_i hc
        unfold acquire at hc
        rw [if_pos hlk] at hc
        cases hl : s.lock c with
        | none => rw [hl] at hc; cases hc
        | some p =>
          obtain ⟨o, d⟩ := p
          rw [hl] at hc
          by_cases ho : o = t
          · simp [ho] at hc
          · exact ⟨o, Ne.symm ho, c, d, ⟨k, loc, pre, rest, ht⟩, hl⟩
      · cases hs
    | user c k e => cases hu
    | _ =>
      dsimp only [act, lib] at hs
      repeat' split at hs
      all_goals cases hs

theorem wants_strict {s : St K} (hi : Inv cfg s) (hr : Order uses s.thr) {t c c' d : Nat} (hw : wants s t c')
    (hl : s.lock c = some (t, d)) : TransGen uses c c' := by
  obtain ⟨hd, hlt⟩ := hi.locks.pos c t d hl
  obtain ⟨k, loc, pre, rest, ht⟩ := hw
  have h1 := hi.locks.depth t _ ht c
  simp only [depthOf, hl, if_true, tot_cons] at h1
  have h0 : holdF c (.lock c' k loc pre) = 0 := by simp [holdF, holds]
  obtain ⟨g, hg, hpos⟩ := exists_of_tot (g := holdF c) (l := rest) (by omega)
  have h2 : holds g = some c := by
    by_cases h : holds g = some c
    · exact h
    · simp [holdF, h] at hpos
  have h3 := (List.pairwise_cons.1 (hr t _ ht)).1 g hg
  have h4 : typ g = c := by cases g <;> simp_all [holds, typ]
  rwa [h4] at h3

theorem wants_below {s : St K} (hi : Inv cfg s) (hr : Order uses s.thr) {t c c' d : Nat} (hw : wants s t c')
    (hl : s.lock c = some (t, d)) : ReflTransGen uses c c' := (wants_strict hi hr hw hl).to_reflTransGen

theorem hold_le_one (hu : ∀ c, ¬TransGen uses c c) (c : Nat) : ∀ {st : List (Frame K)},
    (st.Pairwise fun f g => TransGen uses (typ g) (typ f)) → tot (holdF c) st ≤ 1
  | [], _ => by simp [tot]
  | f :: rest, h => by
    rw [List.pairwise_cons] at h
    have ih := hold_le_one hu c h.2
    rw [tot_cons]
    have typ_of : ∀ g : Frame K, holds g = some c → typ g = c := fun g hg => by cases g <;> simp_all [holds, typ]
    by_cases hf : holds f = some c
    · have : tot (holdF c) rest = 0 := Conc.tot_eq_zero fun g hg => by
        by_cases hg' : holds g = some c
        · have h1 := h.1 g hg
          rw [typ_of g hg', typ_of f hf] at h1
          exact absurd h1 (hu c)
        · simp [holdF, hg']
      simp [holdF, hf, this]
    · simp only [holdF, hf, if_false]
      omega

theorem wants_unique {s : St K} {t c c' : Nat} (h : wants s t c) (h' : wants s t c') : c = c' := by
  obtain ⟨_, _, _, _, h⟩ := h
  obtain ⟨_, _, _, _, h'⟩ := h'
  rw [h] at h'
  cases h'
  rfl

theorem Waits.unique {s : St K} {t t1 t2 : Nat} (h : Waits s t t1) (h' : Waits s t t2) : t1 = t2 := by
  obtain ⟨_, c, d, h1, h2⟩ := h
  obtain ⟨_, c', d', h3, h4⟩ := h'
  rw [wants_unique h1 h3, h4] at h2
  cases h2
  rfl

/-- Every blocked thread waits, directly or not, for one that is not blocked. -/
theorem no_deadlock (hlk : cfg.locking = true) (hwf : NoCycles uses) {s : St K} (hi : Inv cfg s) (hr : Order uses s.thr)
    {t : Nat} (hb : Blocked cfg s t) : ∃ t', TransGen (Waits s) t t' ∧ ¬ Blocked cfg s t' := by
  suffices H : ∀ c t, Blocked cfg s t → wants s t c → ∃ t', TransGen (Waits s) t t' ∧ ¬ Blocked cfg s t' by
    obtain ⟨t', _, c, d, hw, _⟩ := hb.waits hlk
    exact H c t hb hw
  intro c
  induction c using hwf.transGen.induction with
  | _ c ih =>
    intro t hb hw
    obtain ⟨t', h1⟩ := hb.waits hlk
    by_cases hb' : Blocked cfg s t'
    · obtain ⟨t'', h2, c', d', hw', hl'⟩ := hb'.waits hlk
      obtain ⟨_, c'', d, hw'', hl⟩ := id h1
      rw [← wants_unique hw hw''] at hl
      have hne : c' ≠ c := by
        rintro rfl
        rw [hl] at hl'
        cases hl'
        exact h2 rfl
      obtain ⟨t3, h3, h4⟩ := ih c' (strict_of_ne (wants_below hi hr hw' hl) hne) t' hb' hw'
      exact ⟨t3, (TransGen.single h1).trans h3, h4⟩
    · exact ⟨t', .single h1, hb'⟩

/-- Entries that have a value are never changed or removed. -/
theorem act_keeps {s s' : St K} (hi : Inv cfg s) {t : Nat} {a : Act K}
    (hs : step cfg s t a = .ok s') {e : Nat} {x : Ent K} (hx : s.ents e = some x) (hc : x.cted = true) :
    s'.ents e = some x := by
  unfold step at hs
  cases ht : s.thr[t]? with
  | none => rw [ht] at hs; cases hs
  | some st =>
    rw [ht] at hs
    have hfr : ∀ f rest, st = f :: rest → FrameOk cfg s.ents f := by
      rintro f rest rfl
      exact hi.core.frames f (List.mem_flatten.2 ⟨_, List.mem_of_getElem? ht, List.mem_cons_self⟩)
    have hlt := hi.core.lt_next hx
    have ne_of : ∀ {i y}, s.ents i = some y → y.cted = false → e ≠ i := by
      rintro i y hy hyc rfl
      rw [hx] at hy
      cases hy
      rw [hc] at hyc
      cases hyc
    cases a with
    | run =>
      dsimp only [act] at hs
      cases st with
      | nil => cases hs
      | cons f rest =>
        have hf := hfr f rest rfl
        cases f with
        | find c k loc pre =>
          dsimp only [lib] at hs
          split at hs <;> cases hs
          · exact hx
          · show setEnt _ _ _ _ = _
            rw [setEnt_ne _ _ (by omega), hx]
        | done c k i =>
          obtain ⟨y, hy, _, _, h3, _⟩ := hf
          dsimp only [lib] at hs
          rw [hy] at hs
          cases hs
          show setEnt _ _ _ _ = _
          rw [setEnt_ne _ _ (ne_of hy h3), hx]
        | catch_ c i =>
          obtain ⟨y, hy, _, h3⟩ := hf
          dsimp only [lib] at hs
          rw [hy] at hs
          cases hs
          show setEnt _ _ _ _ = _
          rw [setEnt_ne _ _ (ne_of hy h3), hx]
        | _ =>
          dsimp only [lib] at hs
          repeat' split at hs
          all_goals cases hs
          all_goals exact hx
    | finish mask drop =>
      dsimp only [act] at hs
      split at hs
      · obtain ⟨y, hy, _, _, h3, _⟩ := hfr _ _ rfl
        rw [hy] at hs
        simp only [h3] at hs
        cases hs
        show setEnt _ _ _ _ = _
        rw [setEnt_ne _ _ (ne_of hy h3), hx]
      · cases hs
    | _ =>
      dsimp only [act] at hs
      repeat' split at hs
      all_goals cases hs
      all_goals exact hx

theorem exec_keeps (hcfg : CfgOk cfg) (hlk : cfg.locking = true) {s s' : St K} (hi : Inv cfg s) {acts : List (Nat × Act K)}
    (hs : exec cfg acts s = .ok s') {e : Nat} {x : Ent K} (hx : s.ents e = some x) (hc : x.cted = true) :
    s'.ents e = some x := by
  induction acts generalizing s with
  | nil => cases hs; exact hx
  | cons p acts ih =>
    obtain ⟨t, a⟩ := p
    have hg := step_good hcfg hlk hi t a
    unfold exec at hs
    cases h : step cfg s t a with
    | ok s1 =>
      rw [h] at hs hg
      exact ih hg hs (act_keeps hi h hx hc)
    | no => rw [h] at hs; exact ih hi hs hx
    | ub => rw [h] at hs; cases hs
    | reentrant => rw [h] at hs; cases hs

theorem step_length {s s' : St K} {t : Nat} {a : Act K} (hs : step cfg s t a = .ok s') : s'.thr.length = s.thr.length := by
  unfold step at hs
  split at hs
  · cases hs
  · unfold act lib at hs
    repeat' split at hs
    all_goals cases hs
    all_goals simp

theorem Reachable.length {n : Nat} {s : St K} (h : Reachable cfg uses n s) : s.thr.length = n := by
  induction h with
  | start => simp [Verif.Plain.start]
  | step _ _ _ hs ih => rw [step_length hs, ih]

/-- Threads that others wait for are among those of the program. -/
theorem Waits.real {n : Nat} {s : St K} (hr : Reachable cfg uses n s) (hi : Inv cfg s) {t t' : Nat} (h : TransGen (Waits s) t t') : t' < n := by
  have : ∃ t0, Waits s t0 t' := by
    cases h with
    | single h => exact ⟨_, h⟩
    | tail _ h => exact ⟨_, h⟩
  obtain ⟨_, _, c, d, _, hl⟩ := this
  rw [← hr.length]
  exact (hi.locks.pos c t' d hl).2

end Verif.Plain

import Verif.PlainRank
import Verif.ConcWork

/-!
# How much the library does without tracking
-/

set_option autoImplicit false

namespace Verif.Plain
open Verif.Conc (Fw Act Cfg CfgOk NoCycles tot tot_nil tot_append tot_cons split proceeds)
variable {K : Type} {cfg : Cfg K}

/-- Steps that a frame has left at most.  (No code of its own: used in proofs.) -/
def left : Frame K → Nat
  | .lock .. => 6
  | .find .. => 5
  | .visit .. => 4
  | .user .. => 3
  | .done .. => 2
  | .catch_ .. => 2
  | .unwind _ => 1
  | .unlock .. => 1

/-- Steps that are left at most.  (No code of its own: used in proofs.) -/
def potential (s : St K) : Nat := tot left s.thr.flatten

/-- Steps of the library that an action may cause.  (No code of its own: used in statements and proofs.) -/
def cost : Act K → Nat
  | .create .. => 6
  | _ => 0

theorem lib_potential {s s' : St K} {t : Nat} {f : Frame K} {rest : List (Frame K)} (ht : s.thr[t]? = some (f :: rest))
    (hs : lib cfg s t f rest = .ok s') : potential s' + 1 ≤ potential s := by
  obtain ⟨A, B, h1, h2, _⟩ := split ht
  unfold potential
  rw [h1]
  cases f <;> simp only [lib] at hs
  all_goals
    repeat' split at hs
    all_goals cases hs
    all_goals
      simp only [h2, tot_append, tot_cons, left]
      omega

theorem step_potential {s s' : St K} {t : Nat} {a : Act K} (hs : step cfg s t a = .ok s') :
    potential s' + (if proceeds a then 1 else 0) ≤ potential s + cost a := by
  unfold step at hs
  split at hs
  · cases hs
  rename_i st ht
  obtain ⟨A, B, h1, h2, _⟩ := split ht
  cases a with
  | run =>
    cases st with
    | nil => cases hs
    | cons f rest =>
      have := lib_potential ht hs
      simpa [proceeds, cost] using this
  | create c k mask pre =>
    simp only [act] at hs
    split at hs <;> cases hs
    simp only [proceeds, cost, potential, h1, h2, tot_append, tot_cons, left, Bool.false_eq_true, if_false]
    omega
  | finish mask drop =>
    cases st with
    | nil => cases hs
    | cons f rest =>
      cases f with
      | user c k e =>
        simp only [act] at hs
        split at hs
        · cases hs
        split at hs <;> cases hs
        simp only [proceeds, cost, potential, h1, h2, tot_append, tot_cons, left, if_true]
        omega
      | _ => cases hs
  | throw_ =>
    cases st with
    | nil => cases hs
    | cons f rest =>
      cases f with
      | user c k e =>
        cases hs
        simp only [proceeds, cost, potential, h1, h2, tot_append, tot_cons, left, if_true]
        omega
      | find c k loc pre =>
        cases hs
        simp only [proceeds, cost, potential, h1, h2, tot_append, tot_cons, left, if_true]
        omega
      | _ => cases hs
  | _ =>
    simp only [act] at hs
    repeat' split at hs
    all_goals cases hs
    all_goals simp [potential, proceeds, cost]

/-- The number of steps of the library in an execution: actions that take place and by which calls proceed, rather than begin.
(No code of its own: used in statements and proofs.) -/
def work (cfg : Cfg K) : List (Nat × Act K) → St K → Nat
  | [], _ => 0
  | (t, a) :: l, s => match step cfg s t a with
    | .ok s' => (if proceeds a then 1 else 0) + work cfg l s'
    | .no => work cfg l s
    | _ => 0

theorem work_le (s : St K) (acts : List (Nat × Act K)) : work cfg acts s ≤ potential s + (acts.map fun p => cost p.2).sum := by
  induction acts generalizing s with
  | nil => simp [work]
  | cons p acts ih =>
    obtain ⟨t, a⟩ := p
    unfold work
    simp only [List.map_cons, List.sum_cons]
    cases hs : step cfg s t a with
    | ok s' =>
      have h1 := ih s'
      have h2 := step_potential hs
      dsimp only
      omega
    | no =>
      have h1 := ih s
      dsimp only
      omega
    | _ => dsimp only; omega

theorem stuck_out (hlk : cfg.locking = true) {uses : Nat → Nat → Prop} (hwf : NoCycles uses) {s : St K} (hi : Inv cfg s)
    (hr : Order uses s.thr) (hrun : ∀ t, t < s.thr.length → step cfg s t .run = .no)
    (hfin : ∀ t, t < s.thr.length → ∃ mask drop, step cfg s t (.finish mask drop) = .no) : ∀ st ∈ s.thr, st = [] := by
  have blk : ∀ (t : Nat) (st : List (Frame K)), s.thr[t]? = some st → st ≠ [] → Blocked cfg s t := by
    intro t st ht hne
    have hlt : t < s.thr.length := by
      by_cases h : t < s.thr.length
      · exact h
      · rw [List.getElem?_eq_none (by omega)] at ht; cases ht
    refine ⟨st, ht, ?_, hrun t hlt⟩
    cases st with
    | nil => exact absurd rfl hne
    | cons f rest =>
      cases f with
      | user c k e =>
        obtain ⟨mask, drop, hn⟩ := hfin t hlt
        simp only [step, ht, act] at hn
        split at hn
        · cases hn
        · split at hn <;> cases hn
      | _ => rfl
  intro st hst
  by_cases hne : st = []
  · exact hne
  exfalso
  obtain ⟨t, ht⟩ := List.mem_iff_getElem?.1 hst
  obtain ⟨t', h1, h2⟩ := no_deadlock hlk hwf hi hr (blk t st ht hne)
  have : ∃ t0, Waits s t0 t' := by
    cases h1 with
    | single h => exact ⟨_, h⟩
    | tail _ h => exact ⟨_, h⟩
  obtain ⟨t0, _, c, d, _, hl⟩ := this
  obtain ⟨hd, ho⟩ := hi.locks.pos c t' d hl
  obtain ⟨st', hst'⟩ : ∃ st', s.thr[t']? = some st' := ⟨_, List.getElem?_eq_getElem ho⟩
  refine h2 (blk t' st' hst' fun he => ?_)
  have h3 := hi.locks.depth t' st' hst' c
  rw [he] at h3
  simp only [tot_nil, Conc.depthOf, hl] at h3
  simp at h3
  omega

end Verif.Plain

import Verif.StaticFail

/-!
# Initialization that fails: C68
-/

set_option autoImplicit false

namespace Verif.Props
open StaticFail

/-! Two threads: the constructor of the factory throws in the first, that of the mutex in the second, which has waited; then the first
tries again, while the second, too, calls again. -/

/-- (No code of its own: used to state a property or an example.) -/
def failing : List Act :=
  [.call 0, .call 1, .step 0 false, .step 1 false, .step 0 false, .step 1 false, .step 0 true,
    .step 1 false, .step 1 false, .step 1 true]

/-- (No code of its own: used to state a property or an example.) -/
def again : List Act :=
  [.call 0, .call 1] ++ List.replicate 4 (.step 0 false) ++ List.replicate 4 (.step 1 false) ++
    List.replicate 6 (.step 0 false) ++ List.replicate 4 (.step 1 false)

/-! ## The theorems -/

/-- **C68.**  No thread ever uses a factory or a mutex that does not exist. -/
theorem C68_no_ub (as : List Act) : ∃ s, run as start = some s := by
  obtain ⟨s, h, _⟩ := inv_start.run as
  exact ⟨s, h⟩

example : (run (failing ++ again) start).isSome = true := rfl

/-- **C68.**  There is at most one factory and one mutex; the static pointers are null or refer to these; `init()` returns `true`, and then both
pointers are set. -/
theorem C68_one (as : List Act) (s : StaticFail.St) (hr : run as start = some s) :
    s.live.length ≤ 1 ∧ s.muts.length ≤ 1 ∧ (∀ n, s.fac = some n → s.live = [n] ∧ s.muts = [n]) ∧
      (∀ n, s.mtx = some n → s.live = [n] ∧ s.muts = [n]) ∧
      ∀ t b, s.pcs t = .ret b → b = true ∧ s.fac.isSome = true ∧ s.mtx.isSome = true := by
  have h := inv_of_run hr
  have hret : ∀ t b, s.pcs t = .ret b → b = true ∧ s.fac.isSome = true ∧ s.mtx.isSome = true := by
    intro t b hp
    have ht := h.thread t
    rw [hp] at ht
    obtain ⟨n, _, _, _, e1, e2⟩ := h.flagged ht.2
    exact ⟨ht.1, by rw [e1]; rfl, by rw [e2]; rfl⟩
  cases hg : s.guard with
  | idle =>
    obtain ⟨g1, g2, g3, g4, g5⟩ := h.idle hg
    exact ⟨by simp [g1], by simp [g2], by simp [g3], by simp [g4], hret⟩
  | busy t =>
    obtain ⟨g2, g3, g4, g5⟩ := h.busy hg
    have hl : s.live.length ≤ 1 := by
      have := h.guard
      unfold GOk at this
      rw [hg] at this
      have ht := h.thread t
      rcases this.1 with e | ⟨n, e⟩
      · rw [e] at ht; simp [ht.2]
      · rw [e] at ht; simp [ht.2]
    exact ⟨hl, by simp [g2], by simp [g3], by simp [g4], hret⟩
  | done n =>
    obtain ⟨g1, g2, g3, g4, g5⟩ := h.done hg
    refine ⟨by simp [g1], by simp [g2], fun m e => ?_, fun m e => ?_, hret⟩
    · rcases g3 with g | g <;> rw [g] at e <;> cases e
      exact ⟨g1, g2⟩
    · rcases g4 with g | g <;> rw [g] at e <;> cases e
      exact ⟨g1, g2⟩

/-- In the end both threads have returned, from the same factory. -/
example : ∃ s, run (failing ++ again) start = some s ∧ s.live = [1] ∧ s.muts = [1] ∧ s.fac = some 1 ∧ s.mtx = some 1 := by
  refine ⟨_, rfl, ?_, ?_, rfl, rfl⟩
  · exact ((C68_one (failing ++ again) _ rfl).2.2.1 1 rfl).1
  · exact ((C68_one (failing ++ again) _ rfl).2.2.1 1 rfl).2

/-- **C68.**  A call throws only if a constructor has thrown; then nothing is left behind. -/
theorem C68_failed (as : List Act) (s s' : StaticFail.St) (hr : run as start = some s) (t : Nat) (fails : Bool)
    (ha : StaticFail.act (.step t fails) s = .ok s') (ht : s'.pcs t = .threw) :
    fails = true ∧ s'.flag = false ∧ s'.fac = none ∧ s'.mtx = none ∧ s'.live = [] ∧ s'.muts = [] ∧ s'.guard = .idle ∧
      ∀ u, u ≠ t → s'.pcs u = s.pcs u := by
  have h := inv_of_run hr
  have hi := h.act (.step t fails)
  rw [ha] at hi
  have hi : Inv s' := hi
  have hgf : s'.guard = .idle ∧ fails = true := by
    unfold StaticFail.act at ha
    cases hp : s.pcs t <;> simp only [hp] at ha
    all_goals
      repeat' split at ha
      all_goals (cases ha <;> simp_all [StaticFail.St.go])
  obtain ⟨g1, g2, g3, g4, g5⟩ := hi.idle hgf.1
  exact ⟨hgf.2, g5, g3, g4, g1, g2, hgf.1, (step_rank ha).2⟩

/-- The last step of `failing`. -/
example : ∃ s s', run failing.dropLast start = some s ∧ StaticFail.act (.step 1 true) s = .ok s' ∧ s'.pcs 1 = .threw ∧ s'.live = [] :=
  ⟨_, _, rfl, rfl, rfl, (C68_failed failing.dropLast _ _ rfl 1 true rfl rfl).2.2.2.2.1⟩

/-- **C68.**  Once a pointer has been set the factory and the mutex stay, and no others are ever constructed. -/
theorem C68_kept (as as' : List Act) (s s' : StaticFail.St) (hr : run as start = some s) (hr' : run as' s = some s')
    (hs : s.flag = true ∨ s.fac.isSome = true) :
    s'.live = s.live ∧ s'.muts = s.muts ∧ s'.made = s.made ∧ (s.flag = true → s'.flag = true) ∧ s.live.length = 1 := by
  have h := inv_of_run hr
  have hd : ∃ n, s.guard = .done n := by
    rcases hs with hs | hs
    · obtain ⟨n, e, _⟩ := h.flagged hs
      exact ⟨n, e⟩
    · cases hg : s.guard with
      | idle => rw [(h.idle hg).2.2.1] at hs; cases hs
      | busy t => rw [(h.busy hg).2.1] at hs; cases hs
      | done n => exact ⟨n, rfl⟩
  obtain ⟨n, hg⟩ := hd
  obtain ⟨_, e2, e3, e4, e5⟩ := done_run h hg hr'
  exact ⟨e2, e3, e4, e5, by simp [(h.done hg).1]⟩

/-- The first pointer is set in the eighteenth step; thread 1 has not returned yet. -/
example : ∃ s s', run ((failing ++ again).take 20) start = some s ∧ run ((failing ++ again).drop 20) s = some s' ∧
    s.fac.isSome = true ∧ s.flag = false ∧ s'.live = s.live := by
  refine ⟨_, _, rfl, rfl, rfl, rfl, ?_⟩
  exact (C68_kept ((failing ++ again).take 20) ((failing ++ again).drop 20) _ _ rfl rfl (.inr rfl)).1

/-- Inside a call.  (No code of its own: used to state a property or an example.) -/
def insideCall (p : Pc) : Prop := p ≠ .out ∧ p ≠ .threw

/-- **C68.**  While a thread is inside a call some thread inside a call can proceed. -/
theorem C68_progress (as : List Act) (s : StaticFail.St) (hr : run as start = some s) (t : Nat) (ht : insideCall (s.pcs t)) :
    ∃ u, insideCall (s.pcs u) ∧ ∀ fails, ∃ s', StaticFail.act (.step u fails) s = .ok s' := by
  have h := inv_of_run hr
  by_cases hb : ∃ u, s.guard = .busy u
  · obtain ⟨u, hu⟩ := hb
    have := h.guard
    unfold GOk at this
    rw [hu] at this
    refine ⟨u, ?_, fun fails => ?_⟩
    · rcases this.1 with e | ⟨n, e⟩ <;> rw [e] <;> exact ⟨by simp, by simp⟩
    · rcases this.1 with e | ⟨n, e⟩ <;> simp only [StaticFail.act, e] <;> cases fails <;> exact ⟨_, rfl⟩
  · refine ⟨t, ht, fun fails => ?_⟩
    have hi := h.act (.step t fails)
    cases ha : StaticFail.act (.step t fails) s with
    | ok s' => exact ⟨s', rfl⟩
    | ub => rw [ha] at hi; exact hi.elim
    | blocked =>
      unfold StaticFail.act at ha
      cases hp : s.pcs t <;> simp only [hp] at ha
      case out => exact absurd hp ht.1
      case threw => exact absurd hp ht.2
      case enter =>
        split at ha
        · cases ha
        · rename_i u hu; exact absurd ⟨u, hu⟩ hb
        · cases ha
      all_goals
        repeat' split at ha
        all_goals cases ha

/-- Calls that thread `t` begins and steps that it makes.  (No code of its own: used to state a property or an example.) -/
def effort (t : Nat) : List Act → StaticFail.St → Nat × Nat
  | [], _ => (0, 0)
  | a :: as, s => match StaticFail.act a s with
    | .ok s' => match a with
      | .call u => if u = t then ((effort t as s').1 + 1, (effort t as s').2) else effort t as s'
      | .step u _ => if u = t then ((effort t as s').1, (effort t as s').2 + 1) else effort t as s'
    | _ => effort t as s

/-- **C68.**  A thread makes at most ten steps in a call, whatever the others do. -/
theorem C68_bounded (as : List Act) (t : Nat) : (effort t as start).2 ≤ 10 * (effort t as start).1 := by
  have key : ∀ (as : List Act) (s : StaticFail.St), (effort t as s).2 ≤ 10 * (effort t as s).1 + rank (s.pcs t) := by
    intro as
    induction as with
    | nil => intro s; simp [effort]
    | cons a as ih =>
      intro s
      unfold effort
      cases ha : StaticFail.act a s with
      | blocked => exact ih s
      | ub => exact ih s
      | ok s' =>
        have := ih s'
        cases a with
        | call u =>
          obtain ⟨h1, h2, h3⟩ := call_rank ha
          simp only
          by_cases hu : u = t
          · subst hu
            rw [if_pos rfl]
            simp only
            omega
          · rw [if_neg hu, ← h3 t (Ne.symm hu)]
            exact this
        | step u f =>
          obtain ⟨h1, h3⟩ := step_rank ha
          simp only
          by_cases hu : u = t
          · subst hu
            rw [if_pos rfl]
            simp only
            omega
          · rw [if_neg hu, ← h3 t (Ne.symm hu)]
            exact this
  simpa [start, rank] using key as start

/-- **C68.**  Whatever has failed before, a call during which no constructor throws and that is not disturbed succeeds. -/
theorem C68_retry (as : List Act) (s : StaticFail.St) (hr : run as start = some s) (hq : ∀ u, ¬ insideCall (s.pcs u)) (t : Nat) :
    ∃ s', run (.call t :: List.replicate 10 (.step t false)) s = some s' ∧ s'.pcs t = .out ∧ s'.flag = true ∧ s'.live.length = 1 := by
  have h := inv_of_run hr
  have hp : s.pcs t = .out ∨ s.pcs t = .threw := by
    have := hq t
    unfold insideCall at this
    by_cases e : s.pcs t = .out
    · exact .inl e
    · by_cases e' : s.pcs t = .threw
      · exact .inr e'
      · exact absurd ⟨e, e'⟩ this
  cases hg : s.guard with
  | busy u =>
    have := h.guard
    unfold GOk at this
    rw [hg] at this
    rcases this.1 with e | ⟨n, e⟩ <;> exact absurd ⟨by rw [e]; simp, by rw [e]; simp⟩ (hq u)
  | idle =>
    obtain ⟨g1, g2, g3, g4, g5⟩ := h.idle hg
    rcases hp with hp | hp <;>
      simp [List.replicate, run, StaticFail.act, StaticFail.St.go, hp, hg, g1, g2, g5]
  | done n =>
    obtain ⟨g1, g2, g3, g4, g5⟩ := h.done hg
    by_cases hf : s.flag = true
    · obtain ⟨e1, e2⟩ := g5 hf
      rcases hp with hp | hp <;>
        simp [List.replicate, run, StaticFail.act, StaticFail.St.go, hp, g1, g2, hf, e1, e2]
    · rcases hp with hp | hp <;>
        simp [List.replicate, run, StaticFail.act, StaticFail.St.go, hp, hg, g1, g2, hf]

example : (match run failing start with
    | some s => some (s.pcs 0, s.pcs 1, s.made, s.live, s.fac, s.flag)
    | none => none) = some (.threw, .threw, 1, [], none, false) := rfl

example : (match run (failing ++ again) start with
    | some s => some (s.pcs 0, s.pcs 1, s.made, s.live, s.muts, s.fac, s.mtx, s.flag)
    | none => none) = some (.out, .out, 2, [1], [1], some 1, some 1, true) := rfl

example : effort 1 (failing ++ again) start = (2, 12) := by decide

example : effort 0 (failing ++ again) start = (2, 13) := by decide

/-- While the first thread constructs the factory the second one waits. -/
example : (match run (failing.take 5) start with
    | some s => match StaticFail.act (.step 1 false) s with
      | .blocked => some (s.pcs 0, s.pcs 1, s.guard)
      | _ => none
    | none => none) = some (.facCtor, .enter, .busy 0) := by decide

end Verif.Props

/-!
# Construction and destruction of `concurrent_factory`

The thread that constructs and destroys the factory, and the garbage collector thread,
one atomic action at a time in any interleaving.
-/

set_option autoImplicit false

namespace Verif.CStop

/-- Data members, /repo/include/boost/flyweight/concurrent_factory.hpp:173-177. -/
inductive Member where
  | cont | m | cv | stop | gc
  deriving DecidableEq

/-- The members in the order of their declaration, in which they are constructed,
/repo/include/boost/flyweight/concurrent_factory.hpp:173-177. -/
def members : List Member := [.cont, .m, .cv, .stop, .gc]

/-- Where the owner of the factory is.
* `init todo`: in the constructor, the members `todo` are still to be constructed,
  /repo/include/boost/flyweight/concurrent_factory.hpp:116;
* `alive`: the factory is being used;
* `dLock`, `dSet`, `dUnlock`, `dNotify`, `dJoin`: body of the destructor,
  /repo/include/boost/flyweight/concurrent_factory.hpp:137-142;
* `fini todo`: the members `todo` are still to be destroyed; `over`: all is done. -/
inductive OPc where
  | init (todo : List Member)
  | alive | dLock | dSet | dUnlock | dNotify | dJoin
  | fini (todo : List Member)
  | over
  deriving DecidableEq

/-- Where the garbage collector is, /repo/include/boost/flyweight/concurrent_factory.hpp:123-129.
* `off`: not started; `lock`: `unique_lock lk{m}`; `test b`: in `wait_for`, about to call the
  predicate (`b`: after a time-out); `wait b`: waiting on the condition variable (`b`: it has
  been notified); `wake b`: woken up (`b`: by a time-out), about to lock `m` again; `unlock b`:
  `wait_for` has returned `b`, about to release `m`; `erase n`: in `erase_if` with `n` elements to
  go; `done`: the thread has returned. -/
inductive GPc where
  | off | lock
  | test (timeout : Bool)
  | wait (notified : Bool)
  | wake (timeout : Bool)
  | unlock (res : Bool)
  | erase (n : Nat)
  | done
  deriving DecidableEq

/-- State: which members exist; the value of `stop`; who holds `m` (`true`: the
collector); where the two threads are.  Models the members in
/repo/include/boost/flyweight/concurrent_factory.hpp:173-177. -/
structure St where
  live : Member → Bool
  flag : Bool
  held : Option Bool
  o : OPc
  g : GPc

/-- Actions: a step of the owner (`own`; it begins to destroy the factory when it pleases); a
step of the collector, with `n` the number of elements it will find in the
container; a wake-up of the collector by notification (if there has been one), by time-out, or
for no reason.  Models /repo/include/boost/flyweight/concurrent_factory.hpp:116-143 and, for
waking up, the standard library. -/
inductive Act where
  | own
  | run (n : Nat)
  | notified
  | timeout
  | spurious
  deriving DecidableEq

/-- Outcome: a new state; not possible (waiting); undefined behaviour: use of a member that
does not exist, destruction of a locked mutex, of a condition variable that is waited on
or of a joinable thread object.  (No code of its own.) -/
inductive Out where
  | ok (s : St)
  | no
  | ub

/-- (Helper, no code of its own.) -/
def set (live : Member → Bool) (x : Member) (b : Bool) : Member → Bool := fun y => if y = x then b else live y

/-- A step of the owner, for members declared in the order `ord`; line references at `OPc`.
Models /repo/include/boost/flyweight/concurrent_factory.hpp:116-143. -/
def own (ord : List Member) (s : St) : Out :=
  match s.o with
  | .init [] => .ok { s with o := .alive }
  | .init (.gc :: l) => .ok { s with live := set s.live .gc true, o := .init l, g := .lock }
  | .init (.stop :: l) => .ok { s with live := set s.live .stop true, flag := false, o := .init l }
  | .init (x :: l) => .ok { s with live := set s.live x true, o := .init l }
  | .alive => .ok { s with o := .dLock }
  | .dLock => if s.live .m then
      match s.held with
      | none => .ok { s with held := some false, o := .dSet }
      | some _ => .no
    else .ub
  | .dSet => if s.live .stop then .ok { s with flag := true, o := .dUnlock } else .ub
  | .dUnlock => if s.live .m ∧ s.held = some false then .ok { s with held := none, o := .dNotify } else .ub
  | .dNotify => if s.live .cv then
      .ok { s with o := .dJoin, g := match s.g with | .wait _ => .wait true | g => g }
    else .ub
  | .dJoin => if s.live .gc then
      if s.g = .done then .ok { s with o := .fini ord.reverse } else .no
    else .ub
  | .fini [] => .ok { s with o := .over }
  | .fini (x :: l) =>
    if (x = .m ∧ s.held ≠ none) ∨ (x = .cv ∧ (s.g = .wait false ∨ s.g = .wait true)) ∨
      (x = .gc ∧ s.g ≠ .done) then .ub
    else .ok { s with live := set s.live x false, o := .fini l }
  | .over => .no

/-- A step of the collector other than waking up; line references at `GPc`.  Models
/repo/include/boost/flyweight/concurrent_factory.hpp:116-131. -/
def gc (s : St) (n : Nat) : Out :=
  match s.g with
  | .off => .no
  | .lock => if s.live .m then
      match s.held with
      | none => .ok { s with held := some true, g := .test false }
      | some _ => .no
    else .ub
  | .test b => if s.live .stop ∧ s.live .m ∧ s.live .cv then
      if s.flag then .ok { s with g := .unlock true }
      else if b then .ok { s with g := .unlock false }
      else .ok { s with held := none, g := .wait false }
    else .ub
  | .wait _ => .no
  | .wake b => if s.live .m ∧ s.live .cv then
      match s.held with
      | none => .ok { s with held := some true, g := .test b }
      | some _ => .no
    else .ub
  | .unlock b => if s.live .m ∧ s.held = some true then
      .ok { s with held := none, g := if b then .done else .erase n }
    else .ub
  | .erase 0 => if s.live .cont then .ok { s with g := .lock } else .ub
  | .erase (k + 1) => if s.live .cont then .ok { s with g := .erase k } else .ub
  | .done => .no

/-- One step of the two threads; waking up is as described for
`std::condition_variable::wait_for` in the C++ standard.  (No code of its own: interleaving of
threads.) -/
def step (ord : List Member) (s : St) : Act → Out
  | .own => own ord s
  | .run n => gc s n
  | .notified => match s.g with
    | .wait true => if s.live .cv then .ok { s with g := .wake false } else .ub
    | _ => .no
  | .timeout => match s.g with
    | .wait _ => if s.live .cv then .ok { s with g := .wake true } else .ub
    | _ => .no
  | .spurious => match s.g with
    | .wait _ => if s.live .cv then .ok { s with g := .wake false } else .ub
    | _ => .no

/-- Before the constructor; the collector has not been started.  (No code of its own.) -/
def start (ord : List Member) : St := ⟨fun _ => false, false, none, .init ord, .off⟩

/-- Execution of a schedule; actions that are not possible are skipped.  (No code of its own:
the scheduler.) -/
def exec (ord : List Member) : List Act → St → Out
  | [], s => .ok s
  | a :: l, s => match step ord s a with
    | .ok s' => exec ord l s'
    | .no => exec ord l s
    | .ub => .ub

/-! ## Invariant -/

/-- The destructor has set `stop`.  (No code of its own: used in statements and proofs.) -/
def stopped : OPc → Bool
  | .dUnlock => true
  | .dNotify => true
  | .dJoin => true
  | .fini _ => true
  | .over => true
  | _ => false

/-- The members to be destroyed or already destroyed are not needed any more.  (No code of its
own: used in statements and proofs.) -/
def over : OPc → Bool
  | .fini _ => true
  | .over => true
  | _ => false

/-- The constructor is at work.  (No code of its own: used in statements and proofs.) -/
def ctor : OPc → Bool
  | .init (_ :: _) => true
  | _ => false

/-- The collector holds `m`.  (No code of its own: used in statements and proofs.) -/
def gHolds : GPc → Bool
  | .test _ => true
  | .unlock _ => true
  | _ => false

/-- The owner holds `m`.  (No code of its own: used in statements and proofs.) -/
def oHolds : OPc → Bool
  | .dSet => true
  | .dUnlock => true
  | _ => false

/-- The invariant.  (No code of its own: used in statements and proofs.) -/
structure Inv (s : St) : Prop where
  ctor : ∀ todo, s.o = .init todo → ∃ pre, members = pre ++ todo ∧ ∀ x, s.live x = decide (x ∈ pre)
  off : s.g = .off ↔ CStop.ctor s.o = true
  live : CStop.ctor s.o = false → CStop.over s.o = false → ∀ x, s.live x = true
  fini : CStop.over s.o = true → s.g = .done
  gheld : s.held = some true ↔ gHolds s.g = true
  oheld : s.held = some false ↔ oHolds s.o = true
  flag : s.live .stop = true → CStop.over s.o = false → s.flag = stopped s.o
  ret : s.g = .unlock true ∨ s.g = .done → stopped s.o = true
  wake : s.o = .dJoin → s.g ≠ .wait false

/-- What must hold of an outcome.  (No code of its own: used in statements and proofs.) -/
def Good : Out → Prop
  | .ok s => Inv s
  | .no => True
  | .ub => False

theorem start_inv : Inv (start members) := by
  refine ⟨?_, ?_, ?_, ?_, ?_, ?_, ?_, ?_, ?_⟩ <;> simp [start, ctor, over, gHolds, oHolds, members]

theorem own_good {s : St} (h : Inv s) : Good (own members s) := by
  obtain ⟨live, flag, held, o, g⟩ := s
  obtain ⟨h1, h2, h3, h4, h5, h6, h7, h8, h9⟩ := h
  dsimp only at *
  cases o with
  | init todo =>
    obtain ⟨pre, e1, e2⟩ := h1 todo rfl
    cases todo with
    | nil =>
      simp only [List.append_nil] at e1
      subst e1
      refine ⟨?_, ?_, ?_, ?_, ?_, ?_, ?_, ?_, ?_⟩ <;> simp_all [CStop.ctor, CStop.over, oHolds, stopped]
    | cons x l =>
      have hlive : ∀ y, set live x true y = decide (y ∈ pre ++ [x]) := by
        intro y
        by_cases hy : y = x <;> simp [set, hy, e2]
      have e3 : members = (pre ++ [x]) ++ l := by simp [e1]
      have hg : g = .off := h2.2 rfl
      subst hg
      have hx : (x = .gc ↔ l = []) := by
        revert e1
        rcases pre with _ | ⟨a, _ | ⟨b, _ | ⟨c, _ | ⟨d, _ | ⟨e, pre⟩⟩⟩⟩⟩ <;> intro e1 <;> simp [members] at e1
        all_goals simp [← e1]
      have hall : l = [] → ∀ y, set live x true y = true := by
        rintro rfl y
        rw [hlive, ← (show members = pre ++ [x] by simpa using e3)]
        cases y <;> decide
      cases x <;> simp only [own] <;> simp at hx
      all_goals
        refine ⟨?_, ?_, ?_, ?_, ?_, ?_, ?_, ?_, ?_⟩
        · intro todo ht
          cases ht
          exact ⟨_, e3, hlive⟩
        all_goals first | (cases l <;> simp_all [CStop.ctor, CStop.over, gHolds, oHolds, stopped, set]; done) | skip
  | fini todo =>
    have := h4 rfl
    subst this
    cases todo with
    | nil => refine ⟨?_, ?_, ?_, ?_, ?_, ?_, ?_, ?_, ?_⟩ <;> simp_all [CStop.ctor, CStop.over, oHolds, stopped]
    | cons x l =>
      have hh : held = none := by
        cases held with
        | none => rfl
        | some b => cases b <;> simp_all [oHolds, gHolds]
      simp only [own, hh]
      rw [if_neg (by simp)]
      refine ⟨?_, ?_, ?_, ?_, ?_, ?_, ?_, ?_, ?_⟩ <;> simp_all [CStop.ctor, CStop.over, oHolds, stopped]
  | over => trivial
  | dLock =>
    have hl := h3 rfl rfl
    cases held with
    | some b => simp [own, hl, Good]
    | none =>
      simp only [own, hl, if_true]
      refine ⟨?_, ?_, ?_, ?_, ?_, ?_, ?_, ?_, ?_⟩ <;> simp_all [CStop.ctor, CStop.over, oHolds, stopped]
  | dJoin =>
    have hl := h3 rfl rfl
    by_cases hg : g = .done
    · simp only [own, hl, if_true, hg]
      refine ⟨?_, ?_, ?_, ?_, ?_, ?_, ?_, ?_, ?_⟩ <;> simp_all [CStop.ctor, CStop.over, oHolds, stopped]
    · simp [own, hl, hg, Good]
  | dNotify =>
    have hl := h3 rfl rfl
    cases g
    all_goals
      simp only [own, hl, if_true]
      refine ⟨?_, ?_, ?_, ?_, ?_, ?_, ?_, ?_, ?_⟩ <;> simp_all [CStop.ctor, CStop.over, oHolds, gHolds, stopped]
  | dUnlock =>
    have hl := h3 rfl rfl
    have hh := h6.2 rfl
    simp only [own, hl, hh, and_self, if_true]
    refine ⟨?_, ?_, ?_, ?_, ?_, ?_, ?_, ?_, ?_⟩ <;> simp_all [CStop.ctor, CStop.over, oHolds, stopped]
  | _ =>
    have hl := h3 rfl rfl
    simp only [own, hl, if_true]
    refine ⟨?_, ?_, ?_, ?_, ?_, ?_, ?_, ?_, ?_⟩ <;> simp_all [CStop.ctor, CStop.over, oHolds, stopped]

/-- The collector has neither returned nor not been started: all members exist. -/
theorem Inv.alive {s : St} (h : Inv s) (h1 : s.g ≠ .off) (h2 : s.g ≠ .done) :
    CStop.ctor s.o = false ∧ CStop.over s.o = false ∧ ∀ x, s.live x = true := by
  have a : CStop.ctor s.o = false := by
    cases hc : CStop.ctor s.o with
    | false => rfl
    | true => exact absurd (h.off.2 hc) h1
  have b : CStop.over s.o = false := by
    cases hc : CStop.over s.o with
    | false => rfl
    | true => exact absurd (h.fini hc) h2
  exact ⟨a, b, h.live a b⟩

/-- Steps of the collector. -/
theorem Inv.collector {s : St} (h : Inv s) (h1 : s.g ≠ .off) (h2 : s.g ≠ .done) {held : Option Bool} {g : GPc}
    (hg : g ≠ .off) (hh : held = some true ↔ gHolds g = true) (ho : held = some false ↔ s.held = some false)
    (hr : g = .unlock true ∨ g = .done → s.flag = true) (hw : g = .wait false → s.flag = false) :
    Inv { s with held := held, g := g } := by
  obtain ⟨a, b, c⟩ := h.alive h1 h2
  refine ⟨h.ctor, ?_, h.live, ?_, hh, ho.trans h.oheld, h.flag, ?_, ?_⟩
  · simp [hg, a]
  · intro h'; rw [b] at h'; cases h'
  · intro h'
    rw [← h.flag (c _) b]
    exact hr h'
  · intro h' hg'
    have := h.flag (c _) b
    rw [hw hg'] at this
    simp only at h'
    rw [h'] at this
    cases this

theorem step_good {s : St} (h : Inv s) (a : Act) : Good (step members s a) := by
  cases a with
  | own => exact own_good h
  | run n =>
    simp only [step]
    have hret := h.ret
    have hg1 := h.gheld
    have hflag := h.flag
    have h' := h
    obtain ⟨live, flag, held, o, g⟩ := s
    dsimp only at *
    cases g with
    | off => trivial
    | done => trivial
    | wait b => trivial
    | lock =>
      obtain ⟨_, _, c⟩ := h.alive (by simp) (by simp)
      dsimp only at c
      cases held with
      | some b => simp [gc, c, Good]
      | none =>
        simp only [gc, c, if_true]
        exact h'.collector (by simp) (by simp) (by simp) (by simp [gHolds]) (by simp) (by simp) (by simp)
    | wake b =>
      obtain ⟨_, _, c⟩ := h.alive (by simp) (by simp)
      dsimp only at c
      cases held with
      | some b => simp [gc, c, Good]
      | none =>
        simp only [gc, c, and_self, if_true]
        exact h'.collector (by simp) (by simp) (by simp) (by simp [gHolds]) (by simp) (by simp) (by simp)
    | test b =>
      obtain ⟨_, _, c⟩ := h.alive (by simp) (by simp)
      dsimp only at c
      have hh : held = some true := hg1.2 rfl
      subst hh
      cases flag with
      | true =>
        simp only [gc, c, and_self, if_true]
        exact h'.collector (by simp) (by simp) (by simp) (by simp [gHolds]) (by simp) (by simp) (by simp)
      | false =>
        cases b
        · simp only [gc, c, and_self, if_true]
          exact h'.collector (by simp) (by simp) (by simp) (by simp [gHolds]) (by simp) (by simp) (by simp)
        · simp only [gc, c, and_self, if_true]
          exact h'.collector (by simp) (by simp) (by simp) (by simp [gHolds]) (by simp) (by simp) (by simp)
    | unlock b =>
      obtain ⟨_, b2, c⟩ := h.alive (by simp) (by simp)
      dsimp only at c b2
      have hh : held = some true := hg1.2 rfl
      subst hh
      simp only [gc, c, and_self, if_true]
      cases b
      · exact h'.collector (by simp) (by simp) (by simp) (by simp [gHolds]) (by simp) (by simp) (by simp)
      · have := hret (.inl rfl)
        have hf : flag = true := by rw [hflag (c _) b2, this]
        exact h'.collector (by simp) (by simp) (by simp) (by simp [gHolds]) (by simp) (by simp [hf]) (by simp)
    | erase k =>
      obtain ⟨_, _, c⟩ := h.alive (by simp) (by simp)
      dsimp only at c
      cases k <;> simp only [gc, c, if_true]
      all_goals exact h'.collector (by simp) (by simp) (by simp) (by simpa [gHolds] using hg1) (by simp) (by simp) (by simp)
  | notified =>
    have h' := h
    have hg1 := h.gheld
    obtain ⟨live, flag, held, o, g⟩ := s
    simp only [step]
    split
    · dsimp only at *
      obtain ⟨_, _, c⟩ := h.alive (by simp) (by simp)
      dsimp only at c
      simp only [c, if_true]
      exact h'.collector (by simp) (by simp) (by simp) (by simpa [gHolds] using hg1) (by simp) (by simp) (by simp)
    · trivial
  | timeout =>
    have h' := h
    have hg1 := h.gheld
    obtain ⟨live, flag, held, o, g⟩ := s
    simp only [step]
    split
    · dsimp only at *
      obtain ⟨_, _, c⟩ := h.alive (by simp) (by simp)
      dsimp only at c
      simp only [c, if_true]
      exact h'.collector (by simp) (by simp) (by simp) (by simpa [gHolds] using hg1) (by simp) (by simp) (by simp)
    · trivial
  | spurious =>
    have h' := h
    have hg1 := h.gheld
    obtain ⟨live, flag, held, o, g⟩ := s
    simp only [step]
    split
    · dsimp only at *
      obtain ⟨_, _, c⟩ := h.alive (by simp) (by simp)
      dsimp only at c
      simp only [c, if_true]
      exact h'.collector (by simp) (by simp) (by simp) (by simpa [gHolds] using hg1) (by simp) (by simp) (by simp)
    · trivial

theorem exec_good {s : St} (h : Inv s) (l : List Act) : Good (exec members l s) := by
  induction l generalizing s with
  | nil => exact h
  | cons a l ih =>
    have hg := step_good h a
    unfold exec
    cases hs : step members s a with
    | ok s' => rw [hs] at hg; exact ih hg
    | no => exact ih h
    | ub => rw [hs] at hg; exact hg

/-! ## Termination -/

/-- How far the owner is from the end.  (No code of its own: used in statements and proofs.) -/
def oRank : OPc → Nat
  | .init l => 20 + l.length
  | .alive => 19
  | .dLock => 18
  | .dSet => 17
  | .dUnlock => 16
  | .dNotify => 15
  | .dJoin => 14
  | .fini l => 1 + l.length
  | .over => 0

/-- How far the collector is from the end once `stop` has been set.  (No code of its own: used
in statements and proofs.) -/
def gRank : GPc → Nat × Nat
  | .off => (2, 1)
  | .unlock false => (2, 0)
  | .erase n => (1, n)
  | .wait _ => (0, 5)
  | .wake _ => (0, 4)
  | .lock => (0, 4)
  | .test _ => (0, 3)
  | .unlock true => (0, 2)
  | .done => (0, 0)

/-- Distance of both from the end.  (No code of its own: used in statements and proofs.) -/
def rank (s : St) : Nat × Nat := ((gRank s.g).1, (gRank s.g).2 + oRank s.o)

/-- Once `stop` has been set, every step brings the end nearer. -/
theorem step_rank {s s' : St} (h : Inv s) (hst : stopped s.o = true) {a : Act} (hs : step members s a = .ok s') :
    Prod.Lex (· < ·) (· < ·) (rank s') (rank s) ∧ stopped s'.o = true := by
  have hal := h.alive
  have hflag := h.flag
  have hfini := h.fini
  obtain ⟨live, flag, held, o, g⟩ := s
  dsimp only at *
  have lex : ∀ {a b c d : Nat}, a < c ∨ (a = c ∧ b < d) → Prod.Lex (· < ·) (· < ·) (a, b) (c, d) := by
    intro a b c d h
    rcases h with h | ⟨rfl, h⟩
    · exact .left _ _ h
    · exact .right _ h
  cases a with
  | own =>
    simp only [step] at hs
    cases o
    case init => simp [stopped] at hst
    case alive => simp [stopped] at hst
    case dLock => simp [stopped] at hst
    case dSet => simp [stopped] at hst
    all_goals
      simp only [own] at hs
      repeat' split at hs
      all_goals first | contradiction | (cases hs; done) | skip
      all_goals
        cases hs
        refine ⟨lex (.inr ⟨?_, ?_⟩), rfl⟩ <;> simp_all [gRank, oRank, members]
    all_goals cases g <;> simp [gRank]
  | run n =>
    simp only [step] at hs
    cases g <;> first | (cases hs; done) | skip
    case test b =>
      obtain ⟨_, b2, c⟩ := hal (by simp) (by simp)
      have hf : flag = true := by rw [hflag (c _) b2, hst]
      simp [gc, c, hf] at hs
      cases hs
      exact ⟨lex (.inr ⟨rfl, by simp [gRank]⟩), hst⟩
    case erase k =>
      obtain ⟨_, b2, c⟩ := hal (by simp) (by simp)
      cases k <;> simp [gc, c] at hs <;> cases hs
      · exact ⟨lex (.inl (by simp [gRank])), hst⟩
      · exact ⟨lex (.inr ⟨rfl, by simp [gRank]⟩), hst⟩
    case unlock b =>
      simp only [gc] at hs
      split at hs
      · cases hs
        cases b
        · exact ⟨lex (.inl (by simp [gRank])), hst⟩
        · exact ⟨lex (.inr ⟨rfl, by simp [gRank]⟩), hst⟩
      · cases hs
    all_goals
      simp only [gc] at hs
      repeat' split at hs
      all_goals first | (cases hs; done) | skip
      all_goals
        cases hs
        exact ⟨lex (.inr ⟨rfl, by simp [gRank]⟩), hst⟩
  | notified =>
    simp only [step] at hs
    repeat' split at hs
    all_goals cases hs
    exact ⟨lex (.inr ⟨rfl, by simp [gRank]⟩), hst⟩
  | timeout =>
    simp only [step] at hs
    repeat' split at hs
    all_goals cases hs
    exact ⟨lex (.inr ⟨rfl, by simp [gRank]⟩), hst⟩
  | spurious =>
    simp only [step] at hs
    repeat' split at hs
    all_goals cases hs
    exact ⟨lex (.inr ⟨rfl, by simp [gRank]⟩), hst⟩

/-- Some step is possible, without time-outs or spurious wake-ups, until the end. -/
theorem progress {s : St} (h : Inv s) (hne : s.o ≠ .over) :
    ∃ a s', (a = .own ∨ a = .run 0 ∨ a = .notified) ∧ step members s a = .ok s' := by
  have of : ∀ a, (a = Act.own ∨ a = .run 0 ∨ a = .notified) → step members s a ≠ .no →
      ∃ a s', (a = .own ∨ a = .run 0 ∨ a = .notified) ∧ step members s a = .ok s' := by
    intro a ha hn
    have := step_good h a
    cases hs : step members s a with
    | ok s' => exact ⟨a, s', ha, hs⟩
    | no => exact absurd hs hn
    | ub => rw [hs] at this; exact this.elim
  have own' := of .own (.inl rfl)
  have run' := of (.run 0) (.inr (.inl rfl))
  have not' := of .notified (.inr (.inr rfl))
  obtain ⟨h1, h2, h3, h4, h5, h6, h7, h8, h9⟩ := h
  obtain ⟨live, flag, held, o, g⟩ := s
  dsimp only at *
  cases o with
  | init todo =>
    refine own' ?_
    rcases todo with _ | ⟨_ | _, _⟩ <;> simp [step, own]
  | dLock =>
    have hl := h3 rfl rfl
    cases held with
    | none => exact own' (by simp [step, own, hl])
    | some b =>
      cases b
      · simp [oHolds] at h6
      · have hg := h5.1 rfl
        cases g <;> first | (cases hg; done) | skip
        · rename_i b; exact run' (by cases flag <;> cases b <;> simp [step, gc, hl])
        · exact run' (by simp [step, gc, hl])
  | dJoin =>
    have hl := h3 rfl rfl
    have hh : held ≠ some false := fun h => by simp [h, oHolds] at h6
    cases g with
    | off => simp [CStop.ctor] at h2
    | done => exact own' (by simp [step, own, hl])
    | wait b =>
      cases b
      · exact absurd rfl (h9 rfl)
      · exact not' (by simp [step, hl])
    | lock =>
      refine run' ?_
      rcases held with _ | _ | _ <;> simp_all [step, gc, gHolds]
    | wake b =>
      refine run' ?_
      rcases held with _ | _ | _ <;> simp_all [step, gc, gHolds]
    | test b =>
      refine run' ?_
      cases flag <;> cases b <;> simp [step, gc, hl, h5.2 rfl]
    | unlock b =>
      refine run' ?_
      cases flag <;> cases b <;> simp [step, gc, hl, h5.2 rfl]
    | erase k =>
      refine run' ?_
      cases k <;> simp [step, gc, hl]
  | over => exact absurd rfl hne
  | fini todo =>
    refine own' ?_
    rcases todo with _ | ⟨_ | _, _⟩ <;> simp only [step, own] <;> repeat' split
    all_goals simp_all
  | alive => exact own' (by simp [step, own])
  | dSet => exact own' (by simp [step, own, h3 rfl rfl])
  | dUnlock => exact own' (by simp [step, own, h3 rfl rfl, h6.2 rfl])
  | dNotify => exact own' (by cases g <;> simp [step, own, h3 rfl rfl])

/-! ## Order of destruction -/

/-- After the body of the destructor, the members that exist are those still to be destroyed.  (No code of its own: used in
proofs.) -/
def Tail (s : St) : Prop :=
  (∀ l, s.o = .fini l → ∃ pre, members.reverse = pre ++ l ∧ ∀ x, s.live x = decide (x ∈ l)) ∧
    (s.o = .over → ∀ x, s.live x = false)

/-- Other steps than those of the owner neither construct nor destroy members. -/
theorem step_same {s s' : St} {a : Act} (ha : a ≠ .own) (h : step members s a = .ok s') : s'.o = s.o ∧ s'.live = s.live := by
  cases a with
  | own => exact absurd rfl ha
  | run n =>
    simp only [step, gc] at h
    repeat' split at h
    all_goals first | (cases h; exact ⟨rfl, rfl⟩) | cases h
  | _ =>
    simp only [step] at h
    repeat' split at h
    all_goals first | (cases h; exact ⟨rfl, rfl⟩) | cases h

theorem step_tail {s s' : St} {a : Act} (hi : Inv s) (ht : Tail s) (h : step members s a = .ok s') : Tail s' := by
  by_cases ha : a = .own
  · subst ha
    simp only [step] at h
    obtain ⟨live, flag, held, o, g⟩ := s
    obtain ⟨h1, h2⟩ := ht
    dsimp only at h1 h2
    cases o with
    | fini l =>
      obtain ⟨pre, h3, h4⟩ := h1 l rfl
      cases l with
      | nil =>
        cases h
        refine ⟨?_, ?_⟩
        · intro l hl; cases hl
        · intro _ x; simpa using h4 x
      | cons x l =>
        simp only [own] at h
        split at h
        · cases h
        · cases h
          have hn : x ∉ l := by
            have : (members.reverse).Nodup := by decide
            rw [h3, List.nodup_append] at this
            exact (List.nodup_cons.1 this.2.1).1
          refine ⟨?_, ?_⟩
          · intro l' hl'
            cases hl'
            refine ⟨pre ++ [x], by simp [h3], ?_⟩
            intro y
            by_cases hy : y = x
            · subst hy; simp [set, hn]
            · simp [set, hy, h4]
          · intro hl'; cases hl'
    | dJoin =>
      have hl := hi.live rfl rfl
      simp only [own] at h
      split at h
      · split at h
        · cases h
          refine ⟨?_, ?_⟩
          · intro l' hl'
            cases hl'
            refine ⟨[], rfl, ?_⟩
            intro x
            refine (hl x).trans ?_
            cases x <;> decide
          · intro hl'; cases hl'
        · cases h
      · cases h
    | over => cases h
    | init todo =>
      cases todo with
      | nil => cases h; exact ⟨fun l hl => (nomatch hl), fun hl => (nomatch hl)⟩
      | cons x l => cases x <;> cases h <;> exact ⟨fun l hl => (nomatch hl), fun hl => (nomatch hl)⟩
    | _ =>
      simp only [own] at h
      repeat' split at h
      all_goals first
        | (cases h; done)
        | (cases h; exact ⟨fun l hl => (nomatch hl), fun hl => (nomatch hl)⟩)
  · obtain ⟨h1, h2⟩ := step_same ha h
    unfold Tail
    rw [h1, h2]
    exact ht

theorem exec_tail : ∀ (acts : List Act) {s s' : St}, Inv s → Tail s → exec members acts s = .ok s' → Tail s'
  | [], _, _, _, ht, h => by cases h; exact ht
  | a :: l, s, s', hi, ht, h => by
    unfold exec at h
    have hg := step_good hi a
    cases hs : step members s a with
    | ok r =>
      rw [hs] at h hg
      exact exec_tail l hg (step_tail hi ht hs) h
    | no =>
      rw [hs] at h
      exact exec_tail l hi ht h
    | ub => rw [hs] at h; cases h

theorem start_tail : Tail (start members) := ⟨fun l hl => (nomatch hl), fun hl => (nomatch hl)⟩

end Verif.CStop

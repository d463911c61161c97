import Verif.Api

/-!
# Initialization that fails

Models `init()` (/repo/include/boost/flyweight/detail/flyweight_core.hpp:153-163) where the construction of the factory or of
the mutex may throw, called by any number of threads at once, with the local static of
/repo/include/boost/flyweight/static_holder.hpp:31-35.  By the rules of C++ one thread at a time constructs the local static,
others wait for it, and if the construction throws the next one to arrive tries again.
-/

set_option autoImplicit false

namespace Verif.StaticFail

/-- Position of a thread in a call of `init()` and of what follows in `insert`:
/repo/include/boost/flyweight/detail/flyweight_core.hpp:153-163, 215-217, 293-298. -/
inductive Pc where
  | out
  | threw
  | test
  | enter
  | facCtor
  | mtxCtor (n : Nat)
  | got (n : Nat)
  | fptr (n : Nat)
  | mptr (n : Nat)
  | back (n : Nat)
  | ret (b : Bool)
  | locked
  deriving DecidableEq

/-- The local static: not constructed, being constructed by a thread, constructed (as the `n`-th attempt).  (A rule of C++, for
/repo/include/boost/flyweight/static_holder.hpp:33.) -/
inductive Guard where
  | idle
  | busy (t : Nat)
  | done (n : Nat)
  deriving DecidableEq

/-- State: `static_initializer`, `static_factory_ptr`, `static_mutex_ptr`
(/repo/include/boost/flyweight/detail/flyweight_core.hpp:314-316; objects are named by the number of the attempt that constructs them), the local static, the
number of factories ever constructed, the factories and mutexes alive, and the positions of the threads. -/
structure St where
  flag : Bool
  fac : Option Nat
  mtx : Option Nat
  guard : Guard
  made : Nat
  live : List Nat
  muts : List Nat
  pcs : Nat → Pc

/-- Before the first call, /repo/include/boost/flyweight/detail/flyweight_core.hpp:333-351 (zero and constant initialization). -/
def start : St := ⟨false, none, none, .idle, 0, [], [], fun _ => .out⟩

/-- A thread calls `insert`, or makes its next step, in which a constructor throws or not.  (The user's program and the scheduler, no
code of the library.) -/
inductive Act where
  | call (t : Nat)
  | step (t : Nat) (fails : Bool)
  deriving DecidableEq

/-- What comes of it.  (No code of its own: used in statements and proofs.) -/
inductive Out where
  | ok (s : St)
  | blocked
  | ub

/-- Thread `t` goes to `p`.  (No code of its own.) -/
def St.go (s : St) (t : Nat) (p : Pc) : St := { s with pcs := fun u => if u = t then p else s.pcs u }

/-- One step.
* `test`: `if(static_initializer)return true`, /repo/include/boost/flyweight/detail/flyweight_core.hpp:155;
* `enter`, `facCtor`, `mtxCtor`: `holder_type::get()`, :157, that is /repo/include/boost/flyweight/static_holder.hpp:33; the members of `holder_arg` are
  constructed in the order of their declaration, :216-217, and the factory is destroyed if the constructor of the mutex throws;
* `got`, `fptr`, `mptr`, `back`: :158-161;
* `ret`, `locked`: `insert` locks the mutex and uses the factory, :295-298 (undefined behaviour if there is none).
Simplification: memory is sequentially consistent. -/
def act : Act → St → Out
  | .call t, s => match s.pcs t with
    | .out => .ok (s.go t .test)
    | .threw => .ok (s.go t .test)
    | _ => .blocked
  | .step t fails, s => match s.pcs t with
    | .out => .blocked
    | .threw => .blocked
    | .test => if s.flag then .ok (s.go t (.ret true)) else .ok (s.go t .enter)
    | .enter => match s.guard with
      | .idle => .ok { s.go t .facCtor with guard := .busy t }
      | .busy _ => .blocked
      | .done n => .ok (s.go t (.got n))
    | .facCtor =>
      if fails then .ok { s.go t .threw with guard := .idle }
      else .ok { s.go t (.mtxCtor s.made) with made := s.made + 1, live := s.made :: s.live }
    | .mtxCtor n =>
      if fails then .ok { s.go t .threw with guard := .idle, live := s.live.filter (· ≠ n) }
      else .ok { s.go t (.got n) with guard := .done n, muts := n :: s.muts }
    | .got n => .ok { s.go t (.fptr n) with fac := some n }
    | .fptr n => .ok { s.go t (.mptr n) with mtx := some n }
    | .mptr n => .ok { s.go t (.back n) with flag := s.fac.isSome }
    | .back _ => .ok (s.go t (.ret s.flag))
    | .ret _ => match s.mtx with
      | some n => if n ∈ s.muts then .ok (s.go t .locked) else .ub
      | none => .ub
    | .locked => match s.fac with
      | some n => if n ∈ s.live then .ok (s.go t .out) else .ub
      | none => .ub

/-- An execution; what cannot be done is passed over.  `none`: undefined behaviour.  (The user's program and the scheduler, no code of
the library.) -/
def run : List Act → St → Option St
  | [], s => some s
  | a :: as, s => match act a s with
    | .ok s => run as s
    | .blocked => run as s
    | .ub => none

/-! ## Lemmas -/

@[simp] theorem go_same (s : St) (t : Nat) (p : Pc) : (s.go t p).pcs t = p := by simp [St.go]

theorem go_other (s : St) {t u : Nat} (p : Pc) (h : u ≠ t) : (s.go t p).pcs u = s.pcs u := by simp [St.go, h]

/-- What holds of a thread at a position.  (No code of its own: used in statements and proofs.) -/
def POk (flag : Bool) (fac mtx : Option Nat) (guard : Guard) (live : List Nat) (t : Nat) : Pc → Prop
  | .out | .threw | .test | .enter => True
  | .facCtor => guard = .busy t ∧ live = []
  | .mtxCtor n => guard = .busy t ∧ live = [n]
  | .got n => guard = .done n
  | .fptr n => guard = .done n ∧ fac = some n
  | .mptr n => guard = .done n ∧ fac = some n ∧ mtx = some n
  | .back n => guard = .done n ∧ flag = true
  | .ret b => b = true ∧ flag = true
  | .locked => flag = true

/-- What holds of the local static and the pointers.  (No code of its own: used in statements and proofs.) -/
def GOk (s : St) : Prop :=
  match s.guard with
  | .idle => s.live = [] ∧ s.muts = [] ∧ s.fac = none ∧ s.mtx = none ∧ s.flag = false
  | .busy t => (s.pcs t = .facCtor ∨ ∃ n, s.pcs t = .mtxCtor n) ∧ s.muts = [] ∧ s.fac = none ∧ s.mtx = none ∧ s.flag = false
  | .done n => s.live = [n] ∧ s.muts = [n] ∧ (s.fac = none ∨ s.fac = some n) ∧ (s.mtx = none ∨ s.mtx = some n) ∧
      (s.flag = true → s.fac = some n ∧ s.mtx = some n)

/-- The invariant.  (No code of its own: used in statements and proofs.) -/
structure Inv (s : St) : Prop where
  guard : GOk s
  thread : ∀ t, POk s.flag s.fac s.mtx s.guard s.live t (s.pcs t)

theorem inv_start : Inv start := ⟨⟨rfl, rfl, rfl, rfl, rfl⟩, fun _ => trivial⟩

/-- The positions of the other threads remain right. -/
theorem POk.keep {flag flag' : Bool} {fac fac' mtx mtx' : Option Nat} {guard guard' : Guard} {live live' : List Nat} {t : Nat} {p : Pc}
    (h : POk flag fac mtx guard live t p) (h1 : flag = true → flag' = true) (h2 : ∀ n, guard = .done n → guard' = .done n)
    (h3 : guard = .busy t → guard' = .busy t ∧ live' = live)
    (h4 : ∀ n, guard = .done n → fac = some n → fac' = some n) (h5 : ∀ n, guard = .done n → mtx = some n → mtx' = some n) :
    POk flag' fac' mtx' guard' live' t p := by
  cases p with
  | out => trivial
  | threw => trivial
  | test => trivial
  | enter => trivial
  | facCtor => exact ⟨(h3 h.1).1, (h3 h.1).2.trans h.2⟩
  | mtxCtor n => exact ⟨(h3 h.1).1, (h3 h.1).2.trans h.2⟩
  | got n => exact h2 n h
  | fptr n => exact ⟨h2 n h.1, h4 n h.1 h.2⟩
  | mptr n => exact ⟨h2 n h.1, h4 n h.1 h.2.1, h5 n h.1 h.2.2⟩
  | back n => exact ⟨h2 n h.1, h1 h.2⟩
  | ret b => exact ⟨h.1, h1 h.2⟩
  | locked => exact h1 h

theorem Inv.done {s : St} (h : Inv s) {n : Nat} (hg : s.guard = .done n) : s.live = [n] ∧ s.muts = [n] ∧
    (s.fac = none ∨ s.fac = some n) ∧ (s.mtx = none ∨ s.mtx = some n) ∧ (s.flag = true → s.fac = some n ∧ s.mtx = some n) := by
  have := h.guard
  unfold GOk at this
  rw [hg] at this
  exact this

theorem Inv.flagged {s : St} (h : Inv s) (hf : s.flag = true) : ∃ n, s.guard = .done n ∧ s.live = [n] ∧ s.muts = [n] ∧
    s.fac = some n ∧ s.mtx = some n := by
  have := h.guard
  unfold GOk at this
  cases hg : s.guard with
  | idle => rw [hg] at this; rw [hf] at this; exact absurd this.2.2.2.2 (by simp)
  | busy t => rw [hg] at this; rw [hf] at this; exact absurd this.2.2.2.2 (by simp)
  | done n =>
    rw [hg] at this
    exact ⟨n, rfl, this.1, this.2.1, (this.2.2.2.2 hf).1, (this.2.2.2.2 hf).2⟩

/-- Moving one thread, the rest being the same. -/
theorem Inv.go {s : St} (h : Inv s) {t : Nat} {p : Pc} (hb : s.guard ≠ .busy t)
    (hp : POk s.flag s.fac s.mtx s.guard s.live t p) : Inv (s.go t p) := by
  refine ⟨?_, fun u => ?_⟩
  · have := h.guard
    unfold GOk at this ⊢
    change match s.guard with
      | .idle => _
      | .busy u => _
      | .done n => _
    cases hg : s.guard with
    | idle => rw [hg] at this; exact this
    | done n => rw [hg] at this; exact this
    | busy u =>
      rw [hg] at this hb
      have hu : u ≠ t := fun e => hb (by rw [e])
      exact ⟨by rw [go_other s p hu]; exact this.1, this.2⟩
  · by_cases hu : u = t
    · subst hu
      rw [go_same]
      exact hp
    · rw [go_other s p hu]
      exact h.thread u

theorem Inv.busy {s : St} (h : Inv s) {t : Nat} (hg : s.guard = .busy t) : s.muts = [] ∧ s.fac = none ∧ s.mtx = none ∧ s.flag = false := by
  have := h.guard
  unfold GOk at this
  rw [hg] at this
  exact this.2

theorem Inv.idle {s : St} (h : Inv s) (hg : s.guard = .idle) :
    s.live = [] ∧ s.muts = [] ∧ s.fac = none ∧ s.mtx = none ∧ s.flag = false := by
  have := h.guard
  unfold GOk at this
  rw [hg] at this
  exact this

/-- The thread that constructs the local static is there. -/
theorem Inv.notBusy {s : St} (h : Inv s) {t : Nat} (h1 : s.pcs t ≠ .facCtor) (h2 : ∀ n, s.pcs t ≠ .mtxCtor n) : s.guard ≠ .busy t := by
  intro hg
  have := h.guard
  unfold GOk at this
  rw [hg] at this
  rcases this.1 with e | ⟨n, e⟩
  · exact h1 e
  · exact h2 n e

/-- Changing everything: the other threads, then this one. -/
theorem Inv.of {s s' : St} (h : Inv s) (t : Nat) {p : Pc} (hp : s'.pcs = (s.go t p).pcs) (hG : GOk s')
    (ht : POk s'.flag s'.fac s'.mtx s'.guard s'.live t p) (h1 : s.flag = true → s'.flag = true)
    (h2 : ∀ n, s.guard = .done n → s'.guard = .done n)
    (h3 : ∀ u, u ≠ t → s.guard = .busy u → s'.guard = .busy u ∧ s'.live = s.live)
    (h4 : ∀ n, s.guard = .done n → s.fac = some n → s'.fac = some n)
    (h5 : ∀ n, s.guard = .done n → s.mtx = some n → s'.mtx = some n) : Inv s' := by
  refine ⟨hG, fun u => ?_⟩
  rw [hp]
  by_cases hu : u = t
  · subst hu
    rw [go_same]
    exact ht
  · rw [go_other s p hu]
    exact (h.thread u).keep h1 h2 (h3 u hu) h4 h5

theorem Inv.act {s : St} (h : Inv s) (a : Act) : match act a s with
    | .ok s' => Inv s'
    | .blocked => True
    | .ub => False := by
  cases a with
  | call t =>
    simp only [StaticFail.act]
    cases hp : s.pcs t with
    | out => exact h.go (t := t) (p := .test) (h.notBusy (by rw [hp]; simp) (by rw [hp]; simp)) trivial
    | threw => exact h.go (t := t) (p := .test) (h.notBusy (by rw [hp]; simp) (by rw [hp]; simp)) trivial
    | _ => trivial
  | step t fails =>
    have ht := h.thread t
    simp only [StaticFail.act]
    cases hp : s.pcs t with
    | out => trivial
    | threw => trivial
    | test =>
      have hb := h.notBusy (t := t) (by rw [hp]; simp) (by rw [hp]; simp)
      simp only
      by_cases hf : s.flag = true
      · rw [if_pos hf]
        exact h.go hb ⟨rfl, hf⟩
      · rw [if_neg hf]
        exact h.go hb trivial
    | enter =>
      have hb := h.notBusy (t := t) (by rw [hp]; simp) (by rw [hp]; simp)
      simp only
      cases hg : s.guard with
      | idle =>
        obtain ⟨g1, g2, g3, g4, g5⟩ := h.idle hg
        exact h.of t (p := .facCtor) rfl ⟨.inl (go_same _ _ _), g2, g3, g4, g5⟩ ⟨rfl, g1⟩ id
          (fun n e => by rw [hg] at e; cases e) (fun u _ e => by rw [hg] at e; cases e) (fun _ _ e => e) (fun _ _ e => e)
      | busy u => trivial
      | done n => exact h.go hb hg
    | facCtor =>
      rw [hp] at ht
      obtain ⟨hg, hl⟩ := ht
      obtain ⟨g2, g3, g4, g5⟩ := h.busy hg
      simp only
      cases fails with
      | true =>
        exact h.of t (p := .threw) rfl ⟨hl, g2, g3, g4, g5⟩ trivial id (fun n e => by rw [hg] at e; cases e)
          (fun u hu e => by rw [hg] at e; cases e; exact absurd rfl hu) (fun _ _ e => e) (fun _ _ e => e)
      | false =>
        have hG : GOk { s.go t (.mtxCtor s.made) with made := s.made + 1, live := s.made :: s.live } := by
          unfold GOk
          simp only [St.go, hg]
          exact ⟨.inr ⟨s.made, by simp⟩, g2, g3, g4, g5⟩
        exact h.of t (p := .mtxCtor s.made) rfl hG ⟨hg, by simp [hl]⟩ id (fun n e => by rw [hg] at e; cases e)
          (fun u hu e => by rw [hg] at e; cases e; exact absurd rfl hu) (fun _ _ e => e) (fun _ _ e => e)
    | mtxCtor n =>
      rw [hp] at ht
      obtain ⟨hg, hl⟩ := ht
      obtain ⟨g2, g3, g4, g5⟩ := h.busy hg
      simp only
      cases fails with
      | true =>
        exact h.of t (p := .threw) rfl ⟨by simp [hl], g2, g3, g4, g5⟩ trivial id (fun n e => by rw [hg] at e; cases e)
          (fun u hu e => by rw [hg] at e; cases e; exact absurd rfl hu) (fun _ _ e => e) (fun _ _ e => e)
      | false =>
        exact h.of t (p := .got n) rfl ⟨hl, by simp [g2], .inl g3, .inl g4, fun e => by rw [show s.flag = true from e] at g5; cases g5⟩ rfl id
          (fun n e => by rw [hg] at e; cases e)
          (fun u hu e => by rw [hg] at e; cases e; exact absurd rfl hu) (fun _ _ e => e) (fun _ _ e => e)
    | got n =>
      rw [hp] at ht
      have hg : s.guard = .done n := ht
      obtain ⟨g1, g2, g3, g4, g5⟩ := h.done hg
      have hG : GOk { s.go t (.fptr n) with fac := some n } := by
        unfold GOk
        simp only [St.go, hg]
        exact ⟨g1, g2, .inr trivial, g4, fun e => ⟨trivial, (g5 e).2⟩⟩
      exact h.of t (p := .fptr n) rfl hG ⟨hg, rfl⟩ id (fun m e => e) (fun u _ e => by rw [hg] at e; cases e)
        (fun m e _ => by rw [hg] at e; cases e; rfl) (fun _ _ e => e)
    | fptr n =>
      rw [hp] at ht
      obtain ⟨hg, hf⟩ := ht
      obtain ⟨g1, g2, g3, g4, g5⟩ := h.done hg
      have hG : GOk { s.go t (.mptr n) with mtx := some n } := by
        unfold GOk
        simp only [St.go, hg]
        exact ⟨g1, g2, g3, .inr trivial, fun e => ⟨(g5 e).1, trivial⟩⟩
      exact h.of t (p := .mptr n) rfl hG ⟨hg, hf, rfl⟩ id (fun m e => e) (fun u _ e => by rw [hg] at e; cases e)
        (fun _ _ e => e) (fun m e _ => by rw [hg] at e; cases e; rfl)
    | mptr n =>
      rw [hp] at ht
      obtain ⟨hg, hf, hm⟩ := ht
      obtain ⟨g1, g2, g3, g4, g5⟩ := h.done hg
      have hfl : s.fac.isSome = true := by rw [hf]; rfl
      have hG : GOk { s.go t (.back n) with flag := s.fac.isSome } := by
        unfold GOk
        simp only [St.go, hg]
        exact ⟨g1, g2, g3, g4, fun _ => ⟨hf, hm⟩⟩
      exact h.of t (p := .back n) rfl hG ⟨hg, hfl⟩ (fun _ => hfl) (fun m e => e) (fun u _ e => by rw [hg] at e; cases e)
        (fun _ _ e => e) (fun _ _ e => e)
    | back n =>
      rw [hp] at ht
      exact h.go (by rw [ht.1]; simp) ⟨ht.2, ht.2⟩
    | ret b =>
      rw [hp] at ht
      obtain ⟨n, e1, e2, e3, e4, e5⟩ := h.flagged ht.2
      simp only [e5, e3, List.mem_singleton, if_true]
      exact h.go (by rw [e1]; simp) ht.2
    | locked =>
      rw [hp] at ht
      obtain ⟨n, e1, e2, e3, e4, e5⟩ := h.flagged ht
      simp only [e4, e2, List.mem_singleton, if_true]
      exact h.go (by rw [e1]; simp) trivial

theorem Inv.run {s : St} (h : Inv s) (as : List Act) : ∃ s', run as s = some s' ∧ Inv s' := by
  induction as generalizing s with
  | nil => exact ⟨s, rfl, h⟩
  | cons a as ih =>
    have := h.act a
    unfold StaticFail.run
    cases ha : StaticFail.act a s with
    | ok s' =>
      rw [ha] at this
      exact ih this
    | blocked => exact ih h
    | ub =>
      rw [ha] at this
      exact this.elim

theorem inv_of_run {as : List Act} {s : St} (h : run as start = some s) : Inv s := by
  obtain ⟨s', h1, h2⟩ := inv_start.run as
  rw [h] at h1
  cases h1
  exact h2

/-- Once constructed, the factory remains, and no other is constructed. -/
theorem done_act {s s' : St} (h : Inv s) {n : Nat} (hg : s.guard = .done n) {a : Act} (ha : act a s = .ok s') :
    s'.guard = .done n ∧ s'.live = s.live ∧ s'.muts = s.muts ∧ s'.made = s.made ∧ (s.flag = true → s'.flag = true) := by
  cases a with
  | call t =>
    unfold StaticFail.act at ha
    cases hp : s.pcs t <;> simp only [hp] at ha <;> cases ha <;> exact ⟨hg, rfl, rfl, rfl, id⟩
  | step t fails =>
    have ht := h.thread t
    unfold StaticFail.act at ha
    cases hp : s.pcs t with
    | out => simp only [hp] at ha; cases ha
    | threw => simp only [hp] at ha; cases ha
    | test =>
      simp only [hp] at ha
      by_cases hf : s.flag = true
      · rw [if_pos hf] at ha; cases ha; exact ⟨hg, rfl, rfl, rfl, id⟩
      · rw [if_neg hf] at ha; cases ha; exact ⟨hg, rfl, rfl, rfl, id⟩
    | enter =>
      simp only [hp, hg] at ha
      cases ha
      exact ⟨hg, rfl, rfl, rfl, id⟩
    | facCtor => rw [hp] at ht; rw [ht.1] at hg; cases hg
    | mtxCtor m => rw [hp] at ht; rw [ht.1] at hg; cases hg
    | got m => simp only [hp] at ha; cases ha; exact ⟨hg, rfl, rfl, rfl, id⟩
    | fptr m => simp only [hp] at ha; cases ha; exact ⟨hg, rfl, rfl, rfl, id⟩
    | mptr m =>
      simp only [hp] at ha
      cases ha
      rw [hp] at ht
      exact ⟨hg, rfl, rfl, rfl, fun _ => by simp [ht.2.1]⟩
    | back m => simp only [hp] at ha; cases ha; exact ⟨hg, rfl, rfl, rfl, id⟩
    | ret b =>
      simp only [hp] at ha
      split at ha
      · split at ha
        · cases ha; exact ⟨hg, rfl, rfl, rfl, id⟩
        · cases ha
      · cases ha
    | locked =>
      simp only [hp] at ha
      split at ha
      · split at ha
        · cases ha; exact ⟨hg, rfl, rfl, rfl, id⟩
        · cases ha
      · cases ha

theorem done_run {s s' : St} (h : Inv s) {n : Nat} (hg : s.guard = .done n) {as : List Act} (hr : run as s = some s') :
    s'.guard = .done n ∧ s'.live = s.live ∧ s'.muts = s.muts ∧ s'.made = s.made ∧ (s.flag = true → s'.flag = true) := by
  induction as generalizing s with
  | nil => cases hr; exact ⟨hg, rfl, rfl, rfl, id⟩
  | cons a as ih =>
    unfold StaticFail.run at hr
    have hi := h.act a
    cases ha : StaticFail.act a s with
    | ok s₁ =>
      rw [ha] at hr hi
      obtain ⟨g1, g2, g3, g4, g5⟩ := done_act h hg ha
      obtain ⟨e1, e2, e3, e4, e5⟩ := ih hi g1 hr
      exact ⟨e1, e2.trans g2, e3.trans g3, e4.trans g4, fun f => e5 (g5 f)⟩
    | blocked => rw [ha] at hr; exact ih h hg hr
    | ub => rw [ha] at hr; cases hr

/-- The steps that remain of a call.  (No code of its own: used in statements and proofs.) -/
def rank : Pc → Nat
  | .out | .threw => 0
  | .locked => 1
  | .ret _ => 2
  | .back _ => 3
  | .mptr _ => 4
  | .fptr _ => 5
  | .got _ => 6
  | .mtxCtor _ => 7
  | .facCtor => 8
  | .enter => 9
  | .test => 10

theorem step_rank {s s' : St} {t : Nat} {fails : Bool} (ha : act (.step t fails) s = .ok s') :
    rank (s'.pcs t) < rank (s.pcs t) ∧ ∀ u, u ≠ t → s'.pcs u = s.pcs u := by
  unfold StaticFail.act at ha
  cases hp : s.pcs t <;> simp only [hp] at ha
  all_goals
    repeat' split at ha
    all_goals (cases ha <;> exact ⟨by simp [St.go, rank], fun u hu => go_other s _ hu⟩)

theorem call_rank {s s' : St} {t : Nat} (ha : act (.call t) s = .ok s') :
    rank (s.pcs t) = 0 ∧ rank (s'.pcs t) = 10 ∧ ∀ u, u ≠ t → s'.pcs u = s.pcs u := by
  unfold StaticFail.act at ha
  cases hp : s.pcs t <;> simp only [hp] at ha <;> cases ha <;>
    exact ⟨rfl, by simp [rank], fun u hu => go_other s _ hu⟩

end Verif.StaticFail

import Verif.HB
import Verif.Statics

/-!
# Static initialization by several threads

Each access to the static data of a flyweight type
(/repo/include/boost/flyweight/detail/flyweight_core.hpp:153-163, 191-209, 314-351) is an event in the sense of
`Verif/HB.lean`.  Any number of types and threads; threads are started by others, and may
synchronize by means of their own.
-/

set_option autoImplicit false

namespace Verif.StaticHB
open HB
open Verif.Statics (set set_self set_ne)

/-- What synchronization is based on: the start of a thread, the guard of the local static object
(/repo/include/boost/flyweight/static_holder.hpp:33), and whatever the program uses. -/
inductive Sync where
  | start (t : Nat)
  | guard (c : Nat)
  | user (o : Nat)
  deriving DecidableEq

/-- Static data of type `c`: `static_initializer`, `static_factory_ptr`, `static_mutex_ptr`
(/repo/include/boost/flyweight/detail/flyweight_core.hpp:314-316), and the object with factory and mutex
(/repo/include/boost/flyweight/static_holder.hpp:33), which is written by its construction. -/
inductive Loc where
  | flag (c : Nat)
  | fptr (c : Nat)
  | mptr (c : Nat)
  | holder (c : Nat)
  deriving DecidableEq

/-- The type whose static data it is.  (Helper, no code of its own.) -/
def Loc.type : Loc → Nat
  | .flag c => c
  | .fptr c => c
  | .mptr c => c
  | .holder c => c

/-- Events.  (No code of its own.) -/
abbrev Event := Ev Sync Loc

/-- What a thread is doing: nothing of interest, or the part of `init()` of type `c` that starts with
line 157, 158, 159 or 160 of /repo/include/boost/flyweight/detail/flyweight_core.hpp; `dyn` says whether it was called
by the dynamic initialization of `static_initializer` (323-329), which then stores the result `v`. -/
inductive Pc where
  | idle
  | get (c : Nat) (dyn : Bool)
  | setF (c : Nat) (dyn : Bool)
  | setM (c : Nat) (dyn : Bool)
  | setFlag (c : Nat) (dyn : Bool)
  | store (c : Nat) (v : Bool)
  deriving DecidableEq

/-- The type being initialized.  (Helper, no code of its own.) -/
def Pc.type : Pc → Option Nat
  | .idle => none
  | .get c _ => some c
  | .setF c _ => some c
  | .setM c _ => some c
  | .setFlag c _ => some c
  | .store c _ => some c

/-- What a thread does next:
* `call c`: calls `init()` of type `c`, directly (/repo/include/boost/flyweight/flyweight.hpp:181-189) or by creating or
  destroying a flyweight (/repo/include/boost/flyweight/detail/flyweight_core.hpp:71, 263, 278, 294, 304);
* `dyn c`: begins the dynamic initialization of `static_initializer`
  (/repo/include/boost/flyweight/detail/flyweight_core.hpp:323-329), once, at a time not under control of the program;
* `run`: the next part of `init()`;
* `use c`: uses the factory and the mutex (191-209), e.g. to access a value;
* `spawn u`: starts thread `u`;
* `post o`, `wait o`: whatever the program has to make what follows `wait` happen after what precedes
  `post`. -/
inductive Act where
  | call (c : Nat)
  | dyn (c : Nat)
  | run
  | use (c : Nat)
  | spawn (u : Nat)
  | post (o : Nat)
  | wait (o : Nat)
  deriving DecidableEq

/-- State: for each type the static data (pointers are set or not) and whether the dynamic initialization of
`static_initializer` has begun; for each thread what it does and whether it has been started; the events so
far.  Models /repo/include/boost/flyweight/detail/flyweight_core.hpp:314-351. -/
structure St where
  flag : Nat → Bool
  fptr : Nat → Bool
  mptr : Nat → Bool
  built : Nat → Bool
  dyn : Nat → Bool
  pc : Nat → Pc
  on : Nat → Bool
  tr : List Event

/-- Outcome of an action: done, not possible now, or a null pointer is dereferenced.  (No code of its own.) -/
inductive Res where
  | ok (s : St)
  | no
  | ub

/-- At the start: thread 0, static data zero; /repo/include/boost/flyweight/detail/flyweight_core.hpp:331-351. -/
def start : St :=
  ⟨fun _ => false, fun _ => false, fun _ => false, fun _ => false, fun _ => false, fun _ => .idle, fun t => t == 0, []⟩

/-- Next part of `init()`, /repo/include/boost/flyweight/detail/flyweight_core.hpp:157-161, or of the initialization of
`static_initializer` (323-329).  The construction of the local static object in
/repo/include/boost/flyweight/static_holder.hpp:33 is done by one thread, for which others wait (rule of C++11).
Simplification: this construction is a single step. -/
def run (s : St) (t : Nat) : Pc → Res
  | .idle => .no
  | .get c d =>
    .ok { s with
      built := set s.built c true, pc := set s.pc t (.setF c d),
      tr := s.tr ++ [if s.built c then ⟨t, [.start t, .guard c], [], []⟩
        else ⟨t, [.start t, .guard c], [(.holder c, .write)], [.guard c]⟩] }
  | .setF c d =>
    .ok { s with
      fptr := set s.fptr c true, pc := set s.pc t (.setM c d),
      tr := s.tr ++ [⟨t, [.start t], [(.fptr c, .write)], []⟩] }
  | .setM c d =>
    .ok { s with
      mptr := set s.mptr c true, pc := set s.pc t (.setFlag c d),
      tr := s.tr ++ [⟨t, [.start t], [(.mptr c, .write)], []⟩] }
  | .setFlag c d =>
    .ok { s with
      flag := set s.flag c (s.fptr c), pc := set s.pc t (if d then .store c (s.fptr c) else .idle),
      tr := s.tr ++ [⟨t, [.start t], [(.fptr c, .read), (.flag c, .write), (.flag c, .read)], []⟩] }
  | .store c v =>
    .ok { s with
      flag := set s.flag c v, pc := set s.pc t .idle,
      tr := s.tr ++ [⟨t, [.start t], [(.flag c, .write)], []⟩] }

/-- One action of thread `t`; line references at `Act`.  `call` and `dyn` include the test of `static_initializer`,
/repo/include/boost/flyweight/detail/flyweight_core.hpp:155. -/
def act (s : St) (t : Nat) (a : Act) : Res :=
  if s.on t then
    match a with
    | .run => run s t (s.pc t)
    | .call c => match s.pc t with
      | .idle => .ok { s with
          pc := set s.pc t (if s.flag c then .idle else .get c false),
          tr := s.tr ++ [⟨t, [.start t], [(.flag c, .read)], []⟩] }
      | _ => .no
    | .dyn c => match s.pc t with
      | .idle =>
        if s.dyn c then .no
        else .ok { s with
          dyn := set s.dyn c true, pc := set s.pc t (if s.flag c then .store c true else .get c true),
          tr := s.tr ++ [⟨t, [.start t], [(.flag c, .read)], []⟩] }
      | _ => .no
    | .use c => match s.pc t with
      | .idle =>
        if s.fptr c && s.mptr c then
          .ok { s with tr := s.tr ++ [⟨t, [.start t], [(.fptr c, .read), (.mptr c, .read), (.holder c, .read)], []⟩] }
        else .ub
      | _ => .no
    | .spawn u => match s.pc t with
      | .idle =>
        if s.on u then .no
        else .ok { s with on := set s.on u true, tr := s.tr ++ [⟨t, [.start t], [], [.start u]⟩] }
      | _ => .no
    | .post o => match s.pc t with
      | .idle => .ok { s with tr := s.tr ++ [⟨t, [.start t], [], [.user o]⟩] }
      | _ => .no
    | .wait o => match s.pc t with
      | .idle => .ok { s with tr := s.tr ++ [⟨t, [.start t, .user o], [], []⟩] }
      | _ => .no
  else .no

/-- Execution of a schedule, until the end or until a null pointer is dereferenced.  (No code of its own: the
scheduler.) -/
def exec : List (Nat × Act) → St → St
  | [], s => s
  | (t, a) :: l, s => match act s t a with
    | .ok s' => exec l s'
    | .no => exec l s
    | .ub => s

/-- Event `j` accesses static data of type `c`.  (No code of its own: used to state properties.) -/
def Touch (tr : List Event) (c j : Nat) : Prop := ∃ l k, l.type = c ∧ Acc tr j (l, k)

/-- No data race on the static data of type `c`.  (No code of its own: used to state properties.) -/
def RaceFreeOn (c : Nat) (tr : List Event) : Prop :=
  ∀ i j l k k', l.type = c → i ≠ j → Acc tr i (l, k) → Acc tr j (l, k') → k.conflict k' = true →
    Before tr i j ∨ Before tr j i

/-- Event `j` is made by thread `t`.  (No code of its own: used to state properties.) -/
def By (tr : List Event) (j t : Nat) : Prop := ∃ ev, tr[j]? = some ev ∧ ev.thr = t

/-! ## Lemmas -/

/-- What a thread within `init()` can rely on.  (No code of its own: used in proofs.) -/
def PcOk (s : St) : Pc → Prop
  | .idle => True
  | .get _ _ => True
  | .setF c _ => s.built c = true
  | .setM c _ => s.built c = true ∧ s.fptr c = true
  | .setFlag c _ => s.built c = true ∧ s.fptr c = true ∧ s.mptr c = true
  | .store c v => v = true ∧ s.flag c = true

/-- Invariant.  (No code of its own: used in proofs.) -/
structure Inv (s : St) : Prop where
  flag : ∀ c, s.flag c = true → s.built c = true ∧ s.fptr c = true ∧ s.mptr c = true
  pc : ∀ t, PcOk s (s.pc t)
  touched : ∀ t c, (s.pc t).type = some c → ∃ j, Touch s.tr c j ∧ By s.tr j t

theorem set_true {f : Nat → Bool} {c i : Nat} (h : f i = true) : set f c true i = true := by
  unfold Statics.set
  split <;> simp_all

theorem By.old {tr : List Event} {ev : Event} {j t : Nat} (h : By tr j t) : By (tr ++ [ev]) j t := by
  obtain ⟨x, h1, h2⟩ := h
  exact ⟨x, get_old h1, h2⟩

theorem Touch.old {tr : List Event} {ev : Event} {c j : Nat} (h : Touch tr c j) : Touch (tr ++ [ev]) c j := by
  obtain ⟨l, k, h1, h2⟩ := h
  exact ⟨l, k, h1, h2.old⟩

theorem by_new {tr : List Event} {ev : Event} : By (tr ++ [ev]) tr.length ev.thr := ⟨ev, get_new, rfl⟩

/-- A step that only adds to the static data. -/
theorem PcOk.mono {s s' : St} (hf : ∀ c, s.flag c = true → s'.flag c = true) (hp : ∀ c, s.fptr c = true → s'.fptr c = true)
    (hm : ∀ c, s.mptr c = true → s'.mptr c = true) (hb : ∀ c, s.built c = true → s'.built c = true) {p : Pc}
    (h : PcOk s p) : PcOk s' p := by
  cases p with
  | idle => trivial
  | get => trivial
  | setF c d => exact hb c h
  | setM c d => exact ⟨hb c h.1, hp c h.2⟩
  | setFlag c d => exact ⟨hb c h.1, hp c h.2.1, hm c h.2.2⟩
  | store c v => exact ⟨h.1, hf c h.2⟩

/-- How a step changes the state.  (No code of its own: used in proofs.) -/
structure Step (s s' : St) (t : Nat) (ev : Event) (p : Pc) : Prop where
  tr : s'.tr = s.tr ++ [ev]
  thr : ev.thr = t
  pc : s'.pc = set s.pc t p
  flag : ∀ c, s.flag c = true → s'.flag c = true
  fptr : ∀ c, s.fptr c = true → s'.fptr c = true
  mptr : ∀ c, s.mptr c = true → s'.mptr c = true
  built : ∀ c, s.built c = true → s'.built c = true
  ok : PcOk s' p
  flagOk : ∀ c, s'.flag c = true → s'.built c = true ∧ s'.fptr c = true ∧ s'.mptr c = true
  /-- only a thread within `init()` of `c`, or that finds `static_initializer` unset, goes on with it -/
  enter : ∀ c, p.type = some c → (s.pc t).type = some c ∨ Acc s'.tr s.tr.length (.flag c, .read)
  /-- writes of static data are made within `init()` -/
  write : ∀ l, (l, Kind.write) ∈ ev.accs → (s.pc t).type = some l.type
  atomic : ∀ l, (l, Kind.atomic) ∉ ev.accs

theorem self_idle {s : St} {t : Nat} (h : s.pc t = .idle) : s.pc = set s.pc t .idle := by
  funext i
  by_cases hi : i = t
  · subst hi; rw [set_self, h]
  · rw [set_ne _ _ hi]

theorem run_step {s s' : St} {t : Nat} (h : Inv s) (hr : run s t (s.pc t) = .ok s') : ∃ ev p, Step s s' t ev p := by
  have hpc := h.pc t
  cases hp : s.pc t with
  | idle => rw [hp] at hr; cases hr
  | get c d =>
    rw [hp] at hr
    simp only [run, Res.ok.injEq] at hr
    subst hr
    refine ⟨_, .setF c d, ⟨rfl, ?_, rfl, fun _ h => h, fun _ h => h, fun _ h => h, fun _ h => set_true h, ?_, ?_, ?_, ?_, ?_⟩⟩
    · split <;> rfl
    · exact set_self _ _ _
    · intro i hi
      exact ⟨set_true (h.flag i hi).1, (h.flag i hi).2⟩
    · intro i hi
      rw [hp]
      exact .inl hi
    · intro l hl
      split at hl
      · cases hl
      · simp only [List.mem_singleton, Prod.mk.injEq, and_true] at hl
        subst hl
        rw [hp]
        rfl
    · intro l hl
      split at hl
      · cases hl
      · simp at hl
  | setF c d =>
    rw [hp] at hr hpc
    simp only [run, Res.ok.injEq] at hr
    subst hr
    refine ⟨_, .setM c d, ⟨rfl, rfl, rfl, fun _ h => h, fun _ h => set_true h, fun _ h => h, fun _ h => h, ?_, ?_, ?_, ?_, ?_⟩⟩
    · exact ⟨hpc, set_self _ _ _⟩
    · intro i hi
      exact ⟨(h.flag i hi).1, set_true (h.flag i hi).2.1, (h.flag i hi).2.2⟩
    · intro i hi
      rw [hp]
      exact .inl hi
    · intro l hl
      simp only [List.mem_singleton, Prod.mk.injEq, and_true] at hl
      subst hl
      rw [hp]
      rfl
    · intro l hl
      simp at hl
  | setM c d =>
    rw [hp] at hr hpc
    simp only [run, Res.ok.injEq] at hr
    subst hr
    refine ⟨_, .setFlag c d, ⟨rfl, rfl, rfl, fun _ h => h, fun _ h => h, fun _ h => set_true h, fun _ h => h, ?_, ?_, ?_, ?_, ?_⟩⟩
    · exact ⟨hpc.1, hpc.2, set_self _ _ _⟩
    · intro i hi
      exact ⟨(h.flag i hi).1, (h.flag i hi).2.1, set_true (h.flag i hi).2.2⟩
    · intro i hi
      rw [hp]
      exact .inl hi
    · intro l hl
      simp only [List.mem_singleton, Prod.mk.injEq, and_true] at hl
      subst hl
      rw [hp]
      rfl
    · intro l hl
      simp at hl
  | setFlag c d =>
    rw [hp] at hr hpc
    simp only [run, Res.ok.injEq] at hr
    subst hr
    refine ⟨_, _, ⟨rfl, rfl, rfl, ?_, fun _ h => h, fun _ h => h, fun _ h => h, ?_, ?_, ?_, ?_, ?_⟩⟩
    · intro i hi
      rw [hpc.2.1]
      exact set_true hi
    · cases d with
      | true => exact ⟨hpc.2.1, (set_self _ _ _).trans hpc.2.1⟩
      | false => trivial
    · intro i hi
      by_cases hic : i = c
      · subst hic; exact hpc
      · simp only [set_ne _ _ hic] at hi
        exact h.flag i hi
    · intro i hi
      rw [hp]
      refine .inl ?_
      cases d with
      | true => exact hi
      | false => cases hi
    · intro l hl
      simp only [List.mem_cons, Prod.mk.injEq, reduceCtorEq, and_false, and_true, List.not_mem_nil, or_false,
        false_or] at hl
      subst hl
      rw [hp]
      rfl
    · intro l hl
      simp at hl
  | store c v =>
    rw [hp] at hr hpc
    simp only [run, Res.ok.injEq] at hr
    subst hr
    refine ⟨_, _, ⟨rfl, rfl, rfl, ?_, fun _ h => h, fun _ h => h, fun _ h => h, trivial, ?_, ?_, ?_, ?_⟩⟩
    · intro i hi
      rw [hpc.1]
      exact set_true hi
    · intro i hi
      by_cases hic : i = c
      · subst hic; exact h.flag i hpc.2
      · simp only [set_ne _ _ hic] at hi
        exact h.flag i hi
    · intro i hi
      cases hi
    · intro l hl
      simp only [List.mem_singleton, Prod.mk.injEq, and_true] at hl
      subst hl
      rw [hp]
      rfl
    · intro l hl
      simp at hl

theorem act_step {s s' : St} {t : Nat} {a : Act} (h : Inv s) (ha : act s t a = .ok s') : ∃ ev p, Step s s' t ev p := by
  unfold act at ha
  split at ha
  rotate_left
  · cases ha
  cases a with
  | run => exact run_step h ha
  | call c =>
    dsimp only at ha
    split at ha
    · rename_i hp
      simp only [Res.ok.injEq] at ha
      subst ha
      refine ⟨_, _, ⟨rfl, rfl, rfl, fun _ h => h, fun _ h => h, fun _ h => h, fun _ h => h, ?_, h.flag, ?_, ?_, ?_⟩⟩
      · split <;> trivial
      · intro i hi
        refine .inr ?_
        split at hi
        · cases hi
        · cases hi
          exact acc_new (List.mem_singleton.2 rfl)
      · intro l hl
        simp at hl
      · intro l hl
        simp at hl
    · cases ha
  | dyn c =>
    dsimp only at ha
    split at ha
    · rename_i hp
      split at ha
      · cases ha
      · simp only [Res.ok.injEq] at ha
        subst ha
        refine ⟨_, _, ⟨rfl, rfl, rfl, fun _ h => h, fun _ h => h, fun _ h => h, fun _ h => h, ?_, h.flag, ?_, ?_, ?_⟩⟩
        · split
          · exact ⟨rfl, by assumption⟩
          · trivial
        · intro i hi
          refine .inr ?_
          split at hi <;> cases hi <;> exact acc_new (List.mem_singleton.2 rfl)
        · intro l hl
          simp at hl
        · intro l hl
          simp at hl
    · cases ha
  | use c =>
    dsimp only at ha
    split at ha
    · rename_i hp
      split at ha
      · simp only [Res.ok.injEq] at ha
        subst ha
        refine ⟨_, .idle, ⟨rfl, rfl, self_idle hp, fun _ h => h, fun _ h => h, fun _ h => h, fun _ h => h, trivial, h.flag,
          ?_, ?_, ?_⟩⟩
        · intro i hi
          cases hi
        · intro l hl
          simp at hl
        · intro l hl
          simp at hl
      · cases ha
    · cases ha
  | spawn u =>
    dsimp only at ha
    split at ha
    · rename_i hp
      split at ha
      · cases ha
      · simp only [Res.ok.injEq] at ha
        subst ha
        refine ⟨_, .idle, ⟨rfl, rfl, self_idle hp, fun _ h => h, fun _ h => h, fun _ h => h, fun _ h => h, trivial, h.flag,
          ?_, ?_, ?_⟩⟩
        · intro i hi
          cases hi
        · intro l hl
          simp at hl
        · intro l hl
          simp at hl
    · cases ha
  | post o =>
    dsimp only at ha
    split at ha
    · rename_i hp
      simp only [Res.ok.injEq] at ha
      subst ha
      refine ⟨_, .idle, ⟨rfl, rfl, self_idle hp, fun _ h => h, fun _ h => h, fun _ h => h, fun _ h => h, trivial, h.flag,
        ?_, ?_, ?_⟩⟩
      · intro i hi
        cases hi
      · intro l hl
        simp at hl
      · intro l hl
        simp at hl
    · cases ha
  | wait o =>
    dsimp only at ha
    split at ha
    · rename_i hp
      simp only [Res.ok.injEq] at ha
      subst ha
      refine ⟨_, .idle, ⟨rfl, rfl, self_idle hp, fun _ h => h, fun _ h => h, fun _ h => h, fun _ h => h, trivial, h.flag,
        ?_, ?_, ?_⟩⟩
      · intro i hi
        cases hi
      · intro l hl
        simp at hl
      · intro l hl
        simp at hl
    · cases ha

theorem Step.inv {s s' : St} {t : Nat} {ev : Event} {p : Pc} (h : Inv s) (hs : Step s s' t ev p) : Inv s' := by
  refine ⟨hs.flagOk, ?_, ?_⟩
  · intro u
    rw [hs.pc]
    by_cases hu : u = t
    · subst hu; rw [set_self]; exact hs.ok
    · rw [set_ne _ _ hu]; exact (h.pc u).mono hs.flag hs.fptr hs.mptr hs.built
  · intro u c hc
    rw [hs.pc] at hc
    by_cases hu : u = t
    · subst hu
      rw [set_self] at hc
      rcases hs.enter c hc with hc | hc
      · obtain ⟨j, h1, h2⟩ := h.touched u c hc
        rw [hs.tr]
        exact ⟨j, h1.old, h2.old⟩
      · refine ⟨_, ⟨_, _, rfl, hc⟩, ?_⟩
        rw [hs.tr, ← hs.thr]
        exact by_new
    · rw [set_ne _ _ hu] at hc
      obtain ⟨j, h1, h2⟩ := h.touched u c hc
      rw [hs.tr]
      exact ⟨j, h1.old, h2.old⟩

theorem inv_start : Inv start := by
  refine ⟨?_, fun _ => trivial, ?_⟩
  · intro c h; cases h
  · intro t c h; cases h

theorem exec_inv : ∀ (l : List (Nat × Act)) (s : St), Inv s → Inv (exec l s)
  | [], _, h => h
  | (t, a) :: l, s, h => by
    unfold exec
    split
    · rename_i s' ha
      obtain ⟨_, _, hs⟩ := act_step h ha
      exact exec_inv l s' (hs.inv h)
    · exact exec_inv l s h
    · exact h

/-- Events are only added. -/
theorem exec_tr : ∀ (l : List (Nat × Act)) (s : St), Inv s → ∃ es, (exec l s).tr = s.tr ++ es
  | [], _, _ => ⟨[], (List.append_nil _).symm⟩
  | (t, a) :: l, s, h => by
    unfold exec
    split
    · rename_i s' ha
      obtain ⟨ev, _, hs⟩ := act_step h ha
      obtain ⟨es, he⟩ := exec_tr l s' (hs.inv h)
      exact ⟨ev :: es, by rw [he, hs.tr, List.append_assoc]; rfl⟩
    · exact exec_tr l s h
    · exact ⟨[], (List.append_nil _).symm⟩

/-- Type `c` is initialized and nobody is initializing it (again).  (No code of its own: used in proofs.) -/
structure Ready (c : Nat) (s : St) : Prop where
  flag : s.flag c = true
  pc : ∀ t, (s.pc t).type ≠ some c

/-- From then on, static data of `c` are only read. -/
theorem exec_ready {c : Nat} : ∀ (l : List (Nat × Act)) (s : St), Inv s → Ready c s → (∀ t, (t, Act.dyn c) ∉ l) →
    Ready c (exec l s) ∧ ∀ j loc k, loc.type = c → s.tr.length ≤ j → Acc (exec l s).tr j (loc, k) → k = .read := by
  intro l
  induction l with
  | nil =>
    intro s h hr _
    refine ⟨hr, ?_⟩
    intro j loc k _ hj ha
    exact absurd ha.lt (Nat.not_lt.2 hj)
  | cons x l ih =>
    obtain ⟨t, a⟩ := x
    intro s h hr hd
    have hd' : ∀ t, (t, Act.dyn c) ∉ l := fun t ht => hd t (List.mem_cons_of_mem _ ht)
    unfold exec
    split
    · rename_i s' ha
      obtain ⟨ev, p, hs⟩ := act_step h ha
      have hp : p.type ≠ some c := by
        intro hc
        -- the thread would have found `static_initializer` unset
        have hne := hr.pc t
        unfold act at ha
        split at ha
        rotate_left
        · cases ha
        have hpt : (s'.pc t).type = some c := by rw [hs.pc, set_self]; exact hc
        cases a with
        | run =>
          rcases hs.enter c hc with h1 | h1
          · exact hne h1
          · -- `run` stays within the type
            clear h1 hs
            dsimp only at ha
            cases hq : s.pc t with
            | idle => rw [hq] at ha; cases ha
            | get c' d =>
              rw [hq] at ha hne
              cases ha
              simp only [set_self] at hpt
              exact hne hpt
            | setF c' d =>
              rw [hq] at ha hne
              cases ha
              simp only [set_self] at hpt
              exact hne hpt
            | setM c' d =>
              rw [hq] at ha hne
              cases ha
              simp only [set_self] at hpt
              exact hne hpt
            | setFlag c' d =>
              rw [hq] at ha hne
              cases ha
              simp only [set_self] at hpt
              cases d with
              | true => exact hne hpt
              | false => cases hpt
            | store c' v =>
              rw [hq] at ha hne
              cases ha
              simp only [set_self] at hpt
              cases hpt
        | call c' =>
          dsimp only at ha
          split at ha
          · cases ha
            simp only [set_self] at hpt
            split at hpt
            · cases hpt
            · cases hpt
              rename_i hf
              exact hf hr.flag
          · cases ha
        | dyn c' =>
          dsimp only at ha
          split at ha
          · split at ha
            · cases ha
            · cases ha
              simp only [set_self] at hpt
              have : c' = c := by split at hpt <;> cases hpt <;> rfl
              subst this
              exact hd t (List.mem_cons_self ..)
          · cases ha
        | use c' =>
          dsimp only at ha
          split at ha
          · split at ha
            · cases ha; exact hne hpt
            · cases ha
          · cases ha
        | spawn u =>
          dsimp only at ha
          split at ha
          · split at ha
            · cases ha
            · cases ha; exact hne hpt
          · cases ha
        | post o =>
          dsimp only at ha
          split at ha
          · cases ha; exact hne hpt
          · cases ha
        | wait o =>
          dsimp only at ha
          split at ha
          · cases ha; exact hne hpt
          · cases ha
      have hr' : Ready c s' := by
        refine ⟨hs.flag c hr.flag, ?_⟩
        intro u
        rw [hs.pc]
        by_cases hu : u = t
        · subst hu; rw [set_self]; exact hp
        · rw [set_ne _ _ hu]; exact hr.pc u
      obtain ⟨h1, h2⟩ := ih s' (hs.inv h) hr' hd'
      refine ⟨h1, ?_⟩
      intro j loc k hl hj hacc
      rcases Nat.lt_or_ge j s'.tr.length with hlt | hge
      · -- the new event
        obtain ⟨es, he⟩ := exec_tr l s' (hs.inv h)
        obtain ⟨x, hx, hm⟩ := hacc
        rw [he, List.getElem?_append_left hlt, hs.tr] at hx
        rcases get_cases hx with hx | ⟨_, rfl⟩
        · exact absurd (get_lt hx) (Nat.not_lt.2 hj)
        · cases k with
          | read => rfl
          | write =>
            have := hs.write loc hm
            rw [hl] at this
            exact absurd this (hr.pc t)
          | atomic => exact absurd hm (hs.atomic loc)
      · exact h2 j loc k hl hge hacc
    · exact ih s h hr hd'
    · refine ⟨hr, ?_⟩
      intro j loc k _ hj ha
      exact absurd ha.lt (Nat.not_lt.2 hj)

/-- Synchronization of a step. -/
theorem act_sync {s s' : St} {t : Nat} {a : Act} (ha : act s t a = .ok s') :
    s.on t = true ∧ ∃ ev, s'.tr = s.tr ++ [ev] ∧ ev.thr = t ∧ .start t ∈ ev.acqs ∧
      ∀ u, s'.on u = true → s.on u = true ∨ .start u ∈ ev.rels := by
  unfold act at ha
  split at ha
  rotate_left
  · cases ha
  rename_i hon
  refine ⟨hon, ?_⟩
  cases a with
  | run =>
    dsimp only at ha
    cases hq : s.pc t <;> rw [hq] at ha <;> cases ha
    · refine ⟨_, rfl, ?_, ?_, fun _ h => .inl h⟩ <;> split <;> simp
    all_goals exact ⟨_, rfl, rfl, by simp, fun _ h => .inl h⟩
  | call c =>
    dsimp only at ha
    split at ha <;> cases ha
    exact ⟨_, rfl, rfl, by simp, fun _ h => .inl h⟩
  | dyn c =>
    dsimp only at ha
    split at ha
    · split at ha <;> cases ha
      exact ⟨_, rfl, rfl, by simp, fun _ h => .inl h⟩
    · cases ha
  | use c =>
    dsimp only at ha
    split at ha
    · split at ha <;> cases ha
      exact ⟨_, rfl, rfl, by simp, fun _ h => .inl h⟩
    · cases ha
  | spawn v =>
    dsimp only at ha
    split at ha
    · split at ha <;> cases ha
      refine ⟨_, rfl, rfl, by simp, ?_⟩
      intro u hu
      by_cases huv : u = v
      · subst huv; exact .inr (by simp)
      · simp only [set_ne _ _ huv] at hu
        exact .inl hu
    · cases ha
  | post o =>
    dsimp only at ha
    split at ha <;> cases ha
    exact ⟨_, rfl, rfl, by simp, fun _ h => .inl h⟩
  | wait o =>
    dsimp only at ha
    split at ha <;> cases ha
    exact ⟨_, rfl, rfl, by simp, fun _ h => .inl h⟩

/-- The first `n` events are thread 0's, and all other threads come later.  (No code of its own: used in proofs.) -/
structure Solo (n : Nat) (s : St) : Prop where
  first : ∀ i, i < n → By s.tr i 0
  on : ∀ u, s.on u = true → u ≠ 0 → ∀ i, i < n → Rel s.tr (.start u) i
  later : ∀ j u, By s.tr j u → u ≠ 0 → ∀ i, i < n → Before s.tr i j

theorem By.lt {tr : List Event} {j t : Nat} (h : By tr j t) : j < tr.length := by
  obtain ⟨x, h1, _⟩ := h
  exact get_lt h1

theorem Solo.step {n : Nat} {s s' : St} {t : Nat} {a : Act} (h : Solo n s) (ha : act s t a = .ok s') : Solo n s' := by
  obtain ⟨hon, ev, htr, hthr, hacq, hnew⟩ := act_sync ha
  have hknow : ∀ i, i < n → Know s'.tr t i := by
    intro i hi
    rw [htr, ← hthr]
    by_cases ht : t = 0
    · obtain ⟨x, h1, h2⟩ := h.first i hi
      exact ⟨i, x, get_old h1, h2.trans (ht.symm.trans hthr.symm), .refl⟩
    · exact know_acq (hthr ▸ hacq) (hthr ▸ h.on t hon ht i hi)
  refine ⟨?_, ?_, ?_⟩
  · intro i hi
    rw [htr]
    exact (h.first i hi).old
  · intro u hu hu0 i hi
    rcases hnew u hu with h1 | h1
    · rw [htr]; exact (h.on u h1 hu0 i hi).old
    · have := hknow i hi
      rw [htr, ← hthr] at this
      rw [htr]
      exact rel_new h1 this
  · intro j u hj hu i hi
    obtain ⟨x, h1, h2⟩ := hj
    rw [htr] at h1
    rcases get_cases h1 with h1 | ⟨hl, rfl⟩
    · rw [htr]; exact (h.later j u ⟨x, h1, h2⟩ hu i hi).old
    · have := hknow i hi
      rw [htr, ← hthr] at this
      rw [htr, hl]
      exact this.le_new.before (Nat.ne_of_lt (h.first i hi).lt)

theorem Solo.exec {n : Nat} : ∀ (l : List (Nat × Act)) (s : St), Solo n s → Solo n (exec l s)
  | [], _, h => h
  | (t, a) :: l, s, h => by
    unfold StaticHB.exec
    split
    · rename_i s' ha
      exact Solo.exec l s' (h.step ha)
    · exact Solo.exec l s h
    · exact h

/-- While no other thread has been started, all events are thread 0's. -/
theorem solo_start : ∀ (l : List (Nat × Act)) (s : St), (∀ j, j < s.tr.length → By s.tr j 0) →
    (∀ u, (exec l s).on u = true → u = 0) → ∀ j, j < (exec l s).tr.length → By (exec l s).tr j 0
  | [], _, h, _ => h
  | (t, a) :: l, s, h, hon => by
    unfold exec at hon ⊢
    split at hon
    · rename_i s' ha
      refine solo_start l s' ?_ hon
      obtain ⟨hont, ev, htr, hthr, _, _⟩ := act_sync ha
      have ht : t = 0 := hon t (on_mono l s' t (on_step ha t hont))
      intro j hj
      rw [htr] at hj ⊢
      rw [List.length_append, List.length_singleton] at hj
      rcases Nat.lt_or_ge j s.tr.length with h1 | h1
      · exact (h j h1).old
      · have : j = s.tr.length := by omega
        subst this
        have := by_new (tr := s.tr) (ev := ev)
        rwa [hthr, ht] at this
    · rename_i ha
      exact solo_start l s h hon
    · rename_i ha
      exact h
where
  on_step {s s' : St} {t : Nat} {a : Act} (ha : act s t a = .ok s') (u : Nat) (hu : s.on u = true) : s'.on u = true := by
    unfold act at ha
    split at ha
    rotate_left
    · cases ha
    cases a with
    | run =>
      dsimp only at ha
      cases hq : s.pc t <;> rw [hq] at ha <;> cases ha <;> exact hu
    | spawn v =>
      dsimp only at ha
      split at ha
      · split at ha <;> cases ha
        exact set_true hu
      · cases ha
    | _ =>
      dsimp only at ha
      repeat' split at ha
      all_goals first
        | (cases ha; done)
        | (cases ha; exact hu)
  on_mono : ∀ (l : List (Nat × Act)) (s : St) (u : Nat), s.on u = true → (exec l s).on u = true
    | [], _, _, h => h
    | (t, a) :: l, s, u, h => by
      unfold exec
      split
      · rename_i s' ha
        exact on_mono l s' u (on_step ha u h)
      · exact on_mono l s u h
      · exact h

/-! ## Construction of factory and mutex -/

/-- Other steps than obtaining the static object do not construct it. -/
theorem act_built {s s' : St} {t : Nat} {a : Act} (ha : act s t a = .ok s') :
    (∃ c d, a = .run ∧ s.pc t = .get c d) ∨
      ∃ ev, s'.tr = s.tr ++ [ev] ∧ s'.built = s.built ∧ ∀ c, (Loc.holder c, Kind.write) ∉ ev.accs := by
  unfold act at ha
  split at ha
  rotate_left
  · cases ha
  cases a with
  | run =>
    dsimp only at ha
    cases hq : s.pc t with
    | get c d => exact .inl ⟨c, d, rfl, rfl⟩
    | idle => rw [hq] at ha; cases ha
    | _ =>
      rw [hq] at ha
      cases ha
      exact .inr ⟨_, rfl, rfl, by simp⟩
  | _ =>
    dsimp only at ha
    split at ha
    · first
      | (cases ha; exact .inr ⟨_, rfl, rfl, by simp⟩)
      | (split at ha
         · first
           | (cases ha; done)
           | (cases ha; exact .inr ⟨_, rfl, rfl, by simp⟩)
         · first
           | (cases ha; done)
           | (cases ha; exact .inr ⟨_, rfl, rfl, by simp⟩))
    · cases ha

/-- The object with factory and mutex has been constructed exactly if there is an event that does so; there is at most
one.  (No code of its own: used in proofs.) -/
structure Once (s : St) : Prop where
  built : ∀ c, s.built c = true → ∃ (i : Nat) (ev : Event), s.tr[i]? = some ev ∧ (Loc.holder c, Kind.write) ∈ ev.accs ∧ Sync.guard c ∈ ev.rels
  event : ∀ c i, Acc s.tr i (.holder c, .write) → s.built c = true
  unique : ∀ c i j, Acc s.tr i (.holder c, .write) → Acc s.tr j (.holder c, .write) → i = j

theorem act_once {s s' : St} {t : Nat} {a : Act} (h : Once s) (ha : act s t a = .ok s') : Once s' := by
  rcases act_built ha with ⟨c, d, rfl, hp⟩ | ⟨ev, h1, h2, h3⟩
  · unfold act at ha
    split at ha
    rotate_left
    · cases ha
    dsimp only at ha
    rw [hp] at ha
    cases ha
    cases hb : s.built c with
    | true =>
      have hset : set s.built c true = s.built := by
        funext i
        by_cases hi : i = c
        · subst hi; rw [set_self, hb]
        · rw [set_ne _ _ hi]
      simp only [hset, if_true]
      refine ⟨?_, ?_, ?_⟩
      · intro i hi
        obtain ⟨j, x, h4, h5⟩ := h.built i hi
        exact ⟨j, x, get_old h4, h5⟩
      · intro i j hj
        rcases acc_cases hj with hj | ⟨_, hj⟩
        · exact h.event i j hj
        · cases hj
      · intro i j k hj hk
        rcases acc_cases hj with hj | ⟨_, hj⟩
        · rcases acc_cases hk with hk | ⟨_, hk⟩
          · exact h.unique i j k hj hk
          · cases hk
        · cases hj
    | false =>
      simp only [Bool.false_eq_true, if_false]
      have hno : ∀ i, ¬ Acc s.tr i (.holder c, .write) := fun i hi => by
        have := h.event c i hi
        rw [hb] at this
        cases this
      refine ⟨?_, ?_, ?_⟩
      · intro i hi
        by_cases hic : i = c
        · subst hic
          exact ⟨_, _, get_new, by simp, by simp⟩
        · dsimp only at hi
          rw [set_ne _ _ hic] at hi
          obtain ⟨j, x, h4, h5⟩ := h.built i hi
          exact ⟨j, x, get_old h4, h5⟩
      · intro i j hj
        rcases acc_cases hj with hj | ⟨_, hj⟩
        · exact set_true (h.event i j hj)
        · simp only [List.mem_singleton, Prod.mk.injEq, Loc.holder.injEq, and_true] at hj
          subst hj
          exact set_self _ _ _
      · intro i j k hj hk
        rcases acc_cases hj with h4 | ⟨h4, h5⟩
        · rcases acc_cases hk with h6 | ⟨_, h6⟩
          · exact h.unique i j k h4 h6
          · simp only [List.mem_singleton, Prod.mk.injEq, Loc.holder.injEq, and_true] at h6
            subst h6
            exact absurd h4 (hno _)
        · simp only [List.mem_singleton, Prod.mk.injEq, Loc.holder.injEq, and_true] at h5
          subst h5
          rcases acc_cases hk with h6 | ⟨h6, _⟩
          · exact absurd h6 (hno _)
          · rw [h4, h6]
  · have hev : ∀ c i, Acc s'.tr i (.holder c, .write) → Acc s.tr i (.holder c, .write) := by
      intro c i hi
      rw [h1] at hi
      rcases acc_cases hi with hi | ⟨_, hi⟩
      · exact hi
      · exact absurd hi (h3 c)
    refine ⟨?_, ?_, ?_⟩
    · intro c hc
      rw [h2] at hc
      obtain ⟨j, x, h4, h5⟩ := h.built c hc
      exact ⟨j, x, by rw [h1]; exact get_old h4, h5⟩
    · intro c i hi
      rw [h2]
      exact h.event c i (hev c i hi)
    · intro c i j hi hj
      exact h.unique c i j (hev c i hi) (hev c j hj)

theorem exec_once : ∀ (l : List (Nat × Act)) (s : St), Once s → Once (exec l s)
  | [], _, h => h
  | (t, a) :: l, s, h => by
    unfold exec
    split
    · rename_i s' ha
      exact exec_once l s' (act_once h ha)
    · exact exec_once l s h
    · exact h

theorem once_start : Once start := by
  refine ⟨?_, ?_, ?_⟩
  · intro c h; cases h
  · rintro c i ⟨x, h, _⟩; cases h
  · rintro c i j ⟨x, h, _⟩; cases h

end Verif.StaticHB

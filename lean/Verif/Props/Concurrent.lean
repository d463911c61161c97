import Verif.ConcRank

/-!
# Properties of flyweights used by several threads: C05-C09, C37-C39

Every theorem is about an arbitrary number `n` of threads and an arbitrary
schedule `acts` of actions of the threads, starting from a program without
flyweights.  `cfg` is the code under consideration: equivalence of keys for each
flyweight type, with the mutex (`locking`) and the deleter count (`deleter`)
unless the theorem says otherwise.
-/

set_option autoImplicit false

namespace Verif.Props
open Verif.Conc Relation
variable {K : Type}

/-- The code with `simple_locking` and `refcounted`.  (No code of its own: used to state a
property or an example.) -/
structure Std (cfg : Cfg K) : Prop extends CfgOk cfg where
  locking : cfg.locking = true
  deleter : cfg.deleter = true

theorem Std.inv {cfg : Cfg K} (h : Std cfg) {acts : List (Nat × Act K)} {n : Nat} {s : St K}
    (hs : exec cfg acts (start n) = .ok s) : Inv cfg s := by
  have := exec_good h.toCfgOk h.locking h.deleter (start_inv n) acts
  rwa [hs] at this

/-- Keys are numbers.  (No code of its own: used to state a property or an example.) -/
def sampleCfg : Cfg Nat := ⟨fun _ a b => a == b, true, true⟩

theorem sampleStd : Std sampleCfg where
  refl c k := by simp [sampleCfg]
  symm c k l := by simp only [sampleCfg, beq_iff_eq]; exact Eq.symm
  trans c k l m := by simp only [sampleCfg, beq_iff_eq]; exact Eq.trans
  locking := rfl
  deleter := rfl

/-- Thread `t` takes `n` steps in the library.  (No code of its own: used to state a property or
an example.) -/
def runs (n t : Nat) : List (Nat × Act Nat) := List.replicate n (t, .run)

/-- Thread `t` makes a flyweight of type `c` from key `k`, containing the objects selected by `m`.
(No code of its own: used to state a property or an example.) -/
def make (t c k : Nat) (m : List Bool) : List (Nat × Act Nat) := (t, .create c k m true) :: runs 6 t

/-- Two threads make the same flyweight while a third one destroys one: thread 0
makes it and destroys it, thread 1 finds the entry between the release of the
last reference and the check for erasure.  (No code of its own: used to state a property or an
example.) -/
def race : List (Nat × Act Nat) :=
  make 0 0 5 [] ++ (0, .destroy [true]) :: runs 1 0 ++ make 1 0 5 [] ++ runs 3 0 ++ (1, .read 0) :: make 2 0 5 []

/-- What can be seen of an outcome.  (No code of its own: used to state a property or an
example.) -/
def seen (o : Out Nat) : Option (List Nat × List (Option Nat) × List Nat) := match o with
  | .ok s => some (s.objs.map Fw.h, (List.range s.next).map fun e => (s.ents e).map Ent.key, s.thr.map List.length)
  | _ => none

/-! ## C05 -/

/-- **C05.**  No schedule of any number of threads leads to an access to an erased
entry, a second erasure, the use of a value that does not exist, or the release
of a mutex that is not held. -/
theorem C05_no_ub {cfg : Cfg K} (h : Std cfg) (n : Nat) (acts : List (Nat × Act K)) :
    exec cfg acts (start n) ≠ .ub := by
  intro hu
  have := exec_good h.toCfgOk h.locking h.deleter (start_inv n) acts
  rw [hu] at this
  exact this

/-- The same in terms of what a thread does next: whatever flyweight a thread holds
(as an object, inside a value, or in the course of an operation), its entry is in
the factory of its type. -/
theorem C05_live {cfg : Cfg K} (h : Std cfg) {n : Nat} {acts : List (Nat × Act K)} {s : St K}
    (hs : exec cfg acts (start n) = .ok s) {w : Fw K}
    (hw : w ∈ s.objs ∨ (∃ e x, s.ents e = some x ∧ w ∈ x.kids) ∨
      ∃ st ∈ s.thr, ∃ f ∈ st, w ∈ locs f ∨ f = .relDec w) :
    ∃ x, s.ents w.h = some x ∧ x.core = w.c ∧ x.cted = true ∧ 0 < x.ref := by
  have hi := h.inv hs
  rcases hw with hw | ⟨e, x, hx, hw⟩ | ⟨st, hst, f, hf, hw⟩
  · obtain ⟨x, hx, h1, _, h2, h3⟩ := hi.core.fw_ent hw
    exact ⟨x, hx, h1, h2, h3⟩
  · obtain ⟨x, hx, h1, _, h2, h3⟩ := hi.core.kid_ent hx hw
    exact ⟨x, hx, h1, h2, h3⟩
  · have hm : f ∈ frames s := List.mem_flatten.2 ⟨st, hst, hf⟩
    have hok := hi.core.frames f hm
    have hw' : FwOk cfg (stat s.ents) w ∧ 0 < refF w.h f := by
      rcases hw with hw | rfl
      · have := fwCount_pos hw rfl
        cases f with
        | insLock c k loc pre => exact ⟨hok w hw, this⟩
        | insFind c k loc pre => exact ⟨hok w hw, this⟩
        | insVisit c k e loc new => exact ⟨hok.2.1 w hw, this⟩
        | insUnwind c loc => exact ⟨hok w hw, this⟩
        | insAddRef c k e loc => exact ⟨hok.2 w hw, this⟩
        | insAddDel c k e loc => exact ⟨hok.2 w hw, by simp only [refF]; simp only [locs] at this; omega⟩
        | insUnlock c k e loc => exact ⟨hok.2 w hw, by simp only [refF]; simp only [locs] at this; omega⟩
        | _ => cases hw
      · exact ⟨hok, by simp [refF]⟩
    obtain ⟨⟨k, h1, _⟩, h2⟩ := hw'
    obtain ⟨x, hx, e1, _, e3⟩ := of_stat h1
    refine ⟨x, hx, e1, e3, ?_⟩
    have h3 := hi.core.refs w.h
    have h4 := tot_pos hm h2
    simp only [refOf, hx] at h3
    omega

/-- A racy schedule: all three threads get through, and the two flyweights left share an entry. -/
example : seen (exec sampleCfg race (start 3)) = some ([0, 0], [some 5], [0, 0, 0]) := by decide

/-! ## C06 -/

/-- **C06.**  In every state that can be reached, two flyweights of the same type,
objects or parts of values, have the same handle exactly if the keys they were
created from are equivalent. -/
theorem C06_sharing {cfg : Cfg K} (h : Std cfg) {n : Nat} {acts : List (Nat × Act K)} {s : St K}
    (hs : exec cfg acts (start n) = .ok s) {v w : Fw K}
    (hv : v ∈ s.objs ∨ ∃ e x, s.ents e = some x ∧ v ∈ x.kids)
    (hw : w ∈ s.objs ∨ ∃ e x, s.ents e = some x ∧ w ∈ x.kids) :
    v.h = w.h ↔ v.c = w.c ∧ cfg.eqv v.c v.k w.k = true := by
  have hi := h.inv hs
  have key : ∀ w : Fw K, (w ∈ s.objs ∨ ∃ e x, s.ents e = some x ∧ w ∈ x.kids) →
      ∃ x, s.ents w.h = some x ∧ x.core = w.c ∧ cfg.eqv w.c x.key w.k = true := by
    rintro w (hw | ⟨e, x, hx, hw⟩)
    · obtain ⟨x, hx, h1, h2, _⟩ := hi.core.fw_ent hw
      exact ⟨x, hx, h1, h2⟩
    · obtain ⟨x, hx, h1, h2, _⟩ := hi.core.kid_ent hx hw
      exact ⟨x, hx, h1, h2⟩
  obtain ⟨x, hx, h1, h2⟩ := key v hv
  obtain ⟨y, hy, h3, h4⟩ := key w hw
  constructor
  · intro he
    rw [he, hy] at hx
    cases hx
    have hc : v.c = w.c := h1.symm.trans h3
    refine ⟨hc, ?_⟩
    rw [hc] at h2 ⊢
    exact h.trans _ _ _ _ (h.symm _ _ _ h2) h4
  · rintro ⟨hc, he⟩
    refine hi.core.uniq _ _ x y hx hy (by rw [h1, h3, hc]) ?_
    rw [h1]
    rw [← hc] at h4
    exact h.trans _ _ _ _ h2 (h.trans _ _ _ _ he (h.symm _ _ _ h4))

/-- In every state that can be reached, two entries of a type have different keys. -/
theorem C06_unique {cfg : Cfg K} (h : Std cfg) {n : Nat} {acts : List (Nat × Act K)} {s : St K}
    (hs : exec cfg acts (start n) = .ok s) {e e' : Nat} {x x' : Ent K} (hx : s.ents e = some x)
    (hx' : s.ents e' = some x') (hc : x.core = x'.core) (hk : cfg.eqv x.core x.key x'.key = true) : e = e' :=
  (h.inv hs).core.uniq e e' x x' hx hx' hc hk

/-- Threads 0 and 1 race for key 5 of type 0; thread 2 uses the same key for type 1. -/
example : seen (exec sampleCfg ((0, .create 0 5 [] true) :: (1, .create 0 5 [] true) ::
    (0, .run) :: (1, .run) :: runs 5 0 ++ runs 6 1 ++ make 2 1 5 []) (start 3)) =
    some ([1, 0, 0], [some 5, some 5], [0, 0, 0]) := by decide

/-! ## C07 -/

/-- **C07.**  When no thread is inside the library, the factories hold exactly the
entries that can be reached from flyweight objects through the flyweights inside
values. -/
theorem C07_reachable {cfg : Cfg K} (h : Std cfg) {n : Nat} {acts : List (Nat × Act K)} {s : St K}
    (hs : exec cfg acts (start n) = .ok s) (hq : ∀ st ∈ s.thr, st = []) (e : Nat) :
    (∃ x, s.ents e = some x) ↔ Reach s.ents s.objs e := (h.inv hs).reach hq e

/-- In particular, if there are no flyweight objects all factories are empty. -/
theorem C07_empty {cfg : Cfg K} (h : Std cfg) {n : Nat} {acts : List (Nat × Act K)} {s : St K}
    (hs : exec cfg acts (start n) = .ok s) (hq : ∀ st ∈ s.thr, st = []) (ho : s.objs = []) (e : Nat) :
    s.ents e = none := by
  cases hx : s.ents e with
  | none => rfl
  | some x =>
    have hr := ((h.inv hs).reach hq e).1 ⟨x, hx⟩
    rw [ho] at hr
    have : ∀ i, ¬ Reach s.ents [] i := by
      intro i hi
      induction hi with
      | obj hw => cases hw
      | kid _ _ _ ih => exact ih
    exact (this e hr).elim

/-- At a quiescent point the reference count of an entry is the number of
flyweights that refer to it, and its deleter count is one. -/
theorem C07_counts {cfg : Cfg K} (h : Std cfg) {n : Nat} {acts : List (Nat × Act K)} {s : St K}
    (hs : exec cfg acts (start n) = .ok s) (hq : ∀ st ∈ s.thr, st = []) {e : Nat} {x : Ent K}
    (hx : s.ents e = some x) :
    x.ref = fwCount e s.objs + kidsTo s.ents s.next e ∧ 0 < x.ref ∧ x.del = 1 := by
  have hc := (h.inv hs).core
  rw [Quiet.frames hq] at hc
  have h1 := hc.refs e
  have h2 := hc.dels e x hx
  simp only [refOf, hx, tot_nil] at h1 h2
  have h3 : x.ref ≠ 0 := fun h0 => by
    have := hc.claim e x hx h0
    simp at this
  have h4 := hc.ref_nonneg e
  simp only [refOf, hx] at h4
  rw [if_pos (by omega)] at h2
  refine ⟨by simpa using h1, by omega, by simpa using h2⟩

/-- A value of type 0 containing one of type 1, a value constructor that throws, and
destructions by another thread: nothing is left. -/
example : seen (exec sampleCfg (make 0 1 7 [] ++ make 0 0 8 [true] ++
    (1, .create 0 9 [] false) :: runs 3 1 ++ (1, .throw_) :: runs 2 1 ++
    (1, .destroy [true]) :: runs 10 1) (start 2)) =
    some ([], [none, none, none], [0, 0]) := by decide

/-! ## C08 -/

/-- The type whose container, deleter counts or values under construction a frame is
about to access:
`insFind` looks up and inserts (/repo/include/boost/flyweight/detail/flyweight_core.hpp:105),
`insVisit` reads whether there is a value, `insUser` and `insDone` construct it
(/repo/include/boost/flyweight/key_value.hpp:136-163), `insCatch` and `relErase` erase
(/repo/include/boost/flyweight/detail/flyweight_core.hpp:73,110), `insAddDel` and `relCheck`
change the deleter count (/repo/include/boost/flyweight/refcounted.hpp:99-100,115-117,144-147). -/
def accesses : Frame K → Option Nat
  | .insFind c .. => some c
  | .insVisit c .. => some c
  | .insUser c .. => some c
  | .insDone c .. => some c
  | .insCatch c _ => some c
  | .insAddDel c .. => some c
  | .relCheck c _ => some c
  | .relErase c _ => some c
  | _ => none

theorem owner_of {cfg : Cfg K} {s : St K} (hi : Inv cfg s) {t : Nat} {st : List (Frame K)} (ht : s.thr[t]? = some st)
    {f : Frame K} (hf : f ∈ st) {c : Nat} (hh : holds f = some c) : ∃ d, s.lock c = some (t, d) := by
  have h1 := hi.locks.depth t _ ht c
  have h2 := tot_pos (g := holdF c) hf (by simp [holdF, hh])
  rw [h1] at h2
  unfold depthOf at h2
  cases hl : s.lock c with
  | none => rw [hl] at h2; cases h2
  | some p =>
    obtain ⟨o, d⟩ := p
    rw [hl] at h2
    by_cases ho : o = t
    · exact ⟨d, by rw [ho]⟩
    · simp [ho] at h2

/-- **C08.**  A thread about to access the container, the deleter counts or a value
under construction of a type holds the mutex of the type. -/
theorem C08_owner {cfg : Cfg K} (h : Std cfg) {n : Nat} {acts : List (Nat × Act K)} {s : St K}
    (hs : exec cfg acts (start n) = .ok s) {t : Nat} {st : List (Frame K)} (ht : s.thr[t]? = some st)
    {f : Frame K} (hf : f ∈ st) {c : Nat} (ha : accesses f = some c) : ∃ d, s.lock c = some (t, d) :=
  owner_of (h.inv hs) ht hf (by cases f <;> first | exact ha | cases ha)

/-- Hence no two threads do so at the same time. -/
theorem C08_exclusive {cfg : Cfg K} (h : Std cfg) {n : Nat} {acts : List (Nat × Act K)} {s : St K}
    (hs : exec cfg acts (start n) = .ok s) {t t' : Nat} {st st' : List (Frame K)} (ht : s.thr[t]? = some st)
    (ht' : s.thr[t']? = some st') {f f' : Frame K} (hf : f ∈ st) (hf' : f' ∈ st') {c : Nat}
    (ha : accesses f = some c) (ha' : accesses f' = some c) : t = t' := by
  obtain ⟨d, h1⟩ := C08_owner h hs ht hf ha
  obtain ⟨d', h2⟩ := C08_owner h hs ht' hf' ha'
  rw [h1] at h2
  cases h2
  rfl

/-- Everything in an entry but the (atomic) reference count.  (No code of its own: used to state
a property or an example.) -/
def guarded (x : Ent K) : Nat × K × Bool × List (Fw K) × Int := (x.core, x.key, x.cted, x.kids, x.del)

/-- Whatever a step adds, removes or changes in a factory, apart from reference
counts, belongs to a type whose mutex the thread holds. -/
theorem C08_writes {cfg : Cfg K} (h : Std cfg) {n : Nat} {acts : List (Nat × Act K)} {s s' : St K}
    (hs : exec cfg acts (start n) = .ok s) {t : Nat} {a : Act K} (hst : step cfg s t a = .ok s') {e : Nat}
    (hne : (s.ents e).map guarded ≠ (s'.ents e).map guarded) :
    ∃ x d, (s.ents e = some x ∨ s'.ents e = some x) ∧ s.lock x.core = some (t, d) := by
  have hi := h.inv hs
  have set_ne : ∀ {i : Nat} {o : Option (Ent K)}, s'.ents = setEnt s.ents i o → e = i := by
    intro i o he
    by_cases hei : e = i
    · exact hei
    · rw [he, setEnt_ne _ _ hei] at hne
      exact absurd rfl hne
  have refOnly : ∀ {i : Nat} {x : Ent K} {r : Int}, s.ents i = some x →
      s'.ents = setEnt s.ents i (some { x with ref := r }) → False := by
    intro i x r hx he
    have := set_ne he
    subst this
    rw [he, setEnt_same, hx] at hne
    exact hne rfl
  have hsame : s'.ents = s.ents → False := fun he => by rw [he] at hne; exact hne rfl
  -- a frame that holds the mutex of the type of the entry `i` it works on
  have own : ∀ {f : Frame K} {rest : List (Frame K)} {i c : Nat} {k' : K} {b : Bool}, s.thr[t]? = some (f :: rest) →
      holds f = some c → stat s.ents i = some (c, k', b) → e = i →
      ∃ x d, (s.ents e = some x ∨ s'.ents e = some x) ∧ s.lock x.core = some (t, d) := by
    intro f rest i c k' b ht hh hst he
    obtain ⟨x, hx, e1, _⟩ := of_stat hst
    obtain ⟨d, hd⟩ := owner_of hi ht List.mem_cons_self hh
    subst he
    exact ⟨x, d, .inl hx, by rw [e1]; exact hd⟩
  unfold step at hst
  split at hst
  · cases hst
  · rename_i st ht
    have hfrm : ∀ f rest, st = f :: rest → FrameOk cfg (stat s.ents) f := by
      rintro f rest rfl
      exact hi.core.frames f (List.mem_flatten.2 ⟨_, List.mem_of_getElem? ht, List.mem_cons_self⟩)
    cases a with
    | run =>
      cases st with
      | nil => cases hst
      | cons f rest =>
        have hfr := hfrm f rest rfl
        simp only [act] at hst
        unfold lib at hst
        dsimp only at hst
        cases f with
        | insLock c k loc pre =>
          dsimp only at hst
          split at hst <;> cases hst
          exact (hsame rfl).elim
        | insFind c k loc pre =>
          dsimp only at hst
          split at hst
          · cases hst
            exact (hsame rfl).elim
          · obtain ⟨d, hd⟩ := owner_of hi ht List.mem_cons_self (c := c) rfl
            cases hst
            have he : e = s.next := set_ne rfl
            exact ⟨_, d, .inr (by rw [he]; exact setEnt_same _ _ _), hd⟩
        | insVisit c k i loc new =>
          dsimp only at hst
          repeat' split at hst
          all_goals cases hst
          all_goals exact (hsame rfl).elim
        | insUser c k i => cases hst
        | insDone c k i =>
          dsimp only at hst
          split at hst <;> cases hst
          obtain ⟨k', h1, _⟩ := hfr
          exact own ht rfl h1 (set_ne rfl)
        | insCatch c i =>
          dsimp only at hst
          split at hst <;> cases hst
          obtain ⟨k', h1⟩ := hfr
          exact own ht rfl h1 (set_ne rfl)
        | insUnwind c loc =>
          dsimp only at hst
          split at hst <;> cases hst
          exact (hsame rfl).elim
        | insAddRef c k i loc =>
          dsimp only at hst
          split at hst <;> cases hst
          rename_i x hx
          exact (refOnly hx rfl).elim
        | insAddDel c k i loc =>
          dsimp only at hst
          split at hst <;> cases hst
          obtain ⟨⟨k', h1, _⟩, _⟩ := hfr
          exact own ht rfl h1 (set_ne rfl)
        | insUnlock c k i loc =>
          dsimp only at hst
          split at hst <;> cases hst
          exact (hsame rfl).elim
        | relDec w =>
          dsimp only at hst
          split at hst <;> cases hst
          rename_i x hx
          exact (refOnly hx rfl).elim
        | relLock c i =>
          dsimp only at hst
          split at hst <;> cases hst
          exact (hsame rfl).elim
        | relCheck c i =>
          obtain ⟨k', h1⟩ := hfr
          dsimp only at hst
          split at hst
          · cases hst
          · split at hst
            · cases hst
              exact own ht rfl h1 (set_ne rfl)
            · cases hst
              exact (hsame rfl).elim
        | relErase c i =>
          dsimp only at hst
          split at hst <;> cases hst
          obtain ⟨k', h1⟩ := hfr
          exact own ht rfl h1 (set_ne rfl)
        | relUnlock c =>
          dsimp only at hst
          split at hst <;> cases hst
          exact (hsame rfl).elim
    | create c k mask pre =>
      simp only [act] at hst
      split at hst <;> cases hst
      exact (hsame rfl).elim
    | destroy mask =>
      simp only [act] at hst
      split at hst <;> cases hst
      exact (hsame rfl).elim
    | copy i =>
      simp only [act] at hst
      repeat' split at hst
      all_goals cases hst
      rename_i w _ x hx
      exact (refOnly hx rfl).elim
    | copyKid i j =>
      simp only [act] at hst
      repeat' split at hst
      all_goals cases hst
      rename_i y hy
      exact (refOnly hy rfl).elim
    | swap i j =>
      simp only [act] at hst
      repeat' split at hst
      all_goals cases hst
      exact (hsame rfl).elim
    | read i =>
      simp only [act] at hst
      repeat' split at hst
      all_goals cases hst
      exact (hsame rfl).elim
    | finish mask drop =>
      simp only [act] at hst
      split at hst
      · rename_i c k i rest
        obtain ⟨k', h1, _⟩ := hfrm _ _ rfl
        repeat' split at hst
        all_goals cases hst
        all_goals exact own ht rfl h1 (set_ne rfl)
      · cases hst
    | throw_ =>
      simp only [act] at hst
      repeat' split at hst
      all_goals cases hst
      all_goals exact (hsame rfl).elim

/-- Thread 0 is about to insert; thread 1 waits for the mutex and cannot go on. -/
example : ∃ s, exec sampleCfg [(0, .create 0 5 [] true), (1, .create 0 5 [] true), (0, .run)] (start 2) = .ok s ∧
    s.thr = [[.insFind 0 5 [] true], [.insLock 0 5 [] true]] ∧ s.lock 0 = some (0, 1) ∧
    step sampleCfg s 1 .run = .no := ⟨_, rfl, rfl, rfl, rfl⟩

/-! ## C09 -/

/-- **C09.**  If entries are erased as soon as their reference count drops to zero,
two threads can get to use an erased entry, even though they lock the mutex ... -/
theorem C09_deleter_needed : exec { sampleCfg with deleter := false }
    (make 0 0 5 [] ++ (0, .destroy [true]) :: runs 1 0 ++ make 1 0 5 [] ++ runs 3 0 ++ [(1, .read 0)]) (start 2) = .ub := by
  rfl

/-- ... and without the mutex they can even though the deleter count is used ... -/
theorem C09_lock_needed : exec { sampleCfg with locking := false }
    (make 0 0 5 [] ++ (0, .destroy [true]) :: runs 3 0 ++ make 1 0 5 [] ++ runs 1 0 ++ [(1, .read 0)]) (start 2) = .ub := by
  rfl

/-- ... but a single thread does not need the mutex: with `no_locking` it never
accesses an erased entry, and the run is the same as with `simple_locking` but for
the state of the mutexes. -/
theorem C09_single_thread {cfg : Cfg K} (h : CfgOk cfg) (hl : cfg.locking = false) (hd : cfg.deleter = true)
    (acts : List (Nat × Act K)) :
    exec cfg acts (start 1) ≠ .ub ∧
      ∀ s, exec cfg acts (start 1) = .ok s →
        ∃ s', exec { cfg with locking := true } acts (start 1) = .ok s' ∧ s.ents = s'.ents ∧ s.objs = s'.objs := by
  have hcfg' : CfgOk { cfg with locking := true } := ⟨h.refl, h.symm, h.trans⟩
  have hsim := sim_exec cfg h hd hl acts (start_inv 1) rfl (fun _ => none)
  have hg := exec_good hcfg' rfl hd (start_inv 1) acts
  have he : ({ (start 1 : St K) with lock := fun _ => none } : St K) = start 1 := rfl
  rw [he] at hsim
  constructor
  · intro hu
    rw [hu] at hsim
    cases hx : exec { cfg with locking := true } acts (start 1) <;> rw [hx] at hsim hg
    · exact hsim
    · exact hsim
    · exact hg
    · exact hsim
  · intro s hs
    rw [hs] at hsim
    cases hx : exec { cfg with locking := true } acts (start 1) with
    | ok s' =>
      rw [hx] at hsim
      obtain ⟨l, rfl⟩ := hsim
      exact ⟨s', rfl, rfl, rfl⟩
    | no => rw [hx] at hsim; exact hsim.elim
    | ub => rw [hx] at hsim; exact hsim.elim
    | reentrant => rw [hx] at hsim; exact hsim.elim

/-- Without the mutex, one thread: a nested value is made and destroyed. -/
example : seen (exec { sampleCfg with locking := false } (make 0 1 7 [] ++ make 0 0 8 [true] ++
    (0, .destroy [true]) :: runs 10 0) (start 1)) = some ([], [none, none], [0]) := by decide

/-! ## C37 -/

/-- **C37.**  If flyweights are destroyed while no thread is in the library, the
destruction comes to an end, and what it removes is exactly what cannot be
reached any more from the remaining flyweights; the other entries keep their
type, key, value and the flyweights in it. -/
theorem C37_cascade {cfg : Cfg K} (h : Std cfg) {n : Nat} {acts : List (Nat × Act K)} {s : St K}
    (hs : exec cfg acts (start n) = .ok s) (hq : ∀ st ∈ s.thr, st = []) {t : Nat} (ht : t < s.thr.length)
    (mask : List Bool) :
    ∃ m s', exec cfg ((t, .destroy mask) :: List.replicate m (t, .run)) s = .ok s' ∧ (∀ st ∈ s'.thr, st = []) ∧
      s'.objs = (pick mask s.objs).2 ∧
      ∀ e, (Reach s.ents s'.objs e → ∃ x y, s.ents e = some x ∧ s'.ents e = some y ∧
            (y.core, y.key, y.cted, y.kids) = (x.core, x.key, x.cted, x.kids)) ∧
        (¬ Reach s.ents s'.objs e → s'.ents e = none) := by
  obtain ⟨m, s', h1, h2, h3, h4⟩ := cascade h.toCfgOk h.locking h.deleter (h.inv hs) hq ht mask
  refine ⟨m, s', h1, h2, h3, fun e => ?_⟩
  rw [h3]
  refine ⟨fun hr => ?_, (h4 e).2⟩
  obtain ⟨x, y, hx, hy, hsh⟩ := (h4 e).1 hr
  refine ⟨x, y, hx, hy, ?_⟩
  simp only [shape, Prod.mk.injEq] at hsh
  simp [hsh]

/-- A list 1 → 2 → 3 sharing its tail 2 → 3 with another list 4 → 2 → 3, and the list 5: destroying
the first removes 1 only, destroying the others too removes everything. -/
example :
    let mk := make 0 0 3 [] ++ make 0 0 2 [true] ++ (0, .copy 0) :: make 0 0 1 [true] ++ make 0 0 4 [false, true] ++
      make 0 0 5 []
    seen (exec sampleCfg mk (start 1)) =
      some ([4, 3, 2], [some 3, some 2, some 1, some 4, some 5], [0]) ∧
    seen (exec sampleCfg (mk ++ (0, .destroy [false, false, true]) :: runs 6 0) (start 1)) =
      some ([4, 3], [some 3, some 2, none, some 4, some 5], [0]) ∧
    seen (exec sampleCfg (mk ++ (0, .destroy [false, false, true]) :: runs 6 0 ++
      (0, .destroy [true, true]) :: runs 20 0) (start 1)) =
      some ([], [none, none, none, none, none], [0]) := by decide

/-! ## C38 -/

/-- **C38.**  Let `uses c c'` tell that values of type `c` may contain, or their
construction may use, flyweights of type `c'`.  If it has no cycles other than from
a type to itself, then in every state that can be reached each blocked thread waits,
directly or through others, for a thread that is not blocked ... -/
theorem C38_no_deadlock {cfg : Cfg K} (h : Std cfg) {uses : Nat → Nat → Prop} (hu : NoCycles uses) {n : Nat} {s : St K}
    (hs : Reachable cfg uses n s) {t : Nat} (hb : Blocked cfg s t) :
    ∃ t', t' < n ∧ TransGen (Waits s) t t' ∧ ¬ Blocked cfg s t' := by
  obtain ⟨h1, h2⟩ := hs.inv h.toCfgOk h.locking h.deleter
  obtain ⟨t', h3, h4⟩ := no_deadlock h.locking hu h1 h2 hb
  exact ⟨t', Waits.real hs h1 h3, h3, h4⟩

/-- ... so that no set of threads is blocked waiting for each other. -/
theorem C38_no_set {cfg : Cfg K} (h : Std cfg) {uses : Nat → Nat → Prop} (hu : NoCycles uses) {n : Nat} {s : St K}
    (hs : Reachable cfg uses n s) (S : Nat → Prop) (hne : ∃ t, S t) :
    ¬ ∀ t, S t → Blocked cfg s t ∧ ∃ t', S t' ∧ Waits s t t' := by
  intro hS
  obtain ⟨t, ht⟩ := hne
  obtain ⟨t', h0, h1, h2⟩ := C38_no_deadlock h hu hs (hS t ht).1
  have : S t' := by
    clear h2 h0
    induction h1 with
    | single hw =>
      obtain ⟨_, t1, h3, h4⟩ := hS t ht
      rw [hw.unique h4]
      exact h3
    | tail _ hw ih =>
      obtain ⟨_, t1, h3, h4⟩ := hS _ ih
      rw [hw.unique h4]
      exact h3
  exact h2 (hS t' this).1

/-- A thread that cannot go on although no value constructor is running on it waits
for another thread. -/
theorem C38_waits {cfg : Cfg K} (h : Std cfg) {s : St K} {t : Nat} (hb : Blocked cfg s t) : ∃ t', Waits s t t' :=
  hb.waits h.locking

/-- For two types whose values contain flyweights of each other there is an
execution after which neither thread can ever do anything. -/
theorem C38_cyclic : ∃ s, exec sampleCfg
    (make 0 1 1 [] ++ make 0 0 2 [true] ++ make 1 0 3 [] ++ make 1 1 4 [true] ++
      (0, .destroy [false, true]) :: (1, .destroy [true]) :: runs 5 0 ++ runs 5 1) (start 2) = .ok s ∧
    s.objs = [] ∧ ∀ t a, step sampleCfg s t a = .no := by
  refine ⟨_, rfl, rfl, fun t a => ?_⟩
  match t with
  | 0 => cases a <;> rfl
  | 1 => cases a <;> rfl
  | _ + 2 => rfl

/-- Types numbered so that values contain flyweights of types with smaller or the same number. -/
example : NoCycles fun c c' => c' ≤ c := by
  refine Subrelation.wf (r := (· < ·)) ?_ Nat.lt_wfRel.wf
  intro a b ⟨h1, h2⟩
  exact Nat.lt_of_le_of_ne h1 h2

/-- In such a program, thread 1 waits for thread 0, which is not blocked. -/
example : ∃ s, Reachable sampleCfg (fun c c' => c' ≤ c) 2 s ∧ Blocked sampleCfg s 1 ∧ Waits s 1 0 := by
  refine ⟨_, .step (t := 0) (a := .run) (.step (t := 1) (a := .create 0 5 [] true)
    (.step (t := 0) (a := .create 0 5 [] true) .start rfl ?_ rfl) rfl ?_ rfl) rfl trivial rfl, ?_, ?_⟩
  · exact ⟨by simp [pick, start], by simp⟩
  · exact ⟨by simp [pick, start], by simp⟩
  · exact ⟨_, rfl, rfl, rfl⟩
  · exact ⟨by omega, 0, 1, .inl ⟨5, [], true, [], rfl⟩, rfl⟩

/-! ## C39 -/

/-- **C39.**  An insertion can meet an entry that has no value only if the value
constructor for that very entry is running on the same thread. -/
theorem C39_reentrant {cfg : Cfg K} (h : Std cfg) {n : Nat} {s : St K}
    (hs : Reachable cfg (fun _ _ => True) n s) {t : Nat} {a : Act K} (hr : step cfg s t a = .reentrant) :
    ∃ c k e loc rest, a = .run ∧ s.thr[t]? = some (.insVisit c k e loc false :: rest) ∧
      ∃ k', .insUser c k' e ∈ rest ∧ cfg.eqv c k' k = true := by
  obtain ⟨hi, hk⟩ := hs.inv h.toCfgOk h.locking h.deleter
  unfold step at hr
  split at hr
  · cases hr
  rename_i st ht
  cases a with
  | run =>
    cases st with
    | nil => cases hr
    | cons f rest =>
      simp only [act] at hr
      unfold lib at hr
      dsimp only at hr
      cases f with
      | insVisit c k e loc new =>
        dsimp only at hr
        split at hr
        · cases hr
        · rename_i x hx
          split at hr
          · cases hr
          · rename_i hxc
            split at hr
            · cases hr
            · rename_i hnew
              have hnew' : new = false := by simpa using hnew
              subst hnew'
              refine ⟨c, k, e, loc, rest, rfl, ht, ?_⟩
              have hxc' : x.cted = false := by simpa using hxc
              have hfr : FrameOk cfg (stat s.ents) (.insVisit c k e loc false) :=
                hi.core.frames _ (List.mem_flatten.2 ⟨_, List.mem_of_getElem? ht, List.mem_cons_self⟩)
              obtain ⟨⟨k1, b, hst, hkk⟩, _⟩ := hfr
              obtain ⟨g, hg, hpos⟩ := exists_of_tot (hi.core.uncted e x hx hxc')
              obtain ⟨st', hst', hg'⟩ := List.mem_flatten.1 hg
              obtain ⟨t', ht'⟩ := List.mem_iff_getElem?.1 hst'
              have hgok := hi.core.frames g hg
              -- `g` holds the mutex of type `c`
              have hh : holds g = some c := by
                cases g with
                | insVisit c' k' e' loc' new' =>
                  have he : e' = e := by
                    by_cases h1 : e' = e
                    · exact h1
                    · simp [ownF, h1] at hpos
                  subst he
                  obtain ⟨⟨k2, b2, h2, _⟩, _⟩ := hgok
                  rw [hst] at h2
                  cases h2
                  rfl
                | insUser c' k' e' =>
                  have he : e' = e := by
                    by_cases h1 : e' = e
                    · exact h1
                    · simp [ownF, h1] at hpos
                  subst he
                  obtain ⟨k2, h2, _⟩ := hgok
                  rw [hst] at h2
                  cases h2
                  rfl
                | insDone c' k' e' =>
                  have he : e' = e := by
                    by_cases h1 : e' = e
                    · exact h1
                    · simp [ownF, h1] at hpos
                  subst he
                  obtain ⟨k2, h2, _⟩ := hgok
                  rw [hst] at h2
                  cases h2
                  rfl
                | insCatch c' e' =>
                  have he : e' = e := by
                    by_cases h1 : e' = e
                    · exact h1
                    · simp [ownF, h1] at hpos
                  subst he
                  obtain ⟨k2, h2⟩ := hgok
                  rw [hst] at h2
                  cases h2
                  rfl
                | _ => cases hpos
              obtain ⟨d, h1⟩ := owner_of hi ht List.mem_cons_self (c := c) rfl
              obtain ⟨d', h2⟩ := owner_of hi ht' hg' hh
              rw [h1] at h2
              have htt : t = t' := (Prod.mk.inj (Option.some.inj h2)).1
              subst htt
              rw [ht] at ht'
              cases ht'
              have hgr : g ∈ rest := by
                rcases List.mem_cons.1 hg' with rfl | h3
                · simp [ownF] at hpos
                · exact h3
              have habove := (List.pairwise_cons.1 (hk.order t _ ht)).1 g hgr
              have hu : isUser g = true := by
                by_cases h3 : isUser g = true
                · exact h3
                · have := habove.2 (by simpa using h3)
                  cases this
              cases g <;> first | (cases hu; done) | skip
              rename_i c' k' e'
              have he : e' = e := by
                by_cases h1 : e' = e
                · exact h1
                · simp [ownF, h1] at hpos
              subst he
              cases hh
              obtain ⟨k2, h3, h4⟩ := hgok
              rw [hst] at h3
              cases h3
              exact ⟨k', hgr, h.trans _ _ _ _ (h.symm _ _ _ h4) hkk⟩
      | _ =>
        dsimp only at hr
        repeat' split at hr
        all_goals cases hr
  | _ =>
    simp only [act] at hr
    repeat' split at hr
    all_goals cases hr

/-- A value constructor for key 5 requests key 5 ... -/
example : exec sampleCfg ((0, .create 0 5 [] false) :: runs 3 0 ++ make 0 0 5 []) (start 1) = .reentrant := by rfl

/-- ... or key 6, which is fine. -/
example : seen (exec sampleCfg ((0, .create 0 5 [] false) :: runs 3 0 ++ make 0 0 6 [] ++
    (0, .finish [true] false) :: runs 4 0) (start 1)) = some ([0], [some 5, some 6], [0]) := by decide

end Verif.Props

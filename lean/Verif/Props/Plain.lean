import Verif.PlainHBStep
import Verif.PlainLin
import Verif.PlainCycle
import Verif.Ring
import Verif.Idents
import Verif.Props.Concurrent

/-!
# Flyweights without tracking, used by several threads: C56

The counterpart of C05-C09, C38, C39, C49 and C55 for `no_tracking`.  Every theorem is about an arbitrary number `n` of
threads and an arbitrary schedule `acts` of their actions, starting from a program without flyweights.
-/

set_option autoImplicit false

namespace Verif.Props
open Verif.Conc (Fw Act Cfg CfgOk pick NoCycles tot_pos)
open Verif.Plain Verif.HB Relation
variable {K : Type}

theorem plain_inv {cfg : Cfg K} (h : CfgOk cfg) (hl : cfg.locking = true) {acts : List (Nat × Act K)} {n : Nat} {s : St K}
    (hs : exec cfg acts (start n) = .ok s) : Inv cfg s := by
  have := exec_good h hl (start_inv n) acts
  rwa [hs] at this

/-- Thread `t` makes a flyweight of type `c` from key `k`, containing the objects selected by `m`.
(No code of its own: used to state a property or an example.) -/
def put (t c k : Nat) (m : List Bool) : List (Nat × Act Nat) := (t, .create c k m true) :: runs 4 t

/-- Thread `t` makes a flyweight of type `c` whose value is constructed from key `k`; objects selected by `m` become
parts of it.  (No code of its own: used to state a property or an example.) -/
def build (t c k : Nat) (m : List Bool) : List (Nat × Act Nat) :=
  (t, .create c k [] false) :: runs 3 t ++ (t, .finish m false) :: runs 2 t

/-- What can be seen of an outcome.  (No code of its own: used to state a property or an example.) -/
def shows (o : Out Nat) : Option (List Nat × List (Option (Nat × List Nat)) × List Nat) := match o with
  | .ok s => some (s.objs.map Fw.h, (List.range s.next).map fun e => (s.ents e).map fun x => (x.key, x.kids.map Fw.h),
      s.thr.map List.length)
  | _ => none

/-- Two threads race for key 5; one of them destroys its flyweight, a value with two flyweights inside is constructed, and
a constructor throws.  (No code of its own: used to state a property or an example.) -/
def mixed : List (Nat × Act Nat) :=
  (0, .create 0 5 [] true) :: (1, .create 0 5 [] true) :: runs 4 0 ++ runs 4 1 ++ (0, .destroy [true]) :: put 1 1 5 [] ++
    build 0 2 7 [true, true] ++ (1, .create 0 9 [] false) :: runs 3 1 ++ (1, .throw_) :: runs 2 1 ++ put 0 0 5 []

example : shows (exec sampleCfg mixed (start 2)) =
    some ([0, 2], [some (5, []), some (5, []), some (7, [1, 0]), none], [0, 0]) := by decide

theorem mixed_ok : ∃ s, exec sampleCfg mixed (start 2) = .ok s ∧ (∀ st ∈ s.thr, st = []) ∧ s.objs.map Fw.h = [0, 2] := by
  have h1 : (match exec sampleCfg mixed (start 2) with
    | .ok s => s.thr.all List.isEmpty && s.objs.map Fw.h == [0, 2]
    | _ => false) = true := by decide
  cases he : exec sampleCfg mixed (start 2) with
  | ok s =>
    rw [he] at h1
    simp only [Bool.and_eq_true, List.all_eq_true, List.isEmpty_iff, beq_iff_eq] at h1
    exact ⟨s, rfl, h1.1, h1.2⟩
  | _ => rw [he] at h1; cases h1

/-! ## Values -/

/-- **C56.**  No schedule leads to the use of an entry or a value that does not exist, or to the release of a mutex that is
not held. -/
theorem C56_no_ub {cfg : Cfg K} (h : CfgOk cfg) (hl : cfg.locking = true) (n : Nat) (acts : List (Nat × Act K)) :
    exec cfg acts (start n) ≠ .ub := by
  intro hu
  have := exec_good h hl (start_inv n) acts
  rw [hu] at this
  exact this

/-- Every flyweight, object or part of a value, refers to a value of its type for a key equivalent to its own ... -/
theorem C56_refers {cfg : Cfg K} (h : CfgOk cfg) (hl : cfg.locking = true) {n : Nat} {acts : List (Nat × Act K)} {s : St K}
    (hs : exec cfg acts (start n) = .ok s) {w : Fw K} (hw : w ∈ s.objs ∨ ∃ e x, s.ents e = some x ∧ w ∈ x.kids) :
    ∃ x, s.ents w.h = some x ∧ x.cted = true ∧ x.core = w.c ∧ cfg.eqv w.c x.key w.k = true := by
  rcases hw with hw | ⟨e, x, hx, hw⟩
  · exact (plain_inv h hl hs).core.objsOk w hw
  · exact (plain_inv h hl hs).core.kids e x hx w hw

/-- ... which it shares exactly with the flyweights of its type made from equivalent keys. -/
theorem C56_sharing {cfg : Cfg K} (h : CfgOk cfg) (hl : cfg.locking = true) {n : Nat} {acts : List (Nat × Act K)} {s : St K}
    (hs : exec cfg acts (start n) = .ok s) {v w : Fw K}
    (hv : v ∈ s.objs ∨ ∃ e x, s.ents e = some x ∧ v ∈ x.kids)
    (hw : w ∈ s.objs ∨ ∃ e x, s.ents e = some x ∧ w ∈ x.kids) :
    v.h = w.h ↔ v.c = w.c ∧ cfg.eqv v.c v.k w.k = true := by
  obtain ⟨x, hx, _, h1, h2⟩ := C56_refers h hl hs hv
  obtain ⟨y, hy, _, h3, h4⟩ := C56_refers h hl hs hw
  constructor
  · intro he
    rw [he, hy] at hx
    cases hx
    have hc : v.c = w.c := h1.symm.trans h3
    refine ⟨hc, ?_⟩
    rw [hc] at h2 ⊢
    exact h.trans _ _ _ _ (h.symm _ _ _ h2) h4
  · rintro ⟨hc, he⟩
    refine (plain_inv h hl hs).core.uniq _ _ x y hx hy (by rw [h1, h3, hc]) ?_
    rw [h1]
    rw [← hc] at h4
    exact h.trans _ _ _ _ h2 (h.trans _ _ _ _ he (h.symm _ _ _ h4))

/-- No two entries of a type have equivalent keys. -/
theorem C56_unique {cfg : Cfg K} (h : CfgOk cfg) (hl : cfg.locking = true) {n : Nat} {acts : List (Nat × Act K)} {s : St K}
    (hs : exec cfg acts (start n) = .ok s) {e e' : Nat} {x x' : Ent K} (hx : s.ents e = some x)
    (hx' : s.ents e' = some x') (hc : x.core = x'.core) (hk : cfg.eqv x.core x.key x'.key = true) : e = e' :=
  (plain_inv h hl hs).core.uniq e e' x x' hx hx' hc hk

/-- Once constructed, a value stays, with its key and the flyweights inside, whatever is done later: also if
all flyweights referring to it are destroyed. -/
theorem C56_lasting {cfg : Cfg K} (h : CfgOk cfg) (hl : cfg.locking = true) {n : Nat} {acts later : List (Nat × Act K)}
    {s s' : St K} (hs : exec cfg acts (start n) = .ok s) (hs' : exec cfg later s = .ok s') {e : Nat} {x : Ent K}
    (hx : s.ents e = some x) (hc : x.cted = true) : s'.ents e = some x :=
  exec_keeps h hl (plain_inv h hl hs) hs' hx hc

/-- When no thread is in the library every entry has a value and all mutexes are free. -/
theorem C56_quiet {cfg : Cfg K} (h : CfgOk cfg) (hl : cfg.locking = true) {n : Nat} {acts : List (Nat × Act K)} {s : St K}
    (hs : exec cfg acts (start n) = .ok s) (hq : ∀ st ∈ s.thr, st = []) :
    (∀ e x, s.ents e = some x → x.cted = true) ∧ ∀ c, s.lock c = none := by
  have hi := plain_inv h hl hs
  have hfr : frames s = [] := by
    unfold frames
    rw [List.flatten_eq_nil_iff]
    exact hq
  constructor
  · intro e x hx
    cases hc : x.cted with
    | true => rfl
    | false =>
      have := hi.core.uncted e x hx hc
      rw [hfr] at this
      cases this
  · intro c
    cases hlk : s.lock c with
    | none => rfl
    | some p =>
      obtain ⟨t, d⟩ := p
      obtain ⟨h1, h2⟩ := hi.locks.pos c t d hlk
      have h3 := List.getElem?_eq_getElem h2
      have h4 := hi.locks.depth t _ h3 c
      rw [hq _ (List.getElem_mem h2)] at h4
      simp only [Conc.depthOf, hlk, if_true, Conc.tot_nil] at h4
      omega

/-- A value is constructed at most once for each key: the number of constructions completed so far is the number of
values there are. -/
theorem C56_once {cfg : Cfg K} (h : CfgOk cfg) (hl : cfg.locking = true) {n : Nat} {acts : List (Nat × Act K)} {s : St K}
    (hs : exec cfg acts (start n) = .ok s) : values s.ents s.next = s.clock := (plain_inv h hl hs).core.count

example : ∃ s, exec sampleCfg mixed (start 2) = .ok s ∧ (∀ c, s.lock c = none) ∧
    (∀ later s', exec sampleCfg later s = .ok s' → s'.ents 0 = s.ents 0) ∧
    ∀ v ∈ s.objs, ∀ w ∈ s.objs, v.h = w.h → v.k = w.k := by
  obtain ⟨s, hs, hq, ho⟩ := mixed_ok
  obtain ⟨h1, h2⟩ := C56_quiet sampleStd.toCfgOk rfl hs hq
  refine ⟨s, hs, h2, fun later s' hs' => ?_, fun v hv w hw he => ?_⟩
  · have hm : (0 : Nat) ∈ s.objs.map Fw.h := by rw [ho]; decide
    obtain ⟨w, hw, he⟩ := List.mem_map.1 hm
    obtain ⟨x, hx, hc, _⟩ := C56_refers sampleStd.toCfgOk rfl hs (.inl hw)
    rw [he] at hx
    rw [hx]
    exact C56_lasting sampleStd.toCfgOk rfl hs hs' hx hc
  · have := ((C56_sharing sampleStd.toCfgOk rfl hs (.inl hv) (.inl hw)).1 he).2
    simpa [sampleCfg] using this

example : ∃ s, exec sampleCfg mixed (start 2) = .ok s ∧ s.clock = 3 ∧ values s.ents s.next = 3 := by
  obtain ⟨s, hs, _⟩ := mixed_ok
  have h1 : (match exec sampleCfg mixed (start 2) with | .ok s => s.clock | _ => 0) = 3 := by decide
  rw [hs] at h1
  have h1 : s.clock = 3 := h1
  exact ⟨s, hs, h1, by rw [C56_once sampleStd.toCfgOk rfl hs, h1]⟩

/-! ## Waiting -/

/-- Let `uses c c'` tell that the construction of values of type `c` may create flyweights of type `c'`.  If
it has no cycles other than from a type to itself, every blocked thread waits, directly or through others, for a thread
that is not blocked.  What values contain does not matter. -/
theorem C56_no_deadlock {cfg : Cfg K} (h : CfgOk cfg) (hl : cfg.locking = true) {uses : Nat → Nat → Prop} (hu : NoCycles uses)
    {n : Nat} {s : St K} (hs : Reachable cfg uses n s) {t : Nat} (hb : Blocked cfg s t) :
    ∃ t', t' < n ∧ TransGen (Waits s) t t' ∧ ¬ Blocked cfg s t' := by
  obtain ⟨h1, h2⟩ := hs.inv h hl
  obtain ⟨t', h3, h4⟩ := no_deadlock hl hu h1 h2 hb
  exact ⟨t', Waits.real hs h1 h3, h3, h4⟩

/-- Two types whose values contain flyweights of each other: the program of `C38_cyclic`, which comes to a standstill with
tracking, comes to its end. -/
example : shows (exec sampleCfg
    (put 0 1 1 [] ++ put 0 0 2 [true] ++ put 1 0 3 [] ++ put 1 1 4 [true] ++
      [(0, .destroy [false, true]), (1, .destroy [true])]) (start 2)) =
    some ([], [some (1, []), some (2, [0]), some (3, []), some (4, [2])], [0, 0]) := by decide

/-- There, thread 1 may have to wait for thread 0. -/
example : NoCycles (fun _ _ : Nat => False) ∧ ∃ s, Reachable sampleCfg (fun _ _ => False) 2 s ∧ Blocked sampleCfg s 1 ∧ Waits s 1 0 := by
  refine ⟨⟨fun a => ⟨a, fun _ h => h.1.elim⟩⟩, _, .step (t := 0) (a := .run) (.step (t := 1) (a := .create 0 5 [] true)
    (.step (t := 0) (a := .create 0 5 [] true) .start rfl ?_ rfl) rfl ?_ rfl) rfl trivial rfl, ?_, ?_⟩
  · exact fun c' k' e rest h => by cases h
  · exact fun c' k' e rest h => by cases h
  · exact ⟨_, rfl, rfl, rfl⟩
  · exact ⟨by omega, 0, 1, ⟨5, [], true, [], rfl⟩, rfl⟩

/-- If constructors of two types create flyweights of each other there is an execution after which neither thread can ever
do anything. -/
theorem C56_cyclic : ∃ s, exec sampleCfg
    ((0, .create 0 1 [] false) :: (1, .create 1 2 [] false) :: runs 3 0 ++ runs 3 1 ++
      [(0, .create 1 3 [] true), (1, .create 0 4 [] true)]) (start 2) = .ok s ∧
    ∀ t a, step sampleCfg s t a = .no := by
  refine ⟨_, rfl, fun t a => ?_⟩
  match t with
  | 0 => cases a <;> rfl
  | 1 => cases a <;> rfl
  | _ + 2 => rfl

/-- The condition of `C56_no_deadlock` is needed: if the constructors of two or more types create flyweights of each other along a
cycle, as many threads, each making a flyweight of one of these types, can get to wait for each other in a circle, so that none of
them can ever do anything again. -/
theorem C56_needed {cfg : Cfg K} (hl : cfg.locking = true) {uses : Nat → Nat → Prop} {n : Nat} (hn : 2 ≤ n) (ty : Nat → Nat)
    (hinj : ∀ i j, i < n → j < n → ty i = ty j → i = j) (huse : ∀ i, i < n → uses (ty i) (ty ((i + 1) % n))) (k : K) :
    ∃ s, Reachable cfg uses n s ∧ (∀ t, t < n → Blocked cfg s t ∧ Waits s t ((t + 1) % n)) ∧ ∀ t a, step cfg s t a matches .no := by
  obtain ⟨s, hr, hb⟩ := all_begun (cfg := cfg) (uses := uses) hl hinj k n (Nat.le_refl _)
  obtain ⟨s', h1, h2, h3, h4, _⟩ := all_ask huse k hr hb n (Nat.le_refl _)
  have hnext : ∀ t, t < n → (t + 1) % n < n ∧ t ≠ (t + 1) % n := by
    intro t ht
    refine ⟨Nat.mod_lt _ (by omega), ?_⟩
    by_cases htn : t + 1 = n
    · rw [htn, Nat.mod_self]
      omega
    · rw [Nat.mod_eq_of_lt (by omega)]
      omega
  have hlock : ∀ t, t < n → s'.lock (ty ((t + 1) % n)) = some ((t + 1) % n, 1) := fun t ht => by
    rw [h2]
    exact hb.held _ (hnext t ht).1
  have hno : ∀ t, t < n → step cfg s' t .run = .no := by
    intro t ht
    obtain ⟨e, he⟩ := h4 t ht
    have ha : Conc.acquire cfg s'.lock t (ty ((t + 1) % n)) = none := by
      simp [Conc.acquire, hl, hlock t ht, (hnext t ht).2.symm]
    simp [step, he, act, lib, ha]
  refine ⟨s', h1, fun t ht => ?_, fun t a => ?_⟩
  · obtain ⟨e, he⟩ := h4 t ht
    exact ⟨⟨_, he, rfl, hno t ht⟩, (hnext t ht).2, _, 1, ⟨k, [], false, _, he⟩, hlock t ht⟩
  · by_cases ht : t < n
    · obtain ⟨e, he⟩ := h4 t ht
      cases a with
      | run => rw [hno t ht]
      | _ => simp [step, he, act, inUser]
    · have : s'.thr[t]? = none := List.getElem?_eq_none (by omega)
      simp [step, this]

/-- Four types and four threads. -/
example := C56_needed (cfg := sampleCfg) rfl (uses := fun c c' => c' = (c + 1) % 4) (n := 4) (by decide) id (fun _ _ _ _ h => h)
  (fun _ _ => rfl) 7

/-- Between finitely many types this is exact. -/
theorem C56_exact {cfg : Cfg K} (h : CfgOk cfg) (hl : cfg.locking = true) {uses : Nat → Nat → Prop} {N : Nat}
    (hN : ∀ c c', uses c c' → c < N ∧ c' < N) (k : K) :
    (∃ n s, 0 < n ∧ Reachable cfg uses n s ∧ ∀ t, t < n → Blocked cfg s t) ↔ ∃ c, TransGen (fun c c' => uses c c' ∧ c' ≠ c) c c := by
  constructor
  · rintro ⟨n, s, hn, hs, hb⟩
    refine Classical.byContradiction fun hc => ?_
    have hwf : NoCycles uses := wf_of_acyclic (fun a b hab => hN a b hab.1) fun c hcc => hc ⟨c, hcc⟩
    obtain ⟨t', h1, _, h2⟩ := C56_no_deadlock h hl hwf hs (hb 0 hn)
    exact h2 (hb t' h1)
  · rintro ⟨c, hc⟩
    obtain ⟨n, ty, h1, h2, h3⟩ := ring_of hc
    have hn : 2 ≤ n := by
      refine Classical.byContradiction fun hlt => ?_
      obtain rfl : n = 1 := by omega
      exact (h3 0 (by omega)).2 rfl
    obtain ⟨s, hs, hb, _⟩ := C56_needed hl hn ty h2 (fun i hi => (h3 i hi).1) k
    exact ⟨n, s, by omega, hs, fun t ht => (hb t ht).1⟩

/-- Four types, of which two use each other. -/
example := (C56_exact sampleStd.toCfgOk rfl (uses := fun c c' => (c = 0 ∧ c' = 1) ∨ (c = 1 ∧ c' = 2) ∨ (c = 2 ∧ c' = 1)) (N := 4)
  (fun _ _ h => by omega) 7).2 ⟨1, .tail (.single ⟨.inr (.inl ⟨rfl, rfl⟩), by omega⟩) ⟨.inr (.inr ⟨rfl, rfl⟩), by omega⟩⟩

theorem plain_owner {cfg : Cfg K} {s : St K} (hi : Inv cfg s) {t : Nat} {st : List (Frame K)} (ht : s.thr[t]? = some st)
    {f : Frame K} (hf : f ∈ st) {c : Nat} (hh : holds f = some c) : ∃ d, s.lock c = some (t, d) := by
  have h1 := hi.locks.depth t _ ht c
  have h2 := tot_pos (g := holdF c) hf (by simp [holdF, hh])
  rw [h1] at h2
  unfold Conc.depthOf at h2
  cases hl : s.lock c with
  | none => rw [hl] at h2; cases h2
  | some p =>
    obtain ⟨o, d⟩ := p
    rw [hl] at h2
    by_cases ho : o = t
    · exact ⟨d, by rw [ho]⟩
    · simp [ho] at h2

/-- An insertion can meet an entry that has no value only if the value constructor for that very entry is running on the
same thread. -/
theorem C56_reentrant {cfg : Cfg K} (h : CfgOk cfg) (hl : cfg.locking = true) {n : Nat} {acts : List (Nat × Act K)} {s : St K}
    (hs : exec cfg acts (start n) = .ok s) {t : Nat} {a : Act K} (hr : step cfg s t a = .reentrant) :
    ∃ c k e loc rest, a = .run ∧ s.thr[t]? = some (.visit c k e loc false :: rest) ∧
      ∃ k', .user c k' e ∈ rest ∧ cfg.eqv c k' k = true := by
  have hi := plain_inv h hl hs
  unfold step at hr
  split at hr
  · cases hr
  rename_i st ht
  cases a with
  | run =>
    cases st with
    | nil => cases hr
    | cons f rest =>
      dsimp only [act] at hr
      cases f with
      | visit c k e loc new =>
        obtain ⟨x, hx, h1, h2, _⟩ := hi.core.frames _ (List.mem_flatten.2 ⟨_, List.mem_of_getElem? ht, List.mem_cons_self⟩)
        dsimp only [lib] at hr
        rw [hx] at hr
        dsimp only at hr
        split at hr
        · cases hr
        rename_i hc
        cases new with
        | true => cases hr
        | false =>
          refine ⟨c, k, e, loc, rest, rfl, ht, ?_⟩
          obtain ⟨g, hg, hpos⟩ := Conc.exists_of_tot (hi.core.uncted e x hx (by simpa using hc))
          obtain ⟨st', hst', hg'⟩ := List.mem_flatten.1 hg
          obtain ⟨t', ht'⟩ := List.mem_iff_getElem?.1 hst'
          have hok := hi.core.frames g hg
          -- the frame in charge holds the mutex of type `c`
          have hh : holds g = some c := by
            cases g with
            | visit c' k' e' loc' new' =>
              have : e' = e := by simp only [ownF] at hpos; split at hpos <;> simp_all
              subst this
              obtain ⟨y, hy, h3, _⟩ := hok
              rw [hx] at hy
              cases hy
              simp [holds, ← h3, h1]
            | user c' k' e' =>
              have : e' = e := by simp only [ownF] at hpos; split at hpos <;> simp_all
              subst this
              obtain ⟨y, hy, h3, _⟩ := hok
              rw [hx] at hy
              cases hy
              simp [holds, ← h3, h1]
            | done c' k' e' =>
              have : e' = e := by simp only [ownF] at hpos; split at hpos <;> simp_all
              subst this
              obtain ⟨y, hy, h3, _⟩ := hok
              rw [hx] at hy
              cases hy
              simp [holds, ← h3, h1]
            | catch_ c' e' =>
              have : e' = e := by simp only [ownF] at hpos; split at hpos <;> simp_all
              subst this
              obtain ⟨y, hy, h3, _⟩ := hok
              rw [hx] at hy
              cases hy
              simp [holds, ← h3, h1]
            | _ => cases hpos
          obtain ⟨d, hd⟩ := plain_owner hi ht List.mem_cons_self (c := c) rfl
          obtain ⟨d', hd'⟩ := plain_owner hi ht' hg' hh
          rw [hd] at hd'
          cases hd'
          rw [ht] at ht'
          cases ht'
          rcases List.mem_cons.1 hg' with rfl | hr'
          · simp [ownF] at hpos
          · have hw := hi.locks.tails t _ ht g hr'
            cases g with
            | user c' k' e' =>
              have : e' = e := by simp only [ownF] at hpos; split at hpos <;> simp_all
              subst this
              obtain ⟨y, hy, h3, _, _, h4⟩ := hok
              rw [hx] at hy
              cases hy
              have hcc : c' = c := by rw [← h3, h1]
              subst hcc
              exact ⟨k', hr', by rw [← h4]; exact h2⟩
            | _ => cases hw
      | _ =>
        dsimp only [lib] at hr
        repeat' split at hr
        all_goals cases hr
  | _ =>
    dsimp only [act] at hr
    repeat' split at hr
    all_goals cases hr

/-- The constructor of a value asks for the same flyweight. -/
example : ∃ s, exec sampleCfg ((0, .create 0 5 [] false) :: runs 3 0 ++ (0, .create 0 5 [] true) :: runs 2 0) (start 1) = .ok s ∧
    step sampleCfg s 0 .run = .reentrant := ⟨_, rfl, rfl⟩

/-! ## Data races -/

/-- The recorded execution is the execution. -/
theorem C56_same_execution {cfg : Cfg K} {n : Nat} {acts : List (Nat × Act K)} {s : St K}
    (hs : exec cfg acts (start n) = .ok s) : (hexec cfg acts (hstart n)).s = s := by
  suffices ∀ (acts : List (Nat × Act K)) (h : HSt K), exec cfg acts h.s = .ok s → (hexec cfg acts h).s = s from
    this acts (hstart n) hs
  intro acts
  induction acts with
  | nil => intro h hs; exact Out.ok.inj hs
  | cons p acts ih =>
    obtain ⟨t, a⟩ := p
    intro h hs
    unfold exec step at hs
    unfold hexec
    cases ht : h.s.thr[t]? with
    | none => rw [ht] at hs; exact ih h hs
    | some st =>
      rw [ht] at hs
      dsimp only at hs ⊢
      cases ha : act cfg h.s t st a with
      | ok s' => rw [ha] at hs; exact ih _ hs
      | no => rw [ha] at hs; exact ih h hs
      | ub => rw [ha] at hs; cases hs
      | reentrant => rw [ha] at hs; cases hs

/-- Conflicting accesses of different threads to containers, keys and values are ordered by happens-before. -/
theorem C56_race_free {cfg : Cfg K} (h : CfgOk cfg) (hl : cfg.locking = true) (n : Nat) (acts : List (Nat × Act K)) :
    RaceFree (hexec cfg acts (hstart n)).tr := (hexec_h h hl (hstart_h n) acts).race

/-- The events tell flyweight objects apart: each has an identity of its own, so that what orders the uses of one object does
not order those of another. -/
theorem C56_identities {cfg : Cfg K} (h : CfgOk cfg) (hl : cfg.locking = true) (n : Nat) (acts : List (Nat × Act K)) :
    (hexec cfg acts (hstart n)).ids.Nodup ∧
      (hexec cfg acts (hstart n)).ids.length = (hexec cfg acts (hstart n)).s.objs.length :=
  ⟨(Idents.plain_fresh acts Idents.fresh_nil).1, (hexec_h h hl (hstart_h n) acts).len⟩

/-- The construction of a value happens before each time it is read. -/
theorem C56_published {cfg : Cfg K} (h : CfgOk cfg) (hl : cfg.locking = true) (n : Nat) (acts : List (Nat × Act K)) {i j e : Nat}
    (hij : i < j) (hi : Acc (hexec cfg acts (hstart n)).tr i (.body e, .write))
    (hj : Acc (hexec cfg acts (hstart n)).tr j (.body e, .read)) : Before (hexec cfg acts (hstart n)).tr i j :=
  (C56_race_free h hl n acts).order hij hi hj rfl

/-- Thread 0 makes a flyweight, thread 1 makes the same one and reads its value.  (No code of its own: used to state a
property or an example.) -/
def handOver : List (Nat × Act Nat) := build 0 0 5 [] ++ put 1 0 5 [] ++ [(1, .read 0)]

example : (hexec sampleCfg handOver (hstart 2)).ids = [1, 0] := by decide +kernel

/-- The value is written by event 5 of thread 0 and read by event 12 of thread 1. -/
example : Before (hexec sampleCfg handOver (hstart 2)).tr 5 12 :=
  C56_published sampleStd.toCfgOk rfl _ _ (e := 0) (by decide) ⟨_, rfl, by decide +kernel⟩ ⟨_, rfl, by decide +kernel⟩

/-- Without the mutex (`no_locking`) two threads insert into the same container at the same time. -/
theorem C56_lock_needed : ¬ RaceFree (hexec { sampleCfg with locking := false }
    ([(0, .create 0 5 [] true), (1, .create 0 6 [] true)] ++ runs 2 1 ++ runs 2 0) (hstart 2)).tr := by
  intro hr
  refine not_before_of (i := 3) (j := 5) (fun i => match (hexec { sampleCfg with locking := false }
    ([(0, .create 0 5 [] true), (1, .create 0 6 [] true)] ++ runs 2 1 ++ runs 2 0) (hstart 2)).tr[i]? with
      | some ev => ev.thr == 0
      | none => false) ?_ ?_ ?_
    (hr.order (l := .table 0) (k := .write) (k' := .write) (by decide) ?_ ?_ rfl)
  all_goals first
    | decide +kernel
    | exact ⟨_, rfl, by decide +kernel⟩

/-! ## Operations appear to be atomic -/

/-- What a program can see is the same.  (No code of its own: used to state a property or an example.) -/
structure AgreeP (s : St K) (a : Atomic.St K) : Prop where
  /-- the same flyweight objects -/
  objs : a.objs = s.objs
  /-- the same values -/
  vals : ∀ e v, a.vals e = some v ↔ ∃ x, s.ents e = some x ∧ x.cted = true ∧ v = ⟨x.core, x.key, x.kids⟩
  /-- threads that run code of the user ... -/
  user : ∀ (t : Nat) (st : List (Frame K)), s.thr[t]? = some st → inUser st = true → ∃ st', a.thr[t]? = some st' ∧ Atomic.inUser st' = true
  /-- ... or are outside of the library do so in both -/
  idle : ∀ t : Nat, s.thr[t]? = some [] → a.thr[t]? = some []

/-- Step by step: whatever a thread does next, either flyweights with atomic operations and lasting values
do the same, or it is a step inside the library and they do nothing; and what can be seen is the same. -/
theorem C56_steps {cfg : Cfg K} (h : CfgOk cfg) (hl : cfg.locking = true) :
    ∃ R : St K → Atomic.St K → Prop,
      (∀ n, R (start n) (Atomic.start n)) ∧
      (∀ s a, R s a → AgreeP s a) ∧
      ∀ s a t act s', R s a → step cfg s t act = .ok s' →
        (act = .run ∧ R s' a) ∨ ∃ a', Lasting.Step cfg.eqv a t act a' ∧ R s' a' := by
  refine ⟨fun s a => Inv cfg s ∧ a = abs s, fun n => ⟨start_inv n, (start_abs n).symm⟩, ?_, ?_⟩
  · rintro s a ⟨hi, rfl⟩
    refine ⟨rfl, fun e v => ⟨of_absV, ?_⟩, fun t st ht hu => ⟨_, abs_top ht, inUser_abs (cfg := cfg) (fun f hf => ?_) hu⟩,
      fun t ht => abs_top ht⟩
    · rintro ⟨x, hx, hc, rfl⟩
      exact absV_some hx hc
    · exact hi.core.frames f (List.mem_flatten.2 ⟨_, List.mem_of_getElem? ht, hf⟩)
  · rintro s a t act s' ⟨hi, rfl⟩ hs
    have hg := step_good h hl hi t act
    rw [hs] at hg
    rcases step_sim hi hs with ⟨h1, h2⟩ | h1
    · exact .inl ⟨h1, hg, h2.symm⟩
    · exact .inr ⟨_, h1, hg, rfl⟩

/-- For whole executions: some of the steps inside the library left out, every execution is one of the flyweights with
atomic operations, with the same actions by the same threads in the same order. -/
theorem C56_executions {cfg : Cfg K} (h : CfgOk cfg) (hl : cfg.locking = true) {n : Nat} {acts : List (Nat × Act K)} {s : St K}
    (hs : exec cfg acts (start n) = .ok s) :
    ∃ l a, l.Sublist acts ∧ Lasting.Run cfg.eqv (Atomic.start n) l a ∧ AgreeP s a := by
  obtain ⟨R, h1, h2, h3⟩ := C56_steps h hl
  have key : ∀ acts s0 l0 a0, R s0 a0 → Lasting.Run cfg.eqv (Atomic.start n) l0 a0 → exec cfg acts s0 = .ok s →
      ∃ l a, l.Sublist acts ∧ Lasting.Run cfg.eqv (Atomic.start n) (l0 ++ l) a ∧ R s a := by
    intro acts
    induction acts with
    | nil =>
      intro s0 l0 a0 hR hrun he
      cases he
      exact ⟨[], a0, .slnil, by rwa [List.append_nil], hR⟩
    | cons p acts ih =>
      obtain ⟨t, act⟩ := p
      intro s0 l0 a0 hR hrun he
      unfold exec at he
      cases hst : step cfg s0 t act with
      | ok s1 =>
        rw [hst] at he
        rcases h3 _ _ _ _ _ hR hst with ⟨_, hR'⟩ | ⟨a1, hstep, hR'⟩
        · obtain ⟨l, a, h4, h5, h6⟩ := ih s1 l0 a0 hR' hrun he
          exact ⟨l, a, h4.cons _, h5, h6⟩
        · obtain ⟨l, a, h4, h5, h6⟩ := ih s1 _ a1 hR' (hrun.snoc hstep) he
          exact ⟨(t, act) :: l, a, h4.cons_cons _, by rwa [List.append_assoc] at h5, h6⟩
      | no =>
        rw [hst] at he
        obtain ⟨l, a, h4, h5, h6⟩ := ih s0 l0 a0 hR hrun he
        exact ⟨l, a, h4.cons _, h5, h6⟩
      | ub => rw [hst] at he; cases he
      | reentrant => rw [hst] at he; cases he
  obtain ⟨l, a, h4, h5, h6⟩ := key acts _ [] _ (h1 n) .nil hs
  exact ⟨l, a, h4, h5, h2 _ _ h6⟩

/-- With atomic operations and lasting values: flyweights refer to values of their type with keys equivalent to those they
were made from, no two values of a type have equivalent keys, and no step changes or removes a value. -/
theorem C56_meaning {eqv : Nat → K → K → Bool} (refl : ∀ c k, eqv c k k = true)
    (symm : ∀ c k l, eqv c k l = true → eqv c l k = true) {n : Nat} {l : List (Nat × Act K)} {a : Atomic.St K}
    (h : Lasting.Run eqv (Atomic.start n) l a) :
    (∀ w ∈ a.objs, ∃ v, a.vals w.h = some v ∧ v.core = w.c ∧ eqv w.c v.key w.k = true) ∧
    (∀ i j u v, a.vals i = some u → a.vals j = some v → u.core = v.core → eqv u.core u.key v.key = true → i = j) ∧
    ∀ t act a', Lasting.Step eqv a t act a' → ∀ i v, a.vals i = some v → a'.vals i = some v :=
  ⟨(h.sound refl symm).objs, (h.sound refl symm).one, fun _ _ _ hs _ _ hv => hs.keeps hv⟩

/-- If there is a value with an equivalent key, all a call can do is to refer to it. -/
theorem C56_share {eqv : Nat → K → K → Bool} (refl : ∀ c k, eqv c k k = true)
    (symm : ∀ c k l, eqv c k l = true → eqv c l k = true) (trans : ∀ c k l m, eqv c k l = true → eqv c l m = true → eqv c k m = true)
    {n : Nat} {l : List (Nat × Act K)} {a a' : Atomic.St K} (h : Lasting.Run eqv (Atomic.start n) l a) {t c : Nat} {k : K}
    {loc : List (Fw K)} {rest : List (Atomic.Call K)} (ht : a.thr[t]? = some (.create c k loc :: rest)) {i : Nat} {v : Atomic.Val K}
    (hv : a.vals i = some v) (hc : v.core = c) (hk : eqv c v.key k = true) (hs : Lasting.Step eqv a t .run a') :
    a' = a.go t (.made ⟨i, c, k⟩ [] :: rest) := by
  cases hs with
  | @share c' k' loc' rest' j u ht' hu hc' hk' =>
    rw [ht] at ht'
    cases ht'
    rw [(h.sound refl symm).one i j v u hv hu (by rw [hc, hc']) (by rw [hc]; exact trans _ _ _ _ hk (symm _ _ _ hk'))]
  | keep ht' hf =>
    rw [ht] at ht'
    cases ht'
    have := hf i v hv hc
    rw [hk] at this
    cases this
  | start ht' hf =>
    rw [ht] at ht'
    cases ht'
    have := hf i v hv hc
    rw [hk] at this
    cases this
  | store ht' => rw [ht] at ht'; cases ht'
  | ret ht' => rw [ht] at ht'; cases ht'

example : ∃ s, exec sampleCfg mixed (start 2) = .ok s ∧ s.objs.map Fw.h = [0, 2] ∧
    ∃ l a, l.Sublist mixed ∧ Lasting.Run sampleCfg.eqv (Atomic.start 2) l a ∧ AgreeP s a := by
  obtain ⟨s, hs, _, ho⟩ := mixed_ok
  exact ⟨s, hs, ho, C56_executions sampleStd.toCfgOk rfl hs⟩

/-- A value that no flyweight refers to any more, and a call to make a flyweight for it.  (No code of its own: used in an example.) -/
def left : Atomic.St Nat := ⟨Atomic.setVal (fun _ => none) 0 (some ⟨0, 5, []⟩), [], [[], [.create 0 5 []]]⟩

theorem left_run : ∃ l, Lasting.Run sampleCfg.eqv (Atomic.start 2) l left := by
  have h1 := Lasting.Run.nil (eqv := sampleCfg.eqv) (a := Atomic.start 2)
  have h2 := h1.snoc (.create (t := 0) (c := 0) (k := 5) (mask := []) (pre := true) (st := []) rfl rfl)
  have h3 := h2.snoc (.keep (t := 0) (c := 0) (k := 5) (loc := []) (rest := []) (h := 0) rfl (fun _ _ h => by cases h) rfl)
  have h4 := h3.snoc (.ret (t := 0) (w := ⟨0, 0, 5⟩) (rest := []) rfl)
  have h5 := h4.snoc (.destroy (t := 0) (mask := [true]) (st := []) rfl rfl)
  have h6 := h5.snoc (.create (t := 1) (c := 0) (k := 5) (mask := []) (pre := true) (st := []) rfl rfl)
  exact ⟨_, h6⟩

example : ∃ a', Lasting.Step sampleCfg.eqv left 1 .run a' ∧ a'.vals 0 = some ⟨0, 5, []⟩ ∧
    ∀ a'', Lasting.Step sampleCfg.eqv left 1 .run a'' → a'' = a' := by
  obtain ⟨l, hl⟩ := left_run
  have hs := Lasting.Step.share (eqv := sampleCfg.eqv) (a := left) (t := 1) (c := 0) (k := 5) (loc := []) (rest := []) (h := 0)
    rfl rfl rfl rfl
  refine ⟨_, hs, (C56_meaning sampleStd.refl sampleStd.symm hl).2.2 _ _ _ hs 0 _ rfl, fun a'' h => ?_⟩
  exact C56_share sampleStd.refl sampleStd.symm sampleStd.trans hl (i := 0) rfl rfl rfl rfl h

end Verif.Props

import Verif.ConcHBStep
import Verif.Idents
import Verif.Props.Concurrent

/-!
# Data races: C49

`hexec cfg mo acts (hstart n)` executes the schedule `acts` of `n` threads and records what each
step accesses and synchronizes with; `mo` tells which operations on reference counts are acquire
and release operations.
-/

set_option autoImplicit false

namespace Verif.Props
open Verif.Conc Verif.HB
variable {K : Type}

/-- The recorded execution is the execution: the final states agree. -/
theorem C49_same_execution {cfg : Cfg K} {mo : Orders} {n : Nat} {acts : List (Nat × Act K)} {s : St K}
    (hs : exec cfg acts (start n) = .ok s) : (hexec cfg mo acts (hstart n)).s = s := by
  suffices ∀ (acts : List (Nat × Act K)) (h : HSt K), exec cfg acts h.s = .ok s → (hexec cfg mo acts h).s = s from
    this acts (hstart n) hs
  intro acts
  induction acts with
  | nil => intro h hs; exact Out.ok.inj hs
  | cons p acts ih =>
    obtain ⟨t, a⟩ := p
    intro h hs
    unfold exec step at hs
    unfold hexec
    cases ht : h.s.thr[t]? with
    | none => rw [ht] at hs; exact ih h hs
    | some st =>
      rw [ht] at hs
      dsimp only at hs ⊢
      cases ha : act cfg h.s t st a with
      | ok s' => rw [ha] at hs; exact ih _ hs
      | no => rw [ha] at hs; exact ih h hs
      | ub => rw [ha] at hs; cases hs
      | reentrant => rw [ha] at hs; cases hs

example : ∃ s, exec sampleCfg (make 0 0 5 [] ++ (1, .copy 0) :: make 1 0 5 []) (start 2) = .ok s ∧
    (hexec sampleCfg ⟨false, true, true⟩ (make 0 0 5 [] ++ (1, .copy 0) :: make 1 0 5 []) (hstart 2)).s = s :=
  ⟨_, rfl, C49_same_execution rfl⟩

/-- **C49.**  No two threads access the container of a flyweight type, the key or value of an
entry, or its counts at the same time unless both only read, or both use atomic operations:
conflicting accesses are ordered by happens-before.  It suffices that decrements of reference
counts are acquire and release operations. -/
theorem C49_race_free {cfg : Cfg K} (h : Std cfg) (inc : Bool) (n : Nat) (acts : List (Nat × Act K)) :
    RaceFree (hexec cfg ⟨inc, true, true⟩ acts (hstart n)).tr :=
  (hexec_h h.toCfgOk h.locking h.deleter ⟨rfl, rfl⟩ (hstart_h n) acts).race

/-- The events tell flyweight objects apart: each has an identity of its own, so that what orders the uses of one object does
not order those of another. -/
theorem C49_identities {cfg : Cfg K} (h : Std cfg) (inc : Bool) (n : Nat) (acts : List (Nat × Act K)) :
    (hexec cfg ⟨inc, true, true⟩ acts (hstart n)).ids.Nodup ∧
      (hexec cfg ⟨inc, true, true⟩ acts (hstart n)).ids.length = (hexec cfg ⟨inc, true, true⟩ acts (hstart n)).s.objs.length :=
  ⟨(Idents.conc_fresh acts Idents.fresh_nil).1,
    (hexec_h h.toCfgOk h.locking h.deleter ⟨rfl, rfl⟩ (hstart_h n) acts).len⟩

-- three objects for one value: made, copied, and made again
example : (hexec sampleCfg ⟨false, true, true⟩ (make 0 0 5 [] ++ (1, .copy 0) :: make 1 0 5 []) (hstart 2)).ids = [2, 1, 0] := by
  decide +kernel

/-- The construction of a value happens before each time it is read. -/
theorem C49_published {cfg : Cfg K} (h : Std cfg) (inc : Bool) (n : Nat) (acts : List (Nat × Act K)) {i j e : Nat}
    (hij : i < j) (hi : Acc (hexec cfg ⟨inc, true, true⟩ acts (hstart n)).tr i (.part e .body, .write))
    (hj : Acc (hexec cfg ⟨inc, true, true⟩ acts (hstart n)).tr j (.part e .body, .read)) :
    Before (hexec cfg ⟨inc, true, true⟩ acts (hstart n)).tr i j :=
  (C49_race_free h inc n acts).order hij hi hj rfl

/-- Each time a value is read happens before its destruction. -/
theorem C49_destroyed_last {cfg : Cfg K} (h : Std cfg) (inc : Bool) (n : Nat) (acts : List (Nat × Act K)) {i j e : Nat}
    (hij : i < j) (hi : Acc (hexec cfg ⟨inc, true, true⟩ acts (hstart n)).tr i (.part e .body, .read))
    (hj : Acc (hexec cfg ⟨inc, true, true⟩ acts (hstart n)).tr j (.part e .body, .write)) :
    Before (hexec cfg ⟨inc, true, true⟩ acts (hstart n)).tr i j :=
  (C49_race_free h inc n acts).order hij hi hj rfl

/-- Thread 0 makes a flyweight and copies it; thread 1 reads one of the objects and destroys it;
thread 0 then destroys the other one, and the entry with it.  (No code of its own: used to state
a property or an example.) -/
def lastUse : List (Nat × Act Nat) :=
  make 0 0 5 [] ++ [(0, .copy 0), (1, .read 1), (1, .destroy [false, true])] ++ runs 1 1 ++
    (0, .destroy [true]) :: runs 5 0

/-- Threads and accesses of the events.  (No code of its own: used to state a property or an
example.) -/
def looks (tr : List Event) : List (Nat × List (Loc × Kind)) := tr.map fun ev => (ev.thr, ev.accs)

-- the entry is constructed by event 2, read by event 8 of the other thread and destroyed by event 15
example : looks (hexec sampleCfg ⟨false, true, true⟩ lastUse (hstart 2)).tr =
    [(0, []), (0, []), (0, (.table 0, .write) :: whole 0), (0, [(.part 0 .body, .read)]), (0, [(.part 0 .ref, .atomic)]),
     (0, [(.part 0 .del, .write)]), (0, []), (0, [(.part 0 .ref, .atomic)]),
     (1, [(.part 0 .body, .read)]), (1, []), (1, [(.part 0 .ref, .atomic)]),
     (0, []), (0, [(.part 0 .ref, .atomic)]), (0, []), (0, [(.part 0 .del, .write)]),
     (0, (.table 0, .write) :: whole 0), (0, [])] := by decide +kernel

example : Before (hexec sampleCfg ⟨false, true, true⟩ lastUse (hstart 2)).tr 2 8 :=
  C49_published sampleStd _ _ _ (e := 0) (by decide) ⟨_, rfl, by decide +kernel⟩ ⟨_, rfl, by decide +kernel⟩

example : Before (hexec sampleCfg ⟨false, true, true⟩ lastUse (hstart 2)).tr 8 15 :=
  C49_destroyed_last sampleStd _ _ _ (e := 0) (by decide) ⟨_, rfl, by decide +kernel⟩ ⟨_, rfl, by decide +kernel⟩

/-- Events of thread 0.  (No code of its own: used to state a property or an example.) -/
def ofThread0 (tr : List Event) (i : Nat) : Bool := match tr[i]? with
  | some ev => ev.thr == 0
  | none => false

/-- Not everything is ordered: the library does not order two threads that read. -/
theorem C49_readers_unordered :
    ¬ Before (hexec sampleCfg ⟨true, true, true⟩ (make 0 0 5 [] ++ [(1, .read 0), (0, .read 0)]) (hstart 2)).tr 7 8 :=
  not_before_of (ofThread0 (hexec sampleCfg ⟨true, true, true⟩ (make 0 0 5 [] ++ [(1, .read 0), (0, .read 0)]) (hstart 2)).tr)
    (by decide +kernel) (by decide +kernel) (by decide +kernel)

/-- Decrements that are not release operations, or not acquire operations, are not enough, even
if increments are: thread 1 reads the value while thread 0 destroys it. -/
theorem C49_decrement_orders_needed (mo : Orders) (h : mo.decAcq = false ∨ mo.decRel = false) :
    ¬ RaceFree (hexec sampleCfg mo lastUse (hstart 2)).tr := by
  intro hr
  have key : Before (hexec sampleCfg mo lastUse (hstart 2)).tr 8 15 := by
    refine hr.order (l := .part 0 .body) (k := .read) (k' := .write) (by decide) ?_ ?_ rfl
    · obtain ⟨_ | _, _ | _, _ | _⟩ := mo <;> exact ⟨_, rfl, by decide +kernel⟩
    · obtain ⟨_ | _, _ | _, _ | _⟩ := mo <;> exact ⟨_, rfl, by decide +kernel⟩
  refine not_before_of (ofThread0 (hexec sampleCfg mo lastUse (hstart 2)).tr) ?_ ?_ ?_ key <;>
    obtain ⟨_ | _, _ | _, _ | _⟩ := mo <;> first
      | decide +kernel
      | (exfalso; revert h; decide)

/-- Two threads insert different keys, without the mutex.  (No code of its own: used to state a
property or an example.) -/
def unlocked (mo : Orders) : List Event :=
  (hexec ⟨fun _ a b => a == b, false, true⟩ mo
    ([(0, .create 0 5 [] true), (1, .create 0 6 [] true)] ++ runs 2 1 ++ runs 2 0) (hstart 2)).tr

/-- Without the mutex (`no_locking`) two threads insert into the same container at the same
time. -/
theorem C49_lock_needed (mo : Orders) : ¬ RaceFree (unlocked mo) := by
  intro hr
  refine not_before_of (i := 3) (j := 5) (ofThread0 (unlocked mo)) ?_ ?_ ?_
    (hr.order (l := .table 0) (k := .write) (k' := .write) (by decide) ?_ ?_ rfl)
  all_goals obtain ⟨_ | _, _ | _, _ | _⟩ := mo <;> first
    | decide +kernel
    | exact ⟨_, rfl, by decide +kernel⟩

end Verif.Props

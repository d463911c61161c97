import Verif.CFacInv

/-!
# `concurrent_factory`: the deadlock of the collector and a creation, for any type and keys
-/

set_option autoImplicit false

namespace Verif.CFac
open Verif.Conc (Fw Cfg CfgOk pick acquire unlock)
variable {K : Type}

theorem exec_append_ok {cfg : Cfg K} {l l' : List (Nat × Act K)} {s s' : St K} (h : exec cfg l s = .ok s') :
    exec cfg (l ++ l') s = exec cfg l' s' := by
  induction l generalizing s with
  | nil => cases h; rfl
  | cons p l ih =>
    obtain ⟨t, a⟩ := p
    simp only [List.cons_append, exec] at h ⊢
    cases hs : step cfg s t a with
    | ok s1 => rw [hs] at h; exact ih h
    | no => rw [hs] at h; exact ih h
    | ub => rw [hs] at h; cases h
    | reentrant => rw [hs] at h; cases h

/-- The program of `lockOrder` for any keys `k` and `l` of any type `c`.  (No code of its own: used to state a property or an example.) -/
def lockOrderOf (c : Nat) (k l : K) : List (Nat × Act K) :=
  ((0, .create c k [] true) :: List.replicate 8 (0, .run)) ++ (((0, .create c l [true] true) :: List.replicate 8 (0, .run)) ++
    (((0, .destroy [true]) :: List.replicate 9 (0, .run)) ++ (((1, .run) :: (1, .gcVisit 1) :: List.replicate 2 (1, .run)) ++
    ((0, .create c l [] true) :: List.replicate 2 (0, .run) ++ [(1, .run)]))))

/-- A flyweight is made ... -/
theorem phaseA {cfg : Cfg K} (hl : cfg.locking = true) (ht : cfg.tracks = true) (c : Nat) (k : K) :
    exec cfg ((0, .create c k [] true) :: List.replicate 8 (0, .run)) (start 1 [c]) =
      .ok ⟨fun i => if i = 0 then some ⟨c, k, true, [], 1, 1⟩ else none, 1, fun _ => none, fun _ => none, [[], [.gcIdle c]], [⟨0, c, k⟩]⟩ := by
  obtain ⟨eqv, locking, deleter⟩ := cfg
  obtain rfl : locking = true := hl
  obtain rfl : deleter = true := ht
  simp [List.replicate, exec, step, start, act, lib, inUser, pick, acquire, unlock, find, setEnt]
  refine ⟨?_, ?_, ?_⟩ <;> funext i <;> (try simp only [setEnt, setVis]) <;> (repeat' split) <;>
    first | rfl | (exfalso; omega) | simp_all

/-- ... and one whose value contains it ... -/
theorem phaseB {cfg : Cfg K} (hl : cfg.locking = true) (ht : cfg.tracks = true) (c : Nat) (k l : K) (hk : cfg.eqv c k l = false) :
    exec cfg ((0, .create c l [true] true) :: List.replicate 8 (0, .run))
      ⟨fun i => if i = 0 then some ⟨c, k, true, [], 1, 1⟩ else none, 1, fun _ => none, fun _ => none, [[], [.gcIdle c]], [⟨0, c, k⟩]⟩ =
      .ok ⟨fun i => if i = 0 then some ⟨c, k, true, [], 1, 1⟩ else if i = 1 then some ⟨c, l, true, [⟨0, c, k⟩], 1, 1⟩ else none, 2,
        fun _ => none, fun _ => none, [[], [.gcIdle c]], [⟨1, c, l⟩]⟩ := by
  obtain ⟨eqv, locking, deleter⟩ := cfg
  obtain rfl : locking = true := hl
  obtain rfl : deleter = true := ht
  have hk' : eqv c k l = false := hk
  simp [List.replicate, exec, step, act, lib, inUser, pick, acquire, unlock, find, setEnt, hk', List.range_succ]
  refine ⟨?_, ?_, ?_⟩ <;> funext i <;> (try simp only [setEnt, setVis]) <;> (repeat' split) <;>
    first | rfl | (exfalso; omega) | simp_all

/-- ... which is destroyed; ... -/
theorem phaseC {cfg : Cfg K} (hl : cfg.locking = true) (ht : cfg.tracks = true) (c : Nat) (k l : K) :
    exec cfg ((0, .destroy [true]) :: List.replicate 9 (0, .run))
      ⟨fun i => if i = 0 then some ⟨c, k, true, [], 1, 1⟩ else if i = 1 then some ⟨c, l, true, [⟨0, c, k⟩], 1, 1⟩ else none, 2,
        fun _ => none, fun _ => none, [[], [.gcIdle c]], [⟨1, c, l⟩]⟩ =
      .ok ⟨fun i => if i = 0 then some ⟨c, k, true, [], 1, 1⟩ else if i = 1 then some ⟨c, l, true, [⟨0, c, k⟩], 0, 0⟩ else none, 2,
        fun _ => none, fun _ => none, [[], [.gcIdle c]], []⟩ := by
  obtain ⟨eqv, locking, deleter⟩ := cfg
  obtain rfl : locking = true := hl
  obtain rfl : deleter = true := ht
  simp [List.replicate, exec, step, act, lib, inUser, pick, acquire, unlock, setEnt]
  refine ⟨?_, ?_⟩ <;> funext i <;> (try simp only [setEnt]) <;> (repeat' split) <;>
    first | rfl | (exfalso; omega) | simp_all

/-- ... the collector begins to destroy the value ... -/
theorem phaseD {cfg : Cfg K} (hl : cfg.locking = true) (ht : cfg.tracks = true) (c : Nat) (k l : K) :
    exec cfg ((1, .run) :: (1, .gcVisit 1) :: List.replicate 2 (1, .run))
      ⟨fun i => if i = 0 then some ⟨c, k, true, [], 1, 1⟩ else if i = 1 then some ⟨c, l, true, [⟨0, c, k⟩], 0, 0⟩ else none, 2,
        fun _ => none, fun _ => none, [[], [.gcIdle c]], []⟩ =
      .ok ⟨fun i => if i = 0 then some ⟨c, k, true, [], 1, 1⟩ else if i = 1 then some ⟨c, l, false, [], 0, 0⟩ else none, 2,
        fun i => if i = 1 then some 1 else none, fun _ => none, [[], [.rel ⟨0, c, k⟩, .gcUnlink c 1, .gcPass c 2 [0]]], []⟩ := by
  obtain ⟨eqv, locking, deleter⟩ := cfg
  obtain rfl : locking = true := hl
  obtain rfl : deleter = true := ht
  simp [List.replicate, exec, step, act, lib, elems, List.range_succ,]
  refine ⟨?_, ?_⟩ <;> funext i <;> (try simp only [setEnt, setVis]) <;> (repeat' split) <;>
    first | rfl | (exfalso; omega) | simp_all

/-- ... while the flyweight is made again. -/
theorem phaseE {cfg : Cfg K} (hl : cfg.locking = true) (ht : cfg.tracks = true) (c : Nat) (k l : K) :
    exec cfg ((0, .create c l [] true) :: List.replicate 2 (0, .run) ++ [(1, .run)])
      ⟨fun i => if i = 0 then some ⟨c, k, true, [], 1, 1⟩ else if i = 1 then some ⟨c, l, false, [], 0, 0⟩ else none, 2,
        fun i => if i = 1 then some 1 else none, fun _ => none, [[], [.rel ⟨0, c, k⟩, .gcUnlink c 1, .gcPass c 2 [0]]], []⟩ =
      .ok ⟨fun i => if i = 0 then some ⟨c, k, true, [], 1, 0⟩ else if i = 1 then some ⟨c, l, false, [], 0, 0⟩ else none, 2,
        fun i => if i = 1 then some 1 else none, fun i => if i = c then some (0, 1) else none,
        [[.insFind c l [] true], [.relLock ⟨0, c, k⟩, .gcUnlink c 1, .gcPass c 2 [0]]], []⟩ := by
  obtain ⟨eqv, locking, deleter⟩ := cfg
  obtain rfl : locking = true := hl
  obtain rfl : deleter = true := ht
  simp [List.replicate, exec, step, act, lib, inUser, pick, acquire]
  funext i <;> (try simp only [setEnt]) <;> (repeat' split) <;>
    first | rfl | (exfalso; omega) | simp_all

end Verif.CFac

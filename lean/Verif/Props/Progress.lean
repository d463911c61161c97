import Verif.PlainWork
import Verif.CFacWork
import Verif.Props.Plain
import Verif.Props.ConcFactory

/-!
# Calls return (C58)

How many steps the library takes, and that every call of the library comes to its end if threads get their turns.  For the
concurrent core (`Verif.Conc`: `simple_locking`, `refcounted`), without tracking (`Verif.Plain`) and for `concurrent_factory`
(`Verif.CFac`).
-/

set_option autoImplicit false

namespace Verif.Props
open Verif.Conc (Fw Cfg CfgOk pick NoCycles refused)
variable {K : Type}

/-! ## With `refcounted` -/

section
open Verif.Conc

/-- **C58.**  Whatever the threads do, all steps of the library together (including those within value constructors
that return or throw) are no more than thirteen for each flyweight made and one for each copy of a flyweight: the cost of
everything that happens later, in particular of destroying flyweights, also those inside values, is included. -/
theorem C58_work {cfg : Cfg K} (h : Std cfg) (n : Nat) (acts : List (Nat × Act K)) :
    work cfg acts (start n) ≤ (acts.map fun p => match p.2 with
      | .create .. => 13
      | .copy _ => 1
      | .copyKid .. => 1
      | _ => 0).sum := by
  have h1 := work_le h.toCfgOk h.locking h.deleter (start_inv n) acts
  have h2 : potential (start n : St K) = 0 := by
    simp [potential, start, frames, nsum, tot]
  rw [h2, Nat.zero_add] at h1
  refine Nat.le_trans h1 (Nat.le_of_eq ?_)
  congr 1

/-- This cannot be improved: a flyweight is made and its value constructed, it is copied, and both are destroyed. -/
example : work sampleCfg ((0, .create 0 5 [] false) :: runs 3 0 ++ (0, .finish [] false) :: runs 4 0 ++ (0, .copy 0) ::
    (0, .destroy [true, true]) :: runs 9 0) (start 1) = 14 := by decide

/-- Threads go on for ever without beginning calls: calls in progress and value constructors called by the library proceed
(or have to wait), and each thread gets its turns again and again.  (No code of its own: used to state a property.) -/
structure Onward (cfg : Cfg K) (uses : Nat → Nat → Prop) (f : Nat → St K) (acts : Nat → Nat × Act K) : Prop where
  only : ∀ n, (acts n).2 = .run ∨ (∃ mask drop, (acts n).2 = .finish mask drop) ∨ (acts n).2 = .throw_
  next : ∀ n, step cfg (f n) (acts n).1 (acts n).2 = .ok (f (n + 1)) ∨
    (step cfg (f n) (acts n).1 (acts n).2 = .no ∧ f (n + 1) = f n)
  disc : ∀ n st, (f n).thr[(acts n).1]? = some st → Disc uses (f n) st (acts n).2
  turns : ∀ t, t < (f 0).thr.length → ∀ n, (∃ m, n ≤ m ∧ acts m = (t, .run)) ∧
    ∃ m, n ≤ m ∧ ∃ mask drop, acts m = (t, .finish mask drop)

theorem Onward.reach {cfg : Cfg K} {uses : Nat → Nat → Prop} {f : Nat → St K} {acts : Nat → Nat × Act K}
    (h : Onward cfg uses f acts) {n : Nat} (h0 : Reachable cfg uses n (f 0)) (m : Nat) : Reachable cfg uses n (f m) := by
  induction m with
  | zero => exact h0
  | succ m ih =>
    rcases h.next m with hs | ⟨_, hs⟩
    · cases ht : (f m).thr[(acts m).1]? with
      | none => simp only [step, ht] at hs; cases hs
      | some st => exact .step ih ht (h.disc m st ht) hs
    · rw [hs]; exact ih

/-- Under the assumption of C38 on the types, all calls return: there comes a time when no thread is in the library. -/
theorem C58_returns {cfg : Cfg K} (h : Std cfg) {uses : Nat → Nat → Prop} (hu : NoCycles uses) {n : Nat} {f : Nat → St K}
    {acts : Nat → Nat × Act K} (h0 : Reachable cfg uses n (f 0)) (ho : Onward cfg uses f acts) :
    ∃ m, ∀ st ∈ (f m).thr, st = [] := by
  have hp : ∀ m, proceeds (acts m).2 = true := by
    intro m
    rcases ho.only m with h1 | ⟨_, _, h1⟩ | h1 <;> rw [h1] <;> rfl
  have hinv : ∀ m, Inv cfg (f m) ∧ RankInv uses (f m) := fun m => (ho.reach h0 m).inv h.toCfgOk h.locking h.deleter
  obtain ⟨m, hno⟩ := refused (f := f) (acts := acts) potential (fun s p => step cfg s p.1 p.2 = .no) fun m => by
    rcases ho.next m with hs | hs
    · left
      have h1 := step_potential (hinv m).1 hs
      have h2 : cost (acts m).2 = 0 := by rcases ho.only m with h3 | ⟨_, _, h3⟩ | h3 <;> rw [h3] <;> rfl
      rw [hp m, h2] at h1
      simp only [if_true] at h1
      omega
    · exact .inr hs
  have hlen : ∀ k, (f k).thr.length = (f 0).thr.length := by
    intro k
    induction k with
    | zero => rfl
    | succ k ih =>
      rcases ho.next k with hs | ⟨_, hs⟩
      · rw [step_length hs, ih]
      · rw [hs, ih]
  refine ⟨m, stuck_out h.locking hu (hinv m).1 (hinv m).2 (fun t ht => ?_) fun t ht => ?_⟩
  · rw [hlen] at ht
    obtain ⟨k, h1, h2⟩ := (ho.turns t ht m).1
    have := hno k h1
    rwa [h2] at this
  · rw [hlen] at ht
    obtain ⟨k, h1, mask, drop, h2⟩ := (ho.turns t ht m).2
    have := hno k h1
    rw [h2] at this
    exact ⟨mask, drop, this⟩

/-- Threads take turns from state `s`; actions that are not possible are skipped.  (No code of its own: used in an example.) -/
def taking (cfg : Cfg K) (s : St K) (acts : Nat → Nat × Act K) : Nat → St K
  | 0 => s
  | n + 1 => match step cfg (taking cfg s acts n) (acts n).1 (acts n).2 with
    | .ok s' => s'
    | _ => taking cfg s acts n

/-- Two threads have begun to make a flyweight from the same key.  (No code of its own: used in an example.) -/
def begun : St Nat := { (start 2 : St Nat) with thr := [[.insLock 0 5 [] false], [.insLock 0 5 [] false]] }

/-- Turns of two threads.  (No code of its own: used in an example.) -/
def turns2 (n : Nat) : Nat × Act Nat := (n / 2 % 2, if n % 2 = 0 then .run else .finish [] false)

theorem begun_onward : Reachable sampleCfg (fun _ _ => False) 2 begun ∧
    Onward sampleCfg (fun _ _ => False) (taking sampleCfg begun turns2) turns2 := by
  have h1 : ∀ n, n < 60 → (match step sampleCfg (taking sampleCfg begun turns2 n) (turns2 n).1 (turns2 n).2 with
      | .ok _ => true
      | .no => true
      | _ => false) = true := by decide
  have h2 : ((taking sampleCfg begun turns2 60).thr.all List.isEmpty) = true := by decide
  have h3 : ∀ (s : St Nat) n, (s.thr.all List.isEmpty) = true → step sampleCfg s (turns2 n).1 (turns2 n).2 = .no := by
    intro s n hs
    unfold step
    cases ht : s.thr[(turns2 n).1]? with
    | none => rfl
    | some st =>
      have : st = [] := by simpa using List.all_eq_true.1 hs st (List.mem_of_getElem? ht)
      subst this
      simp only [turns2]
      split <;> rfl
  have h4 : ∀ n, ((taking sampleCfg begun turns2 (60 + n)).thr.all List.isEmpty) = true := by
    intro n
    induction n with
    | zero => exact h2
    | succ n ih =>
      rw [← Nat.add_assoc, taking, h3 _ _ ih]
      exact ih
  refine ⟨?_, fun n => ?_, fun n => ?_, fun n st ht => ?_, fun t ht n => ?_⟩
  · exact .step (t := 1) (a := .create 0 5 [] false) (.step (t := 0) (a := .create 0 5 [] false) .start rfl
      ⟨fun w h => (nomatch h), fun c' k' e rest h => (nomatch h)⟩ rfl) rfl
      ⟨fun w h => (nomatch h), fun c' k' e rest h => (nomatch h)⟩ rfl
  · simp only [turns2]
    split
    · exact .inl rfl
    · exact .inr (.inl ⟨_, _, rfl⟩)
  · rw [taking]
    by_cases hn : n < 60
    · have := h1 n hn
      cases hs : step sampleCfg (taking sampleCfg begun turns2 n) (turns2 n).1 (turns2 n).2 with
      | ok s' => exact .inl rfl
      | no => exact .inr ⟨rfl, rfl⟩
      | _ => rw [hs] at this; cases this
    · have h5 := h4 (n - 60)
      rw [Nat.add_sub_cancel' (by omega)] at h5
      rw [h3 _ _ h5]
      exact .inr ⟨rfl, rfl⟩
  · simp only [turns2]
    split
    · trivial
    · intro c' k' e rest _ w hw
      have : ∀ l : List (Fw Nat), (pick [] l).1 = [] := fun l => by cases l <;> rfl
      rw [this] at hw
      cases hw
  · have ht : t < 2 := ht
    refine ⟨⟨4 * n + 2 * t, by omega, ?_⟩, ⟨4 * n + 2 * t + 1, by omega, [], false, ?_⟩⟩
    · simp only [turns2]
      rw [show (4 * n + 2 * t) / 2 % 2 = t by omega, if_pos (by omega)]
    · simp only [turns2]
      rw [show (4 * n + 2 * t + 1) / 2 % 2 = t by omega, if_neg (by omega)]

example : ∃ m, ∀ st ∈ (taking sampleCfg begun turns2 m).thr, st = [] :=
  C58_returns sampleStd (uses := fun _ _ => False) ⟨fun a => ⟨a, fun _ h => h.1.elim⟩⟩ begun_onward.1 begun_onward.2

end

/-! ## Without tracking -/

section
open Verif.Plain
open Verif.Conc (Act)

/-- Without tracking, no more than six for each flyweight made; nothing else costs anything, with any configuration. -/
theorem C58_plain_work (cfg : Cfg K) (n : Nat) (acts : List (Nat × Act K)) :
    work cfg acts (start n) ≤ (acts.map fun p => match p.2 with
      | .create .. => 6
      | _ => 0).sum := by
  have h1 := work_le (cfg := cfg) (start n : St K) acts
  have h2 : potential (start n : St K) = 0 := by
    simp [potential, start, Conc.tot]
  rw [h2, Nat.zero_add] at h1
  refine Nat.le_trans h1 (Nat.le_of_eq ?_)
  congr 1

/-- This cannot be improved. -/
example : work sampleCfg ((0, .create 0 5 [] false) :: runs 3 0 ++ (0, .finish [] false) :: runs 4 0 ++ (0, .copy 0) ::
    (0, .destroy [true, true]) :: runs 9 0) (start 1) = 6 := by decide

/-- As `Onward`, without tracking.  (No code of its own: used to state a property.) -/
structure OnwardPlain (cfg : Cfg K) (f : Nat → St K) (acts : Nat → Nat × Act K) : Prop where
  only : ∀ n, (acts n).2 = .run ∨ (∃ mask drop, (acts n).2 = .finish mask drop) ∨ (acts n).2 = .throw_
  next : ∀ n, step cfg (f n) (acts n).1 (acts n).2 = .ok (f (n + 1)) ∨
    (step cfg (f n) (acts n).1 (acts n).2 = .no ∧ f (n + 1) = f n)
  turns : ∀ t, t < (f 0).thr.length → ∀ n, (∃ m, n ≤ m ∧ acts m = (t, .run)) ∧
    ∃ m, n ≤ m ∧ ∃ mask drop, acts m = (t, .finish mask drop)

/-- Under the assumption of C56 on the types, all calls return. -/
theorem C58_plain_returns {cfg : Cfg K} (h : CfgOk cfg) (hl : cfg.locking = true) {uses : Nat → Nat → Prop} (hu : NoCycles uses)
    {n : Nat} {f : Nat → St K} {acts : Nat → Nat × Act K} (h0 : Reachable cfg uses n (f 0)) (ho : OnwardPlain cfg f acts) :
    ∃ m, ∀ st ∈ (f m).thr, st = [] := by
  have hreach : ∀ m, Reachable cfg uses n (f m) := by
    intro m
    induction m with
    | zero => exact h0
    | succ m ih =>
      rcases ho.next m with hs | ⟨_, hs⟩
      · cases ht : (f m).thr[(acts m).1]? with
        | none => simp only [step, ht] at hs; cases hs
        | some st =>
          refine .step ih ht ?_ hs
          rcases ho.only m with h1 | ⟨_, _, h1⟩ | h1 <;> rw [h1] <;> trivial
      · rw [hs]; exact ih
  have hinv : ∀ m, Inv cfg (f m) ∧ Order uses (f m).thr := fun m => (hreach m).inv h hl
  obtain ⟨m, hno⟩ := refused (f := f) (acts := acts) potential (fun s p => step cfg s p.1 p.2 = .no) fun m => by
    rcases ho.next m with hs | hs
    · left
      have h1 := step_potential hs
      have h2 : Conc.proceeds (acts m).2 = true ∧ cost (acts m).2 = 0 := by
        rcases ho.only m with h3 | ⟨_, _, h3⟩ | h3 <;> rw [h3] <;> exact ⟨rfl, rfl⟩
      rw [h2.1, h2.2] at h1
      simp only [if_true] at h1
      omega
    · exact .inr hs
  have hlen : ∀ k, (f k).thr.length = (f 0).thr.length := by
    intro k
    induction k with
    | zero => rfl
    | succ k ih =>
      rcases ho.next k with hs | ⟨_, hs⟩
      · rw [step_length hs, ih]
      · rw [hs, ih]
  refine ⟨m, stuck_out hl hu (hinv m).1 (hinv m).2 (fun t ht => ?_) fun t ht => ?_⟩
  · rw [hlen] at ht
    obtain ⟨k, h1, h2⟩ := (ho.turns t ht m).1
    have := hno k h1
    rwa [h2] at this
  · rw [hlen] at ht
    obtain ⟨k, h1, mask, drop, h2⟩ := (ho.turns t ht m).2
    have := hno k h1
    rw [h2] at this
    exact ⟨mask, drop, this⟩

/-- Whatever is possible of `acts` happens.  (No code of its own: used in an example.) -/
def takingP (cfg : Cfg K) (s : St K) (acts : Nat → Nat × Act K) : Nat → St K
  | 0 => s
  | n + 1 => match step cfg (takingP cfg s acts n) (acts n).1 (acts n).2 with
    | .ok s' => s'
    | _ => takingP cfg s acts n

/-- Two threads have begun to make a flyweight from the same key, and a third one from another key.  (No code of its own: used
in an example.) -/
def begunP : St Nat := { (start 3 : St Nat) with thr := [[.lock 0 5 [] false], [.lock 0 5 [] false], [.lock 0 6 [] false]] }

/-- Turns of three threads.  (No code of its own: used in an example.) -/
def turns3 (n : Nat) : Nat × Act Nat := (n / 2 % 3, if n % 2 = 0 then .run else .finish [] false)

theorem begunP_onward : Reachable sampleCfg (fun _ _ => False) 3 begunP ∧ OnwardPlain sampleCfg (takingP sampleCfg begunP turns3) turns3 := by
  have h1 : ∀ n, n < 120 → (match step sampleCfg (takingP sampleCfg begunP turns3 n) (turns3 n).1 (turns3 n).2 with
      | .ok _ => true
      | .no => true
      | _ => false) = true := by decide
  have h2 : ((takingP sampleCfg begunP turns3 120).thr.all List.isEmpty) = true := by decide
  have h3 : ∀ (s : St Nat) n, (s.thr.all List.isEmpty) = true → step sampleCfg s (turns3 n).1 (turns3 n).2 = .no := by
    intro s n hs
    unfold step
    cases ht : s.thr[(turns3 n).1]? with
    | none => rfl
    | some st =>
      have : st = [] := by simpa using List.all_eq_true.1 hs st (List.mem_of_getElem? ht)
      subst this
      simp only [turns3]
      split <;> rfl
  have h4 : ∀ n, ((takingP sampleCfg begunP turns3 (120 + n)).thr.all List.isEmpty) = true := by
    intro n
    induction n with
    | zero => exact h2
    | succ n ih =>
      rw [← Nat.add_assoc, takingP, h3 _ _ ih]
      exact ih
  refine ⟨?_, fun n => ?_, fun n => ?_, fun t ht n => ?_⟩
  · refine .step (t := 2) (a := .create 0 6 [] false) (.step (t := 1) (a := .create 0 5 [] false)
      (.step (t := 0) (a := .create 0 5 [] false) .start rfl ?_ rfl) rfl ?_ rfl) rfl ?_ rfl <;>
      exact fun c' k' e rest h => (nomatch h)
  · simp only [turns3]
    split
    · exact .inl rfl
    · exact .inr (.inl ⟨_, _, rfl⟩)
  · rw [takingP]
    by_cases hn : n < 120
    · have := h1 n hn
      cases hs : step sampleCfg (takingP sampleCfg begunP turns3 n) (turns3 n).1 (turns3 n).2 with
      | ok s' => exact .inl rfl
      | no => exact .inr ⟨rfl, rfl⟩
      | _ => rw [hs] at this; cases this
    · have h5 := h4 (n - 120)
      rw [Nat.add_sub_cancel' (by omega)] at h5
      rw [h3 _ _ h5]
      exact .inr ⟨rfl, rfl⟩
  · have ht : t < 3 := ht
    refine ⟨⟨6 * n + 2 * t, by omega, ?_⟩, ⟨6 * n + 2 * t + 1, by omega, [], false, ?_⟩⟩
    · simp only [turns3]
      rw [show (6 * n + 2 * t) / 2 % 3 = t by omega, if_pos (by omega)]
    · simp only [turns3]
      rw [show (6 * n + 2 * t + 1) / 2 % 3 = t by omega, if_neg (by omega)]

example : ∃ m, ∀ st ∈ (takingP sampleCfg begunP turns3 m).thr, st = [] :=
  C58_plain_returns sampleStd.toCfgOk rfl (uses := fun _ _ => False) ⟨fun a => ⟨a, fun _ h => h.1.elim⟩⟩ begunP_onward.1
    begunP_onward.2

end

/-! ## With `concurrent_factory` -/

section
open Verif.CFac

/-- With `concurrent_factory`, no more than fifteen for each flyweight made, two for each copy, three for each element that a
collector visits, and one for each of its passes; counted are the actions that take place. -/
theorem C58_factory_work {cfg : Cfg K} (h : CfgOk cfg) (n : Nat) (gcs : List Nat) (acts : List (Nat × Act K)) :
    total cfg (fun st a => match a, st with
        | .run, .gcIdle _ :: _ => 0
        | .run, _ => 1
        | .finish .., _ => 1
        | .throw_, _ => 1
        | _, _ => 0) acts (start n gcs) ≤
      total cfg (fun st a => match a, st with
        | .create .., _ => 15
        | .copy _, _ => 2
        | .copyKid .., _ => 2
        | .gcVisit _, _ => 3
        | .run, .gcIdle _ :: _ => 1
        | _, _ => 0) acts (start n gcs) := by
  have h1 := total_le h (start_inv n gcs) (fun _ => start_tracked n gcs) acts
  have h2 : potential (start n gcs : St K) = 0 := by
    have h3 : Conc.tot CFac.left (frames (start n gcs : St K)) = 0 := Conc.tot_eq_zero fun f hf => by
      obtain ⟨st, hst, hf⟩ := List.mem_flatten.1 hf
      obtain ⟨t, ht⟩ := List.mem_iff_getElem?.1 hst
      rcases start_thr ht with rfl | ⟨c, _, rfl⟩
      · cases hf
      · rw [List.mem_singleton.1 hf]; rfl
    unfold potential
    rw [h3]
    simp [start, Conc.nsum]
  rw [h2, Nat.zero_add] at h1
  refine Nat.le_trans (Nat.le_of_eq ?_) (Nat.le_trans h1 (Nat.le_of_eq ?_))
  · congr 1
    funext st a
    cases a <;> cases st <;> try rfl
    rename_i f rest
    cases f <;> rfl
  · congr 1
    funext st a
    cases a <;> cases st <;> try rfl
    rename_i f rest
    cases f <;> rfl

/-- This cannot be improved: a flyweight is made and copied, both are destroyed, the collector removes the entry and begins four
more passes; 15 + 2 + 3 + 5. -/
example : total CF.tracked (fun st a => if proceeds st a then 1 else 0) ((0, .create 0 5 [] false) :: CF.runs 8 0 ++
    (0, .finish [] false) :: CF.runs 8 0 ++ (0, .copy 0) :: (0, .destroy [true, true]) :: CF.runs 20 0 ++ CF.pass 2 [0] ++
    CF.pass 2 []) (start 2 [0]) = 25 ∧
    total CF.tracked (fun st a => match a, st with
      | .run, .gcIdle _ :: _ => 1
      | _, _ => 0) ((0, .create 0 5 [] false) :: CF.runs 8 0 ++
    (0, .finish [] false) :: CF.runs 8 0 ++ (0, .copy 0) :: (0, .destroy [true, true]) :: CF.runs 20 0 ++ CF.pass 2 [0] ++
    CF.pass 2 []) (start 2 [0]) = 5 := by decide

/-- As `Onward`, with `concurrent_factory`: collectors neither wake up nor begin to visit elements.  (No code of its own: used to
state a property.) -/
structure OnwardFactory (cfg : Cfg K) (calls has : Nat → Nat → Prop) (f : Nat → St K) (acts : Nat → Nat × Act K) : Prop where
  only : ∀ n, (acts n).2 = .run ∨ (∃ mask drop, (acts n).2 = .finish mask drop) ∨ (acts n).2 = .throw_
  next : ∀ n, (step cfg (f n) (acts n).1 (acts n).2 = .ok (f (n + 1)) ∧ ∀ c, (f n).thr[(acts n).1]? ≠ some [.gcIdle c]) ∨
    ((step cfg (f n) (acts n).1 (acts n).2 = .no ∨ ∃ c, (f n).thr[(acts n).1]? = some [.gcIdle c]) ∧ f (n + 1) = f n)
  disc : ∀ n st, (f n).thr[(acts n).1]? = some st → Disc calls has (f n) st (acts n).2
  turns : ∀ t, t < (f 0).thr.length → ∀ n, (∃ m, n ≤ m ∧ acts m = (t, .run)) ∧
    ∃ m, n ≤ m ∧ ∃ mask drop, acts m = (t, .finish mask drop)

/-- Under the assumption of C40 on the types, all calls return, and collectors finish with the elements that they have begun
to visit. -/
theorem C58_factory_returns {cfg : Cfg K} (h : CfgOk cfg) {calls has : Nat → Nat → Prop}
    (hwf : WellFounded fun a b => Order cfg calls has b a) {n : Nat} {gcs : List Nat} {f : Nat → St K} {acts : Nat → Nat × Act K}
    (h0 : Reachable cfg calls has n gcs (f 0)) (ho : OnwardFactory cfg calls has f acts) :
    ∃ m, ∀ st ∈ (f m).thr, st = [] ∨ (∃ c, st = [.gcIdle c]) ∨ ∃ c k todo, st = [.gcPass c k todo] := by
  have hreach : ∀ m, Reachable cfg calls has n gcs (f m) := by
    intro m
    induction m with
    | zero => exact h0
    | succ m ih =>
      rcases ho.next m with ⟨hs, _⟩ | ⟨_, hs⟩
      · obtain ⟨st, ht⟩ := step_stack hs
        exact .step ih ht (ho.disc m st ht) hs
      · rw [hs]; exact ih
  have hinv := fun m => (hreach m).inv h
  obtain ⟨m, hno⟩ := refused (f := f) (acts := acts) potential
      (fun s p => step cfg s p.1 p.2 = .no ∨ ∃ c, s.thr[p.1]? = some [.gcIdle c]) fun m => by
    rcases ho.next m with ⟨hs, hc⟩ | hs
    · left
      obtain ⟨st, ht⟩ := step_stack hs
      have h1 := step_potential (hinv m).1 (fun hl => (hreach m).tracked h hl) ht hs
      have h2 : proceeds st (acts m).2 = true ∧ cost st (acts m).2 = 0 := by
        rcases ho.only m with h3 | ⟨_, _, h3⟩ | h3
        · rw [h3]
          cases st with
          | nil => exact ⟨rfl, rfl⟩
          | cons g rest =>
            cases g with
            | gcIdle c =>
              have h4 : rest = [] := (hreach m).rooted _ (List.mem_of_getElem? ht)
              exact absurd (h4 ▸ ht) (hc c)
            | _ => exact ⟨rfl, rfl⟩
        · rw [h3]; exact ⟨rfl, rfl⟩
        · rw [h3]; exact ⟨rfl, rfl⟩
      rw [h2.1, h2.2] at h1
      simp only [if_true] at h1
      omega
    · exact .inr hs
  have hlen : ∀ k, (f k).thr.length = (f 0).thr.length := by
    intro k
    induction k with
    | zero => rfl
    | succ k ih =>
      rcases ho.next k with ⟨hs, _⟩ | ⟨_, hs⟩
      · rw [step_length hs, ih]
      · rw [hs, ih]
  refine ⟨m, stuck_rests hwf (hinv m).1 (hinv m).2.1 (hreach m).noChk (hinv m).2.2 (hreach m).rooted (fun t st ht => ?_) fun t ht => ?_⟩
  · have hlt : t < (f m).thr.length := by
      by_cases h : t < (f m).thr.length
      · exact h
      · rw [List.getElem?_eq_none (by omega)] at ht; cases ht
    rw [hlen] at hlt
    obtain ⟨k, h1, h2⟩ := (ho.turns t hlt m).1
    have := hno k h1
    rw [h2] at this
    rcases this with h3 | ⟨c, h3⟩
    · exact .inr h3
    · rw [ht] at h3
      cases h3
      exact .inl (.inr (.inl ⟨c, rfl⟩))
  · rw [hlen] at ht
    obtain ⟨k, h1, mask, drop, h2⟩ := (ho.turns t ht m).2
    have := hno k h1
    rw [h2] at this
    refine ⟨mask, drop, ?_⟩
    rcases this with h3 | ⟨c, h3⟩
    · exact h3
    · simp only at h3
      simp only [step, h3, act]

/-- Whatever is possible of `acts` happens, except that collectors do not wake up.  (No code of its own: used in an example.) -/
def takingF (cfg : Cfg K) (s : St K) (acts : Nat → Nat × Act K) : Nat → St K
  | 0 => s
  | n + 1 => match (takingF cfg s acts n).thr[(acts n).1]?, step cfg (takingF cfg s acts n) (acts n).1 (acts n).2 with
    | some [.gcIdle _], _ => takingF cfg s acts n
    | _, .ok s' => s'
    | _, _ => takingF cfg s acts n

/-- Two threads have begun to make a flyweight from the same key; a collector waits.  (No code of its own: used in an
example.) -/
def begunF : St Nat := { (start 2 [0] : St Nat) with thr := [[.insLock 0 5 [] false], [.insLock 0 5 [] false], [.gcIdle 0]] }

/-- Turns of three threads.  (No code of its own: used in an example.) -/
def turnsF (n : Nat) : Nat × Act Nat := (n / 2 % 3, if n % 2 = 0 then .run else .finish [] false)

/-- All threads are outside of the library, or collectors that wait.  (No code of its own: used in an example.) -/
def calm (s : St Nat) : Bool := s.thr.all fun st => match st with
  | [] => true
  | [.gcIdle _] => true
  | _ => false

theorem begunF_onward : Reachable CF.tracked (fun _ _ => False) (fun _ _ => False) 2 [0] begunF ∧
    OnwardFactory CF.tracked (fun _ _ => False) (fun _ _ => False) (takingF CF.tracked begunF turnsF) turnsF := by
  have h1 : ∀ n, n < 96 → (match step CF.tracked (takingF CF.tracked begunF turnsF n) (turnsF n).1 (turnsF n).2 with
      | .ok _ => true
      | .no => true
      | _ => false) = true := by decide
  have h2 : calm (takingF CF.tracked begunF turnsF 96) = true := by decide
  have h3 : ∀ (s : St Nat) n, calm s = true → (∃ c, s.thr[(turnsF n).1]? = some [.gcIdle c]) ∨
      step CF.tracked s (turnsF n).1 (turnsF n).2 = .no := by
    intro s n hs
    unfold step
    cases ht : s.thr[(turnsF n).1]? with
    | none => exact .inr rfl
    | some st =>
      have := List.all_eq_true.1 hs st (List.mem_of_getElem? ht)
      split at this
      · right
        simp only [turnsF]
        split <;> rfl
      · exact .inl ⟨_, rfl⟩
      · cases this
  have h6 : ∀ n, calm (takingF CF.tracked begunF turnsF n) = true →
      takingF CF.tracked begunF turnsF (n + 1) = takingF CF.tracked begunF turnsF n := by
    intro n hn
    rw [takingF]
    rcases h3 _ n hn with ⟨c, h⟩ | h
    · rw [h]
    · rw [h]; split <;> simp_all
  have h4 : ∀ n, calm (takingF CF.tracked begunF turnsF (96 + n)) = true := by
    intro n
    induction n with
    | zero => exact h2
    | succ n ih =>
      rw [← Nat.add_assoc, h6 _ ih]
      exact ih
  refine ⟨?_, fun n => ?_, fun n => ?_, fun n st ht => ?_, fun t ht n => ?_⟩
  · exact .step (t := 1) (a := .create 0 5 [] false) (.step (t := 0) (a := .create 0 5 [] false) .start rfl
      ⟨fun w h => (nomatch h), fun c' k' e loc rest h => (nomatch h)⟩ rfl) rfl
      ⟨fun w h => (nomatch h), fun c' k' e loc rest h => (nomatch h)⟩ rfl
  · simp only [turnsF]
    split
    · exact .inl rfl
    · exact .inr (.inl ⟨_, _, rfl⟩)
  · by_cases hn : n < 96
    · have := h1 n hn
      rw [takingF]
      split
      · exact .inr ⟨.inr ⟨_, by assumption⟩, rfl⟩
      · rename_i h7 h8 h9
        refine .inl ⟨by assumption, fun c hc => ?_⟩
        simp_all
      · rename_i h7 h8
        refine .inr ⟨.inl ?_, rfl⟩
        cases hs : step CF.tracked (takingF CF.tracked begunF turnsF n) (turnsF n).1 (turnsF n).2 with
        | ok s' => exact absurd hs (h8 s')
        | no => rfl
        | _ => rw [hs] at this; cases this
    · have h5 := h4 (n - 96)
      rw [Nat.add_sub_cancel' (by omega)] at h5
      exact .inr ⟨(h3 _ n h5).symm, h6 n h5⟩
  · simp only [turnsF]
    split
    · trivial
    · intro c' k' e loc rest _ w hw
      have : ∀ l : List (Fw Nat), (pick [] l).1 = [] := fun l => by cases l <;> rfl
      rw [this] at hw
      cases hw
  · have ht : t < 3 := ht
    refine ⟨⟨6 * n + 2 * t, by omega, ?_⟩, ⟨6 * n + 2 * t + 1, by omega, [], false, ?_⟩⟩
    · simp only [turnsF]
      rw [show (6 * n + 2 * t) / 2 % 3 = t by omega, if_pos (by omega)]
    · simp only [turnsF]
      rw [show (6 * n + 2 * t + 1) / 2 % 3 = t by omega, if_neg (by omega)]

example : ∃ m, ∀ st ∈ (takingF CF.tracked begunF turnsF m).thr,
    st = [] ∨ (∃ c, st = [.gcIdle c]) ∨ ∃ c k todo, st = [.gcPass c k todo] :=
  C58_factory_returns CF.trackedOk (calls := fun _ _ => False) (has := fun _ _ => False)
    ⟨fun a => ⟨a, fun _ h => by simp [Order] at h⟩⟩ begunF_onward.1 begunF_onward.2

end
end Verif.Props

import Verif.Ring
import Verif.ConcOnce
import Verif.PlainRank
import Verif.Props.Concurrent

/-!
# Recursive locking: property C81; cycles of types: C38
-/

set_option autoImplicit false

namespace Verif.Props
open Verif.Conc Relation
variable {K : Type}

/-- **C81.**  Let `uses c c'` tell that values of type `c` may contain, or their construction may use, flyweights of type `c'`.
If it has no cycles, not even from a type to itself, then a thread never locks a mutex that it holds ... -/
theorem C81_once {cfg : Cfg K} (h : Std cfg) {uses : Nat → Nat → Prop} (hu : ∀ c, ¬TransGen uses c c) {n : Nat} {s : St K}
    (hs : Reachable cfg uses n s) (c t d : Nat) (hl : s.lock c = some (t, d)) : d = 1 ∧ ¬wants s t c := by
  obtain ⟨hi, hr⟩ := hs.inv h.toCfgOk h.locking h.deleter
  obtain ⟨hd, hlt⟩ := hi.locks.pos c t d hl
  refine ⟨?_, fun hw => hu c (wants_strict hi hr hw hl)⟩
  have ht : s.thr[t]? = some s.thr[t] := List.getElem?_eq_getElem hlt
  have h1 := hi.locks.depth t _ ht c
  have h2 := hold_le_one hu c (hr.order t _ ht)
  simp only [depthOf, hl, if_true] at h1
  omega

/-- ... so that a mutex that does not support recursive locking will do: exactly the same happens. -/
theorem C81_same {cfg : Cfg K} (h : Std cfg) {uses : Nat → Nat → Prop} (hu : ∀ c, ¬TransGen uses c c) {n : Nat} (s : St K) :
    (ReachableOnce cfg uses n s ↔ Reachable cfg uses n s) ∧
      (Reachable cfg uses n s → ∀ t a, stepOnce cfg s t a = step cfg s t a) := by
  have same : ∀ s, Reachable cfg uses n s → ∀ t a, stepOnce cfg s t a = step cfg s t a := by
    intro s hs t a
    obtain ⟨hi, hr⟩ := hs.inv h.toCfgOk h.locking h.deleter
    cases a <;> try rfl
    simp [stepOnce, not_relocks hu hi hr]
  refine ⟨⟨fun hs => ?_, fun hs => ?_⟩, same s⟩
  · induction hs with
    | start => exact .start
    | step _ ht hd hst ih => exact .step ih ht hd (by rw [← same _ ih]; exact hst)
  · induction hs with
    | start => exact .start
    | step hr ht hd hst ih => exact .step ih ht hd (by rw [same _ hr]; exact hst)

/-- In particular, without cycles and with such mutexes nothing is undefined, and there are no deadlocks: each thread that
cannot go on waits, directly or through others, for one that can. -/
theorem C81_safe {cfg : Cfg K} (h : Std cfg) {uses : Nat → Nat → Prop} (hu : WellFounded fun a b => uses b a) {n : Nat} {s : St K}
    (hs : ReachableOnce cfg uses n s) (t : Nat) :
    (∀ a, stepOnce cfg s t a matches .ub → False) ∧
      (Blocked cfg s t → ∃ t', t' < n ∧ TransGen (Waits s) t t' ∧ ¬Blocked cfg s t' ∧ stepOnce cfg s t' .run = step cfg s t' .run) := by
  have hc : ∀ c, ¬TransGen uses c c := by
    intro c hcc
    have hs : TransGen (fun a b => uses b a) c c := transGen_swap.2 hcc
    induction c using hu.transGen.induction with
    | _ c ih => exact ih c hs hcc hs
  have hr := (C81_same h hc s).1.1 hs
  have same := (C81_same (n := n) h hc s).2 hr
  refine ⟨fun a hub => ?_, fun hb => ?_⟩
  · rw [same] at hub
    have hg := step_good h.toCfgOk h.locking h.deleter (hr.inv h.toCfgOk h.locking h.deleter).1 t a
    cases hx : step cfg s t a <;> rw [hx] at hub hg <;> first | exact hg | simp at hub
  · have hwf : NoCycles uses := Subrelation.wf (fun h => h.1) hu
    obtain ⟨t', h0, h1, h2⟩ := C38_no_deadlock h hwf hr hb
    exact ⟨t', h0, h1, h2, same t' .run⟩

/-- With a cycle, recursive locking is needed: exactly then some program locks a mutex in the thread that holds it. -/
theorem C81_exact {cfg : Cfg K} (h : Std cfg) (uses : Nat → Nat → Prop) {n : Nat} (hn : 0 < n) (k : K) :
    (∃ c, TransGen uses c c) ↔
      ∃ s t, Reachable cfg uses n s ∧ step cfg s t .run matches .ok _ ∧ stepOnce cfg s t .run matches .ub := by
  constructor
  · rintro ⟨c, hc⟩
    obtain ⟨s, hr, hre⟩ := cycle_relocks (cfg := cfg) h.locking hc hn k
    refine ⟨s, 0, hr, ?_, by simp [stepOnce, hre]⟩
    obtain ⟨c', d, hw, hl⟩ := relocks_iff.1 hre
    have ha : (acquire cfg s.lock 0 c').isSome = true := by simp [acquire, h.locking, hl]
    obtain ⟨l, ha⟩ := Option.isSome_iff_exists.1 ha
    rcases hw with ⟨k', loc, pre, rest, ht⟩ | ⟨e, rest, ht⟩ <;> simp [step, ht, act, lib, ha]
  · rintro ⟨s, t, hr, h1, h2⟩
    refine Classical.byContradiction fun hno => ?_
    have hc : ∀ c, ¬TransGen uses c c := fun c hcc => hno ⟨c, hcc⟩
    rw [(C81_same h hc s).2 hr] at h2
    cases hx : step cfg s t .run <;> rw [hx] at h1 h2 <;> simp at h1 h2

/-- Also when no constructor uses the library: if a value contains a flyweight of its own type, destroying both locks the mutex
again. -/
theorem C81_destroy {cfg : Cfg K} (h : Std cfg) (c : Nat) (k l : K) (hk : cfg.eqv c k l = false) :
    ∃ s, exec cfg ((0, .create c k [] true) :: List.replicate 6 (0, .run) ++
        (0, .create c l [true] true) :: List.replicate 6 (0, .run) ++
        (0, .destroy [true]) :: List.replicate 5 (0, .run)) (start 1) = .ok s ∧
      relocks s 0 = true := by
  obtain ⟨eqv, locking, deleter⟩ := cfg
  obtain rfl : locking = true := h.locking
  obtain rfl : deleter = true := h.deleter
  simp only [List.replicate, List.cons_append, List.nil_append, exec, step, start, act, lib, inUser, pick, acquire, unlock, find]
  have hk' : eqv c k l = false := hk
  simp [setEnt, pick, List.range_succ, hk', relocks]

/-- Without tracking only construction matters: if value constructors do not create, directly or through other constructors,
flyweights of the type of the value, a thread never locks a mutex that it holds, whatever flyweights the values contain. -/
theorem C81_untracked {cfg : Cfg K} (h : CfgOk cfg) (hlk : cfg.locking = true) {uses : Nat → Nat → Prop} (hu : ∀ c, ¬TransGen uses c c)
    {n : Nat} {s : Plain.St K} (hs : Plain.Reachable cfg uses n s) (c t d : Nat) (hl : s.lock c = some (t, d)) :
    d = 1 ∧ ¬Plain.wants s t c := by
  obtain ⟨hi, hr⟩ := hs.inv h hlk
  obtain ⟨hd, hlt⟩ := hi.locks.pos c t d hl
  refine ⟨?_, fun hw => hu c (Plain.wants_strict hi hr hw hl)⟩
  have ht : s.thr[t]? = some s.thr[t] := List.getElem?_eq_getElem hlt
  have h1 := hi.locks.depth t _ ht c
  have h2 := Plain.hold_le_one hu c (hr t _ ht)
  simp only [depthOf, hl, if_true] at h1
  omega

/-- The condition of C38 is needed: if two or more types use each other along a cycle, as many threads, each making a flyweight of
one of these types, can get to wait for each other in a circle, so that none of them can ever do anything again. -/
theorem C38_needed {cfg : Cfg K} (h : Std cfg) {uses : Nat → Nat → Prop} {n : Nat} (hn : 2 ≤ n) (ty : Nat → Nat)
    (hinj : ∀ i j, i < n → j < n → ty i = ty j → i = j) (huse : ∀ i, i < n → uses (ty i) (ty ((i + 1) % n))) (k : K) :
    ∃ s, Reachable cfg uses n s ∧ (∀ t, t < n → Blocked cfg s t ∧ Waits s t ((t + 1) % n)) ∧ ∀ t a, step cfg s t a matches .no := by
  obtain ⟨s, hr, hb⟩ := all_begun (cfg := cfg) (uses := uses) h.locking hinj k n (Nat.le_refl _)
  obtain ⟨s', h1, h2, h3, h4, _⟩ := all_ask huse k hr hb n (Nat.le_refl _)
  have hnext : ∀ t, t < n → (t + 1) % n < n ∧ t ≠ (t + 1) % n := by
    intro t ht
    refine ⟨Nat.mod_lt _ (by omega), ?_⟩
    by_cases htn : t + 1 = n
    · rw [htn, Nat.mod_self]
      omega
    · rw [Nat.mod_eq_of_lt (by omega)]
      omega
  have hlock : ∀ t, t < n → s'.lock (ty ((t + 1) % n)) = some ((t + 1) % n, 1) := fun t ht => by
    rw [h2]
    exact hb.held _ (hnext t ht).1
  have hno : ∀ t, t < n → step cfg s' t .run = .no := by
    intro t ht
    obtain ⟨e, he⟩ := h4 t ht
    have ha : acquire cfg s'.lock t (ty ((t + 1) % n)) = none := by
      simp [acquire, h.locking, hlock t ht, (hnext t ht).2.symm]
    simp [step, he, act, lib, ha]
  refine ⟨s', h1, fun t ht => ?_, fun t a => ?_⟩
  · obtain ⟨e, he⟩ := h4 t ht
    exact ⟨⟨_, he, rfl, hno t ht⟩, (hnext t ht).2, _, 1, .inl ⟨k, [], false, _, he⟩, hlock t ht⟩
  · by_cases ht : t < n
    · obtain ⟨e, he⟩ := h4 t ht
      cases a with
      | run => rw [hno t ht]
      | _ => simp [step, he, act, inUser]
    · have : s'.thr[t]? = none := List.getElem?_eq_none (by omega)
      simp [step, this]

/-- Three types and three threads. -/
example := C38_needed sampleStd (uses := fun c c' => c' = (c + 1) % 3) (n := 3) (by decide) id (fun _ _ _ _ h => h) (fun _ _ => rfl) 7

/-- Between finitely many types, C38 is exact: threads can come to wait for each other if and only if there is a cycle of different
types. -/
theorem C38_exact {cfg : Cfg K} (h : Std cfg) {uses : Nat → Nat → Prop} {N : Nat} (hN : ∀ c c', uses c c' → c < N ∧ c' < N) (k : K) :
    (∃ n s, Reachable cfg uses n s ∧ ∃ S : Nat → Prop, (∃ t, S t) ∧ ∀ t, S t → Blocked cfg s t ∧ ∃ t', S t' ∧ Waits s t t') ↔
      ∃ c, TransGen (fun c c' => uses c c' ∧ c' ≠ c) c c := by
  constructor
  · rintro ⟨n, s, hs, S, hne, hS⟩
    refine Classical.byContradiction fun hc => ?_
    have hwf : NoCycles uses := wf_of_acyclic (fun a b hab => hN a b hab.1) fun c hcc => hc ⟨c, hcc⟩
    exact C38_no_set h hwf hs S hne hS
  · rintro ⟨c, hc⟩
    obtain ⟨n, ty, h1, h2, h3⟩ := ring_of hc
    have hn : 2 ≤ n := by
      refine Classical.byContradiction fun hlt => ?_
      obtain rfl : n = 1 := by omega
      exact (h3 0 (by omega)).2 rfl
    obtain ⟨s, hs, hb, _⟩ := C38_needed h hn ty h2 (fun i hi => (h3 i hi).1) k
    exact ⟨n, s, hs, (· < n), ⟨0, by omega⟩, fun t ht => ⟨(hb t ht).1, _, Nat.mod_lt _ (by omega), (hb t ht).2⟩⟩

/-- Four types, of which three use each other along a cycle. -/
example := (C38_exact sampleStd (uses := fun c c' => c < 4 ∧ c' = (c + 1) % 3) (N := 5) (fun _ _ h => by omega) 7).2
  ⟨0, .tail (.tail (.single ⟨by omega, by omega⟩ : TransGen _ 0 1) (⟨by omega, by omega⟩ : _ ∧ 2 ≠ 1)) ⟨by omega, by omega⟩⟩

/-- Three types, each using those before it and itself: no threads wait for each other. -/
example : ¬∃ n s, Reachable sampleCfg (fun c c' => c' ≤ c ∧ c < 3) n s ∧ ∃ S : Nat → Prop, (∃ t, S t) ∧
    ∀ t, S t → Blocked sampleCfg s t ∧ ∃ t', S t' ∧ Waits s t t' := by
  rw [C38_exact sampleStd (N := 3) (fun _ _ h => by omega) 7]
  rintro ⟨c, hc⟩
  have lt : ∀ {a b : Nat}, TransGen (fun c c' => (c' ≤ c ∧ c < 3) ∧ c' ≠ c) a b → b < a := fun h => by
    induction h with
    | single h => omega
    | tail _ h ih => omega
  exact Nat.lt_irrefl _ (lt hc)

/-! ## Cases -/

/-- Values contain flyweights of types with smaller numbers only: there are no cycles. -/
theorem smaller_irrefl (c : Nat) : ¬TransGen (fun a b : Nat => b < a) c c := by
  intro h
  have key : ∀ {a b : Nat}, TransGen (fun a b : Nat => b < a) a b → b < a := by
    intro a b h
    induction h with
    | single h => exact h
    | tail _ h ih => omega
  exact Nat.lt_irrefl c (key h)

/-- The constructor of a value of type 1 makes a flyweight of type 0; another thread waits for it.  (The user's program, no code
of the library.) -/
theorem both_held : ∃ s, Reachable sampleCfg (fun a b => b < a) 2 s ∧ s.lock 0 = some (0, 1) ∧ s.lock 1 = some (0, 1) ∧
    Blocked sampleCfg s 1 := by
  refine ⟨_, .step (t := 0) (a := .run) (.step (t := 0) (a := .create 0 5 [] true) (.step (t := 0) (a := .run)
    (.step (t := 0) (a := .run) (.step (t := 0) (a := .run) (.step (t := 1) (a := .create 1 7 [] false)
    (.step (t := 0) (a := .create 1 6 [] false) .start rfl ?_ rfl) rfl ?_ rfl) rfl trivial rfl) rfl trivial rfl) rfl trivial rfl)
    rfl ?_ rfl) rfl trivial rfl, rfl, rfl, ?_⟩
  · exact ⟨by simp [pick, start], by simp⟩
  · exact ⟨by simp [pick, start], by simp⟩
  · refine ⟨by simp [pick, start], fun c' k' e rest h => ?_⟩
    cases h
    decide
  · exact ⟨_, rfl, rfl, rfl⟩

/-- Each of the two mutexes is locked once. -/
example : ∃ s, Reachable sampleCfg (fun a b => b < a) 2 s ∧ s.lock 0 = some (0, 1) ∧ ¬wants s 0 0 := by
  obtain ⟨s, h1, h2, _⟩ := both_held
  exact ⟨s, h1, h2, (C81_once sampleStd smaller_irrefl h1 0 0 1 h2).2⟩

/-- The same is reached with mutexes that do not support recursive locking, and thread 1 waits for one that goes on. -/
example : ∃ s, ReachableOnce sampleCfg (fun a b => b < a) 2 s ∧ s.lock 1 = some (0, 1) ∧
    ∃ t', t' < 2 ∧ TransGen (Waits s) 1 t' ∧ ¬Blocked sampleCfg s t' := by
  obtain ⟨s, h1, _, h3, h4⟩ := both_held
  have hr := (C81_same sampleStd smaller_irrefl s).1.2 h1
  obtain ⟨t', h0, h5, h6, _⟩ := (C81_safe sampleStd (uses := fun a b => b < a) Nat.lt_wfRel.wf hr 1).2 h4
  exact ⟨s, hr, h3, t', h0, h5, h6⟩

/-- Two types whose constructors use each other need recursive locking. -/
example := (C81_exact (n := 1) sampleStd (fun a b => a + b = 1) (by decide) 5).1 ⟨0, .tail (.single (b := 1) rfl) rfl⟩

/-- A list of two elements is destroyed. -/
example := C81_destroy sampleStd 0 1 2 rfl

/-- Without tracking, a list of two elements: the second is made while the first exists and is contained in it; no constructor
creates any flyweight. -/
example : ∃ s, Plain.Reachable sampleCfg (fun _ _ => False) 1 s ∧ s.lock 0 = some (0, 1) ∧ ¬Plain.wants s 0 0 := by
  refine ⟨_, .step (t := 0) (a := .run) (.step (t := 0) (a := .create 0 6 [true] true) (.step (t := 0) (a := .run) (.step (t := 0)
    (a := .run) (.step (t := 0) (a := .run) (.step (t := 0) (a := .run) (.step (t := 0) (a := .create 0 5 [] true) .start rfl ?_ rfl)
    rfl trivial rfl) rfl trivial rfl) rfl trivial rfl) rfl trivial rfl) rfl ?_ rfl) rfl trivial rfl, rfl, ?_⟩
  · exact fun c' k' e rest h => by cases h
  · exact fun c' k' e rest h => by cases h
  · rintro ⟨_, _, _, _, h⟩
    cases h

end Verif.Props

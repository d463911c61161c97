import Verif.AtomicLemmas
import Verif.ConcLinAct
import Verif.Props.Concurrent

/-!
# Flyweights used by several threads: operations appear to be atomic (C55)

The code (`Verif.Conc`: mutexes, counts, entries without value) behaves like flyweights whose operations take effect at one
instant (`Verif.Atomic`: nothing but flyweights and values).
-/

set_option autoImplicit false

namespace Verif.Props
open Verif.Conc
variable {K : Type}

/-- What a program can see is the same.  (No code of its own: used to state a property or an example.) -/
structure Agree (s : St K) (a : Atomic.St K) : Prop where
  /-- the same flyweight objects -/
  objs : a.objs = s.objs
  /-- values are those stored by the library ... -/
  stored : ∀ e v, a.vals e = some v → ∃ x, s.ents e = some x ∧ x.cted = true ∧ v = ⟨x.core, x.key, x.kids⟩
  /-- ... and objects refer to them -/
  values : ∀ w ∈ s.objs, ∃ v, a.vals w.h = some v
  /-- threads that run code of the user ... -/
  user : ∀ (t : Nat) (st : List (Frame K)), s.thr[t]? = some st → inUser st = true → ∃ st', a.thr[t]? = some st' ∧ Atomic.inUser st' = true
  /-- ... or are outside of the library do so in both -/
  idle : ∀ t : Nat, s.thr[t]? = some [] → a.thr[t]? = some []
  /-- if no thread is in the library there is nothing else stored -/
  quiet : (∀ st ∈ s.thr, st = []) → ∀ e, (s.ents e).map (fun x => (⟨x.core, x.key, x.kids⟩ : Atomic.Val K)) = a.vals e

theorem agree_abs {cfg : Cfg K} {s : St K} (h : Inv cfg s) : Agree s (abs s) where
  objs := rfl
  stored e v hv := by
    obtain ⟨x, hx, hc, _, rfl⟩ := of_absV hv
    exact ⟨x, hx, hc, rfl⟩
  values w hw := by
    obtain ⟨x, hx, _, _, hc, hp⟩ := h.core.fw_ent hw
    exact ⟨_, abs_val hx hc hp⟩
  user t st ht hu := ⟨_, abs_top ht, inUser_abs hu⟩
  idle t ht := by rw [abs_top ht]; rfl
  quiet hq e := by
    have hfr : frames s = [] := by
      unfold frames
      rw [List.flatten_eq_nil_iff]
      exact hq
    cases hx : s.ents e with
    | none => exact (absV_dead fun x h1 => by rw [hx] at h1; cases h1).symm
    | some x =>
      have hc : x.cted = true := by
        cases hc : x.cted with
        | true => rfl
        | false =>
          have := h.core.uncted e x hx hc
          rw [hfr] at this
          cases this
      have hp : 0 < x.ref := by
        have h1 := h.core.ref_nonneg e
        have h2 := h.core.claim e x hx
        rw [hfr] at h2
        simp only [refOf, hx] at h1
        rcases Int.lt_or_lt_of_ne (a := x.ref) (b := 0) (fun h0 => by cases h2 h0) with h3 | h3 <;> omega
      exact (abs_val hx hc hp).symm

/-- **C55.**  Step by step: whatever a thread does next, either the atomic flyweights do the same,
or it is a step inside the library and they do nothing; and what can be seen is the same. -/
theorem C55_steps {cfg : Cfg K} (h : Std cfg) :
    ∃ R : St K → Atomic.St K → Prop,
      (∀ n, R (start n) (Atomic.start n)) ∧
      (∀ s a, R s a → Agree s a) ∧
      ∀ s a t act s', R s a → step cfg s t act = .ok s' →
        (act = .run ∧ R s' a) ∨ ∃ a', Atomic.Step cfg.eqv a t act a' ∧ R s' a' := by
  refine ⟨fun s a => Inv cfg s ∧ Fit s ∧ a = abs s, fun n => ⟨start_inv n, start_fit n, (start_abs n).symm⟩, ?_, ?_⟩
  · rintro s a ⟨h1, _, rfl⟩
    exact agree_abs h1
  · rintro s a t act s' ⟨h1, h2, rfl⟩ hs
    obtain ⟨h3, h4, h5 | h5⟩ := step_sim h.toCfgOk h.locking h.deleter h1 h2 hs
    · exact Or.inl ⟨h5.2, h3, h4, h5.1.symm⟩
    · exact Or.inr ⟨_, h5, h3, h4, rfl⟩

/-- For whole executions: some of the steps inside the library left out, every execution is one of the
atomic flyweights, with the same actions by the same threads in the same order. -/
theorem C55_executions {cfg : Cfg K} (h : Std cfg) {n : Nat} {acts : List (Nat × Act K)} {s : St K}
    (hs : exec cfg acts (start n) = .ok s) :
    ∃ l a, l.Sublist acts ∧ Atomic.Run cfg.eqv (Atomic.start n) l a ∧ Agree s a := by
  obtain ⟨R, h1, h2, h3⟩ := C55_steps h
  have key : ∀ acts s0 l0 a0, R s0 a0 → Atomic.Run cfg.eqv (Atomic.start n) l0 a0 → exec cfg acts s0 = .ok s →
      ∃ l a, l.Sublist acts ∧ Atomic.Run cfg.eqv (Atomic.start n) (l0 ++ l) a ∧ R s a := by
    intro acts
    induction acts with
    | nil =>
      intro s0 l0 a0 hR hrun he
      cases he
      exact ⟨[], a0, .slnil, by rwa [List.append_nil], hR⟩
    | cons p acts ih =>
      obtain ⟨t, act⟩ := p
      intro s0 l0 a0 hR hrun he
      unfold exec at he
      cases hst : step cfg s0 t act with
      | ok s1 =>
        rw [hst] at he
        rcases h3 _ _ _ _ _ hR hst with ⟨_, hR'⟩ | ⟨a1, hstep, hR'⟩
        · obtain ⟨l, a, h4, h5, h6⟩ := ih s1 l0 a0 hR' hrun he
          exact ⟨l, a, h4.cons _, h5, h6⟩
        · obtain ⟨l, a, h4, h5, h6⟩ := ih s1 _ a1 hR' (hrun.snoc hstep) he
          exact ⟨(t, act) :: l, a, h4.cons_cons _, by rwa [List.append_assoc] at h5, h6⟩
      | no =>
        rw [hst] at he
        obtain ⟨l, a, h4, h5, h6⟩ := ih s0 l0 a0 hR hrun he
        exact ⟨l, a, h4.cons _, h5, h6⟩
      | ub => rw [hst] at he; cases he
      | reentrant => rw [hst] at he; cases he
  obtain ⟨l, a, h4, h5, h6⟩ := key acts _ [] _ (h1 n) .nil hs
  exact ⟨l, a, h4, h5, h2 _ _ h6⟩

/-- The schedule `race` of `Verif.Props.C05_live`: three threads make the same flyweight, one
destroys it in between. -/
example : ∃ s, exec sampleCfg race (start 3) = .ok s ∧ s.objs.map Fw.h = [0, 0] ∧
    ∃ l a, l.Sublist race ∧ Atomic.Run sampleCfg.eqv (Atomic.start 3) l a ∧ Agree s a := by
  have h1 : (match exec sampleCfg race (start 3) with | .ok s => s.objs.map Fw.h | _ => []) = [0, 0] := by decide
  cases he : exec sampleCfg race (start 3) with
  | ok s => rw [he] at h1; exact ⟨s, rfl, h1, C55_executions sampleStd he⟩
  | _ => rw [he] at h1; cases h1

/-! ## What atomic flyweights are -/

/-- With atomic operations, values exist exactly as long as they are referred to; flyweights refer to values of their
type with keys equivalent to those they were made from; no two values of a type have equivalent keys. -/
theorem C55_meaning {eqv : Nat → K → K → Bool} (refl : ∀ c k, eqv c k k = true)
    (symm : ∀ c k l, eqv c k l = true → eqv c l k = true) {n : Nat} {l : List (Nat × Act K)} {a : Atomic.St K}
    (h : Atomic.Run eqv (Atomic.start n) l a) :
    (∀ i, (a.vals i).isSome ↔ a.Referenced i) ∧
    (∀ w, a.Held w → ∃ v, a.vals w.h = some v ∧ v.core = w.c ∧ eqv w.c v.key w.k = true) ∧
    ∀ i j u v, a.vals i = some u → a.vals j = some v → u.core = v.core → eqv u.core u.key v.key = true → i = j := by
  have hs := h.sound refl symm
  exact ⟨hs.exact, hs.held, hs.one⟩

/-- If there is a value with an equivalent key, all a call can do is to refer to it ... -/
theorem C55_share {eqv : Nat → K → K → Bool} (refl : ∀ c k, eqv c k k = true)
    (symm : ∀ c k l, eqv c k l = true → eqv c l k = true) (trans : ∀ c k l m, eqv c k l = true → eqv c l m = true → eqv c k m = true)
    {n : Nat} {l : List (Nat × Act K)} {a a' : Atomic.St K} (h : Atomic.Run eqv (Atomic.start n) l a) {t c : Nat} {k : K}
    {loc : List (Fw K)} {rest : List (Atomic.Call K)} (ht : a.thr[t]? = some (.create c k loc :: rest)) {i : Nat} {v : Atomic.Val K}
    (hv : a.vals i = some v) (hc : v.core = c) (hk : eqv c v.key k = true) (hs : Atomic.Step eqv a t .run a') :
    a' = a.go t (.made ⟨i, c, k⟩ loc :: rest) := by
  cases hs with
  | @share c' k' loc' rest' j u ht' hu hc' hk' =>
    rw [ht] at ht'
    cases ht'
    rw [(h.sound refl symm).one i j v u hv hu (by rw [hc, hc']) (by rw [hc]; exact trans _ _ _ _ hk (symm _ _ _ hk'))]
  | keep ht' hf =>
    rw [ht] at ht'
    cases ht'
    have := hf i v hv hc
    rw [hk] at this
    cases this
  | start ht' hf =>
    rw [ht] at ht'
    cases ht'
    have := hf i v hv hc
    rw [hk] at this
    cases this
  | store ht' => rw [ht] at ht'; cases ht'
  | ret ht' => rw [ht] at ht'; cases ht'
  | drop ht' => rw [ht] at ht'; cases ht'
  | last ht' => rw [ht] at ht'; cases ht'

/-- ... and a value vanishes when and only when the last flyweight referring to it is destroyed: by no
other step, and by every such one. -/
theorem C55_vanish {eqv : Nat → K → K → Bool} {a a' : Atomic.St K} {t : Nat} {act : Act K} {i : Nat} {v : Atomic.Val K}
    (hv : a.vals i = some v) (hs : Atomic.Step eqv a t act a') :
    a'.vals i = none ↔ act = .run ∧ ∃ rest, a.thr[t]? = some (.destroy i :: rest) ∧ ¬ (a.go t rest).Referenced i := by
  have same : ∀ {f : Atomic.Call K} {rest : List (Atomic.Call K)}, a.thr[t]? = some (f :: rest) → (∀ h, f ≠ .destroy h) →
      (a.vals i = none ↔ act = .run ∧ ∃ rest, a.thr[t]? = some (.destroy i :: rest) ∧ ¬ (a.go t rest).Referenced i) := by
    intro f rest ht hf
    refine iff_of_false (by simp [hv]) ?_
    rintro ⟨_, rest', h1, _⟩
    rw [ht] at h1
    cases h1
    exact hf _ rfl
  have usr : ∀ {b : Act K}, b ≠ .run →
      (a.vals i = none ↔ b = .run ∧ ∃ rest, a.thr[t]? = some (.destroy i :: rest) ∧ ¬ (a.go t rest).Referenced i) :=
    fun hb => iff_of_false (by simp [hv]) fun h => hb h.1
  cases hs with
  | share ht => exact same ht fun _ h => by cases h
  | keep ht => exact same ht fun _ h => by cases h
  | start ht => exact same ht fun _ h => by cases h
  | @store c k kids rest h ht hf hn hr =>
    have hne : i ≠ h := by
      rintro rfl
      rw [hn] at hv
      cases hv
    have hval : Atomic.setVal a.vals h (some ⟨c, k, kids⟩) i = a.vals i := if_neg hne
    show Atomic.setVal a.vals h (some ⟨c, k, kids⟩) i = none ↔ _
    rw [hval]
    exact same ht fun _ h => by cases h
  | ret ht => exact same ht fun _ h => by cases h
  | @drop h rest ht hr =>
    refine iff_of_false (by simp [Atomic.St.go, hv]) ?_
    rintro ⟨_, rest', h1, h2⟩
    rw [ht] at h1
    cases h1
    exact h2 hr
  | @last h u rest ht hr hu =>
    by_cases hi : i = h
    · subst hi
      exact iff_of_true (by simp [Atomic.setVal]) ⟨rfl, rest, ht, hr⟩
    · simp only [Atomic.setVal, if_neg hi]
      refine iff_of_false (by simp [hv]) ?_
      rintro ⟨_, rest', h1, _⟩
      rw [ht] at h1
      cases h1
      exact hi rfl
  | create ht => exact usr (by simp)
  | destroy ht => exact usr (by simp)
  | copy ht => exact usr (by simp)
  | copyKid ht => exact usr (by simp)
  | swap ht => exact usr (by simp)
  | read ht => exact usr (by simp)
  | finish ht => exact usr (by simp)
  | throwBuild ht => exact usr (by simp)
  | throwFind ht => exact usr (by simp)

/-- An execution of atomic flyweights: a thread makes a flyweight, and the other thread is to share its value.  (No code of
its own: used in an example.) -/
def shared : Atomic.St Nat :=
  ⟨Atomic.setVal (fun _ => none) 0 (some ⟨0, 5, []⟩), [⟨0, 0, 5⟩], [[], [.create 0 5 []]]⟩

theorem shared_run : ∃ l, Atomic.Run sampleCfg.eqv (Atomic.start 2) l shared := by
  have h1 := Atomic.Run.nil (eqv := sampleCfg.eqv) (a := Atomic.start 2)
  have h2 := h1.snoc (.create (t := 0) (c := 0) (k := 5) (mask := []) (pre := true) (st := []) rfl rfl)
  have h3 := h2.snoc (.keep (t := 0) (c := 0) (k := 5) (loc := []) (rest := []) rfl fun _ _ h => by cases h)
  have h4 := h3.snoc (.store (t := 0) (c := 0) (k := 5) (kids := []) (rest := []) (h := 0) rfl (fun _ _ h => by cases h) rfl (by
    rintro (⟨w, hw, _⟩ | ⟨i, v, hv, _⟩ | ⟨st, hst, f, hf, h⟩)
    · cases hw
    · cases hv
    · have : st ∈ [[Atomic.Call.built 0 5 []], []] := hst
      simp only [List.mem_cons, List.not_mem_nil, or_false] at this
      rcases this with rfl | rfl
      · rw [List.mem_singleton.1 hf] at h
        cases h
      · cases hf))
  have h5 := h4.snoc (.ret (t := 0) (w := ⟨0, 0, 5⟩) (loc := []) (rest := []) rfl)
  have h6 := h5.snoc (.create (t := 1) (c := 0) (k := 5) (mask := []) (pre := true) (st := []) rfl rfl)
  exact ⟨_, h6⟩

example : ∃ a', Atomic.Step sampleCfg.eqv shared 1 .run a' ∧
    ∀ a'', Atomic.Step sampleCfg.eqv shared 1 .run a'' → a'' = a' := by
  obtain ⟨l, hl⟩ := shared_run
  refine ⟨_, .share (c := 0) (k := 5) (loc := []) (rest := []) (h := 0) rfl rfl rfl rfl, fun a'' h => ?_⟩
  exact C55_share sampleStd.refl sampleStd.symm sampleStd.trans hl (i := 0) rfl rfl rfl rfl h

/-- The value is there after the other thread has shared it ... -/
example : ∃ a', Atomic.Step sampleCfg.eqv shared 1 .run a' ∧ a'.vals 0 ≠ none := by
  refine ⟨_, .share (c := 0) (k := 5) (loc := []) (rest := []) (h := 0) rfl rfl rfl rfl, fun hn => ?_⟩
  obtain ⟨_, rest, h, _⟩ := (C55_vanish (i := 0) rfl
    (Atomic.Step.share (eqv := sampleCfg.eqv) (a := shared) (t := 1) (c := 0) (k := 5) (loc := []) (rest := []) (h := 0) rfl rfl rfl rfl)).1 hn
  cases h

/-- ... and not any more after the destruction of the only flyweight. -/
example : ∃ a', Atomic.Step sampleCfg.eqv { shared with objs := [], thr := [[.destroy 0], []] } 0 .run a' ∧ a'.vals 0 = none := by
  have hr : ¬ (({ shared with objs := [], thr := [[.destroy 0], []] } : Atomic.St Nat).go 0 []).Referenced 0 := by
    rintro (⟨w, hw, _⟩ | ⟨i, v, hv, w, hw, _⟩ | ⟨st, hst, f, hf, _⟩)
    · cases hw
    · simp only [shared, Atomic.St.go, Atomic.setVal] at hv
      split at hv <;> cases hv
      cases hw
    · have : st ∈ [[], []] := hst
      simp only [List.mem_cons, List.not_mem_nil, or_false, or_self] at this
      subst this
      cases hf
  have hs := Atomic.Step.last (eqv := sampleCfg.eqv) (a := { shared with objs := [], thr := [[.destroy 0], []] }) (t := 0) (h := 0)
    (v := ⟨0, 5, []⟩) (rest := []) rfl hr rfl
  exact ⟨_, hs, (C55_vanish (i := 0) (v := ⟨0, 5, []⟩) rfl hs).2 ⟨rfl, [], rfl, hr⟩⟩

/-! ## The mutex is needed -/

/-- A schedule with `no_locking`: a thread finds a value that another one is about to erase, and then the other one
makes the same flyweight anew.  (No code of its own: used to state a property.) -/
def torn : List (Nat × Act Nat) :=
  make 0 0 5 [] ++ (0, .destroy [true]) :: runs 3 0 ++ make 1 0 5 [] ++ runs 2 0 ++ make 0 0 5 []

/-- Without mutex, operations do not appear to be atomic: there is an execution that ends with flyweights no execution
with atomic operations can have. -/
theorem C55_lock_needed : ∃ acts s, exec { sampleCfg with locking := false } acts (start 2) = .ok s ∧
    ∀ l a, Atomic.Run sampleCfg.eqv (Atomic.start 2) l a → a.objs ≠ s.objs := by
  have h1 : (match exec { sampleCfg with locking := false } torn (start 2) with | .ok s => s.objs | _ => []) =
      [⟨1, 0, 5⟩, ⟨0, 0, 5⟩] := by decide
  cases he : exec { sampleCfg with locking := false } torn (start 2) with
  | ok s =>
    rw [he] at h1
    refine ⟨torn, s, he, fun l a hr ho => ?_⟩
    have hs := hr.sound sampleStd.refl sampleStd.symm
    have h1 : s.objs = [⟨1, 0, 5⟩, ⟨0, 0, 5⟩] := h1
    rw [h1] at ho
    obtain ⟨u, hu, hu1, hu2⟩ := hs.held ⟨1, 0, 5⟩ (Or.inl (by rw [ho]; simp))
    obtain ⟨v, hv, hv1, hv2⟩ := hs.held ⟨0, 0, 5⟩ (Or.inl (by rw [ho]; simp))
    have := hs.one 1 0 u v hu hv (by rw [hu1, hv1]) (by
      rw [hu1]
      exact sampleStd.trans _ _ _ _ hu2 (sampleStd.symm _ _ _ hv2))
    cases this
  | _ => rw [he] at h1; cases h1

end Verif.Props

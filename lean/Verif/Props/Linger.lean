import Verif.LingerLemmas
import Verif.CFacLinStep
import Verif.Props.ConcFactory

/-!
# `concurrent_factory`: operations appear to be atomic (C57)

The code (`Verif.CFac`: exclusive access to elements, counts, passes of the garbage collectors) behaves like flyweights whose
operations take effect at one instant and whose values linger until a garbage collector removes them (`Verif.Linger`).  As
in C25, this covers `no_tracking` and `refcounted` with `no_locking` and `simple_locking`, any number of threads, types and
collectors.
-/

set_option autoImplicit false

namespace Verif.Props
open Verif.CFac
open Verif.Conc (Fw Cfg CfgOk pick)
variable {K : Type}

namespace CF

/-- What a program can see is the same.  (No code of its own: used to state a property or an example.) -/
structure Agree (s : St K) (a : Linger.St K) : Prop where
  /-- the same flyweight objects -/
  objs : a.objs = s.objs
  /-- values are those stored by the library ... -/
  stored : ∀ e v, a.vals e = some v → ∃ x, s.ents e = some x ∧ v = ⟨x.core, x.key, x.kids, x.cted⟩
  /-- ... and objects refer to them -/
  values : ∀ w ∈ s.objs, ∃ v, a.vals w.h = some v ∧ v.full = true
  /-- threads that run code of the user ... -/
  user : ∀ (t : Nat) (st : List (Frame K)), s.thr[t]? = some st → inUser st = true → ∃ st', a.thr[t]? = some st' ∧ Linger.inUser st' = true
  /-- ... or are outside of the library do so in both -/
  idle : ∀ t : Nat, s.thr[t]? = some [] → a.thr[t]? = some []
  /-- collectors do nothing between two passes -/
  resting : ∀ t c : Nat, s.thr[t]? = some [.gcIdle c] → a.thr[t]? = some [.collector c]
  /-- if no thread is in the library there is nothing else stored -/
  quiet : (∀ st ∈ s.thr, st = [] ∨ ∃ c, st = [.gcIdle c]) →
    ∀ e, (s.ents e).map (fun x => (⟨x.core, x.key, x.kids, x.cted⟩ : Linger.Val K)) = a.vals e

end CF

theorem cf_agree_abs {cfg : Cfg K} {s : St K} (h : Inv cfg s) : CF.Agree s (abs s) where
  objs := rfl
  stored e v hv := by
    obtain ⟨x, hx, rfl⟩ := of_absV hv
    exact ⟨x, hx, rfl⟩
  values w hw := by
    obtain ⟨x, hx, _, _, hc, hp⟩ := h.core.fw_ent hw
    exact ⟨_, abs_val hx (h.shown_ref (h.core.ref_pos_obj hw)), hc⟩
  user t st ht hu := ⟨_, abs_top ht, inUser_abs hu⟩
  idle t ht := by rw [abs_top ht]; rfl
  resting t c ht := by rw [abs_top ht]; rfl
  quiet hq e := by
    have h0 : Conc.tot (unlF e) (frames s) = 0 := Conc.tot_eq_zero fun f hf => by
      obtain ⟨st, h1, h2⟩ := List.mem_flatten.1 hf
      rcases hq st h1 with rfl | ⟨c, rfl⟩
      · cases h2
      · rw [List.mem_singleton.1 h2]; rfl
    show _ = absV s.ents (frames s) e
    unfold absV
    rw [h0]
    rfl

/-- **C57.**  Step by step: whatever a thread does next, either the atomic flyweights do the same,
or it is a step inside the library and they do nothing; and what can be seen is the same. -/
theorem C57_steps {cfg : Cfg K} (h : CfgOk cfg) :
    ∃ R : St K → Linger.St K → Prop,
      (∀ n gcs, R (start n gcs) (Linger.start n gcs)) ∧
      (∀ s a, R s a → CF.Agree s a) ∧
      ∀ s a t act s', R s a → step cfg s t act = .ok s' →
        ((act = .run ∨ ∃ e, act = .gcVisit e) ∧ R s' a) ∨ ∃ a', Linger.Step cfg.eqv a t act a' ∧ R s' a' := by
  refine ⟨fun s a => Inv cfg s ∧ Nested s ∧ a = abs s,
    fun n gcs => ⟨start_inv n gcs, start_nested n gcs, (start_abs n gcs).symm⟩, ?_, ?_⟩
  · rintro s a ⟨h1, _, rfl⟩
    exact cf_agree_abs h1
  · rintro s a t act s' ⟨h1, h2, rfl⟩ hs
    have h3 : Inv cfg s' := by
      have := step_good h h1 t act
      rwa [hs] at this
    have h4 := step_nested h2 hs
    rcases step_sim h1 h2 hs with ⟨h5, h6⟩ | h5
    · refine Or.inl ⟨?_, h3, h4, h6.symm⟩
      cases act with
      | run => exact .inl rfl
      | gcVisit e => exact .inr ⟨e, rfl⟩
      | _ => cases h5
    · exact Or.inr ⟨_, h5, h3, h4, rfl⟩

/-- For whole executions: some of the steps inside the library left out, every execution is one of the
atomic flyweights, with the same actions by the same threads in the same order. -/
theorem C57_executions {cfg : Cfg K} (h : CfgOk cfg) {n : Nat} {gcs : List Nat} {acts : List (Nat × Act K)} {s : St K}
    (hs : exec cfg acts (start n gcs) = .ok s) :
    ∃ l a, l.Sublist acts ∧ Linger.Run cfg.eqv (Linger.start n gcs) l a ∧ CF.Agree s a := by
  obtain ⟨R, h1, h2, h3⟩ := C57_steps h
  have key : ∀ acts s0 l0 a0, R s0 a0 → Linger.Run cfg.eqv (Linger.start n gcs) l0 a0 → exec cfg acts s0 = .ok s →
      ∃ l a, l.Sublist acts ∧ Linger.Run cfg.eqv (Linger.start n gcs) (l0 ++ l) a ∧ R s a := by
    intro acts
    induction acts with
    | nil =>
      intro s0 l0 a0 hR hrun he
      cases he
      exact ⟨[], a0, .slnil, by rwa [List.append_nil], hR⟩
    | cons p acts ih =>
      obtain ⟨t, act⟩ := p
      intro s0 l0 a0 hR hrun he
      unfold exec at he
      cases hst : step cfg s0 t act with
      | ok s1 =>
        rw [hst] at he
        rcases h3 _ _ _ _ _ hR hst with ⟨_, hR'⟩ | ⟨a1, hstep, hR'⟩
        · obtain ⟨l, a, h4, h5, h6⟩ := ih s1 l0 a0 hR' hrun he
          exact ⟨l, a, h4.cons _, h5, h6⟩
        · obtain ⟨l, a, h4, h5, h6⟩ := ih s1 _ a1 hR' (hrun.snoc hstep) he
          exact ⟨(t, act) :: l, a, h4.cons_cons _, by rwa [List.append_assoc] at h5, h6⟩
      | no =>
        rw [hst] at he
        obtain ⟨l, a, h4, h5, h6⟩ := ih s0 l0 a0 hR hrun he
        exact ⟨l, a, h4.cons _, h5, h6⟩
      | ub => rw [hst] at he; cases he
      | reentrant => rw [hst] at he; cases he
  obtain ⟨l, a, h4, h5, h6⟩ := key acts _ [] _ (h1 n gcs) .nil hs
  exact ⟨l, a, h4, h5, h2 _ _ h6⟩

/-- The schedule `CF.race`: two threads make the same flyweight while the collector is at work. -/
example : ∃ s, exec CF.untracked CF.race (start 2 [0]) = .ok s ∧ s.objs.map Fw.h = [0, 0] ∧
    ∃ l a, l.Sublist CF.race ∧ Linger.Run CF.untracked.eqv (Linger.start 2 [0]) l a ∧ CF.Agree s a := by
  have h1 : (match exec CF.untracked CF.race (start 2 [0]) with | .ok s => s.objs.map Fw.h | _ => []) = [0, 0] := by decide
  cases he : exec CF.untracked CF.race (start 2 [0]) with
  | ok s => rw [he] at h1; exact ⟨s, rfl, h1, C57_executions CF.untrackedOk he⟩
  | _ => rw [he] at h1; cases h1

/-! ## What atomic flyweights with lingering values are -/

/-- With atomic operations, whatever is referred to is there; flyweights, be they objects, inside values, or arguments and
results of calls, refer to complete values of their type with keys equivalent to those they were made from; no two values
(or keys without value) of a type have equivalent keys. -/
theorem C57_meaning {eqv : Nat → K → K → Bool} (refl : ∀ c k, eqv c k k = true)
    (symm : ∀ c k l, eqv c k l = true → eqv c l k = true) {n : Nat} {gcs : List Nat} {l : List (Nat × Act K)} {a : Linger.St K}
    (h : Linger.Run eqv (Linger.start n gcs) l a) :
    (∀ i, a.Referenced i → (a.vals i).isSome) ∧
    (∀ w, (w ∈ a.objs ∨ (∃ i v, a.vals i = some v ∧ w ∈ v.kids) ∨
        ∃ st ∈ a.thr, (∃ c k loc, .create c k loc ∈ st ∧ w ∈ loc) ∨ (∃ u loc, .made u loc ∈ st ∧ w ∈ u :: loc)) →
      ∃ v, a.vals w.h = some v ∧ v.full = true ∧ v.core = w.c ∧ eqv w.c v.key w.k = true) ∧
    ∀ i j u v, a.vals i = some u → a.vals j = some v → u.core = v.core → eqv u.core u.key v.key = true → i = j := by
  have hs := h.sound refl symm
  refine ⟨fun i hi => ?_, ?_, hs.one⟩
  · obtain ⟨v, hv⟩ := hs.there hi
    rw [hv]
    rfl
  · rintro w (hw | ⟨i, v, hv, hw⟩ | ⟨st, hst, ⟨c, k, loc, hf, hw⟩ | ⟨u, loc, hf, hw⟩⟩)
    · exact hs.objs w hw
    · exact hs.kids i v hv w hw
    · exact hs.calls _ (List.mem_flatten.2 ⟨st, hst, hf⟩) w hw
    · have := hs.calls _ (List.mem_flatten.2 ⟨st, hst, hf⟩)
      rcases List.mem_cons.1 hw with rfl | hw
      · exact this.1
      · exact this.2 w hw

/-- A value is constructed by one call at a time, and no flyweight refers to it meanwhile. -/
theorem C57_alone {eqv : Nat → K → K → Bool} (refl : ∀ c k, eqv c k k = true)
    (symm : ∀ c k l, eqv c k l = true → eqv c l k = true) {n : Nat} {gcs : List Nat} {l : List (Nat × Act K)} {a : Linger.St K}
    (h : Linger.Run eqv (Linger.start n gcs) l a) {t c i : Nat} {k : K} {loc : List (Fw K)} {st : List (Linger.Call K)}
    (ht : a.thr[t]? = some st) (hf : .build c k i loc ∈ st) :
    (∀ (t' : Nat) (st' : List (Linger.Call K)), a.thr[t']? = some st' → ∀ c' k' loc',
      (.build c' k' i loc' ∈ st' ∨ .built c' k' i loc' ∈ st') → t' = t) ∧
    (∀ w ∈ a.objs, w.h ≠ i) ∧ ∀ j v, a.vals j = some v → ∀ w ∈ v.kids, w.h ≠ i := by
  have hs := h.sound refl symm
  have hnf : ∀ {w : Fw K}, Linger.FwOk eqv a.vals w → w.h ≠ i := by
    rintro w ⟨v, h1, h2, _⟩ rfl
    obtain ⟨⟨u, h3, h4, _⟩, _⟩ := hs.calls _ (List.mem_flatten.2 ⟨st, List.mem_of_getElem? ht, hf⟩)
    rw [h1] at h3
    cases h3
    rw [h2] at h4
    cases h4
  refine ⟨fun t' st' ht' c' k' loc' hf' => ?_, fun w hw => hnf (hs.objs w hw), fun j v hv w hw => hnf (hs.kids j v hv w hw)⟩
  have hal := hs.alone i
  obtain ⟨A, B, h1, h2, _⟩ := Conc.split ht'
  by_cases he : t' = t
  · exact he
  exfalso
  have hin : .build c k i loc ∈ A ++ B := by
    have hm : st ∈ a.thr.set t' [] := List.mem_iff_getElem?.2 ⟨t, by rw [List.getElem?_set_ne he, ht]⟩
    have := List.mem_flatten.2 ⟨_, hm, hf⟩
    rw [h2 []] at this
    simpa using this
  rw [h1, Conc.tot_append, Conc.tot_append] at hal
  have h3 := Conc.tot_pos (g := Linger.bldF i) hin (by simp [Linger.bldF])
  rw [Conc.tot_append] at h3
  have h4 : 0 < Conc.tot (Linger.bldF i) st' := by
    rcases hf' with hf' | hf'
    · exact Conc.tot_pos hf' (by simp [Linger.bldF])
    · exact Conc.tot_pos hf' (by simp [Linger.bldF])
  omega

/-- If there is a value with an equivalent key, all a call can do is to refer to it, whether or not other flyweights do ... -/
theorem C57_share {eqv : Nat → K → K → Bool} (refl : ∀ c k, eqv c k k = true)
    (symm : ∀ c k l, eqv c k l = true → eqv c l k = true) (trans : ∀ c k l m, eqv c k l = true → eqv c l m = true → eqv c k m = true)
    {n : Nat} {gcs : List Nat} {l : List (Nat × Act K)} {a a' : Linger.St K} (h : Linger.Run eqv (Linger.start n gcs) l a) {t c : Nat}
    {k : K} {loc : List (Fw K)} {rest : List (Linger.Call K)} (ht : a.thr[t]? = some (.create c k loc :: rest)) {i : Nat}
    {v : Linger.Val K} (hv : a.vals i = some v) (hf : v.full = true) (hc : v.core = c) (hk : eqv c v.key k = true)
    (hs : Linger.Step eqv a t .run a') :
    a' = a.go t (.made ⟨i, c, k⟩ loc :: rest) := by
  have same : ∀ {j : Nat} {u : Linger.Val K}, a.vals j = some u → u.core = c → eqv c u.key k = true → i = j := by
    intro j u hu hc' hk'
    exact (h.sound refl symm).one i j v u hv hu (by rw [hc, hc']) (by rw [hc]; exact trans _ _ _ _ hk (symm _ _ _ hk'))
  cases hs with
  | @share c' k' loc' rest' j u ht' hu hf' hc' hk' =>
    rw [ht] at ht'
    cases ht'
    rw [same hu hc' hk']
  | keep ht' hfree =>
    rw [ht] at ht'
    cases ht'
    have := hfree i v hv hc
    rw [hk] at this
    cases this
  | start ht' hfree =>
    rw [ht] at ht'
    cases ht'
    have := hfree i v hv hc
    rw [hk] at this
    cases this
  | @resume c' k' loc' rest' j u ht' hu hf' hr' hc' hk' =>
    rw [ht] at ht'
    cases ht'
    have := same hu hc' hk'
    subst this
    rw [hv] at hu
    cases hu
    rw [hf] at hf'
    cases hf'
  | store ht' => rw [ht] at ht'; cases ht'
  | tidy ht' => rw [ht] at ht'; cases ht'
  | ret ht' => rw [ht] at ht'; cases ht'
  | drop ht' => rw [ht] at ht'; cases ht'
  | collect ht' => rw [ht] at ht'; cases ht'

/-- ... and if there is an equivalent key without value, all it can do is to have the value of that key constructed, provided
that no other call is doing so (otherwise it waits). -/
theorem C57_resume {eqv : Nat → K → K → Bool} (refl : ∀ c k, eqv c k k = true)
    (symm : ∀ c k l, eqv c k l = true → eqv c l k = true) (trans : ∀ c k l m, eqv c k l = true → eqv c l m = true → eqv c k m = true)
    {n : Nat} {gcs : List Nat} {l : List (Nat × Act K)} {a a' : Linger.St K} (h : Linger.Run eqv (Linger.start n gcs) l a) {t c : Nat}
    {k : K} {loc : List (Fw K)} {rest : List (Linger.Call K)} (ht : a.thr[t]? = some (.create c k loc :: rest)) {i : Nat}
    {v : Linger.Val K} (hv : a.vals i = some v) (hf : v.full = false) (hc : v.core = c) (hk : eqv c v.key k = true)
    (hs : Linger.Step eqv a t .run a') :
    ¬ a.Referenced i ∧ a' = a.go t (.build c k i loc :: rest) := by
  have same : ∀ {j : Nat} {u : Linger.Val K}, a.vals j = some u → u.core = c → eqv c u.key k = true → i = j := by
    intro j u hu hc' hk'
    exact (h.sound refl symm).one i j v u hv hu (by rw [hc, hc']) (by rw [hc]; exact trans _ _ _ _ hk (symm _ _ _ hk'))
  cases hs with
  | @share c' k' loc' rest' j u ht' hu hf' hc' hk' =>
    rw [ht] at ht'
    cases ht'
    have := same hu hc' hk'
    subst this
    rw [hv] at hu
    cases hu
    rw [hf] at hf'
    cases hf'
  | keep ht' hfree =>
    rw [ht] at ht'
    cases ht'
    have := hfree i v hv hc
    rw [hk] at this
    cases this
  | start ht' hfree =>
    rw [ht] at ht'
    cases ht'
    have := hfree i v hv hc
    rw [hk] at this
    cases this
  | @resume c' k' loc' rest' j u ht' hu hf' hr' hc' hk' =>
    rw [ht] at ht'
    cases ht'
    have := same hu hc' hk'
    subst this
    exact ⟨hr', rfl⟩
  | store ht' => rw [ht] at ht'; cases ht'
  | tidy ht' => rw [ht] at ht'; cases ht'
  | ret ht' => rw [ht] at ht'; cases ht'
  | drop ht' => rw [ht] at ht'; cases ht'
  | collect ht' => rw [ht] at ht'; cases ht'

/-- A value vanishes only by a step of the garbage collector of its type, when nothing refers to it. -/
theorem C57_vanish {eqv : Nat → K → K → Bool} {a a' : Linger.St K} {t : Nat} {act : Act K} {i : Nat} {v : Linger.Val K}
    (hv : a.vals i = some v) (hs : Linger.Step eqv a t act a') (hn : a'.vals i = none) :
    act = .run ∧ ¬ a.Referenced i ∧ ∃ rest, a.thr[t]? = some (.collector v.core :: rest) ∧
      a' = { a.go t (Linger.drops v.kids ++ .collector v.core :: rest) with vals := Linger.setVal a.vals i none } := by
  have old : a.vals i ≠ none := by rw [hv]; simp
  have set : ∀ {j : Nat} {u : Linger.Val K}, Linger.setVal a.vals j (some u) i ≠ none := by
    intro j u
    unfold Linger.setVal
    split
    · simp
    · exact old
  cases hs with
  | @collect c j u rest ht hu hc hr =>
    by_cases hj : i = j
    · subst hj
      rw [hv] at hu
      cases hu
      subst hc
      exact ⟨rfl, hr, rest, ht, rfl⟩
    · exfalso
      simp only [Linger.setVal, if_neg hj] at hn
      exact old hn
  | keep => exact absurd hn set
  | start => exact absurd hn set
  | store => exact absurd hn set
  | finish => exact absurd hn set
  | _ => exact absurd hn old

/-- Once complete, a value does not change as long as it is there: neither its type and key nor the flyweights inside. -/
theorem C57_constant {eqv : Nat → K → K → Bool} (refl : ∀ c k, eqv c k k = true)
    (symm : ∀ c k l, eqv c k l = true → eqv c l k = true) {n : Nat} {gcs : List Nat} {l : List (Nat × Act K)} {a a' : Linger.St K}
    (h : Linger.Run eqv (Linger.start n gcs) l a) {t : Nat} {act : Act K} {i : Nat} {v : Linger.Val K}
    (hv : a.vals i = some v) (hf : v.full = true) (hs : Linger.Step eqv a t act a') : a'.vals i = some v ∨ a'.vals i = none := by
  have snd := h.sound refl symm
  have bad : ∀ {f : Linger.Call K} {rest : List (Linger.Call K)} {j : Nat}, a.thr[t]? = some (f :: rest) →
      ((∃ c k loc, f = .build c k j loc) ∨ ∃ c k loc, f = .built c k j loc) → i ≠ j := by
    intro f rest j ht hfj hij
    subst hij
    have hc := snd.calls f (List.mem_flatten.2 ⟨_, List.mem_of_getElem? ht, List.mem_cons_self⟩)
    rcases hfj with ⟨c, k, loc, rfl⟩ | ⟨c, k, loc, rfl⟩
    all_goals
      obtain ⟨⟨u, h1, h2, _⟩, _⟩ := hc
      rw [hv] at h1
      cases h1
      rw [hf] at h2
      cases h2
  have set : ∀ {j : Nat} {u : Option (Linger.Val K)}, i ≠ j → Linger.setVal a.vals j u i = some v := by
    intro j u hij
    simp only [Linger.setVal, if_neg hij]
    exact hv
  cases hs with
  | @collect c j u rest ht hu hc hr =>
    by_cases hj : i = j
    · exact .inr (by simp [Linger.setVal, hj])
    · exact .inl (set hj)
  | @keep c k loc rest j ht hfree hn hr => exact .inl (set fun hij => by rw [hij, hn] at hv; cases hv)
  | @start c k loc rest j ht hfree hn hr => exact .inl (set fun hij => by rw [hij, hn] at hv; cases hv)
  | @store c k loc rest j u ht hu => exact .inl (set (bad ht (.inr ⟨_, _, _, rfl⟩)))
  | @finish c k j loc rest u mask dr ht hu => exact .inl (set (bad ht (.inl ⟨_, _, _, rfl⟩)))
  | _ => exact .inl hv

namespace CF

/-- Flyweights with atomic operations: a value that no flyweight refers to, a thread that makes a flyweight from the same key, and
a collector.  (No code of its own: used in an example.) -/
def lingering : Linger.St Nat :=
  ⟨Linger.setVal (fun _ => none) 0 (some ⟨0, 5, [], true⟩), [], [[.create 0 5 []], [.collector 0]]⟩

theorem lingering_run : ∃ l, Linger.Run untracked.eqv (Linger.start 1 [0]) l lingering := by
  have h1 := Linger.Run.nil (eqv := untracked.eqv) (a := Linger.start 1 [0])
  have h2 := h1.snoc (.create (t := 0) (c := 0) (k := 5) (mask := []) (pre := true) (st := []) rfl rfl)
  have h3 := h2.snoc (.keep (t := 0) (c := 0) (k := 5) (loc := []) (rest := []) (h := 0) rfl (fun _ _ h => by cases h) rfl (by
    rintro (⟨w, hw, _⟩ | ⟨i, v, hv, _⟩ | ⟨st, hst, f, hf, h⟩)
    · cases hw
    · cases hv
    · have : st ∈ [[Linger.Call.create 0 5 []], [.collector 0]] := hst
      simp only [List.mem_cons, List.not_mem_nil, or_false] at this
      rcases this with rfl | rfl
      · rw [List.mem_singleton.1 hf] at h
        cases h
      · rw [List.mem_singleton.1 hf] at h
        cases h))
  have h4 := h3.snoc (.ret (t := 0) (w := ⟨0, 0, 5⟩) (rest := []) rfl)
  have h5 := h4.snoc (.destroy (t := 0) (mask := [true]) (st := []) rfl rfl)
  have h6 := h5.snoc (.drop (t := 0) (h := 0) (rest := []) rfl)
  have h7 := h6.snoc (.create (t := 0) (c := 0) (k := 5) (mask := []) (pre := true) (st := []) rfl rfl)
  exact ⟨_, h7⟩

theorem lingering_unref : ¬ lingering.Referenced 0 := by
  rintro (⟨w, hw, _⟩ | ⟨i, v, hv, w, hw, _⟩ | ⟨st, hst, f, hf, h⟩)
  · cases hw
  · simp only [lingering, Linger.setVal] at hv
    split at hv <;> cases hv
    cases hw
  · have : st ∈ [[Linger.Call.create 0 5 []], [.collector 0]] := hst
    simp only [List.mem_cons, List.not_mem_nil, or_false] at this
    rcases this with rfl | rfl
    · rw [List.mem_singleton.1 hf] at h
      cases h
    · rw [List.mem_singleton.1 hf] at h
      cases h

/-- A key without value stays behind, and a thread makes a flyweight from the same key.  (No code of its own: used in an
example.) -/
def behind : Linger.St Nat :=
  ⟨Linger.setVal (fun _ => none) 0 (some ⟨0, 5, [], false⟩), [], [[.create 0 5 []]]⟩

theorem behind_build : ∃ l, Linger.Run untracked.eqv (Linger.start 1 []) l
    ⟨Linger.setVal (fun _ => none) 0 (some ⟨0, 5, [], false⟩), [], [[.build 0 5 0 []]]⟩ := by
  have h1 := Linger.Run.nil (eqv := untracked.eqv) (a := Linger.start 1 [])
  have h2 := h1.snoc (.create (t := 0) (c := 0) (k := 5) (mask := []) (pre := false) (st := []) rfl rfl)
  have h3 := h2.snoc (.start (t := 0) (c := 0) (k := 5) (loc := []) (rest := []) (h := 0) rfl (fun _ _ h => by cases h) rfl (by
    rintro (⟨w, hw, _⟩ | ⟨i, v, hv, _⟩ | ⟨st, hst, f, hf, h⟩)
    · cases hw
    · cases hv
    · have : st ∈ [[Linger.Call.create 0 5 []]] := hst
      rw [List.mem_singleton.1 this] at hf
      rw [List.mem_singleton.1 hf] at h
      cases h))
  exact ⟨_, h3⟩

theorem behind_run : ∃ l, Linger.Run untracked.eqv (Linger.start 1 []) l behind := by
  obtain ⟨l, h3⟩ := behind_build
  have h4 := h3.snoc (.throwBuild (t := 0) (c := 0) (k := 5) (h := 0) (loc := []) (rest := []) rfl)
  have h5 := h4.snoc (.create (t := 0) (c := 0) (k := 5) (mask := []) (pre := false) (st := []) rfl rfl)
  exact ⟨_, h5⟩

theorem behind_unref : ¬ behind.Referenced 0 := by
  rintro (⟨w, hw, _⟩ | ⟨i, v, hv, w, hw, _⟩ | ⟨st, hst, f, hf, h⟩)
  · cases hw
  · simp only [behind, Linger.setVal] at hv
    split at hv <;> cases hv
    cases hw
  · have : st ∈ [[Linger.Call.create 0 5 []]] := hst
    rw [List.mem_singleton.1 this] at hf
    rw [List.mem_singleton.1 hf] at h
    cases h

end CF

/-- In the example above the lingering value is the only one with its key. -/
example : ∀ j v, CF.lingering.vals j = some v → v.core = 0 → CF.untracked.eqv 0 5 v.key = true → 0 = j := by
  obtain ⟨l, hl⟩ := CF.lingering_run
  exact fun j v hv hc hk =>
    (C57_meaning CF.untrackedOk.refl CF.untrackedOk.symm hl).2.2 0 j ⟨0, 5, [], true⟩ v rfl hv hc.symm hk

/-- The lingering value can be shared again, and nothing else, ... -/
example : ∃ a', Linger.Step CF.untracked.eqv CF.lingering 0 .run a' ∧
    ∀ a'', Linger.Step CF.untracked.eqv CF.lingering 0 .run a'' → a'' = a' := by
  obtain ⟨l, hl⟩ := CF.lingering_run
  refine ⟨_, .share (c := 0) (k := 5) (loc := []) (rest := []) (h := 0) rfl rfl rfl rfl rfl, fun a'' h => ?_⟩
  exact C57_share CF.untrackedOk.refl CF.untrackedOk.symm CF.untrackedOk.trans hl (i := 0) rfl rfl rfl rfl rfl h

/-- ... or be removed by the collector; once shared it is not. -/
example : ∃ a' a'', Linger.Step CF.untracked.eqv CF.lingering 1 .run a' ∧ a'.vals 0 = none ∧
    Linger.Step CF.untracked.eqv CF.lingering 0 .run a'' ∧
    ∀ t act b, Linger.Step CF.untracked.eqv a'' t act b → b.vals 0 ≠ none := by
  refine ⟨_, _, .collect (c := 0) (rest := []) (h := 0) rfl rfl rfl CF.lingering_unref, rfl,
    .share (c := 0) (k := 5) (loc := []) (rest := []) (h := 0) rfl rfl rfl rfl rfl, fun t act b hb hn => ?_⟩
  obtain ⟨_, h2, _⟩ := C57_vanish (i := 0) (v := ⟨0, 5, [], true⟩) rfl hb hn
  exact h2 (.inr (.inr ⟨[.made ⟨0, 0, 5⟩ []], by simp [Linger.St.go, CF.lingering], _, List.mem_cons_self, List.mem_cons_self⟩))

/-- The key left behind gets a value at the next attempt. -/
example : ∃ a', Linger.Step CF.untracked.eqv CF.behind 0 .run a' ∧ a'.thr = [[.build 0 5 0 []]] ∧
    ∀ a'', Linger.Step CF.untracked.eqv CF.behind 0 .run a'' → a'' = a' := by
  obtain ⟨l, hl⟩ := CF.behind_run
  refine ⟨_, .resume (c := 0) (k := 5) (loc := []) (rest := []) (h := 0) rfl rfl rfl CF.behind_unref rfl rfl, rfl, fun a'' h => ?_⟩
  exact (C57_resume CF.untrackedOk.refl CF.untrackedOk.symm CF.untrackedOk.trans hl (i := 0) rfl rfl rfl rfl rfl h).2

/-- While it is being constructed, no flyweight refers to it. -/
example : ∃ l a, Linger.Run CF.untracked.eqv (Linger.start 1 []) l a ∧ a.thr = [[.build 0 5 0 []]] ∧ ∀ w ∈ a.objs, w.h ≠ 0 := by
  obtain ⟨l, hl⟩ := CF.behind_build
  exact ⟨l, _, hl, rfl, (C57_alone CF.untrackedOk.refl CF.untrackedOk.symm hl (t := 0) rfl List.mem_cons_self).2.1⟩

/-- The lingering value stays what it is when shared. -/
example : ∃ a', Linger.Step CF.untracked.eqv CF.lingering 0 .run a' ∧
    (a'.vals 0 = some ⟨0, 5, [], true⟩ ∨ a'.vals 0 = none) := by
  obtain ⟨l, hl⟩ := CF.lingering_run
  have hs := Linger.Step.share (eqv := CF.untracked.eqv) (a := CF.lingering) (t := 0) (c := 0) (k := 5) (loc := []) (rest := [])
    (h := 0) rfl rfl rfl rfl rfl
  exact ⟨_, hs, C57_constant CF.untrackedOk.refl CF.untrackedOk.symm hl rfl rfl hs⟩

end Verif.Props

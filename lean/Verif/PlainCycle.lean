import Verif.PlainRank

/-!
# Flyweights without tracking, used by several threads: threads along a cycle of types
-/

set_option autoImplicit false

namespace Verif.Plain
open Verif.Conc (Fw Act Cfg CfgOk pick acquire unlock)
variable {K : Type} {cfg : Cfg K} {uses : Nat → Nat → Prop}

theorem find_none_of {s : St K} {c : Nat} {k : K} (h : ∀ e x, s.ents e = some x → x.core ≠ c) : find cfg s c k = none := by
  unfold find
  rw [List.find?_eq_none]
  intro e _
  cases he : s.ents e with
  | none => simp
  | some x => simp [h e x he]

/-- Making a flyweight of a type whose mutex is free and that has no entries, up to the call of the constructor of its value. -/
theorem enter (hlk : cfg.locking = true) {n : Nat} {s : St K} (hr : Reachable cfg uses n s) {t : Nat} {st : List (Frame K)}
    (ht : s.thr[t]? = some st) (hu : inUser st = true) {c : Nat} (k : K)
    (hc : ∀ c' k' e rest, st = .user c' k' e :: rest → uses c' c) (hfree : s.lock c = none)
    (hents : ∀ e x, s.ents e = some x → x.core ≠ c) :
    ∃ s' e, Reachable cfg uses n s' ∧ s'.thr = s.thr.set t (.user c k e :: st) ∧
      s'.lock = (fun i => if i = c then some (t, 1) else s.lock i) ∧
      ∀ e x, s'.ents e = some x → x.core = c ∨ s.ents e = some x := by
  have hlt : t < s.thr.length := by
    rw [List.getElem?_eq_some_iff] at ht
    exact ht.1
  have hp : pick [] s.objs = ([], s.objs) := by cases s.objs <;> rfl
  have set0 : ∀ a : List (Frame K), (s.thr.set t a)[t]? = some a := fun a => by rw [List.getElem?_set_self hlt]
  let lock' : Nat → Option (Nat × Nat) := fun i => if i = c then some (t, 1) else s.lock i
  let s1 : St K := { s with thr := s.thr.set t (.lock c k [] false :: st) }
  let s2 : St K := { s with lock := lock', thr := s.thr.set t (.find c k [] false :: st) }
  let s3 : St K := { s with
    ents := setEnt s.ents s.next (some ⟨c, k, false, [], s.clock⟩), next := s.next + 1, lock := lock',
    thr := s.thr.set t (.visit c k s.next [] true :: st) }
  let s4 : St K := { s3 with thr := s.thr.set t (.user c k s.next :: st) }
  have t1 : s1.thr[t]? = some (.lock c k [] false :: st) := set0 _
  have t2 : s2.thr[t]? = some (.find c k [] false :: st) := set0 _
  have t3 : s3.thr[t]? = some (.visit c k s.next [] true :: st) := set0 _
  have r1 : Reachable cfg uses n s1 := by
    refine .step (a := .create c k [] false) hr ht hc ?_
    simp [step, ht, act, hu, hp, s1]
  have r2 : Reachable cfg uses n s2 := by
    refine .step (a := .run) r1 t1 trivial ?_
    have ha : acquire cfg s1.lock t c = some lock' := by simp [acquire, hlk, s1, hfree, lock']
    simp only [step, t1, act, lib, ha]
    simp [s1, s2]
  have hf : find cfg s2 c k = none := find_none_of fun e x hx => hents e x hx
  have r3 : Reachable cfg uses n s3 := by
    refine .step (a := .run) r2 t2 trivial ?_
    simp only [step, t2, act, lib, hf]
    simp [s2, s3]
  have r4 : Reachable cfg uses n s4 := by
    refine .step (a := .run) r3 t3 trivial ?_
    have he : s3.ents s.next = some ⟨c, k, false, [], s.clock⟩ := setEnt_same _ _ _
    simp only [step, t3, act, lib, he]
    simp [s3, s4]
  refine ⟨s4, s.next, r4, rfl, rfl, fun e x hx => ?_⟩
  by_cases he : e = s.next
  · subst he
    have h1 : s4.ents s.next = some ⟨c, k, false, [], s.clock⟩ := setEnt_same _ _ _
    rw [h1] at hx
    cases hx
    exact .inl rfl
  · have : s4.ents e = s.ents e := setEnt_ne _ _ he
    rw [this] at hx
    exact .inr hx

/-- A value constructor is about to make a flyweight. -/
theorem ask {n : Nat} {s : St K} (hr : Reachable cfg uses n s) {t c c' e : Nat} {k0 : K} {rest : List (Frame K)}
    (ht : s.thr[t]? = some (.user c k0 e :: rest)) (hc : uses c c') (k : K) :
    Reachable cfg uses n { s with thr := s.thr.set t (.lock c' k [] false :: .user c k0 e :: rest) } := by
  have hp : pick [] s.objs = ([], s.objs) := by cases s.objs <;> rfl
  refine .step (a := .create c' k [] false) hr ht ?_ ?_
  · intro c1 k1 e1 rest1 h
    cases h
    exact hc
  · simp [step, ht, act, inUser, hp]

/-! ## Threads along a cycle of types -/

/-- Threads before `m` are constructing values, each of its type; the others are outside the library.  (No code of its own: used in
statements and proofs.) -/
structure Begun (ty : Nat → Nat) (k : K) (n m : Nat) (s : St K) : Prop where
  len : s.thr.length = n
  busy : ∀ t, t < m → ∃ e, s.thr[t]? = some [.user (ty t) k e]
  idle : ∀ t, m ≤ t → t < n → s.thr[t]? = some []
  held : ∀ t, t < m → s.lock (ty t) = some (t, 1)
  free : ∀ c, (∀ t, t < m → ty t ≠ c) → s.lock c = none
  ents : ∀ e x, s.ents e = some x → ∃ t, t < m ∧ x.core = ty t

theorem all_begun (hlk : cfg.locking = true) {n : Nat} {ty : Nat → Nat} (hinj : ∀ i j, i < n → j < n → ty i = ty j → i = j) (k : K) :
    ∀ m, m ≤ n → ∃ s : St K, Reachable cfg uses n s ∧ Begun ty k n m s := by
  intro m
  induction m with
  | zero =>
    intro _
    refine ⟨start n, .start, ⟨by simp [start], by omega, fun t _ ht => by simp [start, ht], by omega, fun c _ => rfl, fun e x hx => by cases hx⟩⟩
  | succ m ih =>
    intro hm
    obtain ⟨s, hr, hb⟩ := ih (by omega)
    have hne : ∀ t, t < m → ty t ≠ ty m := fun t ht h => by
      have := hinj t m (by omega) (by omega) h
      omega
    obtain ⟨s', e, h1, h2, h3, h4⟩ := enter (c := ty m) hlk hr (hb.idle m (Nat.le_refl _) (by omega)) rfl k (fun c' k' e rest h => by cases h)
      (hb.free _ hne) fun e x hx h => by
        obtain ⟨t, ht, hxt⟩ := hb.ents e x hx
        exact hne t ht (hxt.symm.trans h)
    have hml : m < s.thr.length := by rw [hb.len]; omega
    refine ⟨s', h1, ⟨by rw [h2, List.length_set, hb.len], fun t ht => ?_, fun t ht htn => ?_, fun t ht => ?_, fun c hc => ?_, fun e x hx => ?_⟩⟩
    · by_cases h : t = m
      · subst h
        exact ⟨e, by rw [h2, List.getElem?_set_self hml]⟩
      · obtain ⟨e', he'⟩ := hb.busy t (by omega)
        exact ⟨e', by rw [h2, List.getElem?_set_ne (by omega)]; exact he'⟩
    · rw [h2, List.getElem?_set_ne (by omega)]
      exact hb.idle t (by omega) htn
    · rw [h3]
      by_cases h : t = m
      · simp [h]
      · simp [hne t (by omega), hb.held t (by omega)]
    · rw [h3]
      have : c ≠ ty m := fun h => hc m (by omega) h.symm
      simp only [this, if_false]
      exact hb.free c fun t ht => hc t (by omega)
    · rcases h4 e x hx with h5 | h5
      · exact ⟨m, by omega, h5⟩
      · obtain ⟨t, ht, hxt⟩ := hb.ents e x h5
        exact ⟨t, by omega, hxt⟩

/-- ... and the constructors of threads before `m` ask for flyweights of the next type. -/
theorem all_ask {n : Nat} {ty : Nat → Nat} (huse : ∀ i, i < n → uses (ty i) (ty ((i + 1) % n))) (k : K)
    {s : St K} (hr : Reachable cfg uses n s) (hb : Begun ty k n n s) : ∀ m, m ≤ n →
    ∃ s', Reachable cfg uses n s' ∧ s'.lock = s.lock ∧ s'.thr.length = n ∧
      (∀ t, t < m → ∃ e, s'.thr[t]? = some [.lock (ty ((t + 1) % n)) k [] false, .user (ty t) k e]) ∧
      (∀ t, m ≤ t → s'.thr[t]? = s.thr[t]?) := by
  intro m
  induction m with
  | zero => intro _; exact ⟨s, hr, rfl, hb.len, by omega, fun t _ => rfl⟩
  | succ m ih =>
    intro hm
    obtain ⟨s', h1, h2, h3, h4, h5⟩ := ih (by omega)
    obtain ⟨e, he⟩ := hb.busy m (by omega)
    have ht : s'.thr[m]? = some [.user (ty m) k e] := by rw [h5 m (Nat.le_refl _)]; exact he
    refine ⟨_, ask h1 ht (huse m (by omega)) k, h2, by simpa using h3, fun t htm => ?_, fun t htm => ?_⟩
    · by_cases h : t = m
      · subst h
        exact ⟨e, by rw [List.getElem?_set_self (by omega)]⟩
      · obtain ⟨e', he'⟩ := h4 t (by omega)
        exact ⟨e', by rw [List.getElem?_set_ne (by omega)]; exact he'⟩
    · rw [List.getElem?_set_ne (by omega)]
      exact h5 t (by omega)

end Verif.Plain

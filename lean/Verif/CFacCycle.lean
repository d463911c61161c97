import Verif.CFacRank

/-!
# `concurrent_factory`: threads along a cycle of types whose constructors make flyweights of the next
-/

set_option autoImplicit false

namespace Verif.CFac
open Verif.Conc (Fw Cfg CfgOk pick acquire unlock)
variable {K : Type} {cfg : Cfg K} {calls has : Nat → Nat → Prop}

theorem find_none_of {s : St K} {c : Nat} {k : K} (h : ∀ e x, s.ents e = some x → x.core ≠ c) : find cfg s c k = none := by
  unfold find
  rw [List.find?_eq_none]
  intro e _
  cases he : s.ents e with
  | none => simp
  | some x => simp [h e x he]

/-- Making a flyweight of a type whose mutex is free and that has no equivalent entry, up to the call of the constructor of its value. -/
theorem enter' {n : Nat} {gcs : List Nat} {s : St K} (hr : Reachable cfg calls has n gcs s) {t : Nat}
    (ht : s.thr[t]? = some []) {c : Nat} (k : K) (hfree : s.lock c = none) (hfind : find cfg s c k = none) :
    ∃ s', Reachable cfg calls has n gcs s' ∧ s'.thr = s.thr.set t [.insUser c k s.next []] ∧
      s'.lock = (if cfg.locking then fun i => if i = c then some (t, 1) else s.lock i else s.lock) ∧
      s'.ents = setEnt s.ents s.next (some ⟨c, k, false, [], 0, 0⟩) ∧ s'.vis = setVis s.vis s.next (some t) := by
  have hlt : t < s.thr.length := by
    rw [List.getElem?_eq_some_iff] at ht
    exact ht.1
  have hp : pick [] s.objs = ([], s.objs) := by cases s.objs <;> rfl
  have set0 : ∀ a : List (Frame K), (s.thr.set t a)[t]? = some a := fun a => by rw [List.getElem?_set_self hlt]
  let lock' : Nat → Option (Nat × Nat) := if cfg.locking then fun i => if i = c then some (t, 1) else s.lock i else s.lock
  let s1 : St K := { s with thr := s.thr.set t [.insLock c k [] false] }
  let s2 : St K := { s with lock := lock', thr := s.thr.set t [.insHash c k [] false] }
  let s2' : St K := { s with lock := lock', thr := s.thr.set t [.insFind c k [] false] }
  let s3 : St K := { s with
    ents := setEnt s.ents s.next (some ⟨c, k, false, [], 0, 0⟩), vis := setVis s.vis s.next (some t), next := s.next + 1, lock := lock',
    thr := s.thr.set t [.insVisit c k s.next []] }
  let s4 : St K := { s3 with thr := s.thr.set t [.insUser c k s.next []] }
  have t1 : s1.thr[t]? = some [.insLock c k [] false] := set0 _
  have t2 : s2.thr[t]? = some [.insHash c k [] false] := set0 _
  have t2' : s2'.thr[t]? = some [.insFind c k [] false] := set0 _
  have t3 : s3.thr[t]? = some [.insVisit c k s.next []] := set0 _
  have r1 : Reachable cfg calls has n gcs s1 := by
    refine .step (a := .create c k [] false) hr ht ⟨by rw [hp]; simp, fun _ _ _ _ _ h => by cases h⟩ ?_
    simp [step, ht, act, inUser, hp, s1]
  have r2 : Reachable cfg calls has n gcs s2 := by
    refine .step (a := .run) r1 t1 trivial ?_
    have ha : acquire cfg s1.lock t c = some lock' := by
      cases hl : cfg.locking <;> simp [acquire, hl, s1, hfree, lock']
    simp only [step, t1, act, lib, ha]
    simp [s1, s2]
  have r2' : Reachable cfg calls has n gcs s2' := by
    refine .step (a := .run) r2 t2 trivial ?_
    simp only [step, t2, act, lib]
    simp [s2, s2']
  have hf : find cfg s2' c k = none := hfind
  have r3 : Reachable cfg calls has n gcs s3 := by
    refine .step (a := .run) r2' t2' trivial ?_
    simp only [step, t2', act, lib, hf]
    simp [s2', s3]
  have r4 : Reachable cfg calls has n gcs s4 := by
    refine .step (a := .run) r3 t3 trivial ?_
    have he : s3.ents s.next = some ⟨c, k, false, [], 0, 0⟩ := by simp [s3, setEnt]
    simp only [step, t3, act, lib, he]
    simp [s3, s4]
  exact ⟨s4, r4, rfl, rfl, rfl, rfl⟩

/-- The same for a type that has no entries. -/
theorem enter {n : Nat} {gcs : List Nat} {s : St K} (hr : Reachable cfg calls has n gcs s) {t : Nat}
    (ht : s.thr[t]? = some []) {c : Nat} (k : K) (hfree : s.lock c = none)
    (hents : ∀ e x, s.ents e = some x → x.core ≠ c) :
    ∃ s', Reachable cfg calls has n gcs s' ∧ s'.thr = s.thr.set t [.insUser c k s.next []] ∧
      s'.lock = (if cfg.locking then fun i => if i = c then some (t, 1) else s.lock i else s.lock) ∧
      s'.ents = setEnt s.ents s.next (some ⟨c, k, false, [], 0, 0⟩) ∧ s'.vis = setVis s.vis s.next (some t) :=
  enter' hr ht k hfree (find_none_of hents)

/-- A value constructor is about to make a flyweight of another type: it locks the mutex, and without locking gets to the
container. -/
theorem ask {n : Nat} {gcs : List Nat} {s : St K} (hr : Reachable cfg calls has n gcs s) {t c c' e : Nat} {k0 : K}
    (ht : s.thr[t]? = some [.insUser c k0 e []]) (hc : calls c c') (k : K) :
    Reachable cfg calls has n gcs { s with
      thr := s.thr.set t [if cfg.locking then .insLock c' k [] false else .insFind c' k [] false, .insUser c k0 e []] } := by
  have hlt : t < s.thr.length := by
    rw [List.getElem?_eq_some_iff] at ht
    exact ht.1
  have hp : pick [] s.objs = ([], s.objs) := by cases s.objs <;> rfl
  have set0 : ∀ a : List (Frame K), (s.thr.set t a)[t]? = some a := fun a => by rw [List.getElem?_set_self hlt]
  let s1 : St K := { s with thr := s.thr.set t [.insLock c' k [] false, .insUser c k0 e []] }
  let s2 : St K := { s with thr := s.thr.set t [.insHash c' k [] false, .insUser c k0 e []] }
  have t1 : s1.thr[t]? = some [.insLock c' k [] false, .insUser c k0 e []] := set0 _
  have t2 : s2.thr[t]? = some [.insHash c' k [] false, .insUser c k0 e []] := set0 _
  have r1 : Reachable cfg calls has n gcs s1 := by
    refine .step (a := .create c' k [] false) hr ht ⟨by rw [hp]; simp, ?_⟩ ?_
    · intro c1 k1 e1 loc1 rest1 h
      cases h
      exact hc
    · simp [step, ht, act, inUser, hp, s1]
  cases hl : cfg.locking with
  | true => exact r1
  | false =>
    have r2 : Reachable cfg calls has n gcs s2 := by
      refine .step (a := .run) r1 t1 trivial ?_
      have ha : acquire cfg s1.lock t c' = some s.lock := by simp [acquire, hl, s1]
      simp only [step, t1, act, lib, ha]
      simp [s1, s2]
    refine .step (a := .run) r2 t2 trivial ?_
    simp only [step, t2, act, lib]
    simp [s2]

/-- Threads before `m` are constructing values, each of its type; the others are outside the library.  (No code of its own: used in
statements and proofs.) -/
structure Begun (cfg : Cfg K) (ty : Nat → Nat) (k : K) (n m : Nat) (s : St K) : Prop where
  len : n ≤ s.thr.length
  busy : ∀ t, t < m → ∃ e, s.thr[t]? = some [.insUser (ty t) k e []] ∧ s.vis e = some t ∧ ∃ x, s.ents e = some x ∧ x.core = ty t ∧ x.key = k
  idle : ∀ t, m ≤ t → t < n → s.thr[t]? = some []
  held : cfg.locking = true → ∀ t, t < m → s.lock (ty t) = some (t, 1)
  free : ∀ c, (∀ t, t < m → ty t ≠ c) → s.lock c = none
  ents : ∀ e x, s.ents e = some x → ∃ t, t < m ∧ x.core = ty t ∧ s.vis e = some t
  gcs : ∀ t, n ≤ t → s.thr[t]? = none ∨ ∃ c, s.thr[t]? = some [.gcIdle c]

theorem all_begun (hcfg : CfgOk cfg) {n : Nat} {gcs : List Nat} {ty : Nat → Nat} (hinj : ∀ i j, i < n → j < n → ty i = ty j → i = j) (k : K) :
    ∀ m, m ≤ n → ∃ s : St K, Reachable cfg calls has n gcs s ∧ Begun cfg ty k n m s := by
  intro m
  induction m with
  | zero =>
    intro _
    refine ⟨start n gcs, .start, ⟨by simp [start], by omega, fun t _ ht => ?_, by omega, fun c _ => rfl, fun e x hx => (by cases hx), fun t ht => ?_⟩⟩
    · simp [start, List.getElem?_append, ht]
    · cases h : (start n gcs : St K).thr[t]? with
      | none => exact .inl rfl
      | some st =>
        simp only [start] at h
        rw [List.getElem?_append_right (by simpa using ht), List.getElem?_map, Option.map_eq_some_iff] at h
        obtain ⟨c, _, h⟩ := h
        exact .inr ⟨c, by rw [h]⟩
  | succ m ih =>
    intro hm
    obtain ⟨s, hr, hb⟩ := ih (by omega)
    have hne : ∀ t, t < m → ty t ≠ ty m := fun t ht h => by
      have := hinj t m (by omega) (by omega) h
      omega
    have hnew : s.ents s.next = none := (hr.inv hcfg).1.core.bound _ (Nat.le_refl _)
    obtain ⟨s', h1, h2, h3, h4, h5⟩ := enter (c := ty m) hr (hb.idle m (Nat.le_refl _) (by omega)) k
      (hb.free _ hne) fun e x hx h => by
        obtain ⟨t, ht, hxt, _⟩ := hb.ents e x hx
        exact hne t ht (hxt.symm.trans h)
    have hml : m < s.thr.length := by have := hb.len; omega
    have old : ∀ e, e ≠ s.next → s'.ents e = s.ents e ∧ s'.vis e = s.vis e := fun e he => by simp [h4, h5, setEnt, setVis, he]
    have new : s'.ents s.next = some ⟨ty m, k, false, [], 0, 0⟩ ∧ s'.vis s.next = some m := by simp [h4, h5, setEnt, setVis]
    refine ⟨s', h1, ⟨by rw [h2, List.length_set]; exact hb.len, fun t ht => ?_, fun t ht htn => ?_, fun hl t ht => ?_, fun c hc => ?_, fun e x hx => ?_,
      fun t ht => by rw [h2, List.getElem?_set_ne (by omega)]; exact hb.gcs t ht⟩⟩
    · by_cases h : t = m
      · subst h
        exact ⟨s.next, by rw [h2, List.getElem?_set_self hml], new.2, _, new.1, rfl, rfl⟩
      · obtain ⟨e', he', hv, x, hx, hx'⟩ := hb.busy t (by omega)
        have hne' : e' ≠ s.next := fun h => by rw [h, hnew] at hx; cases hx
        exact ⟨e', by rw [h2, List.getElem?_set_ne (by omega)]; exact he', by rw [(old e' hne').2]; exact hv, x,
          by rw [(old e' hne').1]; exact hx, hx'⟩
    · rw [h2, List.getElem?_set_ne (by omega)]
      exact hb.idle t (by omega) htn
    · rw [h3, if_pos hl]
      by_cases h : t = m
      · simp [h]
      · simp [hne t (by omega), hb.held hl t (by omega)]
    · have hc' : c ≠ ty m := fun h => hc m (by omega) h.symm
      have := hb.free c fun t ht => hc t (by omega)
      rw [h3]
      split
      · simp only [hc', if_false]
        exact this
      · exact this
    · by_cases he : e = s.next
      · subst he
        rw [new.1] at hx
        cases hx
        exact ⟨m, by omega, rfl, new.2⟩
      · rw [(old e he).1] at hx
        obtain ⟨t, ht, h6, h7⟩ := hb.ents e x hx
        exact ⟨t, by omega, h6, by rw [(old e he).2]; exact h7⟩

/-- ... and the constructors of threads before `m` ask for flyweights of the next type. -/
theorem all_ask {n : Nat} {gcs : List Nat} {ty : Nat → Nat} (hcall : ∀ i, i < n → calls (ty i) (ty ((i + 1) % n))) (k : K)
    {s : St K} (hr : Reachable cfg calls has n gcs s) (hb : Begun cfg ty k n n s) : ∀ m, m ≤ n →
    ∃ s', Reachable cfg calls has n gcs s' ∧ s'.lock = s.lock ∧ s'.ents = s.ents ∧ s'.vis = s.vis ∧ s'.thr.length = s.thr.length ∧
      (∀ t, t < m → ∃ e, s'.thr[t]? = some [if cfg.locking then .insLock (ty ((t + 1) % n)) k [] false else
        .insFind (ty ((t + 1) % n)) k [] false, .insUser (ty t) k e []]) ∧
      (∀ t, m ≤ t → s'.thr[t]? = s.thr[t]?) := by
  intro m
  induction m with
  | zero => intro _; exact ⟨s, hr, rfl, rfl, rfl, rfl, by omega, fun t _ => rfl⟩
  | succ m ih =>
    intro hm
    obtain ⟨s', h1, h2, h2', h2'', h3, h4, h5⟩ := ih (by omega)
    obtain ⟨e, he, _⟩ := hb.busy m (by omega)
    have ht : s'.thr[m]? = some [.insUser (ty m) k e []] := by rw [h5 m (Nat.le_refl _)]; exact he
    have := hb.len
    refine ⟨_, ask h1 ht (hcall m (by omega)) k, h2, h2', h2'', by simpa using h3, fun t htm => ?_, fun t htm => ?_⟩ <;> dsimp only
    · by_cases h : t = m
      · subst h
        exact ⟨e, by rw [List.getElem?_set_self (by omega)]⟩
      · obtain ⟨e', he'⟩ := h4 t (by omega)
        exact ⟨e', by rw [List.getElem?_set_ne (by omega)]; exact he'⟩
    · rw [List.getElem?_set_ne (by omega)]
      exact h5 t (by omega)

/-- Nothing has changed but how far the collectors are in their passes, in which they visit no element.  (No code of its own: used in
statements and proofs.) -/
structure Halted (n : Nat) (s s' : St K) : Prop where
  ents : s'.ents = s.ents
  next : s'.next = s.next
  vis : s'.vis = s.vis
  lock : s'.lock = s.lock
  thr : ∀ t, t < n → s'.thr[t]? = s.thr[t]?
  gcs : ∀ t, n ≤ t → s'.thr[t]? = none ∨ ∃ c, s'.thr[t]? = some [.gcIdle c] ∨ ∃ f todo, s'.thr[t]? = some [.gcPass c f todo]

theorem Halted.step {n : Nat} {s s1 s2 : St K} (h : Halted n s s1) (hvis : ∀ e x, s.ents e = some x → s.vis e ≠ none)
    {t : Nat} (ht : n ≤ t) {a : Act K} (hs : CFac.step cfg s1 t a = .ok s2) : Halted n s s2 := by
  have set_ : ∀ st : List (Frame K), (∃ c, st = [.gcIdle c] ∨ ∃ f todo, st = [.gcPass c f todo]) → Halted n s { s1 with thr := s1.thr.set t st } := by
    intro st hst
    refine ⟨h.ents, h.next, h.vis, h.lock, fun t' ht' => ?_, fun t' ht' => ?_⟩
    · have : t ≠ t' := by omega
      simp only [List.getElem?_set_ne this]
      exact h.thr t' ht'
    · by_cases he : t = t'
      · subst he
        by_cases hl : t < s1.thr.length
        · simp only [List.getElem?_set_self hl]
          obtain ⟨c, rfl | ⟨f, todo, rfl⟩⟩ := hst
          · exact .inr ⟨c, .inl rfl⟩
          · exact .inr ⟨c, .inr ⟨f, todo, rfl⟩⟩
        · left
          exact List.getElem?_eq_none (by simp; omega)
      · simp only [List.getElem?_set_ne he]
        exact h.gcs t' ht'
  rcases h.gcs t ht with hn | ⟨c, hi | ⟨f, todo, hp⟩⟩
  · simp [CFac.step, hn] at hs
  · cases a with
    | run =>
      simp only [CFac.step, hi, act, lib] at hs
      cases hs
      exact set_ _ ⟨c, .inr ⟨_, _, rfl⟩⟩
    | _ => simp [CFac.step, hi, act, inUser] at hs
  · cases a with
    | run =>
      simp only [CFac.step, hp, act, lib] at hs
      split at hs
      · cases hs
        exact set_ _ ⟨c, .inl rfl⟩
      · cases hs
    | gcVisit e =>
      simp only [CFac.step, hp, act] at hs
      split at hs
      · cases hs
      · rename_i x hx
        split at hs
        · rename_i hc
          rw [h.ents] at hx
          rw [h.vis] at hc
          exact absurd hc.2.2 (hvis e x hx)
        · cases hs
    | _ => simp [CFac.step, hp, act, inUser] at hs

/-- If threads before `n` cannot do anything, they never can. -/
theorem Halted.exec {n : Nat} {s : St K} (hvis : ∀ e x, s.ents e = some x → s.vis e ≠ none)
    (hno : ∀ s', Halted n s s' → ∀ t, t < n → ∀ a, CFac.step cfg s' t a = .no) {acts : List (Nat × Act K)} {s1 s2 : St K}
    (h : Halted n s s1) (he : CFac.exec cfg acts s1 = .ok s2) : Halted n s s2 := by
  induction acts generalizing s1 with
  | nil => cases he; exact h
  | cons p l ih =>
    obtain ⟨t, a⟩ := p
    simp only [CFac.exec] at he
    by_cases ht : t < n
    · rw [hno s1 h t ht a] at he
      exact ih h he
    · cases hs : CFac.step cfg s1 t a with
      | ok s' => rw [hs] at he; exact ih (h.step hvis (by omega) hs) he
      | no => rw [hs] at he; exact ih h he
      | ub => rw [hs] at he; cases he
      | reentrant => rw [hs] at he; cases he

end Verif.CFac

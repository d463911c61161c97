import Verif.ConcRank

/-!
# Mutexes that do not support recursive locking

The documentation requires the mutex of a locking policy to support recursive locking.  Here are executions with a mutex that
does not: locking it again in the thread that holds it is undefined behaviour, as with `std::mutex`.
-/

set_option autoImplicit false

namespace Verif.Conc
variable {K : Type} {cfg : Cfg K} {uses : Nat → Nat → Prop}
open Relation

/-- The next step of thread `t` locks a mutex that the thread holds already.  Models
`lock_type lock(mutex())`, /repo/include/boost/flyweight/detail/flyweight_core.hpp:72, 265, 280, 296, 306, for a locking policy of the user's own. -/
def relocks (s : St K) (t : Nat) : Bool :=
  match s.thr[t]? with
  | some (.insLock c _ _ _ :: _) => (s.lock c).any fun p => p.1 == t
  | some (.relLock c _ :: _) => (s.lock c).any fun p => p.1 == t
  | _ => false

/-- One step of the system if the mutexes do not support recursive locking: locking a mutex
again is undefined.  Requirements on mutexes: /repo/doc/reference/locking.html.  (No code of its own: a locking policy of the
user's own.) -/
def stepOnce (cfg : Cfg K) (s : St K) (t : Nat) : Act K → Out K
  | .run => if relocks s t then .ub else step cfg s t .run
  | a => step cfg s t a

/-- The states that programs respecting `uses` can reach if the mutexes do not support recursive locking.  (No code of its own:
used in statements and proofs.) -/
inductive ReachableOnce (cfg : Cfg K) (uses : Nat → Nat → Prop) (n : Nat) : St K → Prop
  | start : ReachableOnce cfg uses n (start n)
  | step {s s' : St K} {t : Nat} {st : List (Frame K)} {a : Act K} : ReachableOnce cfg uses n s → s.thr[t]? = some st →
      Disc uses s st a → stepOnce cfg s t a = .ok s' → ReachableOnce cfg uses n s'

theorem relocks_iff {s : St K} {t : Nat} : relocks s t = true ↔ ∃ c d, wants s t c ∧ s.lock c = some (t, d) := by
  have key : ∀ c, ((s.lock c).any fun p => p.1 == t) = true ↔ ∃ d, s.lock c = some (t, d) := by
    intro c
    cases hl : s.lock c with
    | none => simp
    | some p =>
      obtain ⟨o, d⟩ := p
      simp only [Option.any_some, beq_iff_eq, Option.some.injEq, Prod.mk.injEq]
      exact ⟨fun h => ⟨d, h, rfl⟩, fun ⟨_, h, _⟩ => h⟩
  constructor
  · intro h
    unfold relocks at h
    split at h
    · rename_i c k loc pre rest ht
      obtain ⟨d, hd⟩ := (key c).1 h
      exact ⟨c, d, .inl ⟨k, loc, pre, rest, ht⟩, hd⟩
    · rename_i c e rest ht
      obtain ⟨d, hd⟩ := (key c).1 h
      exact ⟨c, d, .inr ⟨e, rest, ht⟩, hd⟩
    · cases h
  · rintro ⟨c, d, ⟨k, loc, pre, rest, ht⟩ | ⟨e, rest, ht⟩, hd⟩
    · simp only [relocks, ht]
      exact (key c).2 ⟨d, hd⟩
    · simp only [relocks, ht]
      exact (key c).2 ⟨d, hd⟩

/-- Without cycles no mutex is locked again. -/
theorem not_relocks (hu : ∀ c, ¬TransGen uses c c) {s : St K} (hi : Inv cfg s) (hr : RankInv uses s) (t : Nat) :
    relocks s t = false := by
  rw [Bool.eq_false_iff]
  intro h
  obtain ⟨c, d, hw, hl⟩ := relocks_iff.1 h
  exact hu c (wants_strict hi hr hw hl)

theorem hold_le_one (hu : ∀ c, ¬TransGen uses c c) (c : Nat) : ∀ {st : List (Frame K)}, st.Pairwise (Above uses) →
    tot (holdF c) st ≤ 1
  | [], _ => by simp
  | f :: rest, h => by
    rw [List.pairwise_cons] at h
    have ih := hold_le_one hu c h.2
    rw [tot_cons]
    by_cases hf : holds f = some c
    · have : tot (holdF c) rest = 0 := tot_eq_zero fun g hg => by
        by_cases hg' : holds g = some c
        · have h1 := (h.1 g hg).1 c hg'
          have h2 : typ f = c := by cases f <;> simp_all [holds, typ]
          rw [h2] at h1
          exact absurd h1 (hu c)
        · simp [holdF, hg']
      simp [holdF, hf, this]
    · simp only [holdF, hf, if_false]
      omega

/-! ## Cycles -/

/-- Thread 0 is constructing values, one within another, innermost of type `c`; the mutexes of their types are held.  (No code of its own:
used in statements and proofs.) -/
structure Deep (s : St K) (c : Nat) : Prop where
  top : ∃ k e rest, s.thr[0]? = some (.insUser c k e :: rest)
  ents : ∀ e x, s.ents e = some x → ∃ d, s.lock x.core = some (0, d)
  locks : ∀ c' o d, s.lock c' = some (o, d) → o = 0

theorem find_none_of {s : St K} {c : Nat} {k : K} (h : ∀ e x, s.ents e = some x → x.core ≠ c) : find cfg s c k = none := by
  unfold find
  rw [List.find?_eq_none]
  intro e _
  cases he : s.ents e with
  | none => simp
  | some x => simp [h e x he]

/-- Making a flyweight of a type whose mutex is free and that has no entries, up to the call of the constructor of its value. -/
theorem enter (hlk : cfg.locking = true) {n : Nat} {s : St K} (hr : Reachable cfg uses n s) {t : Nat} {st : List (Frame K)}
    (ht : s.thr[t]? = some st) (hu : inUser st = true) {c : Nat} (k : K)
    (hc : ∀ c' k' e rest, st = .insUser c' k' e :: rest → uses c' c) (hfree : s.lock c = none)
    (hents : ∀ e x, s.ents e = some x → x.core ≠ c) :
    ∃ s' e, Reachable cfg uses n s' ∧ s'.thr = s.thr.set t (.insUser c k e :: st) ∧
      s'.lock = (fun i => if i = c then some (t, 1) else s.lock i) ∧
      ∀ e x, s'.ents e = some x → x.core = c ∨ s.ents e = some x := by
  have hlt : t < s.thr.length := by
    rw [List.getElem?_eq_some_iff] at ht
    exact ht.1
  have hp : pick [] s.objs = ([], s.objs) := by cases s.objs <;> rfl
  have set0 : ∀ a : List (Frame K), (s.thr.set t a)[t]? = some a := fun a => by rw [List.getElem?_set_self hlt]
  let lock' : Nat → Option (Nat × Nat) := fun i => if i = c then some (t, 1) else s.lock i
  let s1 : St K := { s with thr := s.thr.set t (.insLock c k [] false :: st) }
  let s2 : St K := { s with lock := lock', thr := s.thr.set t (.insFind c k [] false :: st) }
  let s3 : St K := { s with
    ents := setEnt s.ents s.next (some ⟨c, k, false, [], 0, 0, s.clock⟩), next := s.next + 1, lock := lock',
    thr := s.thr.set t (.insVisit c k s.next [] true :: st) }
  let s4 : St K := { s3 with thr := s.thr.set t (.insUser c k s.next :: st) }
  have t1 : s1.thr[t]? = some (.insLock c k [] false :: st) := set0 _
  have t2 : s2.thr[t]? = some (.insFind c k [] false :: st) := set0 _
  have t3 : s3.thr[t]? = some (.insVisit c k s.next [] true :: st) := set0 _
  have r1 : Reachable cfg uses n s1 := by
    refine .step (a := .create c k [] false) hr ht ⟨by rw [hp]; simp, hc⟩ ?_
    simp [step, ht, act, hu, hp, s1]
  have r2 : Reachable cfg uses n s2 := by
    refine .step (a := .run) r1 t1 trivial ?_
    have ha : acquire cfg s1.lock t c = some lock' := by simp [acquire, hlk, s1, hfree, lock']
    simp only [step, t1, act, lib, ha]
    simp [s1, s2]
  have hf : find cfg s2 c k = none := find_none_of fun e x hx => hents e x hx
  have r3 : Reachable cfg uses n s3 := by
    refine .step (a := .run) r2 t2 trivial ?_
    simp only [step, t2, act, lib, hf]
    simp [s2, s3]
  have r4 : Reachable cfg uses n s4 := by
    refine .step (a := .run) r3 t3 trivial ?_
    have he : s3.ents s.next = some ⟨c, k, false, [], 0, 0, s.clock⟩ := setEnt_same _ _ _
    simp only [step, t3, act, lib, he]
    simp [s3, s4]
  refine ⟨s4, s.next, r4, rfl, rfl, fun e x hx => ?_⟩
  by_cases he : e = s.next
  · subst he
    have h1 : s4.ents s.next = some ⟨c, k, false, [], 0, 0, s.clock⟩ := setEnt_same _ _ _
    rw [h1] at hx
    cases hx
    exact .inl rfl
  · have : s4.ents e = s.ents e := setEnt_ne _ _ he
    rw [this] at hx
    exact .inr hx

/-- A value constructor is about to make a flyweight. -/
theorem ask {n : Nat} {s : St K} (hr : Reachable cfg uses n s) {t c c' e : Nat} {k0 : K} {rest : List (Frame K)}
    (ht : s.thr[t]? = some (.insUser c k0 e :: rest)) (hc : uses c c') (k : K) :
    Reachable cfg uses n { s with thr := s.thr.set t (.insLock c' k [] false :: .insUser c k0 e :: rest) } := by
  have hp : pick [] s.objs = ([], s.objs) := by cases s.objs <;> rfl
  refine .step (a := .create c' k [] false) hr ht ⟨by rw [hp]; simp, ?_⟩ ?_
  · intro c1 k1 e1 rest1 h
    cases h
    exact hc
  · simp [step, ht, act, inUser, hp]

theorem deepen (hlk : cfg.locking = true) {n : Nat} {s : St K} (hr : Reachable cfg uses n s) {st : List (Frame K)}
    (ht : s.thr[0]? = some st) (hu : inUser st = true) {c : Nat} (k : K)
    (hc : ∀ c' k' e rest, st = .insUser c' k' e :: rest → uses c' c) (hfree : s.lock c = none)
    (hents : ∀ e x, s.ents e = some x → ∃ d, s.lock x.core = some (0, d))
    (hlocks : ∀ c' o d, s.lock c' = some (o, d) → o = 0) :
    ∃ s', Reachable cfg uses n s' ∧ Deep s' c ∧ (∃ d, s'.lock c = some (0, d)) ∧
      ∀ c' d, s.lock c' = some (0, d) → s'.lock c' = some (0, d) := by
  have hlt : 0 < s.thr.length := by
    rw [List.getElem?_eq_some_iff] at ht
    exact ht.1
  obtain ⟨s', e, h1, h2, h3, h4⟩ := enter hlk hr ht hu k hc hfree fun e x hx h => by
    obtain ⟨d, hd⟩ := hents e x hx
    rw [h, hfree] at hd
    cases hd
  have keep : ∀ c' d, s.lock c' = some (0, d) → s'.lock c' = some (0, d) := fun c' d hl => by
    have hne : c' ≠ c := fun h => by rw [h, hfree] at hl; cases hl
    rw [h3]
    simpa [hne] using hl
  have hcl : s'.lock c = some (0, 1) := by rw [h3]; simp
  refine ⟨s', h1, ⟨⟨k, e, st, by rw [h2, List.getElem?_set_self hlt]⟩, fun e x hx => ?_, fun c' o d hl => ?_⟩, ⟨1, hcl⟩, keep⟩
  · rcases h4 e x hx with h5 | h5
    · exact ⟨1, by rw [h5]; exact hcl⟩
    · obtain ⟨d, hd⟩ := hents e x h5
      exact ⟨d, keep _ _ hd⟩
  · rw [h3] at hl
    by_cases h : c' = c
    · simp [h] at hl
      exact hl.1.symm
    · simp [h] at hl
      exact hlocks c' o d hl

/-- A value constructor asks for a flyweight of a type whose mutex the thread holds. -/
theorem relock_of {n : Nat} {s : St K} (hr : Reachable cfg uses n s) {c c' d : Nat} (hd : Deep s c) (hc : uses c c')
    (hl : s.lock c' = some (0, d)) (k : K) : ∃ s', Reachable cfg uses n s' ∧ relocks s' 0 = true := by
  obtain ⟨k0, e, rest, ht⟩ := hd.top
  have hlt : 0 < s.thr.length := by
    rw [List.getElem?_eq_some_iff] at ht
    exact ht.1
  refine ⟨_, ask hr ht hc k, relocks_iff.2 ⟨c', d, .inl ⟨k, [], false, .insUser c k0 e :: rest, ?_⟩, hl⟩⟩
  simp [hlt]

/-- Value constructors that ask, one within another, for flyweights along a cycle of types lock a mutex again. -/
theorem cycle_relocks (hlk : cfg.locking = true) {c0 : Nat} (h : TransGen uses c0 c0) {n : Nat} (hn : 0 < n) (k : K) :
    ∃ s, Reachable cfg uses n s ∧ relocks s 0 = true := by
  have go : ∀ {c : Nat}, TransGen uses c c0 → ∀ s : St K, Reachable cfg uses n s → Deep s c → (∃ d, s.lock c0 = some (0, d)) →
      ∃ s, Reachable cfg uses n s ∧ relocks s 0 = true := by
    intro c hc
    induction hc using TransGen.head_induction_on with
    | single hu =>
      intro s hr hd ⟨d, hl⟩
      exact relock_of hr hd hu hl k
    | @head a b hab _ ih =>
      intro s hr hd ⟨d, hl⟩
      cases hb : s.lock b with
      | some p =>
        obtain ⟨o, d'⟩ := p
        rw [hd.locks b o d' hb] at hb
        exact relock_of hr hd hab hb k
      | none =>
        obtain ⟨k0, e, rest, ht⟩ := hd.top
        obtain ⟨s', h1, h2, _, h4⟩ := deepen hlk hr ht rfl k (fun c' k' e' rest' he => by cases he; exact hab) hb hd.ents hd.locks
        exact ih s' h1 h2 ⟨d, h4 c0 d hl⟩
  have hthr : (start n : St K).thr[0]? = some [] := by
    simp [start, hn]
  obtain ⟨s, h1, h2, h3, _⟩ := deepen (cfg := cfg) (uses := uses) hlk .start hthr rfl (c := c0) k (fun c' k' e rest he => by cases he) rfl
    (fun e x hx => by cases hx) (fun c' o d hl => by cases hl)
  exact go h s h1 h2 h3

/-! ## Threads along a cycle of types -/

/-- Threads before `m` are constructing values, each of its type; the others are outside the library.  (No code of its own: used in
statements and proofs.) -/
structure Begun (ty : Nat → Nat) (k : K) (n m : Nat) (s : St K) : Prop where
  len : s.thr.length = n
  busy : ∀ t, t < m → ∃ e, s.thr[t]? = some [.insUser (ty t) k e]
  idle : ∀ t, m ≤ t → t < n → s.thr[t]? = some []
  held : ∀ t, t < m → s.lock (ty t) = some (t, 1)
  free : ∀ c, (∀ t, t < m → ty t ≠ c) → s.lock c = none
  ents : ∀ e x, s.ents e = some x → ∃ t, t < m ∧ x.core = ty t

theorem all_begun (hlk : cfg.locking = true) {n : Nat} {ty : Nat → Nat} (hinj : ∀ i j, i < n → j < n → ty i = ty j → i = j) (k : K) :
    ∀ m, m ≤ n → ∃ s : St K, Reachable cfg uses n s ∧ Begun ty k n m s := by
  intro m
  induction m with
  | zero =>
    intro _
    refine ⟨start n, .start, ⟨by simp [start], by omega, fun t _ ht => by simp [start, ht], by omega, fun c _ => rfl, fun e x hx => by cases hx⟩⟩
  | succ m ih =>
    intro hm
    obtain ⟨s, hr, hb⟩ := ih (by omega)
    have hne : ∀ t, t < m → ty t ≠ ty m := fun t ht h => by
      have := hinj t m (by omega) (by omega) h
      omega
    obtain ⟨s', e, h1, h2, h3, h4⟩ := enter (c := ty m) hlk hr (hb.idle m (Nat.le_refl _) (by omega)) rfl k (fun c' k' e rest h => by cases h)
      (hb.free _ hne) fun e x hx h => by
        obtain ⟨t, ht, hxt⟩ := hb.ents e x hx
        exact hne t ht (hxt.symm.trans h)
    have hml : m < s.thr.length := by rw [hb.len]; omega
    refine ⟨s', h1, ⟨by rw [h2, List.length_set, hb.len], fun t ht => ?_, fun t ht htn => ?_, fun t ht => ?_, fun c hc => ?_, fun e x hx => ?_⟩⟩
    · by_cases h : t = m
      · subst h
        exact ⟨e, by rw [h2, List.getElem?_set_self hml]⟩
      · obtain ⟨e', he'⟩ := hb.busy t (by omega)
        exact ⟨e', by rw [h2, List.getElem?_set_ne (by omega)]; exact he'⟩
    · rw [h2, List.getElem?_set_ne (by omega)]
      exact hb.idle t (by omega) htn
    · rw [h3]
      by_cases h : t = m
      · simp [h]
      · simp [hne t (by omega), hb.held t (by omega)]
    · rw [h3]
      have : c ≠ ty m := fun h => hc m (by omega) h.symm
      simp only [this, if_false]
      exact hb.free c fun t ht => hc t (by omega)
    · rcases h4 e x hx with h5 | h5
      · exact ⟨m, by omega, h5⟩
      · obtain ⟨t, ht, hxt⟩ := hb.ents e x h5
        exact ⟨t, by omega, hxt⟩

/-- ... and the constructors of threads before `m` ask for flyweights of the next type. -/
theorem all_ask {n : Nat} {ty : Nat → Nat} (huse : ∀ i, i < n → uses (ty i) (ty ((i + 1) % n))) (k : K)
    {s : St K} (hr : Reachable cfg uses n s) (hb : Begun ty k n n s) : ∀ m, m ≤ n →
    ∃ s', Reachable cfg uses n s' ∧ s'.lock = s.lock ∧ s'.thr.length = n ∧
      (∀ t, t < m → ∃ e, s'.thr[t]? = some [.insLock (ty ((t + 1) % n)) k [] false, .insUser (ty t) k e]) ∧
      (∀ t, m ≤ t → s'.thr[t]? = s.thr[t]?) := by
  intro m
  induction m with
  | zero => intro _; exact ⟨s, hr, rfl, hb.len, by omega, fun t _ => rfl⟩
  | succ m ih =>
    intro hm
    obtain ⟨s', h1, h2, h3, h4, h5⟩ := ih (by omega)
    obtain ⟨e, he⟩ := hb.busy m (by omega)
    have ht : s'.thr[m]? = some [.insUser (ty m) k e] := by rw [h5 m (Nat.le_refl _)]; exact he
    refine ⟨_, ask h1 ht (huse m (by omega)) k, h2, by simpa using h3, fun t htm => ?_, fun t htm => ?_⟩
    · by_cases h : t = m
      · subst h
        exact ⟨e, by rw [List.getElem?_set_self (by omega)]⟩
      · obtain ⟨e', he'⟩ := h4 t (by omega)
        exact ⟨e', by rw [List.getElem?_set_ne (by omega)]; exact he'⟩
    · rw [List.getElem?_set_ne (by omega)]
      exact h5 t (by omega)

end Verif.Conc

import Verif.SpecLemmas

/-!
# Two runs of the specification

Two runs of the same program in which the same operations throw have the same results up to
addresses.
-/

set_option autoImplicit false

namespace Verif
variable {K V : Type}

/-- The pairs of triples available for sharing in two states.  (No code of its own: used in
statements and proofs.) -/
def pairs (trk : Tracking) (v : List (Nat × (Bind K V × Bind K V))) (k : List (Bind K V × Bind K V)) :
    List (Bind K V × Bind K V) :=
  match trk with
  | .refcounted => v.map Prod.snd
  | .noTracking => k

/-- The two states are the same up to addresses: `v` pairs the bindings of the variables and `k`
the triples ever created.  (No code of its own: used in statements and proofs.) -/
structure Paired (trk : Tracking) (v : List (Nat × (Bind K V × Bind K V))) (k : List (Bind K V × Bind K V))
    (t t' : SSt K V) : Prop where
  vars : t.vars = v.map fun p => (p.1, p.2.1)
  vars' : t'.vars = v.map fun p => (p.1, p.2.2)
  kept : trk = .noTracking → t.kept = k.map Prod.fst
  kept' : trk = .noTracking → t'.kept = k.map Prod.snd
  sub : ∀ p ∈ v, p.2 ∈ pairs trk v k
  same : ∀ p ∈ pairs trk v k, p.1.key = p.2.key ∧ p.1.val = p.2.val
  inj : ∀ p ∈ pairs trk v k, ∀ q ∈ pairs trk v k, p.1 = q.1 ↔ p.2 = q.2

theorem unique_name {α : Type} {l : List (Nat × α)} (hn : (l.map fun p => p.1).Nodup) {x : Nat} {a b : α}
    (ha : (x, a) ∈ l) (hb : (x, b) ∈ l) : (x, a) = (x, b) := by
  induction l with
  | nil => cases ha
  | cons c l ih =>
    simp only [List.map_cons, List.nodup_cons] at hn
    have hno : ∀ y : α, (c.1, y) ∉ l := fun y hy => hn.1 (List.mem_map.2 ⟨_, hy, rfl⟩)
    rcases List.mem_cons.1 ha with h1 | h1 <;> rcases List.mem_cons.1 hb with h2 | h2
    · exact h1.trans h2.symm
    · subst h1; exact absurd h2 (hno _)
    · subst h2; exact absurd h1 (hno _)
    · exact ih hn.2 h1 h2

namespace Paired
variable {trk : Tracking} {keq : K → K → Bool} {sp : SrcSpec K V} {v : List (Nat × (Bind K V × Bind K V))}
  {k : List (Bind K V × Bind K V)} {t t' : SSt K V}

theorem start (trk : Tracking) : Paired trk [] [] (SSt.start : SSt K V) SSt.start := by
  constructor <;> cases trk <;> simp [SSt.start, pairs]

theorem pool (h : Paired trk v k t t') : t.pool trk = (pairs trk v k).map Prod.fst := by
  cases trk with
  | refcounted => simp [SSt.pool, pairs, h.vars]
  | noTracking => simp [SSt.pool, pairs, h.kept rfl]

theorem pool' (h : Paired trk v k t t') : t'.pool trk = (pairs trk v k).map Prod.snd := by
  cases trk with
  | refcounted => simp [SSt.pool, pairs, h.vars']
  | noTracking => simp [SSt.pool, pairs, h.kept' rfl]

theorem names (h : Paired trk v k t t') : t.names = t'.names := by
  simp [SSt.names, h.vars, h.vars']

/-- The two bindings of a variable are paired. -/
theorem bound (h : Paired trk v k t t') (hok : SOk trk keq t) {x : Nat} {b c : Bind K V} (hb : (x, b) ∈ t.vars)
    (hc : (x, c) ∈ t'.vars) : (x, (b, c)) ∈ v := by
  rw [h.vars] at hb
  rw [h.vars'] at hc
  obtain ⟨p, hp, hpb⟩ := List.mem_map.1 hb
  obtain ⟨q, hq, hqc⟩ := List.mem_map.1 hc
  have hn : (v.map fun p => p.1).Nodup := by
    have := hok.nodup
    rw [SSt.names, h.vars, List.map_map] at this
    exact this
  have : p = q := by
    obtain ⟨x1, p1, p2⟩ := p
    obtain ⟨x2, q1, q2⟩ := q
    simp only [Prod.mk.injEq] at hpb hqc
    obtain ⟨rfl, rfl⟩ := hpb
    obtain ⟨rfl, rfl⟩ := hqc
    exact unique_name hn hp hq
  subst this
  obtain ⟨x1, p1, p2⟩ := p
  simp only [Prod.mk.injEq] at hpb hqc
  obtain ⟨rfl, rfl⟩ := hpb
  obtain ⟨_, rfl⟩ := hqc
  exact hp

/-- Addresses are equal in one state iff they are in the other. -/
theorem addr (h : Paired trk v k t t') (hok : SOk trk keq t) (hok' : SOk trk keq t')
    {p q : Bind K V × Bind K V} (hp : p ∈ pairs trk v k) (hq : q ∈ pairs trk v k) :
    p.1.addr = q.1.addr ↔ p.2.addr = q.2.addr := by
  constructor
  · intro e
    rw [(h.inj p hp q hq).1 (hok.addr _ (h.pool ▸ List.mem_map_of_mem hp) _ (h.pool ▸ List.mem_map_of_mem hq) e)]
  · intro e
    rw [(h.inj p hp q hq).2 (hok'.addr _ (h.pool' ▸ List.mem_map_of_mem hp) _ (h.pool' ▸ List.mem_map_of_mem hq) e)]

/-- Rearranged variables. -/
theorem change (h : Paired trk v k t t') {v' : List (Nat × (Bind K V × Bind K V))}
    (hv : ∀ p ∈ v', p.2 ∈ pairs trk v k) :
    Paired trk v' k ⟨v'.map fun p => (p.1, p.2.1), t.kept⟩ ⟨v'.map fun p => (p.1, p.2.2), t'.kept⟩ := by
  have hs : ∀ p ∈ pairs trk v' k, p ∈ pairs trk v k := by
    intro p hp
    cases trk with
    | noTracking => exact hp
    | refcounted =>
      obtain ⟨q, hq, rfl⟩ := List.mem_map.1 hp
      exact hv q hq
  refine ⟨rfl, rfl, h.kept, h.kept', fun p hp => ?_, fun p hp => h.same p (hs p hp),
    fun p hp q hq => h.inj p (hs p hp) q (hs q hq)⟩
  cases trk with
  | noTracking => exact hv p hp
  | refcounted => exact List.mem_map_of_mem hp

/-- Creation in both states. -/
theorem create (h : Paired trk v k t t') (L : sp.Lawful keq) (hok : SOk trk keq t) (hok' : SOk trk keq t')
    {src : Src K V} {b c : Bind K V} {u u' : SSt K V} (hc : Create trk keq sp t src b u)
    (hc' : Create trk keq sp t' src c u') :
    ∃ k', ∀ v', (∀ p ∈ v', p.2 ∈ pairs trk v k ∨ p.2 = (b, c)) →
      Paired trk v' k' ⟨v'.map fun p => (p.1, p.2.1), u.kept⟩ ⟨v'.map fun p => (p.1, p.2.2), u'.kept⟩ := by
  have hmem : ∀ {b : Bind K V}, b ∈ t.pool trk → ∃ c, (b, c) ∈ pairs trk v k := by
    intro b hb
    rw [h.pool] at hb
    obtain ⟨⟨_, c⟩, hp, rfl⟩ := List.mem_map.1 hb
    exact ⟨c, hp⟩
  have hmem' : ∀ {c : Bind K V}, c ∈ t'.pool trk → ∃ b, (b, c) ∈ pairs trk v k := by
    intro c hc
    rw [h.pool'] at hc
    obtain ⟨⟨b, _⟩, hp, rfl⟩ := List.mem_map.1 hc
    exact ⟨b, hp⟩
  cases hc with
  | share _ hb hk =>
    obtain ⟨d, hd⟩ := hmem hb
    have hdp : d ∈ t'.pool trk := h.pool' ▸ List.mem_map_of_mem (f := Prod.snd) hd
    have hdk : keq d.key (sp.key0 src) = true := by rw [← (h.same _ hd).1]; exact hk
    cases hc' with
    | share _ hc hk' =>
      have : c = d := hok'.key _ hc _ hdp (L.trans _ _ _ hk' (L.symm _ _ hdk))
      subst this
      exact ⟨k, fun v' hv => h.change fun p hp => (hv p hp).elim id fun e => e ▸ hd⟩
    | fresh a h1 h2 => exact absurd hdk (by rw [h1 d hdp]; simp)
  | fresh a h1 h2 =>
    cases hc' with
    | share _ hc hk' =>
      obtain ⟨d, hd⟩ := hmem' hc
      have hdp : d ∈ t.pool trk := h.pool ▸ List.mem_map_of_mem (f := Prod.fst) hd
      have := h1 d hdp
      rw [(h.same _ hd).1, hk'] at this
      cases this
    | fresh a' h1' h2' =>
      refine ⟨(⟨a, sp.key1 src, sp.val src⟩, ⟨a', sp.key1 src, sp.val src⟩) :: k, fun v' hv => ?_⟩
      have hs : ∀ p ∈ pairs trk v' ((⟨a, sp.key1 src, sp.val src⟩, ⟨a', sp.key1 src, sp.val src⟩) :: k),
          p ∈ pairs trk v k ∨ p = (⟨a, sp.key1 src, sp.val src⟩, ⟨a', sp.key1 src, sp.val src⟩) := by
        intro p hp
        cases trk with
        | noTracking => exact (List.mem_cons.1 hp).symm
        | refcounted =>
          obtain ⟨q, hq, rfl⟩ := List.mem_map.1 hp
          exact hv q hq
      have hno : ∀ p ∈ pairs trk v k, p.1 ≠ ⟨a, sp.key1 src, sp.val src⟩ ∧ p.2 ≠ ⟨a', sp.key1 src, sp.val src⟩ := by
        intro p hp
        refine ⟨fun e => h2 p.1 (h.pool ▸ List.mem_map_of_mem hp) (by rw [e]),
          fun e => h2' p.2 (h.pool' ▸ List.mem_map_of_mem hp) (by rw [e])⟩
      refine ⟨rfl, rfl, fun ht => ?_, fun ht => ?_, fun p hp => ?_, fun p hp => ?_, fun p hp q hq => ?_⟩
      · simp [h.kept ht]
      · simp [h.kept' ht]
      · cases trk with
        | noTracking => exact List.mem_cons.2 (hv p hp).symm
        | refcounted => exact List.mem_map_of_mem hp
      · rcases hs p hp with hp | rfl
        · exact h.same p hp
        · exact ⟨rfl, rfl⟩
      · rcases hs p hp with hp | rfl <;> rcases hs q hq with hq | rfl
        · exact h.inj p hp q hq
        · exact ⟨fun e => absurd e (hno p hp).1, fun e => absurd e (hno p hp).2⟩
        · exact ⟨fun e => absurd e.symm (hno q hq).1, fun e => absurd e.symm (hno q hq).2⟩
        · exact ⟨fun _ => rfl, fun _ => rfl⟩

/-- Creation leaves the variables alone. -/
theorem create_same {src : Src K V} {b c : Bind K V} {u u' : SSt K V} (hc : Create trk keq sp t src b u)
    (hc' : Create trk keq sp t' src c u') : u.vars = t.vars ∧ u'.vars = t'.vars := by
  cases hc <;> cases hc' <;> exact ⟨rfl, rfl⟩

/-- One operation in both states, throwing in both or in none. -/
theorem step (h : Paired trk v k t t') (L : sp.Lawful keq) (hok : SOk trk keq t) (hok' : SOk trk keq t')
    {hp hp' : Nat → Nat} {op : Op K V} {o o' : Out K V} {u u' : SSt K V}
    (hs : SStep trk keq sp hp t op o u) (hs' : SStep trk keq sp hp' t' op o' u')
    (hth : o = .threw ↔ o' = .threw) :
    o.erase = o'.erase ∧ ∃ v' k', Paired trk v' k' u u' := by
  have hv : ∀ p ∈ v, p.2 ∈ pairs trk v k := h.sub
  have hreb : ∀ x (b c : Bind K V), SSt.rebind t.vars x b =
      (v.map fun p => if p.1 = x then (x, (b, c)) else p).map fun p => (p.1, p.2.1) := by
    intro x b c
    rw [h.vars]
    simp only [SSt.rebind, List.map_map]
    refine List.map_congr_left fun p _ => ?_
    by_cases e : p.1 = x <;> simp [e]
  have hreb' : ∀ x (b c : Bind K V), SSt.rebind t'.vars x c =
      (v.map fun p => if p.1 = x then (x, (b, c)) else p).map fun p => (p.1, p.2.2) := by
    intro x b c
    rw [h.vars']
    simp only [SSt.rebind, List.map_map]
    refine List.map_congr_left fun p _ => ?_
    by_cases e : p.1 = x <;> simp [e]
  have hrm : ∀ {Q : Bind K V × Bind K V → Prop} x d, (∀ p ∈ v, Q p.2) → Q d →
      ∀ p ∈ (v.map fun p => if p.1 = x then (x, d) else p), Q p.2 := by
    intro Q x d h1 h2 p hp
    obtain ⟨q, hq, rfl⟩ := List.mem_map.1 hp
    by_cases e : q.1 = x
    · rw [if_pos e]; exact h2
    · rw [if_neg e]; exact h1 q hq
  cases hs with
  | init => cases hs'; exact ⟨rfl, _, _, h⟩
  | make x src b w hc =>
    cases hs' with
    | makeThrow => exact absurd (hth.2 rfl) (by simp)
    | make _ _ c w' hc' =>
      obtain ⟨k', hk⟩ := h.create L hok hok' hc hc'
      obtain ⟨e1, e2⟩ := create_same hc hc'
      refine ⟨rfl, (x, (b, c)) :: v, k', ?_⟩
      have := hk ((x, (b, c)) :: v) fun p hp => (List.mem_cons.1 hp).elim (fun e => .inr (by rw [e]))
        fun hp => .inl (hv p hp)
      simpa [e1, e2, h.vars, h.vars'] using this
  | makeThrow x src =>
    cases hs' with
    | make _ _ c w' hc' => exact absurd (hth.1 rfl) (by simp)
    | makeThrow => exact ⟨rfl, _, _, h⟩
  | copy x y b hb =>
    cases hs' with
    | copy _ _ c hc =>
      have hm := h.bound hok hb hc
      refine ⟨rfl, (x, (b, c)) :: v, k, ?_⟩
      have := h.change (v' := (x, (b, c)) :: v) fun p hp => (List.mem_cons.1 hp).elim
        (fun e => by rw [e]; exact hv (y, (b, c)) hm) fun hp => hv p hp
      simpa [h.vars, h.vars'] using this
  | move x y b hb =>
    cases hs' with
    | move _ _ c hc =>
      have hm := h.bound hok hb hc
      refine ⟨rfl, (x, (b, c)) :: v, k, ?_⟩
      have := h.change (v' := (x, (b, c)) :: v) fun p hp => (List.mem_cons.1 hp).elim
        (fun e => by rw [e]; exact hv (y, (b, c)) hm) fun hp => hv p hp
      simpa [h.vars, h.vars'] using this
  | assign x y b hb =>
    cases hs' with
    | assign _ _ c hc =>
      have hm := h.bound hok hb hc
      refine ⟨rfl, v.map fun p => if p.1 = x then (x, (b, c)) else p, k, ?_⟩
      rw [hreb x b c, hreb' x b c]
      exact h.change (hrm (Q := (· ∈ pairs trk v k)) x _ hv (hv _ hm))
  | assignVal x src b w hc =>
    cases hs' with
    | assignValThrow => exact absurd (hth.2 rfl) (by simp)
    | assignVal _ _ c w' hc' =>
      obtain ⟨k', hk⟩ := h.create L hok hok' hc hc'
      obtain ⟨e1, e2⟩ := create_same hc hc'
      refine ⟨rfl, v.map fun p => if p.1 = x then (x, (b, c)) else p, k', ?_⟩
      rw [e1, e2, hreb x b c, hreb' x b c]
      exact hk _ (hrm (Q := fun q => q ∈ pairs trk v k ∨ q = (b, c)) x _ (fun p hp => .inl (hv p hp)) (.inr rfl))
  | assignValThrow x src =>
    cases hs' with
    | assignVal _ _ c w' hc' => exact absurd (hth.1 rfl) (by simp)
    | assignValThrow => exact ⟨rfl, _, _, h⟩
  | swap x y b c hb hc =>
    cases hs' with
    | swap _ _ b' c' hb' hc' =>
      have hm := h.bound hok hb hb'
      have hm' := h.bound hok hc hc'
      refine ⟨rfl, (v.map fun p => if p.1 = x then (x, (c, c')) else p).map
        fun p => if p.1 = y then (y, (b, b')) else p, k, ?_⟩
      have := h.change (v' := (v.map fun p => if p.1 = x then (x, (c, c')) else p).map
        fun p => if p.1 = y then (y, (b, b')) else p) ?_
      · rw [hreb x c c', hreb' x c c']
        refine cast ?_ this
        congr 2
        · simp only [SSt.rebind, List.map_map]
          refine List.map_congr_left fun p _ => ?_
          simp only [Function.comp]
          by_cases e : (if p.1 = x then (x, (c, c')) else p).1 = y <;> simp [e]
        · simp only [SSt.rebind, List.map_map]
          refine List.map_congr_left fun p _ => ?_
          simp only [Function.comp]
          by_cases e : (if p.1 = x then (x, (c, c')) else p).1 = y <;> simp [e]
      · intro p hp
        obtain ⟨q, hq, rfl⟩ := List.mem_map.1 hp
        by_cases e : q.1 = y
        · rw [if_pos e]; exact hv (x, (b, b')) hm
        · rw [if_neg e]; exact hrm (Q := (· ∈ pairs trk v k)) x _ hv (hv _ hm') q hq
  | destroy x =>
    cases hs'
    refine ⟨rfl, v.filter fun p => p.1 ≠ x, k, ?_⟩
    have := h.change (v' := v.filter fun p => p.1 ≠ x) fun p hp => hv p (List.mem_filter.1 hp).1
    rw [h.vars, h.vars', List.filter_map, List.filter_map]
    exact this
  | get x b hb =>
    cases hs' with
    | get _ c hc =>
      have hm := h.bound hok hb hc
      exact ⟨congrArg (Out.val 0) (h.same (b, c) (hv _ hm)).2, _, _, h⟩
  | getKey x b hb =>
    cases hs' with
    | getKey _ c hc =>
      have hm := h.bound hok hb hc
      exact ⟨congrArg Out.key (h.same (b, c) (hv _ hm)).1, _, _, h⟩
  | eq x y b c hb hc =>
    cases hs' with
    | eq _ _ b' c' hb' hc' =>
      have hm := h.bound hok hb hb'
      have hm' := h.bound hok hc hc'
      have := h.addr hok hok' (hv _ hm) (hv _ hm')
      refine ⟨?_, _, _, h⟩
      have e : (b.addr == c.addr) = (b'.addr == c'.addr) := by
        rw [Bool.eq_iff_iff, beq_iff_eq, beq_iff_eq]; exact this
      rw [e]
  | hash x b hb =>
    cases hs' with
    | hash _ c hc => exact ⟨rfl, _, _, h⟩

/-- Two runs in which the same operations throw. -/
theorem run (L : sp.Lawful keq) {hp hp' : Nat → Nat} (ops : List (Op K V)) : ∀ {v k} {t t' : SSt K V},
    Paired trk v k t t' → SOk trk keq t → SOk trk keq t' → ∀ {outs outs' : List (Out K V)} {u u' : SSt K V},
    SRun trk keq sp hp t ops outs u → SRun trk keq sp hp' t' ops outs' u' →
    (∀ i : Nat, outs[i]? = some Out.threw ↔ outs'[i]? = some Out.threw) →
    outs.map Out.erase = outs'.map Out.erase ∧ ∃ v' k', Paired trk v' k' u u' := by
  induction ops with
  | nil =>
    intro v k t t' h _ _ outs outs' u u' hr hr' _
    cases hr
    cases hr'
    exact ⟨rfl, _, _, h⟩
  | cons op ops ih =>
    intro v k t t' h hok hok' outs outs' u u' hr hr' hth
    have ht : ∀ {o o' : Out K V} {l l' : List (Out K V)},
        (∀ i : Nat, (o :: l)[i]? = some Out.threw ↔ (o' :: l')[i]? = some Out.threw) →
        (o = .threw ↔ o' = .threw) ∧ ∀ i : Nat, l[i]? = some Out.threw ↔ l'[i]? = some Out.threw :=
      fun hh => ⟨by simpa using hh 0, fun i => by simpa using hh (i + 1)⟩
    cases hr with
    | step hv hs hr =>
      cases hr' with
      | skip hv' hr' => rw [h.names, hv'] at hv; cases hv
      | step hv' hs' hr' =>
        obtain ⟨h0, hth'⟩ := ht hth
        obtain ⟨e, v', k', h1⟩ := h.step L hok hok' hs hs' h0
        obtain ⟨e', h2⟩ := ih h1 (hs.ok L hok hv) (hs'.ok L hok' hv') hr hr' hth'
        exact ⟨by rw [List.map_cons, List.map_cons, e, e'], h2⟩
    | skip hv hr =>
      cases hr' with
      | step hv' hs' hr' => rw [← h.names, hv] at hv'; cases hv'
      | skip hv' hr' =>
        obtain ⟨h0, hth'⟩ := ht hth
        obtain ⟨e', h2⟩ := ih h hok hok' hr hr' hth'
        exact ⟨by rw [List.map_cons, List.map_cons, e'], h2⟩

end Paired
end Verif

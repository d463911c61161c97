import Verif.Sample
import Batteries.Data.List.Perm

/-!
# Properties of flyweights used by one thread: C01-C04, C10-C16, C18

Every theorem is about an arbitrary flyweight type `S : Setup` (any value
policy, factory and tracking policy obeying the laws that
`Verif/PolicyLaws.lean` and `Verif/FactoryInst.lean` prove of those in the
library), an arbitrary oracle `fl` saying which user operations throw, and an
arbitrary allocator.  The examples use the concrete types of
`Verif/Sample.lean`.
-/

set_option autoImplicit false

namespace Verif.Props
open Setup
variable {K V Rep F : Type}

/-! ## C01 -/

/-- **C01.**  Every program runs without undefined behaviour, its outcomes are
those of a run of the specification, what `get()` and `get_key()` return at the
end is what the specification says, and exceptions reach the program only if
some user operation throws. -/
theorem C01_refinement (S : Setup K V Rep F) (hp : Nat → Nat) (fl : Nat → Bool)
    (alloc : Nat → List Nat → Nat) (hal : ∀ n l, alloc n l ∉ l) (ops : List (Op K V)) :
    ∃ outs s t, S.run hp fl alloc ops = some (outs, s) ∧
      SRun S.trk S.keq S.sp hp SSt.start ops outs t ∧
      (∀ x a k v, S.Sees s x a k v ↔ (x, ⟨a, k, v⟩) ∈ t.vars) ∧
      (.threw ∈ outs → ∃ n, fl n = true) := by
  obtain ⟨outs, s, t, h1, h2, h3, h4⟩ := exec_sim hp ops (sim_start S fl hal)
  exact ⟨outs, s, t, h1, h2, fun x a k v => sees_iff h3, h4⟩

/-- `flyweight<T>` with `hashed_factory`, either tracking policy. -/
example {V : Type} (u : UserFns V V) (trk : Tracking) (grow : Nat → Nat) {hash : V → Nat}
    {keq : V → V → Bool} (ok : HashOk hash keq) (hp : Nat → Nat) (fl : Nat → Bool)
    (alloc : Nat → List Nat → Nat) (hal : ∀ n l, alloc n l ∉ l) (ops : List (Op V V)) :=
  C01_refinement (Setup.hashed (DRep.lawful u) trk grow ok (SrcSpec.default_lawful ok.equiv)) hp fl alloc hal ops

/-- `flyweight<key_value<K,V>>` with `set_factory`. -/
example (u : UserFns K V) (trk : Tracking) {less : K → K → Bool} (ok : OrderOk less) (hp : Nat → Nat)
    (fl : Nat → Bool) (alloc : Nat → List Nat → Nat) (hal : ∀ n l, alloc n l ∉ l) (ops : List (Op K V)) :=
  C01_refinement (Setup.set (PRep.lawful u) trk ok (SrcSpec.product_lawful u ok.equiv)) hp fl alloc hal ops

/-- `flyweight<key_value<K,V,KeyFromValue>>` with the list-update factory. -/
example (u : UserFns K V) (trk : Tracking) {keq : K → K → Bool} (ok : EquivOk keq)
    (contract : ∀ k, keq (u.kfv (u.ctor k)) k = true) (hp : Nat → Nat)
    (fl : Nat → Bool) (alloc : Nat → List Nat → Nat) (hal : ∀ n l, alloc n l ∉ l) (ops : List (Op K V)) :=
  C01_refinement (Setup.lu (VRep.lawful u) trk (SrcSpec.variant_lawful u ok contract)) hp fl alloc hal ops

/-- A concrete run, with sharing (flyweights 0 and 2) and an exception. -/
example : ∃ s, (Sample.var .refcounted).run id (Sample.failAt 2) Sample.alloc
    (.make 7 (.key 5) :: (Sample.prog ++ [.get 0, .get 2, .eq 0 2, .get 1])) =
    some ([.threw, .done, .done, .done, .done, .val 1 (3, 9), .val 1 (3, 9), .bool true, .skipped], s) :=
  ⟨_, rfl⟩

/-! ## C02 -/

/-- **C02.**  Two flyweights compare equal exactly when the keys they were last
given, according to the history, are equivalent; and exactly then `get()`
returns the same address. -/
theorem C02_equality (S : Setup K V Rep F) (hp : Nat → Nat) (fl : Nat → Bool)
    (alloc : Nat → List Nat → Nat) (hal : ∀ n l, alloc n l ∉ l) (ops : List (Op K V))
    (outs : List (Out K V)) (s : St Rep F) (hrun : S.run hp fl alloc ops = some (outs, s))
    (x y : Nat) (k l : K) (hx : given S.sp (fun _ => none) ops outs x = some k)
    (hy : given S.sp (fun _ => none) ops outs y = some l) :
    S.perform hp (.eq x y) s = .ok (.bool (S.keq k l)) s ∧
    ∃ a k' v b l' w, S.Sees s x a k' v ∧ S.Sees s y b l' w ∧ S.keq k' k = true ∧ S.keq l' l = true ∧
      (a = b ↔ S.keq k l = true) := by
  obtain ⟨t, _, hS, hok, hg⟩ := run_sim hal hrun
  have hb : ∀ x k, given S.sp (fun _ => none) ops outs x = some k →
      ∃ b, (x, b) ∈ t.vars ∧ S.keq b.key k = true := by
    intro x k hx
    by_cases hn : x ∈ t.names
    · obtain ⟨⟨x', b⟩, hb, rfl⟩ := List.mem_map.1 hn
      obtain ⟨k', h1, h2⟩ := hg.1 _ b hb
      rw [h1] at hx
      cases hx
      exact ⟨b, hb, h2⟩
    · have h1 := hg.2 x hn
      rw [h1] at hx
      cases hx
  obtain ⟨b, hb1, hb2⟩ := hb x k hx
  obtain ⟨c, hc1, hc2⟩ := hb y l hy
  have hiff : b.addr = c.addr ↔ S.keq k l = true := by
    constructor
    · intro h
      have := hok.addr b (hok.bound hb1) c (hok.bound hc1) h
      subst this
      exact S.LS.trans _ _ _ (S.LS.symm _ _ hb2) hc2
    · intro h
      have : S.keq b.key c.key = true :=
        S.LS.trans _ _ _ hb2 (S.LS.trans _ _ _ h (S.LS.symm _ _ hc2))
      rw [hok.key b (hok.bound hb1) c (hok.bound hc1) this]
  refine ⟨?_, b.addr, b.key, b.val, c.addr, c.key, c.val, (sees_iff hS).2 hb1, (sees_iff hS).2 hc1,
    hb2, hc2, hiff⟩
  rw [eq_ok hS hp hb1 hc1]
  by_cases h : S.keq k l = true
  · rw [h, hiff.2 h]; simp
  · have : ¬ b.addr = c.addr := fun h' => h (hiff.1 h')
    simp [this, h]

/-- The program of the next example.  (No code of its own: used to state a property or an
example.) -/
def progC02 : List (Op Nat (Nat × Nat)) :=
  [.make 0 (.key 3), .make 1 (.key 13), .make 2 (.key 13), .assignVal 1 (.key 4), .swap 0 1, .swap 0 1]

/-- 3 and 13 are equivalent: flyweights 0 and 2 are equal, although they were
given different keys; flyweight 1, reassigned, is not equal to them. -/
example : ∃ outs s,
    (Sample.prod .refcounted).run id Sample.calm Sample.alloc progC02 = some (outs, s) ∧
    given (Sample.prod .refcounted).sp (fun _ => none) progC02 outs 0 = some 3 ∧
    given (Sample.prod .refcounted).sp (fun _ => none) progC02 outs 2 = some 13 ∧ Sample.keq 3 13 = true ∧
    (Sample.prod .refcounted).perform id (.eq 0 2) s = .ok (.bool true) s ∧
    (Sample.prod .refcounted).perform id (.eq 0 1) s = .ok (.bool false) s :=
  ⟨_, _, rfl, rfl, rfl, rfl, rfl, rfl⟩

/-! ## C03 -/

/-- **C03.**  What a flyweight refers to (address, key and value) does not
change, whatever the program does, as long as that flyweight is not assigned,
swapped or destroyed. -/
theorem C03_stable (S : Setup K V Rep F) (s : St Rep F) (hr : S.Reach s) (x a : Nat) (k : K) (v : V)
    (hx : S.Sees s x a k v) (hp : Nat → Nat) (ops : List (Op K V))
    (hops : ∀ op ∈ ops, op.touches x = false) (outs : List (Out K V)) (s' : St Rep F)
    (h : S.resume hp s ops = some (outs, s')) : S.Sees s' x a k v := by
  obtain ⟨fl, t, hS, _⟩ := hr.sim
  obtain ⟨t', h1, h2⟩ := resume_sim hS h
  exact (sees_iff h2).2 (h1.keep hops ((sees_iff hS).1 hx))

/-- Continuing is always possible. -/
theorem C03_continue (S : Setup K V Rep F) (s : St Rep F) (hr : S.Reach s) (hp : Nat → Nat)
    (ops : List (Op K V)) : ∃ outs s', S.resume hp s ops = some (outs, s') := by
  obtain ⟨fl, t, hS, _⟩ := hr.sim
  obtain ⟨outs, s', _, h, _⟩ := exec_sim hp ops hS
  exact ⟨outs, s', h⟩

/-- Flyweight 0 stays put while an equivalent one is destroyed and others are
created, assigned and swapped. -/
example : ∃ s outs s',
    (Sample.var .refcounted).run id Sample.calm Sample.alloc Sample.prog = some ([.done, .done, .done, .done], s) ∧
    (Sample.var .refcounted).Sees s 0 1 3 (3, 9) ∧
    (∀ op ∈ [Op.destroy 2, .make 5 (.key 8), .make 6 (.key 9), .swap 5 6, .assignVal 5 (.key 13)],
      op.touches (K := Nat) (V := Nat × Nat) 0 = false) ∧
    (Sample.var .refcounted).resume id s
      [.destroy 2, .make 5 (.key 8), .make 6 (.key 9), .swap 5 6, .assignVal 5 (.key 13)] = some (outs, s') ∧
    (Sample.var .refcounted).Sees s' 0 1 3 (3, 9) :=
  ⟨_, _, _, rfl, ⟨rfl, rfl⟩, by simp [Op.touches], rfl, ⟨rfl, rfl⟩⟩

/-! ## C04 -/

/-- **C04.**  With `refcounted` tracking an entry is in the factory exactly as
long as some flyweight refers to it, and the number of values alive is the
number of different addresses the live flyweights refer to. -/
theorem C04_lifetime (S : Setup K V Rep F) (ht : S.trk = .refcounted) (s : St Rep F) (hr : S.Reach s) :
    (∀ i, (S.Fa.entry s.fac i).isSome = true ↔ ∃ x, (x, i) ∈ s.objs) ∧
    ∀ l : List Nat, l.Nodup → (∀ a, a ∈ l ↔ ∃ x k v, S.Sees s x a k v) → s.env.vals = l.length := by
  obtain ⟨fl, t, hS, _⟩ := hr.sim
  refine ⟨fun i => ⟨fun h => ?_, fun ⟨x, h⟩ => hS.rel.inv.objs (x, i) h⟩, fun l hn hl => ?_⟩
  · obtain ⟨e, he⟩ := Option.isSome_iff_exists.1 h
    obtain ⟨_, hp, _⟩ := hS.rel.inv.counts ht i e he
    obtain ⟨⟨x, j⟩, hm, rfl⟩ := of_refs_pos (i := i) (by simpa [Setup.none] using hp)
    exact ⟨x, hm⟩
  · rw [(live_count hS).2]
    obtain ⟨h1, h2⟩ := pool_addrs hS
    have : ((S.Fa.ids s.fac).map s.addr).length = l.length := by
      refine length_of_same h1 hn fun a => ?_
      rw [h2 a, hl a, ht]
      constructor
      · rintro ⟨b, hb, rfl⟩
        obtain ⟨⟨x, c⟩, hc, rfl⟩ := List.mem_map.1 hb
        exact ⟨x, _, _, (sees_iff hS).2 hc⟩
      · rintro ⟨x, k, v, h⟩
        exact ⟨⟨a, k, v⟩, List.mem_map.2 ⟨_, (sees_iff hS).1 h, rfl⟩, rfl⟩
    rw [← this]
    simp

/-- Corollary: once no flyweight is left, no value is, and no key is. -/
theorem C04_empty (S : Setup K V Rep F) (ht : S.trk = .refcounted) (s : St Rep F) (hr : S.Reach s)
    (h : ∀ x a k v, ¬ S.Sees s x a k v) : s.env.vals = 0 ∧ s.env.keys = 0 ∧ S.Fa.ids s.fac = [] := by
  have h1 := (C04_lifetime S ht s hr).2 [] List.nodup_nil
    (fun a => ⟨by simp, fun ⟨x, k, v, h'⟩ => (h x a k v h').elim⟩)
  obtain ⟨fl, t, hS, _⟩ := hr.sim
  have h2 := live_count hS
  have h3 : (S.Fa.ids s.fac).length = 0 := by
    have := h2.2
    rw [h1] at this
    simp only [List.length_nil] at this
    omega
  exact ⟨by simpa using h1, by rw [h2.1, h3]; simp, List.length_eq_zero_iff.1 h3⟩

/-- Two flyweights share one value, another has been removed with its last
flyweight; after destroying the two nothing is left. -/
example : ∃ s s',
    (Sample.var .refcounted).run id Sample.calm Sample.alloc Sample.prog = some ([.done, .done, .done, .done], s) ∧
    s.objs = [(2, 0), (0, 0)] ∧ s.env.vals = 1 ∧ s.env.made = 2 ∧
    (Sample.var .refcounted).resume id s [.destroy 0, .destroy 2] = some ([.done, .done], s') ∧
    s'.env.vals = 0 :=
  ⟨_, _, rfl, rfl, rfl, rfl, rfl, rfl⟩

/-! ## C10 -/

/-- **C10.**  With `no_tracking`, a value seen once is found again, at the same
address, by any later creation from an equivalent key, whatever happens in
between; and the number of values never decreases. -/
theorem C10_never_removed (S : Setup K V Rep F) (ht : S.trk = .noTracking) (s : St Rep F) (hr : S.Reach s)
    (hp : Nat → Nat) (ops : List (Op K V)) (outs : List (Out K V)) (s' : St Rep F)
    (h : S.resume hp s ops = some (outs, s')) :
    s.env.vals ≤ s'.env.vals ∧
    ∀ x a k v, S.Sees s x a k v → ∀ y src s'', S.keq k (S.sp.key0 src) = true →
      S.resume hp s' [.make y src] = some ([.done], s'') → S.Sees s'' y a k v := by
  obtain ⟨fl, t, hS, hok⟩ := hr.sim
  obtain ⟨t', h1, h2⟩ := resume_sim hS h
  refine ⟨?_, ?_⟩
  · rw [(live_count hS).2, (live_count h2).2]
    obtain ⟨n1, p1⟩ := pool_addrs hS
    obtain ⟨n2, p2⟩ := pool_addrs h2
    have hsub : (S.Fa.ids s.fac).map s.addr ⊆ (S.Fa.ids s'.fac).map s'.addr := by
      intro a ha
      obtain ⟨b, hb, rfl⟩ := (p1 a).1 ha
      rw [ht] at hb
      refine (p2 _).2 ⟨b, ?_, rfl⟩
      rw [ht]
      exact h1.kept hb
    have := (List.subperm_of_subset n1 hsub).length_le
    simp only [List.length_map] at this
    exact Int.ofNat_le.2 this
  · intro x a k v hx y src s'' hk hm
    obtain ⟨t'', h3, h4⟩ := resume_sim h2 hm
    have hok' := h1.ok S.LS hok
    have hb : (⟨a, k, v⟩ : Bind K V) ∈ t.kept := by
      have := hok.bound ((sees_iff hS).1 hx)
      rw [ht] at this
      exact this
    have hb' := h1.kept hb
    refine (sees_iff h4).2 ?_
    cases h3 with
    | step hv hs hn =>
      cases hn
      cases hs with
      | make _ _ c t₁ hc =>
        have hsup : S.sp.supports src = true := by simp [Op.valid] at hv; exact hv.2
        obtain ⟨c1, c2, c3, c4⟩ := hok'.create S.LS hsup hc
        have hpool : (⟨a, k, v⟩ : Bind K V) ∈ t'.pool S.trk := by rw [ht]; exact hb'
        have := c3 _ hpool (.inr (S.LS.trans _ _ _ hk (S.LS.symm _ _ c2)))
        rw [← this]
        exact List.mem_cons_self

/-- The value of key 3 survives the destruction of all its flyweights, and is
found again by key 23. -/
example : ∃ s s' s'',
    (Sample.var .noTracking).run id Sample.calm Sample.alloc Sample.prog = some ([.done, .done, .done, .done], s) ∧
    (Sample.var .noTracking).Sees s 0 1 3 (3, 9) ∧
    (Sample.var .noTracking).resume id s [.destroy 0, .destroy 2, .make 5 (.key 8)] =
      some ([.done, .done, .done], s') ∧ Sample.keq 3 23 = true ∧
    (Sample.var .noTracking).resume id s' [.make 9 (.key 23)] = some ([.done], s'') ∧
    (Sample.var .noTracking).Sees s'' 9 1 3 (3, 9) ∧ s.env.vals = 2 ∧ s'.env.vals = 3 :=
  ⟨_, _, _, rfl, ⟨rfl, rfl⟩, rfl, rfl, rfl, ⟨rfl, rfl⟩, rfl, rfl⟩

/-! ## C11 -/

/-- **C11, refcounted.**  Creating or value-assigning a key-value flyweight
constructs exactly one value if no live flyweight has an equivalent key, and
none otherwise.  (`made` counts all constructions of values.) -/
theorem C11_lazy_refcounted (S : Setup K V Rep F) (Lz : S.L.Lazy) (ht : S.trk = .refcounted) (s : St Rep F)
    (hr : S.Reach s) (hp : Nat → Nat) (op : Op K V) (src : Src K V) (hop : op.creates = some src)
    (hv : op.valid S.sp (s.objs.map Prod.fst) = true) (out : Out K V) (s' : St Rep F)
    (h : S.perform hp op s = .ok out s') :
    (s'.env.made = s.env.made ∧ ∃ x a k v, S.Sees s x a k v ∧ S.keq k (S.sp.key0 src) = true) ∨
    (s'.env.made = s.env.made + 1 ∧ ∀ x a k v, S.Sees s x a k v → S.keq k (S.sp.key0 src) = false) := by
  obtain ⟨fl, t, hS, hok⟩ := hr.sim
  have hsup : S.sp.supports src = true := by
    cases op <;> simp [Op.creates] at hop <;> subst hop <;> simp [Op.valid] at hv <;> exact hv.2
  have hm := made_step Lz hS.rel.inv hp hop hsup s rfl
  rw [show Core.step S.P S.Fa S.trk hp op s = .ok out s' from h] at hm
  have hpool : ∀ b, (∃ i, S.At s i b) ↔ ∃ x, S.Sees s x b.addr b.key b.val := by
    intro b
    rw [← hS.rel.pool b, ht]
    constructor
    · intro hb
      obtain ⟨⟨x, c⟩, hc, rfl⟩ := List.mem_map.1 hb
      exact ⟨x, (sees_iff hS).2 hc⟩
    · rintro ⟨x, hx⟩
      exact List.mem_map.2 ⟨_, (sees_iff hS).1 hx, rfl⟩
  rcases hm with ⟨h1, i, b, h2, h3⟩ | ⟨h1, h2⟩
  · obtain ⟨x, hx⟩ := (hpool b).1 ⟨i, h2⟩
    exact .inl ⟨h1, x, _, _, _, hx, h3⟩
  · refine .inr ⟨h1, fun x a k v hx => ?_⟩
    obtain ⟨i, hi⟩ := (hpool ⟨a, k, v⟩).2 ⟨x, hx⟩
    exact h2 i _ hi

/-- **C11, no_tracking.**  The same, where an equivalent value exists if an
equivalent key has ever been successfully used. -/
theorem C11_lazy_no_tracking (S : Setup K V Rep F) (Lz : S.L.Lazy) (ht : S.trk = .noTracking)
    (hp : Nat → Nat) (fl : Nat → Bool) (alloc : Nat → List Nat → Nat) (hal : ∀ n l, alloc n l ∉ l)
    (ops : List (Op K V)) (outs : List (Out K V)) (s : St Rep F)
    (hrun : S.run hp fl alloc ops = some (outs, s)) (op : Op K V) (src : Src K V)
    (hop : op.creates = some src) (hv : op.valid S.sp (s.objs.map Prod.fst) = true) (out : Out K V)
    (s' : St Rep F) (h : S.perform hp op s = .ok out s') :
    (s'.env.made = s.env.made ∧ ∃ k ∈ asked S.sp ops outs, S.keq k (S.sp.key0 src) = true) ∨
    (s'.env.made = s.env.made + 1 ∧ ∀ k ∈ asked S.sp ops outs, S.keq k (S.sp.key0 src) = false) := by
  obtain ⟨t, hr, hS, hok, _⟩ := run_sim hal hrun
  have hsup : S.sp.supports src = true := by
    cases op <;> simp [Op.creates] at hop <;> subst hop <;> simp [Op.valid] at hv <;> exact hv.2
  have hm := made_step Lz hS.rel.inv hp hop hsup s rfl
  rw [show Core.step S.P S.Fa S.trk hp op s = .ok out s' from h] at hm
  rw [ht] at hr
  have ha := hr.asked S.LS (A := []) ⟨by simp, by simp [SSt.start]⟩
  rw [List.nil_append] at ha
  have hpool : ∀ b, (∃ i, S.At s i b) ↔ b ∈ t.kept := by
    intro b
    rw [← hS.rel.pool b, ht]
    rfl
  rcases hm with ⟨h1, i, b, h2, h3⟩ | ⟨h1, h2⟩
  · obtain ⟨k, hk, hbk⟩ := ha.2 b ((hpool b).1 ⟨i, h2⟩)
    exact .inl ⟨h1, k, hk, S.LS.trans _ _ _ (S.LS.symm _ _ hbk) h3⟩
  · refine .inr ⟨h1, fun k hk => ?_⟩
    obtain ⟨b, hb, hbk⟩ := ha.1 k hk
    obtain ⟨i, hi⟩ := (hpool b).2 hb
    cases hc : S.keq k (S.sp.key0 src) with
    | false => rfl
    | true =>
      have := h2 i b hi
      rw [S.LS.trans _ _ _ hbk hc] at this
      cases this

/-- **C11, failure and other operations.**  A creation that throws constructs no
value, and no other operation ever does. -/
theorem C11_nothing_else (S : Setup K V Rep F) (Lz : S.L.Lazy) (s : St Rep F) (hr : S.Reach s)
    (hp : Nat → Nat) (op : Op K V) (hv : op.valid S.sp (s.objs.map Prod.fst) = true) (s' : St Rep F)
    (h : S.perform hp op s = .exc s' ∨ (op.creates = Option.none ∧ ∃ out, S.perform hp op s = .ok out s')) :
    s'.env.made = s.env.made := by
  obtain ⟨fl, t, hS, hok⟩ := hr.sim
  cases hop : op.creates with
  | none =>
    have := keeps_step Lz.destroy S.Fa S.trk hp op hop s.env.made s rfl
    rcases h with h | ⟨_, out, h⟩
    · rw [show Core.step S.P S.Fa S.trk hp op s = .exc s' from h] at this
      exact this.elim
    · rw [show Core.step S.P S.Fa S.trk hp op s = .ok out s' from h] at this
      exact this
  | some src =>
    have hsup : S.sp.supports src = true := by
      cases op <;> simp [Op.creates] at hop <;> subst hop <;> simp [Op.valid] at hv <;> exact hv.2
    have hm := made_step Lz hS.rel.inv hp hop hsup s rfl
    rcases h with h | ⟨h', _⟩
    · rw [show Core.step S.P S.Fa S.trk hp op s = .exc s' from h] at hm
      exact hm
    · rw [hop] at h'; cases h'

/-- Both `key_value` forms are lazy; with key 13 an existing value (key 3) is
used, with key 5 a new one is constructed. -/
example : ∃ s s₁ s₂,
    (Sample.prod .refcounted).run id Sample.calm Sample.alloc Sample.prog = some ([.done, .done, .done, .done], s) ∧
    (Sample.prod .refcounted).perform id (.make 5 (.key 23)) s = .ok .done s₁ ∧ s₁.env.made = s.env.made ∧
    (Sample.prod .refcounted).perform id (.make 5 (.key 5)) s = .ok .done s₂ ∧ s₂.env.made = s.env.made + 1 :=
  ⟨_, _, _, rfl, rfl, rfl, rfl, rfl⟩
example : (Sample.prod .refcounted).L.Lazy := PRep.lazy Sample.u
example : (Sample.var .noTracking).L.Lazy := VRep.lazy Sample.u

/-! ## C12 -/

/-- **C12.**  An operation that throws leaves every flyweight as it was, no live
object behind, the mutex released and no local object alive; and the program
can go on, with outcomes that the specification allows from the very state it
allowed before the failed attempt. -/
theorem C12_strong_guarantee (S : Setup K V Rep F) (s : St Rep F) (hr : S.Reach s) (hp : Nat → Nat)
    (op : Op K V) (hv : op.valid S.sp (s.objs.map Prod.fst) = true) (s' : St Rep F)
    (h : S.perform hp op s = .exc s') :
    (∀ x a k v, S.Sees s' x a k v ↔ S.Sees s x a k v) ∧
    s'.env.keys = s.env.keys ∧ s'.env.vals = s.env.vals ∧ s'.depth = 0 ∧ s'.locals = [] ∧
    (∃ n, s.env.faults n = true) ∧
    ∃ t : SSt K V, (∀ x a k v, S.Sees s x a k v ↔ (x, ⟨a, k, v⟩) ∈ t.vars) ∧
      ∀ ops, ∃ outs s'' t', S.resume hp s' ops = some (outs, s'') ∧
        SRun S.trk S.keq S.sp hp t ops outs t' := by
  obtain ⟨fl, t, hS, hok⟩ := hr.sim
  obtain ⟨_, hS', hf⟩ := perform_exc hS hv h
  have hlen : (S.Fa.ids s'.fac).length = (S.Fa.ids s.fac).length := by
    obtain ⟨n1, p1⟩ := pool_addrs hS
    obtain ⟨n2, p2⟩ := pool_addrs hS'
    have := length_of_same n2 n1 fun a => (p2 a).trans (p1 a).symm
    simpa using this
  refine ⟨fun x a k v => (sees_iff hS').trans (sees_iff hS).symm, ?_, ?_, hS'.idle.depth,
    hS'.idle.locals, by rw [hS.faults]; exact hf, t, fun x a k v => sees_iff hS, fun ops => ?_⟩
  · rw [(live_count hS').1, (live_count hS).1, hlen]
  · rw [(live_count hS').2, (live_count hS).2, hlen]
  · obtain ⟨outs, s'', t', h1, h2, _⟩ := exec_sim hp ops hS'
    exact ⟨outs, s'', t', h1, h2⟩

/-- **C12, no exception is swallowed or invented.**  If an operation returns
normally, none of the user operations it performed has thrown; if it throws, one
of them has. -/
theorem C12_not_swallowed (S : Setup K V Rep F) (H : S.P.Honest) (s s' : St Rep F) (hp : Nat → Nat)
    (op : Op K V) :
    (∀ out, S.perform hp op s = .ok out s' →
      ∀ n, s.env.tick ≤ n → n < s'.env.tick → s.env.faults n = false) ∧
    (S.perform hp op s = .exc s' → ∃ n, s.env.tick ≤ n ∧ n < s'.env.tick ∧ s.env.faults n = true) := by
  have := clean_step H S.Fa S.trk hp op s
  refine ⟨fun out h => ?_, fun h => ?_⟩
  · rw [show Core.step S.P S.Fa S.trk hp op s = .ok out s' from h] at this
    exact this.calm
  · rw [show Core.step S.P S.Fa S.trk hp op s = .exc s' from h] at this
    exact this.hit

/-- **C12, nothrow.**  Operations that create no flyweight from a value or key (copying, moving, assigning, swapping and
destroying flyweights, `get()`, `get_key()`, comparison, hashing, `init`) never throw, whatever the user's operations do.  (A key extractor called by
`get_key()` is not taken into account here but in C75.) -/
theorem C12_nothrow (S : Setup K V Rep F) (s : St Rep F) (hr : S.Reach s) (hp : Nat → Nat) (op : Op K V)
    (hv : op.valid S.sp (s.objs.map Prod.fst) = true) (hop : op.creates = Option.none) :
    ∃ out s', S.perform hp op s = .ok out s' ∧ out ≠ .threw := by
  obtain ⟨fl, t, hS, _⟩ := hr.sim
  rw [show s.objs.map Prod.fst = t.names from hS.rel.vars.names.symm] at hv
  have h := step_sim hS hp hv s rfl
  cases hm : Core.step S.P S.Fa S.trk hp op s with
  | ok out s' =>
    rw [hm] at h
    exact ⟨out, s', hm, h.1⟩
  | exc s' =>
    rw [hm] at h
    have h1 := h.1
    cases h1 <;> cases hop
  | ub => rw [hm] at h; exact h.elim

/-- Everything the user provides throws after the creation of two flyweights; eight operations later nothing has. -/
example : ∃ s s', (Sample.var .refcounted).run id (fun n => 13 ≤ n) Sample.alloc [.make 0 (.key 3), .make 1 (.key 4)] =
      some ([.done, .done], s) ∧
    (Sample.var .refcounted).resume id s
      [.copy 2 0, .move 3 1, .assign 0 1, .swap 0 2, .eq 0 2, .getKey 0, .destroy 1, .destroy 3, .make 5 (.key 3)] =
      some ([.done, .done, .done, .done, .bool false, .key 3, .done, .done, .threw], s') :=
  ⟨_, _, rfl, rfl⟩

/-- Opportunity 20 to throw is the construction of the value of key 5,
after its key is in the factory; a retry succeeds. -/
example : ∃ s s' s'',
    (Sample.var .refcounted).run id (Sample.failAt 20) Sample.alloc Sample.prog =
      some ([.done, .done, .done, .done], s) ∧
    (Sample.var .refcounted).perform id (.make 5 (.key 5)) s = .exc s' ∧ s'.env.tick = 21 ∧
    s'.nextId = s.nextId + 1 ∧ s'.env.vals = 1 ∧ s'.env.keys = 0 ∧
    (Sample.var .refcounted).resume id s' [.make 5 (.key 5), .get 5] =
      some ([.done, .val 2 (5, 25)], s'') :=
  ⟨_, _, _, rfl, rfl, rfl, rfl, rfl, rfl, rfl⟩
example : (Sample.var .refcounted).P.Honest := VRep.honest Sample.u
example : (Sample.prod .refcounted).P.Honest := PRep.honest Sample.u
example : (Sample.dflt .refcounted).P.Honest := DRep.honest Sample.u₀

/-! ## C13 -/

/-- **C13.**  Between operations the live key and value objects are exactly
those of the stored entries (no object has been leaked or destroyed twice; that
raw storage is never read or destroyed is part of C01, where it would be
undefined behaviour). -/
theorem C13_balanced (S : Setup K V Rep F) (s : St Rep F) (hr : S.Reach s) :
    s.env.keys = S.L.fullKeys * (S.Fa.ids s.fac).length ∧ s.env.vals = (S.Fa.ids s.fac).length ∧
    (∀ i ∈ S.Fa.ids s.fac, ∃ e k v, S.Fa.entry s.fac i = some e ∧ S.P.toKey e.rep = some k ∧
      S.P.toValue e.rep = some v) := by
  obtain ⟨fl, t, hS, hok⟩ := hr.sim
  refine ⟨(live_count hS).1, (live_count hS).2, fun i hi => ?_⟩
  obtain ⟨e, he⟩ := Option.isSome_iff_exists.1 ((S.LF.mem_ids i hS.rel.inv.fac).1 hi)
  obtain ⟨k, v, hf⟩ := hS.rel.inv.full i e he
  exact ⟨e, k, v, he, S.L.full_key hf, S.L.full_val hf⟩

/-- Keys per stored entry: none with the key extracted from the value, one with
a separate key, none with the default policy. -/
example (u : UserFns K V) : (VRep.lawful u).fullKeys = 0 ∧ (PRep.lawful u).fullKeys = 1 := ⟨rfl, rfl⟩
example (u : UserFns V V) : (DRep.lawful u).fullKeys = 0 := rfl
/-- A run with an exception in the middle of an insertion. -/
example : ∃ s, (Sample.prod .noTracking).run id (Sample.failAt 9) Sample.alloc Sample.prog =
      some ([.done, .threw, .done, .skipped], s) ∧ s.env.keys = 1 ∧ s.env.vals = 1 ∧
      (Sample.prod .noTracking).Fa.ids s.fac = [0] :=
  ⟨_, rfl, rfl, rfl, rfl⟩

end Verif.Props

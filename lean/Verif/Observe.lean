import Verif.CoreSim
import Verif.SpecLemmas
import Verif.Instances

/-!
# Observing the state of the sequential model

Notions for stating properties of runs, and the lemmas connecting them with the
simulation.
-/

set_option autoImplicit false

namespace Verif
namespace Setup
variable {K V Rep F : Type} (S : Setup K V Rep F)

/-- Execute a program from program start: `fl` says which user operations
throw, `alloc` is the allocator.  (No code of its own: used in statements and proofs.) -/
def run (hp : Nat → Nat) (fl : Nat → Bool) (alloc : Nat → List Nat → Nat) (ops : List (Op K V)) :
    Option (List (Out K V) × St Rep F) :=
  Core.exec S.P S.Fa S.trk hp S.sp ops (Core.start S.Fa fl alloc)

/-- Continue a program from a given state.  (No code of its own: used in statements and proofs.) -/
def resume (hp : Nat → Nat) (s : St Rep F) (ops : List (Op K V)) :
    Option (List (Out K V) × St Rep F) :=
  Core.exec S.P S.Fa S.trk hp S.sp ops s

/-- One operation.  (No code of its own: used in statements and proofs.) -/
def perform (hp : Nat → Nat) (op : Op K V) : M (St Rep F) (Out K V) :=
  Core.step S.P S.Fa S.trk hp op

/-- Variable `x` exists; `get()` returns a reference to address `a` holding `v`
and `get_key()` returns `k`.  (No code of its own: used in statements and proofs.) -/
def Sees (s : St Rep F) (x a : Nat) (k : K) (v : V) : Prop :=
  Core.get S.P S.Fa x s = .ok (a, v) s ∧ Core.getKey S.P S.Fa x s = .ok k s

/-- A state that some program reaches.  (No code of its own: used in statements and proofs.) -/
def Reach (s : St Rep F) : Prop :=
  ∃ hp fl alloc ops outs, (∀ n l, alloc n l ∉ l) ∧ S.run hp fl alloc ops = some (outs, s)

variable {S}

theorem run_sim {hp : Nat → Nat} {fl : Nat → Bool} {alloc : Nat → List Nat → Nat}
    (hal : ∀ n l, alloc n l ∉ l) {ops : List (Op K V)} {outs : List (Out K V)} {s : St Rep F}
    (h : S.run hp fl alloc ops = some (outs, s)) :
    ∃ t, SRun S.trk S.keq S.sp hp SSt.start ops outs t ∧ Sim S fl s t ∧ SOk S.trk S.keq t ∧
      GivenOk S.keq (given S.sp (fun _ => Option.none) ops outs) t := by
  obtain ⟨outs', s', t', h1, h2, h3, _⟩ := exec_sim hp ops (sim_start S fl hal)
  have : (outs', s') = (outs, s) := Option.some.inj (h1.symm.trans h)
  cases this
  have hg : GivenOk S.keq (fun _ => Option.none) (SSt.start : SSt K V) :=
    ⟨fun x b hx => (by cases hx), fun _ _ => rfl⟩
  exact ⟨t', h2, h3, h2.ok S.LS (SOk.start _ _), h2.given S.LS (SOk.start _ _) hg⟩

theorem Reach.sim {s : St Rep F} (h : S.Reach s) : ∃ fl t, Sim S fl s t ∧ SOk S.trk S.keq t := by
  obtain ⟨hp, fl, alloc, ops, outs, hal, hr⟩ := h
  obtain ⟨t, _, h2, h3, _⟩ := run_sim hal hr
  exact ⟨fl, t, h2, h3⟩

theorem resume_sim {hp : Nat → Nat} {fl : Nat → Bool} {s s' : St Rep F} {t : SSt K V}
    (hS : Sim S fl s t) {ops : List (Op K V)} {outs : List (Out K V)}
    (h : S.resume hp s ops = some (outs, s')) :
    ∃ t', SRun S.trk S.keq S.sp hp t ops outs t' ∧ Sim S fl s' t' := by
  obtain ⟨outs', s'', t', h1, h2, h3, _⟩ := exec_sim hp ops hS
  have : (outs', s'') = (outs, s') := Option.some.inj (h1.symm.trans h)
  cases this
  exact ⟨t', h2, h3⟩

theorem lookup_of_var {s : St Rep F} {t : SSt K V} {ext : Nat → Nat} (hR : Rel S ext s t) {x : Nat}
    {b : Bind K V} (hx : (x, b) ∈ t.vars) : ∃ h, s.objs.lookup x = some h ∧ S.At s h b := by
  obtain ⟨h, hh⟩ := Assoc.lookup_of_name (l := s.objs) (x := x)
    (by rw [← hR.vars.names]; exact List.mem_map.2 ⟨_, hx, rfl⟩)
  obtain ⟨c, hc, hat⟩ := hR.vars.lookup hh
  have : b = c := bind_unique (by rw [hR.vars.names]; exact hR.nodup) hx hc
  exact ⟨h, hh, this ▸ hat⟩

/-- What is seen is what the specification says. -/
theorem sees_iff {fl : Nat → Bool} {s : St Rep F} {t : SSt K V} (hS : Sim S fl s t) {x a : Nat}
    {k : K} {v : V} : S.Sees s x a k v ↔ (x, ⟨a, k, v⟩) ∈ t.vars := by
  have hR := hS.rel
  constructor
  · rintro ⟨h1, h2⟩
    cases hl : s.objs.lookup x with
    | none =>
      simp [Core.get, Core.handleOf, bind, M.bind, M.read, hl, M.undef] at h1
    | some h =>
      obtain ⟨b, hb, hat⟩ := hR.vars.lookup hl
      rw [get_ok hR.inv hl hat] at h1
      rw [getKey_ok hR.inv hl hat] at h2
      cases h1
      cases h2
      exact hb
  · intro hx
    obtain ⟨h, hl, hat⟩ := lookup_of_var hR hx
    exact ⟨get_ok hR.inv hl hat, getKey_ok hR.inv hl hat⟩

theorem mem_names {fl : Nat → Bool} {s : St Rep F} {t : SSt K V} (hS : Sim S fl s t) {x : Nat} :
    x ∈ s.objs.map Prod.fst ↔ ∃ a k v, S.Sees s x a k v := by
  rw [← hS.rel.vars.names]
  constructor
  · intro hx
    obtain ⟨⟨y, b⟩, hb, rfl⟩ := List.mem_map.1 hx
    exact ⟨b.addr, b.key, b.val, (sees_iff hS).2 hb⟩
  · rintro ⟨a, k, v, h⟩
    exact List.mem_map.2 ⟨_, (sees_iff hS).1 h, rfl⟩

theorem eq_ok {fl : Nat → Bool} {s : St Rep F} {t : SSt K V} (hS : Sim S fl s t) (hp : Nat → Nat)
    {x y : Nat} {b c : Bind K V} (hx : (x, b) ∈ t.vars) (hy : (y, c) ∈ t.vars) :
    S.perform hp (.eq x y) s = .ok (.bool (b.addr == c.addr)) s := by
  obtain ⟨h, hl, hat⟩ := lookup_of_var hS.rel hx
  obtain ⟨h', hl', hat'⟩ := lookup_of_var hS.rel hy
  simp only [perform, Core.step, Core.eq, bind, M.bind, get_ok hS.rel.inv hl hat,
    get_ok hS.rel.inv hl' hat']
  rfl

theorem hash_ok {fl : Nat → Bool} {s : St Rep F} {t : SSt K V} (hS : Sim S fl s t) (hp : Nat → Nat)
    {x : Nat} {b : Bind K V} (hx : (x, b) ∈ t.vars) :
    S.perform hp (.hash x) s = .ok (.num (hp b.addr)) s := by
  obtain ⟨h, hl, hat⟩ := lookup_of_var hS.rel hx
  simp only [perform, Core.step, Core.hash, bind, M.bind, get_ok hS.rel.inv hl hat]
  rfl

/-! ## Numbers of live objects -/

theorem rsum_zero {f : Nat → Int} {n : Nat} (h : ∀ i, i < n → f i = 0) : rsum f n = 0 := by
  induction n with
  | zero => rfl
  | succ n ih => simp only [rsum, ih fun i hi => h i (by omega), h n (by omega)]; rfl

theorem rsum_ids {c : Int} {n : Nat} (l : List Nat) (f : Nat → Int) (hn : l.Nodup)
    (hlt : ∀ i ∈ l, i < n) (h1 : ∀ i ∈ l, f i = c) (h0 : ∀ i, i ∉ l → f i = 0) :
    rsum f n = c * l.length := by
  induction l generalizing f with
  | nil => rw [rsum_zero fun i _ => h0 i (by simp)]; simp
  | cons i l ih =>
    simp only [List.nodup_cons] at hn
    have hc := rsum_change (f := fun j => if j = i then 0 else f j) (g := f) (n := n) (i := i)
      (hlt i (by simp)) (fun j hj => by simp [hj])
    rw [hc, ih (fun j => if j = i then 0 else f j) hn.2 (fun j hj => hlt j (by simp [hj])) ?_ ?_]
    · simp only [if_true, h1 i (by simp), List.length_cons]
      rw [Int.natCast_add, Int.mul_add]
      omega
    · intro j hj
      have : j ≠ i := fun h => hn.1 (h ▸ hj)
      simp only [this, if_false]
      exact h1 j (by simp [hj])
    · intro j hj
      by_cases hji : j = i
      · simp [hji]
      · simp only [hji, if_false]
        exact h0 j (by simp [hji, hj])

/-- Live keys and values are those of the stored entries. -/
theorem live_count {fl : Nat → Bool} {s : St Rep F} {t : SSt K V} (hS : Sim S fl s t) :
    s.env.keys = S.L.fullKeys * (S.Fa.ids s.fac).length ∧
      s.env.vals = (S.Fa.ids s.fac).length := by
  have hI := hS.rel.inv
  have key : ∀ g : Int × Int → Int, S.tot g s = g (S.L.fullKeys, 1) * (S.Fa.ids s.fac).length := by
    intro g
    unfold tot
    rw [hS.idle.locals, rsum_ids (S.Fa.ids s.fac) _ (S.LF.ids_nodup hI.fac) (c := g (S.L.fullKeys, 1))]
    · simp
    · intro i hi
      exact hI.lt i ((S.LF.mem_ids i hI.fac).1 hi)
    · intro i hi
      obtain ⟨e, he⟩ := Option.isSome_iff_exists.1 ((S.LF.mem_ids i hI.fac).1 hi)
      obtain ⟨k, v, hf⟩ := hI.full i e he
      simp only [he, cnt, S.L.full_res hf]
    · intro i hi
      rw [S.LF.mem_ids i hI.fac] at hi
      cases he : S.Fa.entry s.fac i with
      | none => rfl
      | some e => simp [he] at hi
  refine ⟨by rw [hI.keys, key], ?_⟩
  rw [hI.vals, key]
  simp

/-- The addresses of the stored entries. -/
theorem pool_addrs {fl : Nat → Bool} {s : St Rep F} {t : SSt K V} (hS : Sim S fl s t) :
    ((S.Fa.ids s.fac).map s.addr).Nodup ∧
    ∀ a, a ∈ (S.Fa.ids s.fac).map s.addr ↔ ∃ b ∈ t.pool S.trk, b.addr = a := by
  have hI := hS.rel.inv
  refine ⟨?_, ?_⟩
  · have : ∀ l : List Nat, l.Nodup → (∀ i ∈ l, (S.Fa.entry s.fac i).isSome) → (l.map s.addr).Nodup := by
      intro l
      induction l with
      | nil => simp
      | cons i l ih =>
        intro hn hs
        simp only [List.nodup_cons] at hn
        simp only [List.map_cons, List.nodup_cons]
        refine ⟨?_, ih hn.2 fun j hj => hs j (by simp [hj])⟩
        intro hm
        obtain ⟨j, hj, ha⟩ := List.mem_map.1 hm
        exact hn.1 (hI.inj j i (hs j (by simp [hj])) (hs i (by simp)) ha ▸ hj)
    exact this _ (S.LF.ids_nodup hI.fac) fun i hi => (S.LF.mem_ids i hI.fac).1 hi
  · intro a
    constructor
    · intro hm
      obtain ⟨i, hi, rfl⟩ := List.mem_map.1 hm
      obtain ⟨b, hb⟩ := hI.at_some ((S.LF.mem_ids i hI.fac).1 hi)
      exact ⟨b, (hS.rel.pool b).2 ⟨i, hb⟩, hb.choose_spec.2.2.symm⟩
    · rintro ⟨b, hb, rfl⟩
      obtain ⟨i, hat⟩ := (hS.rel.pool b).1 hb
      obtain ⟨e, he, _, ha⟩ := id hat
      exact List.mem_map.2 ⟨i, (S.LF.mem_ids i hI.fac).2 (by simp [he]), ha⟩

theorem length_of_same {l l' : List Nat} (h : l.Nodup) (h' : l'.Nodup) (hm : ∀ a, a ∈ l ↔ a ∈ l') :
    l.length = l'.length :=
  ((List.perm_ext_iff_of_nodup h h').2 hm).length_eq

/-- Lists of the first and of the second components of pairs that determine each other. -/
theorem length_of_pairs (P : List (Nat × Nat)) {l l' : List Nat} (h : l.Nodup) (h' : l'.Nodup)
    (hm : ∀ a, a ∈ l ↔ ∃ p ∈ P, p.1 = a) (hm' : ∀ a, a ∈ l' ↔ ∃ p ∈ P, p.2 = a)
    (hP : ∀ p ∈ P, ∀ q ∈ P, p.1 = q.1 ↔ p.2 = q.2) : l.length = l'.length := by
  have hg : ∀ p ∈ P, ((P.find? fun q => q.1 == p.1).map Prod.snd).getD 0 = p.2 := by
    intro p hp
    cases hf : P.find? fun q => q.1 == p.1 with
    | none => exact absurd (List.find?_eq_none.1 hf p hp) (by simp)
    | some q =>
      have h1 := List.find?_some hf
      have h2 := List.mem_of_find?_eq_some hf
      exact (hP q h2 p hp).1 (by simpa using h1)
  have hlen : (l.map fun a => ((P.find? fun q => q.1 == a).map Prod.snd).getD 0).length = l'.length := by
    refine length_of_same ?_ h' fun a => ?_
    · unfold List.Nodup
      rw [List.pairwise_map]
      refine h.imp_of_mem fun {a b} ha hb hne => ?_
      obtain ⟨p, hp, rfl⟩ := (hm a).1 ha
      obtain ⟨q, hq, rfl⟩ := (hm b).1 hb
      rw [hg p hp, hg q hq]
      exact fun e => hne ((hP p hp q hq).2 e)
    · rw [hm' a, List.mem_map]
      constructor
      · rintro ⟨b, hb, rfl⟩
        obtain ⟨p, hp, rfl⟩ := (hm b).1 hb
        exact ⟨p, hp, (hg p hp).symm⟩
      · rintro ⟨p, hp, rfl⟩
        exact ⟨p.1, (hm _).2 ⟨p, hp, rfl⟩, hg p hp⟩
  simpa using hlen

/-! ## Single operations -/

/-- What a valid operation may do. -/
theorem perform_cases {fl : Nat → Bool} {s : St Rep F} {t : SSt K V} (hS : Sim S fl s t)
    (hp : Nat → Nat) {op : Op K V} (hv : op.valid S.sp (s.objs.map Prod.fst) = true) :
    (∃ out s' t', S.perform hp op s = .ok out s' ∧ out ≠ .threw ∧
      SStep S.trk S.keq S.sp hp t op out t' ∧ Sim S fl s' t') ∨
    (∃ s', S.perform hp op s = .exc s' ∧ SStep S.trk S.keq S.sp hp t op .threw t ∧ Sim S fl s' t ∧
      ∃ n, fl n = true) := by
  rw [← hS.rel.vars.names] at hv
  have h := step_sim hS hp hv s rfl
  unfold perform
  cases hm : Core.step S.P S.Fa S.trk hp op s with
  | ok out s' =>
    rw [hm] at h
    obtain ⟨h1, t', h2, h3⟩ := h
    exact .inl ⟨out, s', t', rfl, h1, h2, h3⟩
  | exc s' => rw [hm] at h; exact .inr ⟨s', rfl, h⟩
  | ub => rw [hm] at h; exact h.elim

theorem perform_ok {fl : Nat → Bool} {s s' : St Rep F} {t : SSt K V} (hS : Sim S fl s t)
    {hp : Nat → Nat} {op : Op K V} (hv : op.valid S.sp (s.objs.map Prod.fst) = true) {out : Out K V}
    (h : S.perform hp op s = .ok out s') :
    ∃ t', SStep S.trk S.keq S.sp hp t op out t' ∧ Sim S fl s' t' := by
  rcases perform_cases hS hp hv with ⟨o, s1, t', h1, _, h2, h3⟩ | ⟨s1, h1, _⟩
  · rw [h1] at h; cases h; exact ⟨t', h2, h3⟩
  · rw [h1] at h; cases h

theorem perform_exc {fl : Nat → Bool} {s s' : St Rep F} {t : SSt K V} (hS : Sim S fl s t)
    {hp : Nat → Nat} {op : Op K V} (hv : op.valid S.sp (s.objs.map Prod.fst) = true)
    (h : S.perform hp op s = .exc s') :
    SStep S.trk S.keq S.sp hp t op .threw t ∧ Sim S fl s' t ∧ ∃ n, fl n = true := by
  rcases perform_cases hS hp hv with ⟨o, s1, t', h1, _⟩ | ⟨s1, h1, h2⟩
  · rw [h1] at h; cases h
  · rw [h1] at h; cases h; exact h2

theorem names_contains {fl : Nat → Bool} {s : St Rep F} {t : SSt K V} (hS : Sim S fl s t) {x a : Nat}
    {k : K} {v : V} (h : S.Sees s x a k v) : (s.objs.map Prod.fst).contains x = true := by
  simpa using (mem_names hS).2 ⟨a, k, v, h⟩

theorem sees_unique {fl : Nat → Bool} {s : St Rep F} {t : SSt K V} (hS : Sim S fl s t) {x a a' : Nat}
    {k k' : K} {v v' : V} (h : S.Sees s x a k v) (h' : S.Sees s x a' k' v') :
    a = a' ∧ k = k' ∧ v = v' := by
  have := bind_unique (by rw [hS.rel.vars.names]; exact hS.rel.nodup) ((sees_iff hS).1 h)
    ((sees_iff hS).1 h')
  cases this
  exact ⟨rfl, rfl, rfl⟩

end Setup
end Verif

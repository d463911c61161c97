import Verif.FactoryProd
import Mathlib.Logic.Function.Basic

/-!
# Several flyweight types in a program

Each instantiation of `flyweight_core` has its own static members
(/repo/include/boost/flyweight/detail/flyweight_core.hpp:314-351) and its own holder
(/repo/include/boost/flyweight/static_holder.hpp:28-39), the template being parametrized by value
policy, tag, tracking, factory, locking and holder (120-124).  With
`static_holder`, also each module of a program has its own.  They share the memory allocator.
-/

set_option autoImplicit false

namespace Verif
namespace Setup
variable {K V Rep F : Type} {S : Setup K V Rep F}

theorem Inv.setAlloc {ext : Nat → Nat} {s : St Rep F} (hI : S.Inv ext s) {a : Nat → List Nat → Nat}
    (ha : ∀ n l, a n l ∉ l) : S.Inv ext { s with alloc := a } :=
  ⟨hI.fac, ha, hI.full, hI.counts, hI.objs, hI.ext, hI.ini, hI.lt, hI.inj, hI.keys, hI.vals⟩

theorem Sim.setAlloc {fl : Nat → Bool} {s : St Rep F} {t : SSt K V} (h : Sim S fl s t) {a : Nat → List Nat → Nat}
    (ha : ∀ n l, a n l ∉ l) : Sim S fl { s with alloc := a } t :=
  ⟨⟨h.rel.inv.setAlloc ha, h.rel.vars, h.rel.nodup, h.rel.kept⟩, ⟨h.idle.locals, h.idle.depth⟩, h.faults⟩

/-- Values available after an operation were so before it, or are new. -/
theorem pool_grown {s : St Rep F} {t t' : SSt K V} {hp : Nat → Nat} {op : Op K V} {out : Out K V}
    (h : SStep S.trk S.keq S.sp hp t op out t') (hg : Grown s t t') (hok : SOk S.trk S.keq t) :
    ∀ b ∈ t'.pool S.trk, b ∈ t.pool S.trk ∨ ∃ n l, b.addr = s.alloc n l := by
  have create : ∀ {src : Src K V} {b : Bind K V} {t1 : SSt K V}, Create S.trk S.keq S.sp t src b t1 → t1.kept = t'.kept →
      (∀ c ∈ t1.pool S.trk, c ∈ t.pool S.trk ∨ ∃ n l, c.addr = s.alloc n l) ∧
        (b ∈ t.pool S.trk ∨ ∃ n l, b.addr = s.alloc n l) := by
    intro src b t1 hc hk
    cases hc with
    | share b h1 h2 => exact ⟨fun c hc => .inl hc, .inl h1⟩
    | fresh a h1 h2 =>
      have ha : ∃ n l, a = s.alloc n l := by
        rcases hg with hg | ⟨b', n, l, hg, hb⟩
        · rw [hg] at hk
          have := congrArg List.length hk
          simp at this
        · rw [hg] at hk
          simp only [List.cons.injEq] at hk
          rw [← hk.1] at hb
          exact ⟨n, l, hb⟩
      refine ⟨fun c hc => ?_, .inr ha⟩
      unfold SSt.pool at hc ⊢
      cases htrk : S.trk with
      | refcounted => rw [htrk] at hc; exact .inl hc
      | noTracking =>
        rw [htrk] at hc
        rcases List.mem_cons.1 hc with rfl | hc
        · exact .inr ha
        · exact .inl hc
  -- changing only the variables
  have vars : ∀ {t1 : SSt K V} {vs : List (Nat × Bind K V)} {b : Bind K V},
      (∀ p ∈ vs, p ∈ t1.vars ∨ p.2 = b) → (∀ c ∈ t1.pool S.trk, c ∈ t.pool S.trk ∨ ∃ n l, c.addr = s.alloc n l) →
      (b ∈ t.pool S.trk ∨ ∃ n l, b.addr = s.alloc n l) →
      ∀ c ∈ ({ t1 with vars := vs } : SSt K V).pool S.trk, c ∈ t.pool S.trk ∨ ∃ n l, c.addr = s.alloc n l := by
    intro t1 vs b hvs h1 hb c hc
    cases htrk : S.trk with
    | refcounted =>
      simp only [SSt.pool, htrk] at hc h1 hb ⊢
      obtain ⟨p, hp, rfl⟩ := List.mem_map.1 hc
      rcases hvs p hp with hp | hp
      · exact h1 p.2 (List.mem_map.2 ⟨p, hp, rfl⟩)
      · rw [hp]; exact hb
    | noTracking =>
      simp only [SSt.pool, htrk] at hc h1 hb ⊢
      exact h1 c hc
  have reb : ∀ (vs : List (Nat × Bind K V)) (x : Nat) (b : Bind K V), ∀ p ∈ SSt.rebind vs x b, p ∈ vs ∨ p.2 = b := by
    intro vs x b p hp
    obtain ⟨q, hq, rfl⟩ := List.mem_map.1 hp
    split
    · exact .inr rfl
    · exact .inl hq
  have self : ∀ c ∈ t.pool S.trk, c ∈ t.pool S.trk ∨ ∃ n l, c.addr = s.alloc n l := fun c hc => .inl hc
  cases h with
  | init => exact self
  | make x src b t1 hc =>
    obtain ⟨h1, h2⟩ := create hc rfl
    refine vars (fun p hp => ?_) h1 h2
    rcases List.mem_cons.1 hp with rfl | hp
    · exact .inr rfl
    · exact .inl hp
  | makeThrow => exact self
  | copy x y b hb =>
    refine vars (fun p hp => ?_) self (.inl (hok.sub _ hb))
    rcases List.mem_cons.1 hp with rfl | hp
    · exact .inr rfl
    · exact .inl hp
  | move x y b hb =>
    refine vars (fun p hp => ?_) self (.inl (hok.sub _ hb))
    rcases List.mem_cons.1 hp with rfl | hp
    · exact .inr rfl
    · exact .inl hp
  | assign x y b hb => exact vars (reb _ x b) self (.inl (hok.sub _ hb))
  | assignVal x src b t1 hc =>
    obtain ⟨h1, h2⟩ := create hc rfl
    exact vars (reb _ x b) h1 h2
  | assignValThrow => exact self
  | swap x y b c hb hc =>
    have h1 := vars (t1 := t) (reb t.vars x c) self (.inl (hok.sub _ hc))
    exact vars (t1 := { t with vars := SSt.rebind t.vars x c }) (reb _ y b) h1 (.inl (hok.sub _ hb))
  | destroy x =>
    intro c hc
    cases htrk : S.trk with
    | refcounted =>
      simp only [SSt.pool, htrk] at hc ⊢
      obtain ⟨p, hp, rfl⟩ := List.mem_map.1 hc
      exact .inl (List.mem_map.2 ⟨p, (List.mem_filter.1 hp).1, rfl⟩)
    | noTracking =>
      simp only [SSt.pool, htrk] at hc ⊢
      exact .inl hc
  | get => exact self
  | getKey => exact self
  | eq => exact self
  | hash => exact self

/-- The identity as a morphism of factories.  (No code of its own: used in statements and
proofs.) -/
def idHom {E : Type} (Fa : Factory F E) : Fa.Hom Fa where
  proj f := f
  Good _ := True
  empty := rfl
  good_empty := trivial
  lookup_good _ _ h := h
  lookup _ _ _ := rfl
  link_good _ _ _ h := h
  link _ _ _ := rfl
  erase_good _ _ h := h
  erase _ _ := rfl
  update_good _ _ _ h := h
  update _ _ _ := rfl
  entry _ _ _ := rfl
  ids _ _ _ := Iff.rfl
  take := rfl

end Setup

namespace Family
open Setup

section
variable {I : Type} [DecidableEq I]

/-- The part of a sequence that concerns `i`.  (No code of its own: used in statements and
proofs.) -/
def pick {X : I → Type} (i : I) : List (Σ i, X i) → List (X i)
  | [] => []
  | x :: l => if h : x.1 = i then (h ▸ x.2) :: pick i l else pick i l

theorem pick_append {X : I → Type} (i : I) (l m : List (Σ i, X i)) : pick i (l ++ m) = pick i l ++ pick i m := by
  induction l with
  | nil => rfl
  | cons x l ih =>
    simp only [List.cons_append, pick]
    split <;> simp [ih]

theorem pick_same {X : I → Type} (i : I) (l : List (X i)) : pick i (l.map (Sigma.mk i)) = l := by
  induction l with
  | nil => rfl
  | cons x l ih => simp [pick, ih]

theorem pick_other {X : I → Type} {i j : I} (h : j ≠ i) (l : List (X j)) : pick i (l.map (Sigma.mk j)) = [] := by
  induction l with
  | nil => rfl
  | cons x l ih => simp [pick, h, ih]

end

variable {I : Type} [DecidableEq I] {K V Rep F : I → Type} (S : (i : I) → Setup (K i) (V i) (Rep i) (F i))

/-- State of all types: static members are per instantiation,
/repo/include/boost/flyweight/detail/flyweight_core.hpp:314-351. -/
abbrev FSt (Rep F : I → Type) := (i : I) → St (Rep i) (F i)

/-- Addresses of the values stored by the factory of type `i`
(/repo/include/boost/flyweight/detail/flyweight_core.hpp:216). -/
def live (st : FSt Rep F) (i : I) : List Nat := ((S i).Fa.ids (st i).fac).map (st i).addr

/-- Addresses of values of types other than `i`, `all` being the types of the program
(/repo/include/boost/flyweight/detail/flyweight_core.hpp:216). -/
def others (all : List I) (st : FSt Rep F) (i : I) : List Nat :=
  (all.filter fun j => j ≠ i).flatMap (live S st)

/-- One operation on a type: uses the static members of this type only,
/repo/include/boost/flyweight/detail/flyweight_core.hpp:203-211; memory comes from an allocator `A` common to all
types, which gives addresses not in use. Simplification: operations on different types are not nested. -/
def step (A : I → Nat → List Nat → Nat) (hp : Nat → Nat) (all : List I) (i : I) (op : Op (K i) (V i)) (st : FSt Rep F) :
    Option (List (Out (K i) (V i)) × FSt Rep F) :=
  ((S i).resume hp { st i with alloc := fun n l => A i n (l ++ others S all st i) } [op]).map
    fun r => (r.1, Function.update st i r.2)

/-- A program: operations on any types in any order. (The user's.)  (No code of its own: used in
statements and proofs.) -/
def exec (A : I → Nat → List Nat → Nat) (hp : Nat → Nat) (all : List I) :
    List (Σ i, Op (K i) (V i)) → FSt Rep F → Option (List (Σ i, Out (K i) (V i)) × FSt Rep F)
  | [], st => some ([], st)
  | o :: ops, st => match step S A hp all o.1 o.2 st with
    | .none => .none
    | some (outs, st) => (exec A hp all ops st).map fun r => (outs.map (Sigma.mk o.1) ++ r.1, r.2)

/-- Program start, /repo/include/boost/flyweight/detail/flyweight_core.hpp:314-351. -/
def start (fl : I → Nat → Bool) : FSt Rep F := fun i => Core.start (S i).Fa (fl i) fun _ l => l.sum + 1

/-- Invariant: each type as if it were alone, and no address in use twice.  (No code of its own:
used in statements and proofs.) -/
structure Ok (fl : I → Nat → Bool) (all : List I) (st : FSt Rep F) : Prop where
  sim : ∀ i, ∃ t, Sim (S i) (fl i) (st i) t ∧ SOk (S i).trk (S i).keq t
  apart : ∀ i ∈ all, ∀ j ∈ all, i ≠ j → ∀ a ∈ live S st i, a ∉ live S st j

variable {S}

theorem resume_one {K V Rep F : Type} {S : Setup K V Rep F} {hp : Nat → Nat} {s s' : St Rep F} {op : Op K V}
    {outs : List (Out K V)} (h : S.resume hp s [op] = some (outs, s')) {fl : Nat → Bool} {t : SSt K V} (hS : Sim S fl s t)
    (hok : SOk S.trk S.keq t) :
    ∃ t', Sim S fl s' t' ∧ SOk S.trk S.keq t' ∧
      ∀ a ∈ (S.Fa.ids s'.fac).map s'.addr, a ∈ (S.Fa.ids s.fac).map s.addr ∨ ∃ n l, a = s.alloc n l := by
  have hn : s.objs.map Prod.fst = t.names := hS.rel.vars.names.symm
  unfold resume Core.exec at h
  rw [hn] at h
  by_cases hv : op.valid S.sp t.names = true
  · rw [if_pos hv] at h
    have hs := step_sim_grown hS hp hv s rfl
    cases hm : Core.step S.P S.Fa S.trk hp op s with
    | ok out s1 =>
      rw [hm] at hs h
      obtain ⟨_, t1, h1, h2, h3⟩ := hs
      simp only [Core.exec, Option.map_some, Option.some.injEq, Prod.mk.injEq] at h
      obtain ⟨_, rfl⟩ := h
      refine ⟨t1, h3, (SRun.step hv h1 (.nil t1)).ok S.LS hok, fun a ha => ?_⟩
      obtain ⟨b, hb, rfl⟩ := ((pool_addrs h3).2 a).1 ha
      rcases pool_grown h1 h2 hok b hb with hb | ⟨n, l, hb⟩
      · exact .inl (((pool_addrs hS).2 b.addr).2 ⟨b, hb, rfl⟩)
      · exact .inr ⟨n, l, hb⟩
    | exc s1 =>
      rw [hm] at hs h
      obtain ⟨h1, h2, _⟩ := hs
      simp only [Core.exec, Option.map_some, Option.some.injEq, Prod.mk.injEq] at h
      obtain ⟨_, rfl⟩ := h
      refine ⟨t, h2, hok, fun a ha => ?_⟩
      obtain ⟨b, hb, rfl⟩ := ((pool_addrs h2).2 a).1 ha
      exact .inl (((pool_addrs hS).2 b.addr).2 ⟨b, hb, rfl⟩)
    | ub => rw [hm] at hs; exact hs.elim
  · rw [if_neg hv] at h
    simp only [Core.exec, Option.map_some, Option.some.injEq, Prod.mk.injEq] at h
    obtain ⟨_, rfl⟩ := h
    exact ⟨t, hS, hok, fun a ha => .inl ha⟩

theorem step_ok {A : I → Nat → List Nat → Nat} (hA : ∀ i n l, A i n l ∉ l) (hp : Nat → Nat) {fl : I → Nat → Bool} {all : List I}
    {st : FSt Rep F} (h : Ok S fl all st) (i : I) (op : Op (K i) (V i)) :
    ∃ outs s', (S i).resume hp { st i with alloc := fun n l => A i n (l ++ others S all st i) } [op] = some (outs, s') ∧
      step S A hp all i op st = some (outs, Function.update st i s') ∧ Ok S fl all (Function.update st i s') := by
  obtain ⟨t, hS, hok⟩ := h.sim i
  have hS' := hS.setAlloc (a := fun n l => A i n (l ++ others S all st i))
    (fun n l hm => hA i n _ (List.mem_append.2 (.inl hm)))
  obtain ⟨outs, s', t', h1, _, _, _⟩ := exec_sim hp [op] hS'
  have h1' : (S i).resume hp { st i with alloc := fun n l => A i n (l ++ others S all st i) } [op] = some (outs, s') := h1
  refine ⟨outs, s', h1', by simp [step, h1'], ?_⟩
  obtain ⟨t1, g1, g2, g3⟩ := resume_one h1' hS' hok
  have new : ∀ a ∈ live S (Function.update st i s') i, a ∈ live S st i ∨ a ∉ others S all st i := by
    intro a ha
    simp only [live, Function.update_self] at ha
    rcases g3 a ha with h | ⟨n, l, rfl⟩
    · exact .inl h
    · refine .inr fun hm => hA i n _ (List.mem_append.2 (.inr hm))
  have old : ∀ j, j ≠ i → live S (Function.update st i s') j = live S st j := by
    intro j hj
    simp only [live, Function.update_of_ne hj]
  constructor
  · intro j
    by_cases hj : j = i
    · subst hj
      rw [Function.update_self]
      exact ⟨t1, g1, g2⟩
    · rw [Function.update_of_ne hj]
      exact h.sim j
  · have key : ∀ j ∈ all, i ∈ all → j ≠ i → ∀ a ∈ live S (Function.update st i s') i, a ∉ live S st j := by
      intro j hj hi hji a ha haj
      rcases new a ha with ha | ha
      · exact h.apart i hi j hj (Ne.symm hji) a ha haj
      · exact ha (List.mem_flatMap.2 ⟨j, List.mem_filter.2 ⟨hj, by simpa using hji⟩, haj⟩)
    intro j hj k hk hjk a ha hak
    by_cases hji : j = i
    · subst hji
      rw [old k (Ne.symm hjk)] at hak
      exact key k hk hj (Ne.symm hjk) a ha hak
    · rw [old j hji] at ha
      by_cases hki : k = i
      · subst hki
        exact key j hj hk hji a hak ha
      · rw [old k hki] at hak
        exact h.apart j hj k hk hjk a ha hak

omit [DecidableEq I] in
theorem start_ok (fl : I → Nat → Bool) (all : List I) : Ok S fl all (start S fl) := by
  have ha : ∀ (n : Nat) (l : List Nat), (fun (_ : Nat) (l : List Nat) => l.sum + 1) n l ∉ l := by
    intro n l h
    have : ∀ (l : List Nat) a, a ∈ l → a ≤ l.sum := by
      intro l
      induction l with
      | nil => intro a h; cases h
      | cons b l ih =>
        intro a h
        rcases List.mem_cons.1 h with rfl | h
        · simp
        · have := ih a h
          simp; omega
    have := this l _ h
    simp at this
    omega
  have hs : ∀ i, Sim (S i) (fl i) (start S fl i) SSt.start := fun i => sim_start (S i) (fl i) ha
  refine ⟨fun i => ⟨_, hs i, SOk.start _ _⟩, fun i _ j _ _ a ha => ?_⟩
  unfold live at ha
  obtain ⟨b, hb, _⟩ := ((pool_addrs (hs i)).2 a).1 ha
  unfold SSt.pool at hb
  cases htrk : (S i).trk <;> simp [htrk, SSt.start] at hb

/-- Each type fares as if it were alone. -/
theorem exec_pick {A : I → Nat → List Nat → Nat} (hA : ∀ i n l, A i n l ∉ l) (hp : Nat → Nat) {fl : I → Nat → Bool}
    {all : List I} (ops : List (Σ i, Op (K i) (V i))) : ∀ {st : FSt Rep F}, Ok S fl all st →
    ∃ outs st', exec S A hp all ops st = some (outs, st') ∧ Ok S fl all st' ∧
      ∀ i (s : St (Rep i) (F i)) t, Sim (S i) (fl i) s t → Hom.Proj (idHom (S i).Fa) (st i) s →
        ∃ outs' s', (S i).resume hp s (pick i ops) = some (outs', s') ∧
          outs'.map Out.erase = (pick i outs).map Out.erase ∧ Hom.Proj (idHom (S i).Fa) (st' i) s' := by
  induction ops with
  | nil => intro st h; exact ⟨[], st, rfl, h, fun i s t _ hp => ⟨[], s, rfl, rfl, hp⟩⟩
  | cons o ops ih =>
    intro st h
    obtain ⟨j, op⟩ := o
    obtain ⟨outs1, s1, h1, h2, h3⟩ := step_ok hA hp h j op
    obtain ⟨outs2, st2, g1, g2, g3⟩ := ih h3
    refine ⟨outs1.map (Sigma.mk j) ++ outs2, st2, ?_, g2, fun i s t hS hP => ?_⟩
    · simp only [exec, h2, g1]; rfl
    · rw [pick_append]
      by_cases hij : j = i
      · subst hij
        rw [pick_same]
        obtain ⟨t0, hS0, _⟩ := h.sim j
        have hS0' := hS0.setAlloc (a := fun n l => A j n (l ++ others S all st j))
          (fun n l hm => hA j n _ (List.mem_append.2 (.inl hm)))
        obtain ⟨o1, o2, r1, r2, k1, k2, k3, k4⟩ := exec_follows (idHom (S j).Fa) rfl rfl rfl (fun _ _ => trivial) hp [op]
          hS0' hS (s' := s) ⟨hP.fac, hP.env, hP.inited, hP.depth, hP.nextId, hP.locals, hP.objs⟩
        rw [h1] at k1
        cases k1
        obtain ⟨t2, _, hS2⟩ := resume_sim hS k2
        obtain ⟨o3, s3, m1, m2, m3⟩ := g3 j r2 t2 hS2 (by rw [Function.update_self]; exact k4)
        have happ : ∀ (a b : List (Op (K j) (V j))) (s : St (Rep j) (F j)) {oa : List (Out (K j) (V j))} {sa : St (Rep j) (F j)},
            (S j).resume hp s a = some (oa, sa) →
            (S j).resume hp s (a ++ b) = ((S j).resume hp sa b).map fun r => (oa ++ r.1, r.2) := by
          intro a
          induction a with
          | nil => intro b s oa sa h; cases h; simp
          | cons x a iha =>
            intro b s oa sa h
            simp only [resume, Core.exec, List.cons_append] at h ⊢
            split at h
            · rename_i hv
              rw [if_pos hv]
              cases hm : Core.step (S j).P (S j).Fa (S j).trk hp x s with
              | ok o s' =>
                rw [hm] at h
                simp only at h
                cases he : Core.exec (S j).P (S j).Fa (S j).trk hp (S j).sp a s' with
                | none => rw [he] at h; cases h
                | some r =>
                  rw [he] at h
                  cases h
                  have := iha b s' (oa := r.1) (sa := r.2) he
                  simp only [resume] at this
                  simp only [this, Option.map_map]
                  rfl
              | exc s' =>
                rw [hm] at h
                simp only at h
                cases he : Core.exec (S j).P (S j).Fa (S j).trk hp (S j).sp a s' with
                | none => rw [he] at h; cases h
                | some r =>
                  rw [he] at h
                  cases h
                  have := iha b s' (oa := r.1) (sa := r.2) he
                  simp only [resume] at this
                  simp only [this, Option.map_map]
                  rfl
              | ub => rw [hm] at h; cases h
            · rename_i hv
              rw [if_neg hv]
              cases he : Core.exec (S j).P (S j).Fa (S j).trk hp (S j).sp a s with
              | none => rw [he] at h; cases h
              | some r =>
                rw [he] at h
                cases h
                have := iha b s (oa := r.1) (sa := r.2) he
                simp only [resume] at this
                simp only [this, Option.map_map]
                rfl
        refine ⟨o2 ++ o3, s3, ?_, ?_, m3⟩
        · have : pick j (⟨j, op⟩ :: ops) = [op] ++ pick j ops := by simp [pick]
          rw [this, happ [op] (pick j ops) s k2, m1]
          rfl
        · rw [List.map_append, List.map_append, m2, k3]
      · have e1 : pick i (⟨j, op⟩ :: ops) = pick i ops := by simp [pick, hij]
        rw [e1, pick_other hij, List.nil_append]
        exact g3 i s t hS (by rw [Function.update_of_ne (fun h => hij h.symm)]; exact hP)

end Family
end Verif

import Verif.FactoryProd

/-!
# Programs using a factory directly

The factory concept of /repo/doc/reference/factories.html on its own: a program
of insertions, erasures and changes of the mutable part of entries, executed by a
factory, and the specification it is compared with.
-/

set_option autoImplicit false

namespace Verif
variable {F E : Type}

/-- What a client of a factory does: `insert(e)`, `erase(h)`, and change the
mutable part of the entry with handle `h` (as the reference counts and the lazily
constructed values do), see /repo/include/boost/flyweight/hashed_factory.hpp:74-91. -/
inductive COp (E : Type) where
  | insert (e : E)
  | erase (h : Nat)
  | change (h : Nat) (e : E)

/-- Results: the handle and whether the entry is new; or nothing; or the operation
was skipped as its precondition does not hold.  Models the results in
/repo/include/boost/flyweight/assoc_container_factory.hpp:59-76 and
/repo/include/boost/flyweight/hashed_factory.hpp:74-91. -/
inductive COut where
  | handle (h : Nat) (new : Bool)
  | done
  | skipped
  deriving DecidableEq

/-- Execution by a factory.  New nodes are numbered consecutively.  Models the
calls of /repo/include/boost/flyweight/hashed_factory.hpp:74-91 and
/repo/include/boost/flyweight/assoc_container_factory.hpp:59-76.  `change`
is only allowed if the new entry is equivalent to the old one. -/
def Factory.cstep (Fa : Factory F E) (pred : E → E → Bool) (s : F × Nat) : COp E → COut × (F × Nat)
  | .insert e => match Fa.lookup s.1 e with
    | (f, some i) => (.handle i false, (f, s.2))
    | (f, none) => (.handle s.2 true, (Fa.link f s.2 e, s.2 + 1))
  | .erase h => match Fa.entry s.1 h with
    | none => (.skipped, s)
    | some _ => (.done, (Fa.erase s.1 h, s.2))
  | .change h e => match Fa.entry s.1 h with
    | none => (.skipped, s)
    | some e' => if pred e' e then (.done, (Fa.update s.1 h e, s.2)) else (.skipped, s)

/-- A program executed by a factory. (No code of its own.) -/
def Factory.crun (Fa : Factory F E) (pred : E → E → Bool) : List (COp E) → F × Nat → List COut × (F × Nat)
  | [], s => ([], s)
  | op :: ops, s =>
    let r := Fa.cstep pred s op
    let q := Factory.crun Fa pred ops r.2
    (r.1 :: q.1, q.2)

/-- The specification: stored entries in order of insertion, compared one by one.
(Stands for the documentation of factories, /repo/doc/reference/factories.html.) -/
def refStep (pred : E → E → Bool) (s : List (Nat × E) × Nat) : COp E → COut × (List (Nat × E) × Nat)
  | .insert e => match s.1.find? fun p => pred p.2 e with
    | some p => (.handle p.1 false, s)
    | none => (.handle s.2 true, ((s.2, e) :: s.1, s.2 + 1))
  | .erase h => match s.1.lookup h with
    | none => (.skipped, s)
    | some _ => (.done, (s.1.filter fun p => p.1 ≠ h, s.2))
  | .change h e => match s.1.lookup h with
    | none => (.skipped, s)
    | some e' => if pred e' e then (.done, (s.1.map fun p => if p.1 = h then (h, e) else p, s.2))
      else (.skipped, s)

/-- A program executed by the specification. -/
def refRun (pred : E → E → Bool) : List (COp E) → List (Nat × E) × Nat → List COut × (List (Nat × E) × Nat)
  | [], s => ([], s)
  | op :: ops, s =>
    let r := refStep pred s op
    let q := refRun pred ops r.2
    (r.1 :: q.1, q.2)

/-- The factory state stores what the specification says, and no two equivalent
entries. -/
structure CRel {Fa : Factory F E} {eqv : E → E → Prop} (L : Fa.Lawful eqv) (pred : E → E → Bool)
    (s : F × Nat) (t : List (Nat × E) × Nat) : Prop where
  inv : L.Inv s.1
  next : s.2 = t.2
  nodup : (t.1.map Prod.fst).Nodup
  bound : ∀ p ∈ t.1, p.1 < t.2
  entry : ∀ i, Fa.entry s.1 i = t.1.lookup i
  uniq : t.1.Pairwise fun p q => pred p.2 q.2 = false

section
variable {Fa : Factory F E} {eqv : E → E → Prop} {L : Fa.Lawful eqv} {pred : E → E → Bool}

theorem CRel.step (hq : ∀ a b, eqv a b ↔ pred a b = true) (ok : EquivOk pred) {s : F × Nat}
    {t : List (Nat × E) × Nat} (h : CRel L pred s t) (op : COp E) :
    (Fa.cstep pred s op).1 = (refStep pred t op).1 ∧
    CRel L pred (Fa.cstep pred s op).2 (refStep pred t op).2 := by
  obtain ⟨f, n⟩ := s
  obtain ⟨st, m⟩ := t
  have hn : n = m := h.next
  subst hn
  have hEnt : ∀ i, Fa.entry f i = st.lookup i := h.entry
  have hInv : L.Inv f := h.inv
  have hNd : (st.map Prod.fst).Nodup := h.nodup
  have hB : ∀ p ∈ st, p.1 < n := h.bound
  have hU : st.Pairwise fun p q => pred p.2 q.2 = false := h.uniq
  -- two equivalent stored entries are the same
  have huniq : ∀ p ∈ st, ∀ q ∈ st, pred p.2 q.2 = true → p = q := by
    intro p hp q hq' hpq
    by_cases hne : p = q
    · exact hne
    · have := hU.imp (S := fun (p q : Nat × E) => pred p.2 q.2 = false ∧ pred q.2 p.2 = false) fun {a b} hab =>
        ⟨hab, by cases hba : pred b.2 a.2 with
          | false => rfl
          | true => rw [ok.symm _ _ hba] at hab; cases hab⟩
      have h2 : ∀ {l : List (Nat × E)}, l.Pairwise (fun p q => pred p.2 q.2 = false ∧ pred q.2 p.2 = false) →
          ∀ p ∈ l, ∀ q ∈ l, p ≠ q → pred p.2 q.2 = false := by
        intro l hl
        induction l with
        | nil => intro p hp; cases hp
        | cons a l ih =>
          rw [List.pairwise_cons] at hl
          intro p hp q hq hpq
          rcases List.mem_cons.1 hp with h5 | h5 <;> rcases List.mem_cons.1 hq with h6 | h6
          · exact absurd (h5.trans h6.symm) hpq
          · rw [h5]; exact (hl.1 q h6).1
          · rw [h6]; exact (hl.1 p h5).2
          · exact ih hl.2 p h5 q h6 hpq
      rw [h2 this p hp q hq' hne] at hpq
      cases hpq
  cases op with
  | insert e =>
    simp only [Factory.cstep, refStep]
    cases hA : Fa.lookup f e with
    | mk g o =>
      have hg : g = (Fa.lookup f e).1 := by rw [hA]
      have ho : (Fa.lookup f e).2 = o := by rw [hA]
      have hgi : L.Inv g := hg ▸ L.lookup_inv e hInv
      have hge : ∀ i, Fa.entry g i = st.lookup i := fun i => by
        rw [hg, L.lookup_entry e i hInv, hEnt]
      cases o with
      | some i =>
        obtain ⟨e', h1, h2⟩ := L.lookup_some e i hInv ho
        rw [hq] at h2
        rw [hEnt] at h1
        have hm : (i, e') ∈ st := Assoc.lookup_mem h1
        cases hf : st.find? fun p => pred p.2 e with
        | none =>
          rw [List.find?_eq_none] at hf
          exact absurd h2 (hf _ hm)
        | some p =>
          have h3 := List.find?_some hf
          have h4 := List.mem_of_find?_eq_some hf
          have := huniq _ h4 _ hm (ok.trans _ _ _ h3 (ok.symm _ _ h2))
          subst this
          exact ⟨rfl, hgi, rfl, hNd, hB, hge, hU⟩
      | none =>
        have hno : ∀ i e', st.lookup i = some e' → ¬ pred e' e = true := fun i e' hi hp =>
          L.lookup_none e hInv ho i e' ((hEnt i).trans hi) ((hq _ _).2 hp)
        cases hf : st.find? fun p => pred p.2 e with
        | some p =>
          have h3 := List.find?_some hf
          have h4 := List.mem_of_find?_eq_some hf
          exact absurd h3 (hno p.1 p.2 (Assoc.lookup_of_mem hNd h4))
        | none =>
          have hfr : n ∉ st.map Prod.fst := by
            intro hm
            obtain ⟨p, hp, hpn⟩ := List.mem_map.1 hm
            have := hB p hp
            omega
          have hgn : Fa.entry g n = none := by rw [hge, Assoc.lookup_none hfr]
          refine ⟨rfl, L.link_inv n e hgi hgn fun j e' hj hp => ?_, rfl, ?_, ?_, fun i => ?_, ?_⟩
          · rw [hge] at hj
            exact hno j e' hj ((hq _ _).1 hp)
          · simp only [List.map_cons, List.nodup_cons]
            exact ⟨hfr, hNd⟩
          · intro p hp
            rcases List.mem_cons.1 hp with rfl | hp
            · exact Nat.lt_succ_self _
            · exact Nat.lt_succ_of_lt (hB p hp)
          · show Fa.entry (Fa.link g n e) i = ((n, e) :: st).lookup i
            rw [L.link_entry n e i hgi hgn]
            by_cases hi : i = n
            · rw [if_pos hi, hi, Assoc.lookup_head]
            · rw [if_neg hi, Assoc.lookup_tail _ _ hi, hge]
          · rw [List.pairwise_cons]
            refine ⟨fun p hp => ?_, hU⟩
            cases hpe : pred e p.2 with
            | false => rfl
            | true => exact absurd (ok.symm _ _ hpe) (hno p.1 p.2 (Assoc.lookup_of_mem hNd hp))
  | erase i =>
    simp only [Factory.cstep, refStep, hEnt i]
    cases st.lookup i with
    | none => exact ⟨rfl, h⟩
    | some e =>
      refine ⟨rfl, L.erase_inv i hInv, rfl, hNd.sublist (Assoc.filter_names _ _),
        fun p hp => hB p (List.mem_filter.1 hp).1, fun j => ?_, hU.sublist List.filter_sublist⟩
      show Fa.entry (Fa.erase f i) j = (st.filter fun p => p.1 ≠ i).lookup j
      rw [L.erase_entry i j hInv, Assoc.lookup_filter, hEnt]
  | change i e =>
    simp only [Factory.cstep, refStep, hEnt i]
    cases hl : st.lookup i with
    | none => exact ⟨rfl, h⟩
    | some e' =>
      simp only
      by_cases hp : pred e' e = true
      · rw [if_pos hp, if_pos hp]
        have h1 := (hq _ _).2 hp
        have h2 := (hq _ _).2 (ok.symm _ _ hp)
        have hfe : Fa.entry f i = some e' := (hEnt i).trans hl
        refine ⟨rfl, L.update_inv i e' e hInv hfe h1 h2, rfl, ?_, ?_, fun j => ?_, ?_⟩
        · show ((Assoc.setVar st i e).map Prod.fst).Nodup
          rw [Assoc.setVar_names]; exact hNd
        · intro p hp'
          obtain ⟨q, hq', rfl⟩ := List.mem_map.1 hp'
          have := hB q hq'
          simp only
          split
          · rename_i hqi; rw [← hqi]; exact this
          · exact this
        · show Fa.entry (Fa.update f i e) j = (Assoc.setVar st i e).lookup j
          rw [L.update_entry i e' e j hInv hfe h1 h2, Assoc.lookup_setVar, hl, hEnt]
          by_cases hj : j = i <;> simp [hj]
        · show (st.map fun p => if p.1 = i then (i, e) else p).Pairwise _
          rw [List.pairwise_map]
          refine hU.imp_of_mem fun {a b} ha hb hab => ?_
          have hval : ∀ p ∈ st, p.1 = i → p.2 = e' := by
            intro p hp' hpi
            have := Assoc.lookup_of_mem hNd (show (p.1, p.2) ∈ st from hp')
            rw [hpi, hl] at this
            exact (Option.some.inj this).symm
          have hl' : ∀ c, pred e c = true → pred e' c = true := fun c hc => ok.trans _ _ _ hp hc
          by_cases h3 : a.1 = i <;> by_cases h4 : b.1 = i
          · rw [hval a ha h3, hval b hb h4, ok.refl] at hab; cases hab
          · simp only [h3, h4, if_true, if_false]
            rw [hval a ha h3] at hab
            cases hc : pred e b.2 with
            | false => rfl
            | true => rw [hl' _ hc] at hab; cases hab
          · simp only [h3, h4, if_true, if_false]
            rw [hval b hb h4] at hab
            cases hc : pred a.2 e with
            | false => rfl
            | true => rw [ok.trans _ _ _ hc (ok.symm _ _ hp)] at hab; cases hab
          · simp only [h3, h4, if_false]
            exact hab
      · rw [if_neg hp, if_neg hp]
        exact ⟨rfl, h⟩

theorem CRel.run (hq : ∀ a b, eqv a b ↔ pred a b = true) (ok : EquivOk pred) (ops : List (COp E))
    {s : F × Nat} {t : List (Nat × E) × Nat} (h : CRel L pred s t) :
    (Fa.crun pred ops s).1 = (refRun pred ops t).1 ∧
    CRel L pred (Fa.crun pred ops s).2 (refRun pred ops t).2 := by
  induction ops generalizing s t with
  | nil => exact ⟨rfl, h⟩
  | cons op ops ih =>
    obtain ⟨h1, h2⟩ := h.step hq ok op
    obtain ⟨h3, h4⟩ := ih h2
    simp only [Factory.crun, refRun]
    exact ⟨by rw [h1, h3], h4⟩

theorem CRel.start (L : Fa.Lawful eqv) (pred : E → E → Bool) : CRel L pred (Fa.empty, 0) ([], 0) :=
  ⟨L.inv_empty, rfl, .nil, fun _ hp => (by cases hp), fun i => L.entry_empty i, .nil⟩

theorem CRel.unique (ok : EquivOk pred) {s : F × Nat} {t : List (Nat × E) × Nat} (h : CRel L pred s t)
    {i j : Nat} {e e' : E} (hi : Fa.entry s.1 i = some e) (hj : Fa.entry s.1 j = some e')
    (hp : pred e e' = true) : i = j := by
  rw [h.entry] at hi hj
  have hm := Assoc.lookup_mem hi
  have hm' := Assoc.lookup_mem hj
  have h2 : ∀ {l : List (Nat × E)}, l.Pairwise (fun p q => pred p.2 q.2 = false) →
      ∀ p ∈ l, ∀ q ∈ l, p ≠ q → pred p.2 q.2 = false := by
    intro l hl
    induction l with
    | nil => intro p hp; cases hp
    | cons a l ih =>
      rw [List.pairwise_cons] at hl
      intro p hp q hq hpq
      rcases List.mem_cons.1 hp with h5 | h5 <;> rcases List.mem_cons.1 hq with h6 | h6
      · exact absurd (h5.trans h6.symm) hpq
      · rw [h5]; exact hl.1 q h6
      · have := hl.1 p h5
        rw [h6]
        cases hc : pred p.2 a.2 with
        | false => rfl
        | true => rw [ok.symm _ _ hc] at this; cases this
      · exact ih hl.2 p h5 q h6 hpq
  by_cases hne : (i, e) = (j, e')
  · exact congrArg Prod.fst hne
  · have := h2 h.uniq _ hm _ hm' hne
    rw [hp] at this
    cases this

/-- The operation does not concern handle `i`.  (No code of its own: used in statements and
proofs.) -/
def COp.spares (i : Nat) : COp E → Bool
  | .insert _ => true
  | .erase h => h != i
  | .change h _ => h != i

theorem refStep_keep {i : Nat} {e : E} {t : List (Nat × E) × Nat} (hb : ∀ p ∈ t.1, p.1 < t.2)
    (hl : t.1.lookup i = some e) {op : COp E} (hop : op.spares i = true) :
    (refStep pred t op).2.1.lookup i = some e := by
  cases op with
  | insert a =>
    simp only [refStep]
    cases t.1.find? fun p => pred p.2 a with
    | some p => exact hl
    | none =>
      have := hb _ (Assoc.lookup_mem hl)
      simp only at this ⊢
      rw [Assoc.lookup_tail _ _ (by omega)]
      exact hl
  | erase h =>
    simp only [COp.spares, bne_iff_ne] at hop
    simp only [refStep]
    cases t.1.lookup h with
    | none => exact hl
    | some a =>
      show (t.1.filter fun p => p.1 ≠ h).lookup i = _
      rw [Assoc.lookup_filter, if_neg (Ne.symm hop), hl]
  | change h a =>
    simp only [COp.spares, bne_iff_ne] at hop
    simp only [refStep]
    cases t.1.lookup h with
    | none => exact hl
    | some b =>
      simp only
      split
      · show (Assoc.setVar t.1 h a).lookup i = _
        rw [Assoc.lookup_setVar, if_neg (fun hc => hop hc.1.symm), hl]
      · exact hl

theorem CRel.keep (hq : ∀ a b, eqv a b ↔ pred a b = true) (ok : EquivOk pred) (ops : List (COp E))
    {s : F × Nat} {t : List (Nat × E) × Nat} (h : CRel L pred s t) {i : Nat} {e : E}
    (hi : Fa.entry s.1 i = some e) (hops : ∀ op ∈ ops, op.spares i = true) :
    Fa.entry (Fa.crun pred ops s).2.1 i = some e := by
  induction ops generalizing s t with
  | nil => exact hi
  | cons op ops ih =>
    obtain ⟨_, h2⟩ := h.step hq ok op
    simp only [Factory.crun]
    refine ih h2 ?_ fun o ho => hops o (List.mem_cons_of_mem _ ho)
    rw [h2.entry]
    exact refStep_keep h.bound ((h.entry i).symm.trans hi) (hops op List.mem_cons_self)

end
end Verif

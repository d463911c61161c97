import Verif.AtomicLemmas
import Verif.Lasting
import Verif.SpecLemmas

/-!
# Concurrent executions explained by sequential programs

The specification of flyweights used by one thread (`Verif.Spec`) follows those of flyweights with atomic operations
(`Verif.Atomic`, `Verif.Lasting`): a step that takes effect is one operation of a sequential program, the others are none.
Flyweights of all types are put together, their keys being pairs of a type and a key.
-/

set_option autoImplicit false

namespace Verif.Explain
open Verif.Conc (Fw Act pick)
open Verif.Atomic (Val Call setVal drops)
variable {K : Type}

/-- Keys of flyweights of all types.  (No code of its own: used in statements and proofs.) -/
def keq (eqv : Nat → K → K → Bool) (p q : Nat × K) : Bool := p.1 == q.1 && eqv p.1 p.2 q.2

/-- A value tells its type and its key; without any flyweights inside it is determined by them.  (No code of its own: used in
statements and proofs.) -/
def fns : UserFns (Nat × K) (Val K) where
  ctor p := ⟨p.1, p.2, []⟩
  kfv v := (v.core, v.key)
  movedK := id
  movedV := id

/-- Flyweights made from keys or values.  (No code of its own: used in statements and proofs.) -/
def sp : SrcSpec (Nat × K) (Val K) := SrcSpec.variant fns

/-- What a flyweight referring to value `v` at `h` is bound to.  (No code of its own: used in statements and proofs.) -/
def bindOf (h : Nat) (v : Val K) : Bind (Nat × K) (Val K) := ⟨h, (v.core, v.key), v⟩

/-- Number of variables bound to `h`.  (No code of its own: used in statements and proofs.) -/
def bound (t : SSt (Nat × K) (Val K)) (h : Nat) : Nat := (t.vars.map fun p => p.2.addr).count h

/-- The state of the sequential program has as many variables bound to each value as `n` tells, and its values are
`vals`.  (No code of its own: used in statements and proofs.) -/
structure Tally (trk : Tracking) (n : Nat → Nat) (vals : Nat → Option (Val K)) (t : SSt (Nat × K) (Val K)) : Prop where
  names : t.names.Nodup
  count : ∀ h, bound t h = n h
  vars : ∀ p ∈ t.vars, ∃ v, vals p.2.addr = some v ∧ p.2 = bindOf p.2.addr v
  pool : ∀ h v, vals h = some v → bindOf h v ∈ t.pool trk
  only : ∀ b ∈ t.pool trk, ∃ v, vals b.addr = some v ∧ b = bindOf b.addr v

/-- One more.  (No code of its own: used in statements and proofs.) -/
def inc (n : Nat → Nat) (h : Nat) : Nat → Nat := fun i => if i = h then n i + 1 else n i

/-- One less.  (No code of its own: used in statements and proofs.) -/
def dec (n : Nat → Nat) (h : Nat) : Nat → Nat := fun i => if i = h then n i - 1 else n i

theorem exists_new (l : List Nat) : ∃ x, x ∉ l := by
  refine ⟨l.foldr max 0 + 1, fun h => ?_⟩
  have : ∀ l : List Nat, ∀ x ∈ l, x ≤ l.foldr max 0 := by
    intro l
    induction l with
    | nil => intro x hx; cases hx
    | cons a l ih =>
      intro x hx
      rcases List.mem_cons.1 hx with rfl | hx
      · exact Nat.le_max_left _ _
      · exact Nat.le_trans (ih x hx) (Nat.le_max_right _ _)
  have := this l _ h
  omega

theorem sp_lawful {eqv : Nat → K → K → Bool} (refl : ∀ c k, eqv c k k = true)
    (symm : ∀ c k l, eqv c k l = true → eqv c l k = true)
    (trans : ∀ c k l m, eqv c k l = true → eqv c l m = true → eqv c k m = true) :
    (sp : SrcSpec (Nat × K) (Val K)).Lawful (keq eqv) where
  refl k := by simp [keq, refl]
  symm k l h := by
    simp only [keq, Bool.and_eq_true, beq_iff_eq] at h ⊢
    exact ⟨h.1.symm, by rw [← h.1]; exact symm _ _ _ h.2⟩
  trans k l m h1 h2 := by
    simp only [keq, Bool.and_eq_true, beq_iff_eq] at h1 h2 ⊢
    exact ⟨h1.1.trans h2.1, trans _ _ _ _ h1.2 (by rw [h1.1]; exact h2.2)⟩
  contract s _ := by cases s <;> simp [sp, SrcSpec.variant, fns, keq, refl]

variable {eqv : Nat → K → K → Bool} {trk : Tracking} {hp : Nat → Nat} {n : Nat → Nat} {vals : Nat → Option (Val K)}
  {t : SSt (Nat × K) (Val K)}

theorem one_step {op : Op (Nat × K) (Val K)} {out : Out (Nat × K) (Val K)} {t' : SSt (Nat × K) (Val K)}
    (hv : op.valid sp t.names = true) (hs : SStep trk (keq eqv) sp hp t op out t') :
    SRun trk (keq eqv) sp hp t [op] [out] t' := .step hv hs (.nil _)

theorem Tally.some_var (h : Tally trk n vals t) {i : Nat} (hi : 0 < n i) : ∃ x v, (x, bindOf i v) ∈ t.vars ∧ vals i = some v := by
  rw [← h.count i, bound, List.count_pos_iff, List.mem_map] at hi
  obtain ⟨⟨x, b⟩, hb, rfl⟩ := hi
  obtain ⟨v, hv, he⟩ := h.vars _ hb
  simp only at hv he
  exact ⟨x, v, by rw [← he]; exact hb, hv⟩

/-- One more variable bound to a value. -/
theorem Tally.add (h : Tally trk n vals t) {x i : Nat} {v : Val K} (hx : x ∉ t.names) (hv : vals i = some v) :
    Tally trk (inc n i) vals { t with vars := (x, bindOf i v) :: t.vars } where
  names := List.nodup_cons.2 ⟨hx, h.names⟩
  count j := by
    have := h.count j
    simp only [bound, List.map_cons, List.count_cons, inc, bindOf, beq_iff_eq] at this ⊢
    rw [this]
    by_cases hj : i = j
    · rw [if_pos hj, if_pos hj.symm]
    · rw [if_neg hj, if_neg (Ne.symm hj)]
      rfl
  vars p hp := by
    rcases List.mem_cons.1 hp with rfl | hp
    · exact ⟨v, hv, rfl⟩
    · exact h.vars p hp
  pool j u hu := by
    have := h.pool j u hu
    cases trk with
    | refcounted => exact List.mem_cons_of_mem _ this
    | noTracking => exact this
  only b hb := by
    cases trk with
    | refcounted =>
      rcases List.mem_cons.1 hb with rfl | hb
      · exact ⟨v, hv, rfl⟩
      · exact h.only b hb
    | noTracking => exact h.only b hb

/-- Making a flyweight that shares a value. -/
theorem Tally.share (h : Tally trk n vals t) {i c : Nat} {k : K} {v : Val K} (hv : vals i = some v) (hc : v.core = c)
    (hk : eqv c v.key k = true) :
    ∃ x t', SRun trk (keq eqv) sp hp t [.make x (.key (c, k))] [.done] t' ∧ Tally trk (inc n i) vals t' ∧
      (x, bindOf i v) ∈ t'.vars := by
  obtain ⟨x, hx⟩ := exists_new t.names
  refine ⟨x, _, one_step ?_ (.make t x _ (bindOf i v) t (.share _ _ _ (h.pool i v hv) ?_)), h.add hx hv, List.mem_cons_self⟩
  · simp [Op.valid, hx, sp, SrcSpec.variant]
  · subst hc
    simpa [keq, bindOf, sp, SrcSpec.variant] using hk

/-- Making a flyweight with a new value. -/
theorem Tally.store (h : Tally trk n vals t) {i : Nat} {v : Val K} (hn : vals i = none)
    (hf : ∀ j u, vals j = some u → u.core = v.core → eqv v.core u.key v.key = false) :
    ∃ x t', SRun trk (keq eqv) sp hp t [.make x (.copy v)] [.done] t' ∧ Tally trk (inc n i) (setVal vals i (some v)) t' ∧
      (x, bindOf i v) ∈ t'.vars := by
  obtain ⟨x, hx⟩ := exists_new t.names
  have hne : ∀ j u, vals j = some u → j ≠ i := by
    rintro j u hu rfl
    rw [hn] at hu
    cases hu
  refine ⟨x, _, one_step ?_ (.make t x _ (bindOf i v) _ (.fresh _ (.copy v) i ?_ ?_)), ?_, List.mem_cons_self⟩
  · simp [Op.valid, hx, sp, SrcSpec.variant]
  · intro b hb
    obtain ⟨u, hu, he⟩ := h.only b hb
    rw [he]
    simp only [keq, bindOf, sp, SrcSpec.variant, fns]
    cases hc : u.core == v.core with
    | false => rfl
    | true =>
      rw [Bool.true_and]
      have := hf _ u hu (beq_iff_eq.1 hc)
      rwa [beq_iff_eq.1 hc]
  · intro b hb
    obtain ⟨u, hu, _⟩ := h.only b hb
    exact hne _ u hu
  · have old : ∀ j u, vals j = some u → setVal vals i (some v) j = some u := fun j u hu => by
      rw [setVal, if_neg (hne j u hu)]; exact hu
    have new : setVal vals i (some v) i = some v := if_pos rfl
    refine ⟨List.nodup_cons.2 ⟨hx, h.names⟩, fun j => ?_, fun p hp => ?_, fun j u hu => ?_, fun b hb => ?_⟩
    · have := h.count j
      simp only [bound, List.map_cons, List.count_cons, inc, bindOf, beq_iff_eq] at this ⊢
      rw [this]
      by_cases hj : i = j
      · rw [if_pos hj, if_pos hj.symm]
      · rw [if_neg hj, if_neg (Ne.symm hj)]
        rfl
    · rcases List.mem_cons.1 hp with rfl | hp
      · exact ⟨v, new, rfl⟩
      · obtain ⟨u, hu, he⟩ := h.vars p hp
        exact ⟨u, old _ u hu, he⟩
    · unfold setVal at hu
      split at hu
      · rename_i hj
        cases hu
        subst hj
        cases trk with
        | refcounted => exact List.mem_cons_self
        | noTracking => exact List.mem_cons_self
      · have := h.pool j u hu
        cases trk with
        | refcounted => exact List.mem_cons_of_mem _ this
        | noTracking => exact List.mem_cons_of_mem _ this
    · have hb' : b = bindOf i v ∨ b ∈ t.pool trk := by
        cases trk with
        | refcounted => exact List.mem_cons.1 hb
        | noTracking => exact List.mem_cons.1 hb
      rcases hb' with rfl | hb'
      · exact ⟨v, new, rfl⟩
      · obtain ⟨u, hu, he⟩ := h.only b hb'
        exact ⟨u, old _ u hu, he⟩

/-- Copying a flyweight. -/
theorem Tally.copy (h : Tally trk n vals t) {i : Nat} (hi : 0 < n i) :
    ∃ x y v t', SRun trk (keq eqv) sp hp t [.copy x y] [.done] t' ∧ Tally trk (inc n i) vals t' ∧
      (y, bindOf i v) ∈ t.vars ∧ (x, bindOf i v) ∈ t'.vars := by
  obtain ⟨y, v, hy, hv⟩ := h.some_var hi
  obtain ⟨x, hx⟩ := exists_new t.names
  have hyn : y ∈ t.names := List.mem_map.2 ⟨_, hy, rfl⟩
  exact ⟨x, y, v, _, one_step (by simp [Op.valid, hx, hyn]) (.copy t x y _ hy), h.add hx hv, hy, List.mem_cons_self⟩

theorem count_filter {l : List (Nat × Bind (Nat × K) (Val K))} (hn : (l.map Prod.fst).Nodup) {x : Nat} {b : Bind (Nat × K) (Val K)}
    (hx : (x, b) ∈ l) (j : Nat) :
    ((l.filter fun p => p.1 ≠ x).map fun p => p.2.addr).count j =
      if j = b.addr then (l.map fun p => p.2.addr).count j - 1 else (l.map fun p => p.2.addr).count j := by
  induction l with
  | nil => cases hx
  | cons p l ih =>
    simp only [List.map_cons, List.nodup_cons] at hn
    rcases List.mem_cons.1 hx with rfl | hx
    · have : l.filter (fun p => decide (p.1 ≠ x)) = l := by
        rw [List.filter_eq_self]
        intro q hq
        have : q.1 ≠ x := fun he => hn.1 (List.mem_map.2 ⟨q, hq, he⟩)
        simpa using this
      rw [List.filter_cons_of_neg (by simp), this, List.map_cons, List.count_cons]
      simp only [beq_iff_eq]
      by_cases hj : j = b.addr
      · rw [if_pos hj, if_pos hj.symm]
        omega
      · rw [if_neg hj, if_neg (Ne.symm hj)]
        rfl
    · have hne : p.1 ≠ x := by
        rintro rfl
        exact hn.1 (List.mem_map.2 ⟨_, hx, rfl⟩)
      rw [List.filter_cons_of_pos (by simpa using hne), List.map_cons, List.map_cons, List.count_cons, List.count_cons, ih hn.2 hx]
      have : 0 < (l.map fun p => p.2.addr).count b.addr := List.count_pos_iff.2 (List.mem_map.2 ⟨_, hx, rfl⟩)
      by_cases hj : j = b.addr
      · subst hj
        rw [if_pos rfl, if_pos rfl]
        omega
      · rw [if_neg hj, if_neg hj]

/-- Destroying a flyweight.  With tracking the value vanishes if it was the last one. -/
theorem Tally.destroy (h : Tally trk n vals t) {i : Nat} (hi : 0 < n i) {vals' : Nat → Option (Val K)}
    (hv : vals' = if trk = .refcounted ∧ n i = 1 then setVal vals i none else vals) :
    ∃ x v t', SRun trk (keq eqv) sp hp t [.destroy x] [.done] t' ∧ Tally trk (dec n i) vals' t' ∧
      (x, bindOf i v) ∈ t.vars := by
  obtain ⟨x, v, hx, hv'⟩ := h.some_var hi
  have hxn : x ∈ t.names := List.mem_map.2 ⟨_, hx, rfl⟩
  have hcnt : ∀ j, ((t.vars.filter fun p => p.1 ≠ x).map fun p => p.2.addr).count j = dec n i j := by
    intro j
    rw [count_filter h.names hx j, dec]
    have := h.count j
    unfold bound at this
    rw [this]
    rfl
  have hsub : ∀ p ∈ t.vars.filter fun p => p.1 ≠ x, p ∈ t.vars := fun p hp => (List.mem_filter.1 hp).1
  have hgone : ∀ p ∈ t.vars.filter fun p => p.1 ≠ x, n i = 1 → p.2.addr ≠ i := by
    intro p hp h1 he
    have h2 := hcnt i
    have : 0 < ((t.vars.filter fun p => p.1 ≠ x).map fun p => p.2.addr).count i :=
      List.count_pos_iff.2 (List.mem_map.2 ⟨p, hp, he⟩)
    simp only [dec, if_true] at h2
    omega
  have hval : ∀ p ∈ t.vars.filter fun p => p.1 ≠ x, ∃ v, vals' p.2.addr = some v ∧ p.2 = bindOf p.2.addr v := by
    intro p hp
    obtain ⟨u, hu, he⟩ := h.vars p (hsub p hp)
    refine ⟨u, ?_, he⟩
    subst hv
    split
    · rename_i hc
      rw [setVal, if_neg (hgone p hp hc.2)]
      exact hu
    · exact hu
  refine ⟨x, v, _, one_step (by simp [Op.valid, hxn]) (.destroy t x), ⟨?_, hcnt, hval, ?_, ?_⟩, hx⟩
  · exact h.names.sublist (List.Sublist.map _ List.filter_sublist)
  · intro j u hu
    cases trk with
    | noTracking =>
      have he : vals' = vals := hv.trans (if_neg (by rintro ⟨h, _⟩; cases h))
      rw [he] at hu
      exact h.pool j u hu
    | refcounted =>
      have hu' : vals j = some u := by
        subst hv
        split at hu
        · unfold setVal at hu
          split at hu
          · cases hu
          · exact hu
        · exact hu
      -- some variable is left
      have hpos : 0 < dec n i j := by
        have h1 : 0 < n j := by
          rw [← h.count j]
          exact List.count_pos_iff.2 (by
            obtain ⟨p, hp, he⟩ := List.mem_map.1 (h.pool j u hu')
            exact List.mem_map.2 ⟨p, hp, by rw [he]; rfl⟩)
        unfold dec
        split
        · rename_i hj
          subst hj
          have : n j ≠ 1 := by
            intro h2
            rw [hv, if_pos ⟨rfl, h2⟩, setVal, if_pos rfl] at hu
            cases hu
          omega
        · exact h1
      rw [← hcnt j, List.count_pos_iff, List.mem_map] at hpos
      obtain ⟨p, hp, he⟩ := hpos
      obtain ⟨u', hu2, he'⟩ := hval p hp
      rw [he] at hu2 he'
      rw [hu] at hu2
      cases hu2
      exact List.mem_map.2 ⟨p, hp, he'⟩
  · intro b hb
    cases trk with
    | noTracking =>
      have he : vals' = vals := hv.trans (if_neg (by rintro ⟨h, _⟩; cases h))
      rw [he]
      exact h.only b hb
    | refcounted =>
      obtain ⟨p, hp, rfl⟩ := List.mem_map.1 hb
      exact hval p hp

theorem Tally.congr {m : Nat → Nat} (h : Tally trk n vals t) (hm : ∀ i, n i = m i) : Tally trk m vals t :=
  ⟨h.names, fun i => (h.count i).trans (hm i), h.vars, h.pool, h.only⟩

theorem run_append {a b c : SSt (Nat × K) (Val K)} {l l' : List (Op (Nat × K) (Val K))} {o o' : List (Out (Nat × K) (Val K))}
    (h : SRun trk (keq eqv) sp hp a l o b) (h' : SRun trk (keq eqv) sp hp b l' o' c) :
    SRun trk (keq eqv) sp hp a (l ++ l') (o ++ o') c := by
  induction h with
  | nil => exact h'
  | step hv hs _ ih => exact .step hv hs (ih h')
  | skip hv _ ih => exact .skip hv (ih h')

theorem Tally.start : Tally (K := K) trk (fun _ => 0) (fun _ => none) SSt.start where
  names := List.nodup_nil
  count _ := rfl
  vars p hp := by cases hp
  pool h v hv := by cases hv
  only b hb := by cases trk <;> cases hb

/-! ## Counting references -/

/-- References held by values.  (No code of its own: used in statements and proofs.) -/
def kidsOf (vals : Nat → Option (Val K)) (i : Nat) : List Nat :=
  match vals i with
  | some v => v.kids.map Fw.h
  | none => []

/-- Number of references to `h` by flyweight objects, by values (`ids` are their numbers) and by calls in progress.  (No code of
its own: used in statements and proofs.) -/
def total (a : Atomic.St K) (ids : List Nat) (h : Nat) : Nat :=
  (a.objs.map Fw.h).count h + (ids.flatMap (kidsOf a.vals)).count h + (a.thr.flatMap fun st => st.flatMap Call.refs).count h

theorem count_set {thr : List (List (Call K))} {t : Nat} {st : List (Call K)} (ht : thr[t]? = some st) (new : List (Call K)) (h : Nat) :
    ((thr.set t new).flatMap fun st => st.flatMap Call.refs).count h + (st.flatMap Call.refs).count h =
      (thr.flatMap fun st => st.flatMap Call.refs).count h + (new.flatMap Call.refs).count h := by
  induction thr generalizing t with
  | nil => cases ht
  | cons s thr ih =>
    cases t with
    | zero =>
      cases ht
      simp only [List.set_cons_zero, List.flatMap_cons, List.count_append]
      omega
    | succ t =>
      have := ih (t := t) (by simpa using ht)
      simp only [List.set_cons_succ, List.flatMap_cons, List.count_append]
      omega

theorem count_pick (m : List Bool) (l : List (Fw K)) (h : Nat) :
    ((pick m l).1.map Fw.h).count h + ((pick m l).2.map Fw.h).count h = (l.map Fw.h).count h := by
  induction l generalizing m with
  | nil => cases m <;> simp [pick]
  | cons a l ih =>
    cases m with
    | nil => simp [pick]
    | cons b m =>
      have := ih m
      unfold pick
      cases b <;> simp only [Bool.false_eq_true, if_false, if_true, List.map_cons, List.count_cons] <;> omega

theorem count_replace {l : List (Fw K)} {i : Nat} {v : Fw K} (hi : l[i]? = some v) (w : Fw K) (h : Nat) :
    ((l.set i w).map Fw.h).count h + [v.h].count h = (l.map Fw.h).count h + [w.h].count h := by
  induction l generalizing i with
  | nil => cases hi
  | cons a l ih =>
    cases i with
    | zero =>
      cases hi
      simp only [List.set_cons_zero, List.map_cons, List.count_cons, List.count_nil]
      omega
    | succ i =>
      have := ih (i := i) (by simpa using hi)
      simp only [List.set_cons_succ, List.map_cons, List.count_cons, List.count_nil] at this ⊢
      omega

theorem count_swap {l : List (Fw K)} {i j : Nat} {v w : Fw K} (hi : l[i]? = some v) (hj : l[j]? = some w) (h : Nat) :
    (((l.set i w).set j v).map Fw.h).count h = (l.map Fw.h).count h := by
  have h1 := count_replace hi w h
  have hj' : (l.set i w)[j]? = some w := by
    by_cases he : j = i
    · subst he
      rw [List.getElem?_set_self (List.getElem?_eq_some_iff.1 hi).1]
    · rw [List.getElem?_set_ne (Ne.symm he)]
      exact hj
  have h2 := count_replace hj' v h
  omega

theorem count_drops (l : List (Fw K)) (h : Nat) : ((drops l).flatMap Call.refs).count h = (l.map Fw.h).count h := by
  induction l with
  | nil => rfl
  | cons a l ih =>
    simp only [drops, List.map_cons, List.flatMap_cons, List.count_append, List.count_cons] at ih ⊢
    rw [ih]
    simp only [Call.refs, List.count_cons, List.count_nil]
    omega

theorem kids_store {vals : Nat → Option (Val K)} {i : Nat} {v : Val K} {ids : List Nat} (hi : i ∉ ids) :
    (i :: ids).flatMap (kidsOf (setVal vals i (some v))) = v.kids.map Fw.h ++ ids.flatMap (kidsOf vals) := by
  have h1 : kidsOf (setVal vals i (some v)) i = v.kids.map Fw.h := by simp [kidsOf, setVal]
  have h2 : ids.flatMap (kidsOf (setVal vals i (some v))) = ids.flatMap (kidsOf vals) := by
    have : ∀ j ∈ ids, kidsOf (setVal vals i (some v)) j = kidsOf vals j := by
      intro j hj
      have : j ≠ i := fun h => hi (h ▸ hj)
      simp [kidsOf, setVal, this]
    clear h1 hi
    induction ids with
    | nil => rfl
    | cons a l ih => rw [List.flatMap_cons, List.flatMap_cons, this a (by simp), ih fun j hj => this j (by simp [hj])]
  rw [List.flatMap_cons, h1, h2]

theorem kids_erase {vals : Nat → Option (Val K)} {i : Nat} {v : Val K} {ids : List Nat} (hn : ids.Nodup) (hi : i ∈ ids)
    (hv : vals i = some v) (h : Nat) :
    ((ids.erase i).flatMap (kidsOf (setVal vals i none))).count h + (v.kids.map Fw.h).count h =
      (ids.flatMap (kidsOf vals)).count h := by
  induction ids with
  | nil => cases hi
  | cons a l ih =>
    rw [List.nodup_cons] at hn
    by_cases ha : a = i
    · subst ha
      rw [List.erase_cons_head, List.flatMap_cons, List.count_append]
      have h1 : kidsOf vals a = v.kids.map Fw.h := by simp [kidsOf, hv]
      have h2 : ∀ l : List Nat, a ∉ l → l.flatMap (kidsOf (setVal vals a none)) = l.flatMap (kidsOf vals) := by
        intro l
        induction l with
        | nil => exact fun _ => rfl
        | cons b l ih =>
          intro hm
          rw [List.mem_cons, not_or] at hm
          rw [List.flatMap_cons, List.flatMap_cons, ih hm.2]
          simp [kidsOf, setVal, Ne.symm hm.1]
      rw [h1, h2 l hn.1]
      omega
    · have hi' : i ∈ l := (List.mem_cons.1 hi).resolve_left (Ne.symm ha)
      have := ih hn.2 hi'
      rw [List.erase_cons_tail (by simpa using ha), List.flatMap_cons, List.flatMap_cons, List.count_append, List.count_append]
      have h1 : kidsOf (setVal vals i none) a = kidsOf vals a := by simp [kidsOf, setVal, ha]
      rw [h1]
      omega

theorem total_pos {a : Atomic.St K} {ids : List Nat} (hids : ∀ i, i ∈ ids ↔ (a.vals i).isSome) (h : Nat) :
    0 < total a ids h ↔ a.Referenced h := by
  have e1 : 0 < (a.objs.map Fw.h).count h ↔ ∃ w ∈ a.objs, w.h = h := by
    rw [List.count_pos_iff, List.mem_map]
  have e2 : 0 < (ids.flatMap (kidsOf a.vals)).count h ↔ ∃ i v, a.vals i = some v ∧ ∃ w ∈ v.kids, w.h = h := by
    rw [List.count_pos_iff, List.mem_flatMap]
    constructor
    · rintro ⟨i, _, hk⟩
      unfold kidsOf at hk
      split at hk
      · exact ⟨i, _, by assumption, List.mem_map.1 hk⟩
      · cases hk
    · rintro ⟨i, v, hv, hk⟩
      refine ⟨i, (hids i).2 (by simp [hv]), ?_⟩
      simp only [kidsOf, hv]
      exact List.mem_map.2 hk
  have e3 : 0 < (a.thr.flatMap fun st => st.flatMap Call.refs).count h ↔ ∃ st ∈ a.thr, ∃ f ∈ st, h ∈ f.refs := by
    rw [List.count_pos_iff, List.mem_flatMap]
    simp only [List.mem_flatMap]
  unfold Atomic.St.Referenced
  rw [← e1, ← e2, ← e3]
  unfold total
  omega

/-! ## With reference counting -/

/-- The sequential program that is a step of atomic flyweights: making takes effect when the call joins or adds a value,
destroying when the reference is given up, copying at once; other steps are nothing.  (No code of its own: used in
statements and proofs.) -/
inductive Effect (a a' : Atomic.St K) (i : Nat) (t t' : SSt (Nat × K) (Val K)) : Act K → List (Op (Nat × K) (Val K)) → Prop
  | join {c k loc rest h x v} : a.thr[i]? = some (.create c k loc :: rest) → a'.thr[i]? = some (.made ⟨h, c, k⟩ loc :: rest) →
      (x, bindOf h v) ∈ t'.vars → Effect a a' i t t' .run [.make x (.key (c, k))]
  | add {c k kids rest h x} : a.thr[i]? = some (.built c k kids :: rest) → a'.thr[i]? = some (.made ⟨h, c, k⟩ [] :: rest) →
      (x, bindOf h ⟨c, k, kids⟩) ∈ t'.vars → Effect a a' i t t' .run [.make x (.copy ⟨c, k, kids⟩)]
  | giveUp {h rest x v} : a.thr[i]? = some (.destroy h :: rest) → (x, bindOf h v) ∈ t.vars → Effect a a' i t t' .run [.destroy x]
  | copy {j w x y v} : a.objs[j]? = some w → a'.objs = w :: a.objs → (y, bindOf w.h v) ∈ t.vars → (x, bindOf w.h v) ∈ t'.vars →
      Effect a a' i t t' (.copy j) [.copy x y]
  | copyKid {j l w u x y v} : a.objs[j]? = some w → a'.objs = u :: a.objs → (y, bindOf u.h v) ∈ t.vars → (x, bindOf u.h v) ∈ t'.vars →
      Effect a a' i t t' (.copyKid j l) [.copy x y]
  | look {c k loc rest f} : a.thr[i]? = some (.create c k loc :: rest) → a'.thr[i]? = some (f :: rest) →
      f = .build c k loc ∨ f = .built c k loc → Effect a a' i t t' .run []
  | ret {w loc rest} : a.thr[i]? = some (.made w loc :: rest) → a'.objs = w :: a.objs → Effect a a' i t t' .run []
  | user {act} : act ≠ .run → (∀ j, act ≠ .copy j) → (∀ j l, act ≠ .copyKid j l) → Effect a a' i t t' act []

/-- The state of the sequential program has a variable for each reference.  (No code of its own: used in statements and
proofs.) -/
def Explains (a : Atomic.St K) (t : SSt (Nat × K) (Val K)) : Prop :=
  ∃ ids : List Nat, ids.Nodup ∧ (∀ i, i ∈ ids ↔ (a.vals i).isSome) ∧ Tally .refcounted (total a ids) a.vals t

theorem go_self {a : Atomic.St K} {i : Nat} {st new : List (Call K)} (ht : a.thr[i]? = some st) : (a.thr.set i new)[i]? = some new := by
  rw [List.getElem?_set_self (List.getElem?_eq_some_iff.1 ht).1]

theorem Explains.step (hp : Nat → Nat) {a a' : Atomic.St K} {i : Nat} {act : Act K} (hs : Atomic.Step eqv a i act a')
    (hE : Explains a t) :
    ∃ ops outs t', SRun .refcounted (keq eqv) sp hp t ops outs t' ∧ (∀ o ∈ outs, o = .done) ∧ Explains a' t' ∧
      Effect a a' i t t' act ops := by
  obtain ⟨ids, hn, hids, hT⟩ := hE
  -- a step that moves references around
  have same : ∀ {st new : List (Call K)} {objs : List (Fw K)}, a.thr[i]? = some st →
      (∀ h, (objs.map Fw.h).count h + (new.flatMap Call.refs).count h = (a.objs.map Fw.h).count h + (st.flatMap Call.refs).count h) →
      Explains ⟨a.vals, objs, a.thr.set i new⟩ t := by
    intro st new objs ht hc
    refine ⟨ids, hn, hids, hT.congr fun h => ?_⟩
    have h1 := count_set ht new h
    have h2 := hc h
    unfold total
    simp only
    omega
  have nothing : ∀ {ops}, Effect a a' i t t act ops → ops = [] → Explains a' t → ∃ ops outs t',
      SRun .refcounted (keq eqv) sp hp t ops outs t' ∧ (∀ o ∈ outs, o = .done) ∧ Explains a' t' ∧ Effect a a' i t t' act ops := by
    rintro ops h1 rfl h2
    exact ⟨[], [], t, .nil _, (fun o h => by cases h), h2, h1⟩
  have done : ∀ o ∈ [(.done : Out (Nat × K) (Val K))], o = .done := fun o h => List.mem_singleton.1 h
  cases hs with
  | @share c k loc rest h v ht hv hc hk =>
    obtain ⟨x, t', h1, h2, h3⟩ := hT.share (hp := hp) hv hc hk
    refine ⟨_, _, t', h1, done, ⟨ids, hn, hids, h2.congr fun j => ?_⟩, .join ht (go_self ht) h3⟩
    have := count_set ht (.made ⟨h, c, k⟩ loc :: rest) j
    simp only [List.flatMap_cons, Call.refs, List.count_append, List.count_cons, beq_iff_eq] at this
    unfold inc total
    simp only [Atomic.St.go]
    by_cases hj : j = h
    · rw [if_pos hj]
      rw [if_pos hj.symm] at this
      omega
    · rw [if_neg hj]
      rw [if_neg (Ne.symm hj)] at this
      omega
  | @keep c k loc rest ht hf =>
    refine nothing (.look ht (go_self ht) (.inr rfl)) rfl (same ht fun h => ?_)
    simp only [List.flatMap_cons, Call.refs]
  | @start c k loc rest ht hf =>
    refine nothing (.look ht (go_self ht) (.inl rfl)) rfl (same ht fun h => ?_)
    simp only [List.flatMap_cons, Call.refs]
  | @store c k kids rest h ht hf hnone hr =>
    obtain ⟨x, t', h1, h2, h3⟩ := hT.store (hp := hp) (v := ⟨c, k, kids⟩) hnone fun j u hu hc => hf j u hu hc
    have hni : h ∉ ids := fun hm => by
      have := (hids h).1 hm
      rw [hnone] at this
      cases this
    refine ⟨_, _, t', h1, done, ⟨h :: ids, List.nodup_cons.2 ⟨hni, hn⟩, fun j => ?_, h2.congr fun j => ?_⟩, .add ht (go_self ht) h3⟩
    · rw [List.mem_cons, hids]
      simp only [setVal]
      split <;> simp_all
    · have := count_set ht (.made ⟨h, c, k⟩ [] :: rest) j
      simp only [List.flatMap_cons, Call.refs, List.count_append, List.count_cons, beq_iff_eq, List.map_nil, List.count_nil] at this
      unfold inc total
      simp only [Atomic.St.go]
      rw [kids_store hni, List.count_append]
      simp only
      by_cases hj : j = h
      · rw [if_pos hj]
        rw [if_pos hj.symm] at this
        omega
      · rw [if_neg hj]
        rw [if_neg (Ne.symm hj)] at this
        omega
  | @ret w loc rest ht =>
    refine nothing (.ret ht rfl) rfl (same ht fun h => ?_)
    have := count_drops loc h
    simp only [List.flatMap_append, List.flatMap_cons, Call.refs, List.count_append, List.map_cons, List.count_cons] at this ⊢
    omega
  | @drop h rest ht hr =>
    have hpos : 1 < total a ids h := by
      have h0 := (total_pos (a := a.go i rest) hids h).2 hr
      have h1 := count_set ht rest h
      simp only [List.flatMap_cons, Call.refs, List.count_append, List.count_cons, beq_self_eq_true, if_true, List.count_nil] at h1
      unfold total at h0 ⊢
      simp only [Atomic.St.go] at h0
      omega
    obtain ⟨x, v, t', h1, h2, h3⟩ := hT.destroy (hp := hp) (eqv := eqv) (i := h) (vals' := a.vals) (by omega)
      (if_neg (by rintro ⟨_, h⟩; omega)).symm
    refine ⟨_, _, t', h1, done, ⟨ids, hn, hids, h2.congr fun j => ?_⟩, .giveUp ht h3⟩
    have := count_set ht rest j
    simp only [List.flatMap_cons, Call.refs, List.count_append, List.count_cons, beq_iff_eq, List.count_nil] at this
    unfold dec total
    simp only [Atomic.St.go]
    by_cases hj : j = h
    · rw [if_pos hj]
      rw [if_pos hj.symm] at this
      omega
    · rw [if_neg hj]
      rw [if_neg (Ne.symm hj)] at this
      omega
  | @last h v rest ht hr hv =>
    have hone : total a ids h = 1 := by
      have h0 : ¬ 0 < total (a.go i rest) ids h := fun hc => hr ((total_pos (a := a.go i rest) hids h).1 hc)
      have h1 := count_set ht rest h
      simp only [List.flatMap_cons, Call.refs, List.count_append, List.count_cons, beq_self_eq_true, if_true, List.count_nil] at h1
      unfold total at h0 ⊢
      simp only [Atomic.St.go] at h0
      omega
    obtain ⟨x, v', t', h1, h2, h3⟩ := hT.destroy (hp := hp) (eqv := eqv) (i := h) (vals' := setVal a.vals h none) (by omega)
      (if_pos ⟨rfl, hone⟩).symm
    have hmem : h ∈ ids := (hids h).2 (by simp [hv])
    refine ⟨_, _, t', h1, done, ⟨ids.erase h, hn.erase h, fun j => ?_, h2.congr fun j => ?_⟩, .giveUp ht h3⟩
    · rw [hn.mem_erase_iff, hids]
      simp only [setVal]
      split <;> simp_all
    · have e1 := count_set ht (drops v.kids ++ rest) j
      have e2 := kids_erase hn hmem hv j
      have e3 := count_drops v.kids j
      simp only [List.flatMap_cons, List.flatMap_append, Call.refs, List.count_append, List.count_cons, beq_iff_eq, List.count_nil] at e1
      unfold dec total
      simp only [Atomic.St.go]
      by_cases hj : j = h
      · rw [if_pos hj]
        rw [if_pos hj.symm] at e1
        omega
      · rw [if_neg hj]
        rw [if_neg (Ne.symm hj)] at e1
        omega
  | @create st c k mask pre ht hu =>
    refine nothing (.user (by simp) (by simp) (by simp)) rfl (same ht fun h => ?_)
    have := count_pick mask a.objs h
    simp only [List.flatMap_cons, Call.refs, List.count_append]
    omega
  | @destroy st mask ht hu =>
    refine nothing (.user (by simp) (by simp) (by simp)) rfl (same ht fun h => ?_)
    have := count_pick mask a.objs h
    have := count_drops (pick mask a.objs).1 h
    simp only [List.flatMap_append, List.count_append]
    omega
  | @copy st j w v ht hu hj hv =>
    have hpos : 0 < total a ids w.h := (total_pos hids w.h).2 (.inl ⟨w, List.mem_of_getElem? hj, rfl⟩)
    obtain ⟨x, y, v, t', h1, h2, h3, h4⟩ := hT.copy (hp := hp) (eqv := eqv) hpos
    refine ⟨_, _, t', h1, done, ⟨ids, hn, hids, h2.congr fun j => ?_⟩, .copy hj rfl h3 h4⟩
    unfold inc total
    simp only [List.map_cons, List.count_cons, beq_iff_eq]
    by_cases hj : j = w.h
    · rw [if_pos hj, if_pos hj.symm]
      omega
    · rw [if_neg hj, if_neg (Ne.symm hj)]
      omega
  | @copyKid st j l w v u ht hu hj hv hk =>
    have hpos : 0 < total a ids u.h := (total_pos hids u.h).2 (.inr (.inl ⟨_, v, hv, u, List.mem_of_getElem? hk, rfl⟩))
    obtain ⟨x, y, v, t', h1, h2, h3, h4⟩ := hT.copy (hp := hp) (eqv := eqv) hpos
    refine ⟨_, _, t', h1, done, ⟨ids, hn, hids, h2.congr fun j => ?_⟩, .copyKid hj rfl h3 h4⟩
    unfold inc total
    simp only [List.map_cons, List.count_cons, beq_iff_eq]
    by_cases hj : j = u.h
    · rw [if_pos hj, if_pos hj.symm]
      omega
    · rw [if_neg hj, if_neg (Ne.symm hj)]
      omega
  | @swap st j l v w ht hu hj hl =>
    refine nothing (.user (by simp) (by simp) (by simp)) rfl ⟨ids, hn, hids, hT.congr fun h => ?_⟩
    unfold total
    simp only
    rw [count_swap hj hl]
  | @read st j w v ht hu hj hv =>
    exact nothing (.user (by simp) (by simp) (by simp)) rfl ⟨ids, hn, hids, hT⟩
  | @finish c k kids rest mask dr ht =>
    refine nothing (.user (by simp) (by simp) (by simp)) rfl (same ht fun h => ?_)
    have e1 := count_pick mask a.objs h
    have e2 := count_drops kids h
    cases dr
    · simp only [Bool.false_eq_true, if_false, List.nil_append, List.flatMap_cons, Call.refs, List.count_append, List.map_append]
      omega
    · simp only [if_true, List.flatMap_append, List.flatMap_cons, Call.refs, List.count_append]
      omega
  | @throwBuild c k kids rest ht =>
    refine nothing (.user (by simp) (by simp) (by simp)) rfl (same ht fun h => ?_)
    have e2 := count_drops kids h
    simp only [List.flatMap_append, List.flatMap_cons, Call.refs, List.count_append]
    omega
  | @throwFind c k loc rest ht =>
    refine nothing (.user (by simp) (by simp) (by simp)) rfl (same ht fun h => ?_)
    have e2 := count_drops loc h
    simp only [List.flatMap_append, List.flatMap_cons, Call.refs, List.count_append]
    omega

theorem Explains.start (n : Nat) : Explains (Atomic.start n : Atomic.St K) SSt.start := by
  refine ⟨[], List.nodup_nil, fun i => by simp [Atomic.start], Tally.start.congr fun h => ?_⟩
  have : (List.replicate n ([] : List (Call K))).flatMap (fun st => st.flatMap Call.refs) = [] := by
    rw [List.flatMap_eq_nil_iff]
    intro st hst
    rw [(List.mem_replicate.1 hst).2]
    rfl
  simp only [total, Atomic.start, this]
  rfl

/-! ## Without tracking -/

/-- Destroying flyweights, without tracking. -/
theorem Tally.destroys (h : Tally .noTracking n vals t) (l : List (Fw K)) (hl : ∀ i, (l.map Fw.h).count i ≤ n i) :
    ∃ ds outs t', SRun .noTracking (keq eqv) sp hp t ds outs t' ∧ (∀ o ∈ outs, o = .done) ∧ ds.length = l.length ∧
      (∀ op ∈ ds, ∃ x, op = .destroy x) ∧ (∀ x b, .destroy x ∈ ds → (x, b) ∈ t.vars → b.addr ∈ l.map Fw.h) ∧
      Tally .noTracking (fun i => n i - (l.map Fw.h).count i) vals t' ∧ ∀ p ∈ t'.vars, p ∈ t.vars := by
  induction l generalizing n t with
  | nil =>
    exact ⟨[], [], t, .nil _, (fun o h => by cases h), rfl, (fun o h => by cases h), (fun x b h => by cases h), h.congr fun i => by simp,
      fun p hp => hp⟩
  | cons w l ih =>
    have hw := hl w.h
    simp only [List.map_cons, List.count_cons, beq_self_eq_true, if_true] at hw
    obtain ⟨x, v, t1, h1, h2, h3⟩ := h.destroy (hp := hp) (eqv := eqv) (i := w.h) (vals' := vals) (by omega)
      (if_neg (by rintro ⟨h, _⟩; cases h)).symm
    have hsub : ∀ p ∈ t1.vars, p ∈ t.vars := by
      cases h1 with
      | step _ hs hn =>
        cases hn
        cases hs
        exact fun p hp => (List.mem_filter.1 hp).1
    obtain ⟨ds, outs, t2, h4, h5, h6, h7, h8, h9, h10⟩ := ih h2 (fun i => by
      have := hl i
      simp only [List.map_cons, List.count_cons, beq_iff_eq] at this
      unfold dec
      by_cases hi : i = w.h
      · rw [if_pos hi]
        rw [if_pos hi.symm] at this
        omega
      · rw [if_neg hi]
        omega)
    refine ⟨.destroy x :: ds, .done :: outs, t2, run_append h1 h4, ?_, by simp [h6], ?_, ?_, ?_, fun p hp => hsub p (h10 p hp)⟩
    · intro o ho
      rcases List.mem_cons.1 ho with rfl | ho
      · rfl
      · exact h5 o ho
    · intro op ho
      rcases List.mem_cons.1 ho with rfl | ho
      · exact ⟨x, rfl⟩
      · exact h7 op ho
    · intro y b hy hb
      rw [List.map_cons, List.mem_cons]
      rcases List.mem_cons.1 hy with hy | hy
      · cases hy
        left
        rw [bind_unique h.names hb h3]
        rfl
      · by_cases hyx : y = x
        · subst hyx
          left
          rw [bind_unique h.names hb h3]
          rfl
        · refine .inr (h8 y b hy ?_)
          cases h1 with
          | step _ hs hn =>
            cases hn
            cases hs
            exact List.mem_filter.2 ⟨hb, by simpa using hyx⟩
    · refine h9.congr fun i => ?_
      unfold dec
      simp only [List.map_cons, List.count_cons, beq_iff_eq]
      by_cases hi : i = w.h
      · rw [if_pos hi, if_pos hi.symm]
        omega
      · rw [if_neg hi, if_neg (Ne.symm hi)]
        omega

/-- The sequential program that is a step of lasting flyweights: making takes effect when the call joins or adds a value;
flyweights in arguments that are not needed are destroyed.  (No code of its own: used in statements and proofs.) -/
inductive Effect' (a a' : Atomic.St K) (i : Nat) (t t' : SSt (Nat × K) (Val K)) : Act K → List (Op (Nat × K) (Val K)) → Prop
  | join {c k loc rest h x v ds} : a.thr[i]? = some (.create c k loc :: rest) → a'.thr[i]? = some (.made ⟨h, c, k⟩ [] :: rest) →
      (x, bindOf h v) ∈ t'.vars → ds.length = loc.length → (∀ op ∈ ds, ∃ y, op = .destroy y) →
      Effect' a a' i t t' .run (ds ++ [.make x (.key (c, k))])
  | add {c k kids rest h x} : a.thr[i]? = some (.create c k kids :: rest) ∨ a.thr[i]? = some (.built c k kids :: rest) →
      a'.thr[i]? = some (.made ⟨h, c, k⟩ [] :: rest) → (x, bindOf h ⟨c, k, kids⟩) ∈ t'.vars →
      Effect' a a' i t t' .run [.make x (.copy ⟨c, k, kids⟩)]
  | destroy {mask ds} : ds.length = (pick mask a.objs).1.length → (∀ op ∈ ds, ∃ y, op = .destroy y) →
      (∀ y b, .destroy y ∈ ds → (y, b) ∈ t.vars → b.addr ∈ (pick mask a.objs).1.map Fw.h) → Effect' a a' i t t' (.destroy mask) ds
  | copy {j w x y v} : a.objs[j]? = some w → a'.objs = w :: a.objs → (y, bindOf w.h v) ∈ t.vars → (x, bindOf w.h v) ∈ t'.vars →
      Effect' a a' i t t' (.copy j) [.copy x y]
  | copyKid {j l w u x y v} : a.objs[j]? = some w → a'.objs = u :: a.objs → (y, bindOf u.h v) ∈ t.vars → (x, bindOf u.h v) ∈ t'.vars →
      Effect' a a' i t t' (.copyKid j l) [.copy x y]
  | start {c k loc rest} : a.thr[i]? = some (.create c k loc :: rest) → a'.thr[i]? = some (.build c k loc :: rest) →
      Effect' a a' i t t' .run []
  | ret {w rest} : a.thr[i]? = some (.made w [] :: rest) → a'.objs = w :: a.objs → Effect' a a' i t t' .run []
  | finish {c k kids rest mask dr ds} : a.thr[i]? = some (.build c k kids :: rest) → ds.length = (if dr then kids.length else 0) →
      (∀ op ∈ ds, ∃ y, op = .destroy y) → Effect' a a' i t t' (.finish mask dr) ds
  | throw {f rest ds} : a.thr[i]? = some (f :: rest) → ds.length = (Lasting.fwsOf f).length → (∀ op ∈ ds, ∃ y, op = .destroy y) →
      Effect' a a' i t t' .throw_ ds
  | user {act} : (∃ c k mask pre, act = .create c k mask pre) ∨ (∃ j l, act = .swap j l) ∨ (∃ j, act = .read j) → Effect' a a' i t t' act []

/-- The state of the sequential program has a variable for each flyweight.  (No code of its own: used in statements and
proofs.) -/
def Explains' (a : Atomic.St K) (t : SSt (Nat × K) (Val K)) : Prop :=
  ∃ ids : List Nat, ids.Nodup ∧ (∀ i, i ∈ ids ↔ (a.vals i).isSome) ∧ Tally .noTracking (total a ids) a.vals t

theorem Explains'.step (hp : Nat → Nat) {a a' : Atomic.St K} {i : Nat} {act : Act K} (hs : Lasting.Step eqv a i act a')
    (hE : Explains' a t) :
    ∃ ops outs t', SRun .noTracking (keq eqv) sp hp t ops outs t' ∧ (∀ o ∈ outs, o = .done) ∧ Explains' a' t' ∧
      Effect' a a' i t t' act ops := by
  obtain ⟨ids, hn, hids, hT⟩ := hE
  -- a step that moves flyweights around
  have same : ∀ {st new : List (Call K)} {objs : List (Fw K)}, a.thr[i]? = some st →
      (∀ h, (objs.map Fw.h).count h + (new.flatMap Call.refs).count h = (a.objs.map Fw.h).count h + (st.flatMap Call.refs).count h) →
      Explains' ⟨a.vals, objs, a.thr.set i new⟩ t := by
    intro st new objs ht hc
    refine ⟨ids, hn, hids, hT.congr fun h => ?_⟩
    have h1 := count_set ht new h
    have h2 := hc h
    unfold total
    simp only
    omega
  -- a step that destroys flyweights
  have gone : ∀ {st new : List (Call K)} {objs : List (Fw K)} (l : List (Fw K)), a.thr[i]? = some st →
      (∀ h, (objs.map Fw.h).count h + (new.flatMap Call.refs).count h + (l.map Fw.h).count h =
        (a.objs.map Fw.h).count h + (st.flatMap Call.refs).count h) →
      ∃ ds outs t', SRun .noTracking (keq eqv) sp hp t ds outs t' ∧ (∀ o ∈ outs, o = .done) ∧ ds.length = l.length ∧
        (∀ op ∈ ds, ∃ x, op = .destroy x) ∧ (∀ x b, .destroy x ∈ ds → (x, b) ∈ t.vars → b.addr ∈ l.map Fw.h) ∧
        Explains' ⟨a.vals, objs, a.thr.set i new⟩ t' := by
    intro st new objs l ht hc
    have key : ∀ h, total ⟨a.vals, objs, a.thr.set i new⟩ ids h + (l.map Fw.h).count h = total a ids h := by
      intro h
      have h1 := count_set ht new h
      have h2 := hc h
      unfold total
      simp only
      omega
    obtain ⟨ds, outs, t', h1, h2, h3, h4, h5, h6, _⟩ := hT.destroys (hp := hp) (eqv := eqv) l fun h => by
      have := key h
      omega
    exact ⟨ds, outs, t', h1, h2, h3, h4, h5, ids, hn, hids, h6.congr fun h => by have := key h; omega⟩
  have nothing : ∀ {ops}, Effect' a a' i t t act ops → ops = [] → Explains' a' t → ∃ ops outs t',
      SRun .noTracking (keq eqv) sp hp t ops outs t' ∧ (∀ o ∈ outs, o = .done) ∧ Explains' a' t' ∧ Effect' a a' i t t' act ops := by
    rintro ops h1 rfl h2
    exact ⟨[], [], t, .nil _, (fun o h => by cases h), h2, h1⟩
  have done : ∀ o ∈ [(.done : Out (Nat × K) (Val K))], o = .done := fun o h => List.mem_singleton.1 h
  -- a step that adds a value
  have store : ∀ {c k kids rest h} {f : Call K}, a.thr[i]? = some (f :: rest) → f.refs = kids.map Fw.h → a.Free eqv c k → a.vals h = none →
      ∃ x t', SRun .noTracking (keq eqv) sp hp t [.make x (.copy ⟨c, k, kids⟩)] [.done] t' ∧
        Explains' { a.go i (.made ⟨h, c, k⟩ [] :: rest) with vals := setVal a.vals h (some ⟨c, k, kids⟩) } t' ∧
        (x, bindOf h ⟨c, k, kids⟩) ∈ t'.vars := by
    intro c k kids rest h f ht hfr hf hnone
    obtain ⟨x, t', h1, h2, h3⟩ := hT.store (hp := hp) (v := ⟨c, k, kids⟩) hnone fun j u hu hc => hf j u hu hc
    have hni : h ∉ ids := fun hm => by
      have := (hids h).1 hm
      rw [hnone] at this
      cases this
    refine ⟨x, t', h1, ⟨h :: ids, List.nodup_cons.2 ⟨hni, hn⟩, fun j => ?_, h2.congr fun j => ?_⟩, h3⟩
    · rw [List.mem_cons, hids]
      simp only [setVal]
      split <;> simp_all
    · have := count_set ht (.made ⟨h, c, k⟩ [] :: rest) j
      simp only [List.flatMap_cons, hfr] at this
      simp only [Call.refs, List.count_append, List.count_cons, beq_iff_eq, List.map_nil, List.count_nil] at this
      unfold inc total
      simp only [Atomic.St.go]
      rw [kids_store hni, List.count_append]
      simp only
      by_cases hj : j = h
      · rw [if_pos hj]
        rw [if_pos hj.symm] at this
        omega
      · rw [if_neg hj]
        rw [if_neg (Ne.symm hj)] at this
        omega
  cases hs with
  | @share c k loc rest h v ht hv hc hk =>
    -- the argument is destroyed first, then the flyweight is made
    obtain ⟨ds, outs, t1, h1, h2, h3, h4, h5, ids1, hn1, hids1, hT1⟩ := gone (new := rest) (objs := a.objs) loc ht fun h => by
      simp only [List.flatMap_cons, Call.refs, List.count_append]
      omega
    obtain ⟨x, t', h6, h7, h8⟩ := hT1.share (hp := hp) hv hc hk
    refine ⟨ds ++ [.make x (.key (c, k))], outs ++ [.done], t', run_append h1 h6, ?_,
      ⟨ids1, hn1, hids1, h7.congr fun j => ?_⟩, .join ht (go_self ht) h8 h3 h4⟩
    · intro o ho
      rcases List.mem_append.1 ho with ho | ho
      · exact h2 o ho
      · exact done o ho
    · have e1 := count_set ht (.made ⟨h, c, k⟩ [] :: rest) j
      have e2 := count_set ht rest j
      simp only [List.flatMap_cons, Call.refs, List.count_append, List.count_cons, beq_iff_eq, List.map_nil, List.count_nil] at e1 e2
      unfold inc total
      simp only [Atomic.St.go]
      by_cases hj : j = h
      · rw [if_pos hj]
        rw [if_pos hj.symm] at e1
        omega
      · rw [if_neg hj]
        rw [if_neg (Ne.symm hj)] at e1
        omega
  | @keep c k loc rest h ht hf hnone =>
    obtain ⟨x, t', h1, h2, h3⟩ := store ht rfl hf hnone
    exact ⟨_, _, t', h1, done, h2, .add (.inl ht) (go_self ht) h3⟩
  | @start c k loc rest ht hf =>
    refine nothing (.start ht (go_self ht)) rfl (same ht fun h => ?_)
    simp only [List.flatMap_cons, Call.refs]
  | @store c k kids rest h ht hf hnone =>
    obtain ⟨x, t', h1, h2, h3⟩ := store ht rfl hf hnone
    exact ⟨_, _, t', h1, done, h2, .add (.inr ht) (go_self ht) h3⟩
  | @ret w rest ht =>
    refine nothing (.ret ht rfl) rfl (same ht fun h => ?_)
    simp only [List.flatMap_cons, Call.refs, List.count_append, List.map_cons, List.count_cons, List.map_nil, List.count_nil]
    omega
  | @create st c k mask pre ht hu =>
    refine nothing (.user (.inl ⟨_, _, _, _, rfl⟩)) rfl (same ht fun h => ?_)
    have := count_pick mask a.objs h
    simp only [List.flatMap_cons, Call.refs, List.count_append]
    omega
  | @destroy st mask ht hu =>
    have key : ∀ h, total { a with objs := (pick mask a.objs).2 } ids h + ((pick mask a.objs).1.map Fw.h).count h = total a ids h := by
      intro h
      have h1 := count_pick mask a.objs h
      unfold total
      simp only
      omega
    obtain ⟨ds, outs, t', h1, h2, h3, h4, h5, h6, _⟩ := hT.destroys (hp := hp) (eqv := eqv) (pick mask a.objs).1 fun h => by
      have := key h
      omega
    exact ⟨ds, outs, t', h1, h2, ⟨ids, hn, hids, h6.congr fun h => by have := key h; omega⟩, .destroy h3 h4 h5⟩
  | @copy st j w ht hu hj =>
    have hpos : 0 < total a ids w.h := (total_pos hids w.h).2 (.inl ⟨w, List.mem_of_getElem? hj, rfl⟩)
    obtain ⟨x, y, v, t', h1, h2, h3, h4⟩ := hT.copy (hp := hp) (eqv := eqv) hpos
    refine ⟨_, _, t', h1, done, ⟨ids, hn, hids, h2.congr fun j => ?_⟩, .copy hj rfl h3 h4⟩
    unfold inc total
    simp only [List.map_cons, List.count_cons, beq_iff_eq]
    by_cases hj : j = w.h
    · rw [if_pos hj, if_pos hj.symm]
      omega
    · rw [if_neg hj, if_neg (Ne.symm hj)]
      omega
  | @copyKid st j l w v u ht hu hj hv hk =>
    have hpos : 0 < total a ids u.h := (total_pos hids u.h).2 (.inr (.inl ⟨_, v, hv, u, List.mem_of_getElem? hk, rfl⟩))
    obtain ⟨x, y, v, t', h1, h2, h3, h4⟩ := hT.copy (hp := hp) (eqv := eqv) hpos
    refine ⟨_, _, t', h1, done, ⟨ids, hn, hids, h2.congr fun j => ?_⟩, .copyKid hj rfl h3 h4⟩
    unfold inc total
    simp only [List.map_cons, List.count_cons, beq_iff_eq]
    by_cases hj : j = u.h
    · rw [if_pos hj, if_pos hj.symm]
      omega
    · rw [if_neg hj, if_neg (Ne.symm hj)]
      omega
  | @swap st j l v w ht hu hj hl =>
    refine nothing (.user (.inr (.inl ⟨_, _, rfl⟩))) rfl ⟨ids, hn, hids, hT.congr fun h => ?_⟩
    unfold total
    simp only
    rw [count_swap hj hl]
  | @read st j w v ht hu hj hv =>
    exact nothing (.user (.inr (.inr ⟨_, rfl⟩))) rfl ⟨ids, hn, hids, hT⟩
  | @finish c k kids rest mask dr ht =>
    obtain ⟨ds, outs, t', h1, h2, h3, h4, h5, h6⟩ := gone (new := .built c k (if dr then (pick mask a.objs).1 else kids ++ (pick mask a.objs).1) :: rest)
        (objs := (pick mask a.objs).2) (if dr then kids else []) ht fun h => by
      have e1 := count_pick mask a.objs h
      cases dr
      · simp only [Bool.false_eq_true, if_false, List.flatMap_cons, Call.refs, List.count_append, List.map_append, List.map_nil, List.count_nil]
        omega
      · simp only [if_true, List.flatMap_cons, Call.refs, List.count_append]
        omega
    refine ⟨ds, outs, t', h1, h2, h6, .finish ht ?_ h4⟩
    rw [h3]
    cases dr <;> rfl
  | @throwBuild c k kids rest ht =>
    obtain ⟨ds, outs, t', h1, h2, h3, h4, h5, h6⟩ := gone (new := rest) (objs := a.objs) kids ht fun h => by
      simp only [List.flatMap_cons, Call.refs, List.count_append]
      omega
    exact ⟨ds, outs, t', h1, h2, h6, .throw ht h3 h4⟩
  | @throwFind c k loc rest ht =>
    obtain ⟨ds, outs, t', h1, h2, h3, h4, h5, h6⟩ := gone (new := rest) (objs := a.objs) loc ht fun h => by
      simp only [List.flatMap_cons, Call.refs, List.count_append]
      omega
    exact ⟨ds, outs, t', h1, h2, h6, .throw ht h3 h4⟩

theorem Explains'.start (n : Nat) : Explains' (Atomic.start n : Atomic.St K) SSt.start := by
  obtain ⟨ids, h1, h2, h3⟩ := Explains.start (K := K) n
  exact ⟨ids, h1, h2, Tally.start.congr fun h => by rw [← h3.count h]; rfl⟩

end Verif.Explain

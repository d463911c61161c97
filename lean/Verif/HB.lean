import Mathlib.Logic.Relation

/-!
# Happens-before and data races

The part of the C++ memory model needed to say that a program has no data races:
a trace of events, each of which is an atomic step of a thread that first
synchronizes with earlier events (locks a mutex, performs an acquire operation),
then accesses memory and finally lets later events synchronize with it (unlocks a
mutex, performs a release operation).  Nothing here depends on the library.
-/

set_option autoImplicit false

namespace Verif.HB
open Relation

/-- How a memory location is accessed: not atomically, reading or (constructing,
destroying) writing it, or by an atomic operation.  (No code of its own: C++ memory model.) -/
inductive Kind where
  | read
  | write
  | atomic
  deriving DecidableEq

/-- Two accesses to the same location that must not happen at the same time.  (No code of its
own: C++ memory model.) -/
def Kind.conflict : Kind → Kind → Bool
  | .read, .read => false
  | .atomic, .atomic => false
  | _, _ => true

/-- An event: a step of thread `thr` that acquires from the synchronization
objects `acqs`, makes the accesses `accs`, and releases to the synchronization
objects `rels`.  (No code of its own: C++ memory model.) -/
structure Ev (S L : Type) where
  thr : Nat
  acqs : List S
  accs : List (L × Kind)
  rels : List S

variable {S L : Type}

/-- Event `i` comes before event `j` in the program order of a thread, or `j`
synchronizes with it: `i` releases to a mutex or atomic variable from which `j`
later acquires.  For a mutex: unlocking it synchronizes with all later locking.  For
an atomic variable that is only changed by read-modify-write operations: a
release operation heads a release sequence that contains all later operations,
so that it synchronizes with all later acquire operations.  (No code of its own: C++ memory
model.) -/
def Edge (tr : List (Ev S L)) (i j : Nat) : Prop :=
  i < j ∧ ∃ a b, tr[i]? = some a ∧ tr[j]? = some b ∧ (a.thr = b.thr ∨ ∃ o ∈ a.rels, o ∈ b.acqs)

/-- Event `i` happens before event `j`.  (No code of its own: C++ memory model.) -/
def Before (tr : List (Ev S L)) : Nat → Nat → Prop := TransGen (Edge tr)

/-- Event `i` makes access `a`.  (No code of its own.) -/
def Acc (tr : List (Ev S L)) (i : Nat) (a : L × Kind) : Prop := ∃ ev, tr[i]? = some ev ∧ a ∈ ev.accs

/-- No data race: of two conflicting accesses in different events, one happens before the
other.  (No code of its own: C++ memory model.) -/
def RaceFree (tr : List (Ev S L)) : Prop :=
  ∀ i j l k k', i ≠ j → Acc tr i (l, k) → Acc tr j (l, k') → k.conflict k' = true →
    Before tr i j ∨ Before tr j i

/-! ## Proof technique: what threads and synchronization objects know -/

/-- Reflexive version of `Before`.  (No code of its own: used in proofs.) -/
def Le (tr : List (Ev S L)) : Nat → Nat → Prop := ReflTransGen (Edge tr)

/-- Event `i` happens before, or is, some event of thread `t`.  (No code of its own: used in
proofs.) -/
def Know (tr : List (Ev S L)) (t i : Nat) : Prop := ∃ j ev, tr[j]? = some ev ∧ ev.thr = t ∧ Le tr i j

/-- Event `i` happens before, or is, some event that releases to `o`.  (No code of its own: used
in proofs.) -/
def Rel (tr : List (Ev S L)) (o : S) (i : Nat) : Prop := ∃ j ev, tr[j]? = some ev ∧ o ∈ ev.rels ∧ Le tr i j

/-- Event `i` happens before, or is, some event that makes access `a`.  (No code of its own:
used in proofs.) -/
def Past (tr : List (Ev S L)) (a : L × Kind) (i : Nat) : Prop := ∃ j, Acc tr j a ∧ Le tr i j

section
variable {tr : List (Ev S L)} {ev : Ev S L} {i j t : Nat} {o : S} {a : L × Kind}

theorem get_old {x : Ev S L} (h : tr[i]? = some x) : (tr ++ [ev])[i]? = some x := by
  have hlt : i < tr.length := by
    rcases Nat.lt_or_ge i tr.length with h' | h'
    · exact h'
    · rw [List.getElem?_eq_none h'] at h; cases h
  rw [List.getElem?_append_left hlt, h]

theorem get_lt {x : Ev S L} (h : tr[i]? = some x) : i < tr.length := by
  rcases Nat.lt_or_ge i tr.length with h' | h'
  · exact h'
  · rw [List.getElem?_eq_none h'] at h; cases h

theorem get_new : (tr ++ [ev])[tr.length]? = some ev := by simp

theorem get_cases {x : Ev S L} (h : (tr ++ [ev])[i]? = some x) : tr[i]? = some x ∨ i = tr.length ∧ x = ev := by
  rcases Nat.lt_trichotomy i tr.length with h' | h' | h'
  · rw [List.getElem?_append_left h'] at h
    exact .inl h
  · subst h'
    rw [get_new] at h
    cases h
    exact .inr ⟨rfl, rfl⟩
  · rw [List.getElem?_eq_none (by simp; omega)] at h
    cases h

theorem Edge.old (h : Edge tr i j) : Edge (tr ++ [ev]) i j := by
  obtain ⟨h1, a, b, h2, h3, h4⟩ := h
  exact ⟨h1, a, b, get_old h2, get_old h3, h4⟩

theorem Le.old (h : Le tr i j) : Le (tr ++ [ev]) i j := ReflTransGen.mono (fun _ _ (h : Edge tr _ _) => h.old) _ _ h

theorem Before.old (h : Before tr i j) : Before (tr ++ [ev]) i j := TransGen.mono (fun _ _ (h : Edge tr _ _) => h.old) _ _ h

theorem Le.le (h : Le tr i j) : i ≤ j := by
  induction h with
  | refl => exact Nat.le_refl _
  | tail _ h ih => exact Nat.le_trans ih (Nat.le_of_lt h.1)

/-- What happens before an old event does not depend on new ones. -/
theorem Le.restrict (h : Le (tr ++ [ev]) i j) (hj : j < tr.length) : Le tr i j := by
  induction h with
  | refl => exact .refl
  | tail h1 h2 ih =>
    have hlt := Nat.lt_trans h2.1 hj
    obtain ⟨h3, a, b, h4, h5, h6⟩ := h2
    refine (ih hlt).tail ⟨h3, a, b, ?_, ?_, h6⟩
    · rwa [List.getElem?_append_left hlt] at h4
    · rwa [List.getElem?_append_left hj] at h5

theorem Le.before (h : Le tr i j) (hne : i ≠ j) : Before tr i j := by
  rcases Relation.reflTransGen_iff_eq_or_transGen.1 h with h | h
  · exact absurd h.symm hne
  · exact h

theorem Acc.old (h : Acc tr i a) : Acc (tr ++ [ev]) i a := by
  obtain ⟨x, h1, h2⟩ := h
  exact ⟨x, get_old h1, h2⟩

theorem Acc.lt (h : Acc tr i a) : i < tr.length := by
  obtain ⟨x, h1, _⟩ := h
  exact get_lt h1

theorem acc_new (h : a ∈ ev.accs) : Acc (tr ++ [ev]) tr.length a := ⟨ev, get_new, h⟩

theorem acc_cases (h : Acc (tr ++ [ev]) i a) : Acc tr i a ∨ i = tr.length ∧ a ∈ ev.accs := by
  obtain ⟨x, h1, h2⟩ := h
  rcases get_cases h1 with h | ⟨h, rfl⟩
  · exact .inl ⟨x, h, h2⟩
  · exact .inr ⟨h, h2⟩

theorem Know.old (h : Know tr t i) : Know (tr ++ [ev]) t i := by
  obtain ⟨j, x, h1, h2, h3⟩ := h
  exact ⟨j, x, get_old h1, h2, h3.old⟩

theorem Rel.old (h : Rel tr o i) : Rel (tr ++ [ev]) o i := by
  obtain ⟨j, x, h1, h2, h3⟩ := h
  exact ⟨j, x, get_old h1, h2, h3.old⟩

theorem Past.old (h : Past tr a i) : Past (tr ++ [ev]) a i := by
  obtain ⟨j, h1, h2⟩ := h
  exact ⟨j, h1.old, h2.old⟩

theorem Know.trans (h : Know tr t j) (h' : Le tr i j) : Know tr t i := by
  obtain ⟨k, x, h1, h2, h3⟩ := h
  exact ⟨k, x, h1, h2, ReflTransGen.trans h' h3⟩

theorem Rel.trans (h : Rel tr o j) (h' : Le tr i j) : Rel tr o i := by
  obtain ⟨k, x, h1, h2, h3⟩ := h
  exact ⟨k, x, h1, h2, ReflTransGen.trans h' h3⟩

theorem Past.trans (h : Past tr a j) (h' : Le tr i j) : Past tr a i := by
  obtain ⟨k, h1, h2⟩ := h
  exact ⟨k, h1, ReflTransGen.trans h' h2⟩

/-- The thread of a new event knows the event. -/
theorem know_new : Know (tr ++ [ev]) ev.thr tr.length := ⟨_, ev, get_new, rfl, .refl⟩

/-- All that the thread of a new event knows happens before the event. -/
theorem Know.le_new (h : Know (tr ++ [ev]) ev.thr i) : Le (tr ++ [ev]) i tr.length := by
  obtain ⟨j, x, h1, h2, h3⟩ := h
  rcases get_cases h1 with h | ⟨h, rfl⟩
  · exact ReflTransGen.tail h3 ⟨get_lt h, x, ev, h1, get_new, .inl h2⟩
  · subst h; exact h3

/-- Acquiring. -/
theorem know_acq (ho : o ∈ ev.acqs) (h : Rel tr o i) : Know (tr ++ [ev]) ev.thr i := by
  obtain ⟨j, x, h1, h2, h3⟩ := h
  exact ⟨_, ev, get_new, rfl, ReflTransGen.tail h3.old ⟨get_lt h1, x, ev, get_old h1, get_new, .inr ⟨o, h2, ho⟩⟩⟩

/-- Releasing. -/
theorem rel_new (ho : o ∈ ev.rels) (h : Know (tr ++ [ev]) ev.thr i) : Rel (tr ++ [ev]) o i :=
  ⟨_, ev, get_new, ho, h.le_new⟩

theorem past_new (ha : a ∈ ev.accs) (h : Know (tr ++ [ev]) ev.thr i) : Past (tr ++ [ev]) a i :=
  ⟨_, acc_new ha, h.le_new⟩

theorem rel_cases (h : Rel (tr ++ [ev]) o i) : Rel tr o i ∨ o ∈ ev.rels ∧ Know (tr ++ [ev]) ev.thr i := by
  obtain ⟨j, x, h1, h2, h3⟩ := h
  rcases get_cases h1 with h | ⟨h, rfl⟩
  · exact .inl ⟨j, x, h, h2, h3.restrict (get_lt h)⟩
  · subst h; exact .inr ⟨h2, _, x, get_new, rfl, h3⟩

theorem past_cases (h : Past (tr ++ [ev]) a i) : Past tr a i ∨ a ∈ ev.accs ∧ Know (tr ++ [ev]) ev.thr i := by
  obtain ⟨j, h1, h3⟩ := h
  rcases acc_cases h1 with h | ⟨h, h2⟩
  · exact .inl ⟨j, h, h3.restrict h.lt⟩
  · subst h; exact .inr ⟨h2, _, ev, get_new, rfl, h3⟩

theorem conflict_symm (k k' : Kind) : k.conflict k' = k'.conflict k := by cases k <;> cases k' <;> rfl

/-- Extending a trace without races. -/
theorem RaceFree.snoc (h : RaceFree tr)
    (hn : ∀ n l k k', (l, k') ∈ ev.accs → Acc tr n (l, k) → k.conflict k' = true → Know (tr ++ [ev]) ev.thr n) :
    RaceFree (tr ++ [ev]) := by
  intro i j l k k' hne hi hj hc
  have key : ∀ i l k k', (l, k') ∈ ev.accs → Acc tr i (l, k) → k.conflict k' = true →
      Before (tr ++ [ev]) i tr.length := fun i l k k' h1 h2 h3 =>
    (hn i l k k' h1 h2 h3).le_new.before (Nat.ne_of_lt h2.lt)
  rcases acc_cases hi with h1 | ⟨h1, h2⟩ <;> rcases acc_cases hj with h3 | ⟨h3, h4⟩
  · exact (h i j l k k' hne h1 h3 hc).imp Before.old Before.old
  · subst h3
    exact .inl (key i l k k' h4 h1 hc)
  · subst h1
    exact .inr (key j l k' k h2 h3 (by rw [conflict_symm]; exact hc))
  · exact absurd (h1.trans h3.symm) hne

theorem raceFree_nil : RaceFree ([] : List (Ev S L)) := by
  rintro i j l k k' _ ⟨ev, h, _⟩
  simp at h

end

/-- A set of events that contains all that comes before its elements shows that something does
not happen before something else. -/
theorem not_before {tr : List (Ev S L)} {i j : Nat} (p : Nat → Bool)
    (hp : ∀ i j, Edge tr i j → p j = true → p i = true) (hj : p j = true) (hi : p i = false) : ¬ Before tr i j := by
  intro h
  have : ∀ j, Before tr i j → p j = true → p i = true := by
    intro j h
    induction h with
    | single h => exact hp _ _ h
    | tail _ h ih => exact fun hj => ih (hp _ _ h hj)
  rw [this j h hj] at hi
  cases hi

theorem Before.lt {tr : List (Ev S L)} {i j : Nat} (h : Before tr i j) : i < j := by
  induction h with
  | single h => exact h.1
  | tail _ h ih => exact Nat.lt_trans ih h.1

/-- Without races, conflicting accesses happen in the order of the trace. -/
theorem RaceFree.order {tr : List (Ev S L)} (h : RaceFree tr) {i j : Nat} {l : L} {k k' : Kind} (hij : i < j)
    (hi : Acc tr i (l, k)) (hj : Acc tr j (l, k')) (hc : k.conflict k' = true) : Before tr i j := by
  rcases h i j l k k' (Nat.ne_of_lt hij) hi hj hc with h | h
  · exact h
  · exact absurd h.lt (Nat.lt_asymm hij)

/-- Check that a set of events contains all that comes before its elements.  (No code of its
own: used to state examples.) -/
def closed [DecidableEq S] (tr : List (Ev S L)) (p : Nat → Bool) : Bool :=
  (List.range tr.length).all fun j => !p j || (List.range j).all fun i => p i ||
    match tr[i]?, tr[j]? with
    | some a, some b => !(a.thr == b.thr) && a.rels.all fun o => !b.acqs.contains o
    | _, _ => true

theorem not_before_of [DecidableEq S] {tr : List (Ev S L)} {i j : Nat} (p : Nat → Bool) (hc : closed tr p = true)
    (hj : p j = true) (hi : p i = false) : ¬ Before tr i j := by
  refine not_before p ?_ hj hi
  rintro i j ⟨hlt, a, b, ha, hb, he⟩ hpj
  have h1 := List.all_eq_true.1 hc j (List.mem_range.2 (get_lt hb))
  simp only [hpj, Bool.not_true, Bool.false_or] at h1
  have h2 := List.all_eq_true.1 h1 i (List.mem_range.2 hlt)
  simp only [ha, hb, Bool.or_eq_true, Bool.and_eq_true, Bool.not_eq_true', beq_eq_false_iff_ne, List.all_eq_true,
    List.contains_eq_mem, decide_eq_false_iff_not] at h2
  rcases h2 with h2 | ⟨h2, h3⟩
  · exact h2
  · rcases he with he | ⟨o, ho, ho'⟩
    · exact absurd he h2
    · exact absurd ho' (h3 o ho)

end Verif.HB

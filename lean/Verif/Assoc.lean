import Batteries.Data.List.Basic

/-!
# Association lists keyed by numbers
-/

set_option autoImplicit false

namespace Verif
namespace Assoc

theorem lookup_head {α : Type} (l : List (Nat × α)) (x : Nat) (a : α) :
    ((x, a) :: l).lookup x = some a := by
  rw [List.lookup_cons, beq_self_eq_true]

theorem lookup_tail {α : Type} (l : List (Nat × α)) {x y : Nat} (a : α) (h : x ≠ y) :
    ((y, a) :: l).lookup x = l.lookup x := by
  rw [List.lookup_cons, beq_false_of_ne h]

theorem lookup_mem {α : Type} {l : List (Nat × α)} {x : Nat} {a : α} (h : l.lookup x = some a) :
    (x, a) ∈ l := by
  induction l with
  | nil => simp at h
  | cons p l ih =>
    obtain ⟨y, b⟩ := p
    by_cases hy : x = y
    · subst hy; rw [lookup_head] at h; cases h; exact List.mem_cons_self ..
    · rw [lookup_tail l b hy] at h; exact List.mem_cons_of_mem _ (ih h)

theorem lookup_of_mem {α : Type} {l : List (Nat × α)} (hn : (l.map Prod.fst).Nodup) {x : Nat} {a : α}
    (h : (x, a) ∈ l) : l.lookup x = some a := by
  induction l with
  | nil => cases h
  | cons p l ih =>
    obtain ⟨y, b⟩ := p
    simp only [List.map_cons, List.nodup_cons] at hn
    rcases List.mem_cons.1 h with h | h
    · cases h; exact lookup_head ..
    · have : x ≠ y := by
        intro hxy
        exact hn.1 (List.mem_map.2 ⟨(x, a), h, hxy⟩)
      rw [lookup_tail l b this, ih hn.2 h]

theorem lookup_of_name {α : Type} {l : List (Nat × α)} {x : Nat} (h : x ∈ l.map Prod.fst) :
    ∃ a, l.lookup x = some a := by
  induction l with
  | nil => cases h
  | cons p l ih =>
    obtain ⟨y, b⟩ := p
    by_cases hy : x = y
    · exact ⟨b, by rw [hy, lookup_head]⟩
    · rw [lookup_tail l b hy]
      rcases List.mem_cons.1 h with h | h
      · exact absurd h hy
      · exact ih h

/-- The list after changing what `x` maps to into `h`. (Helper, no code of its own.) -/
def setVar {α : Type} (l : List (Nat × α)) (x : Nat) (h : α) : List (Nat × α) :=
  l.map fun p => if p.1 = x then (x, h) else p

theorem setVar_names {α : Type} (l : List (Nat × α)) (x : Nat) (h : α) :
    (setVar l x h).map Prod.fst = l.map Prod.fst := by
  unfold setVar
  rw [List.map_map]
  apply List.map_congr_left
  intro p _
  by_cases hp : p.1 = x <;> simp [hp]

theorem setVar_fresh {α : Type} {l : List (Nat × α)} {x : Nat} (h : α) (hx : x ∉ l.map Prod.fst) :
    setVar l x h = l := by
  unfold setVar
  refine (List.map_congr_left (g := id) ?_).trans (List.map_id l)
  intro p hp
  have : p.1 ≠ x := fun hpx => hx (List.mem_map.2 ⟨p, hp, hpx⟩)
  simp [this]

theorem filter_fresh {α : Type} {l : List (Nat × α)} {x : Nat} (hx : x ∉ l.map Prod.fst) :
    l.filter (fun p => p.1 ≠ x) = l := by
  rw [List.filter_eq_self]
  intro p hp
  simp only [decide_eq_true_eq]
  exact fun hpx => hx (List.mem_map.2 ⟨p, hp, hpx⟩)

theorem mem_names {α : Type} {l : List (Nat × α)} {x : Nat} :
    x ∈ l.map Prod.fst ↔ (l.lookup x).isSome := by
  constructor
  · intro h
    obtain ⟨a, ha⟩ := lookup_of_name h
    simp [ha]
  · intro h
    obtain ⟨a, ha⟩ := Option.isSome_iff_exists.1 h
    exact List.mem_map.2 ⟨(x, a), lookup_mem ha, rfl⟩

theorem lookup_none {α : Type} {l : List (Nat × α)} {x : Nat} (h : x ∉ l.map Prod.fst) :
    l.lookup x = none := by
  rw [mem_names] at h
  cases hx : l.lookup x with
  | none => rfl
  | some a => rw [hx] at h; simp at h

theorem lookup_setVar {α : Type} (l : List (Nat × α)) (x : Nat) (h : α) (y : Nat) :
    (setVar l x h).lookup y = if y = x ∧ (l.lookup x).isSome then some h else l.lookup y := by
  induction l with
  | nil => simp [setVar]
  | cons p l ih =>
    obtain ⟨z, b⟩ := p
    have hc : setVar ((z, b) :: l) x h = (if z = x then (x, h) else (z, b)) :: setVar l x h := rfl
    rw [hc]
    by_cases hz : z = x
    · subst hz
      rw [if_pos rfl]
      by_cases hy : y = z
      · subst hy
        rw [lookup_head, lookup_head]
        simp
      · rw [lookup_tail _ _ hy, lookup_tail _ _ hy, ih]
        simp [hy]
    · rw [if_neg hz, lookup_tail l b (Ne.symm hz)]
      by_cases hy : y = z
      · subst hy
        rw [lookup_head, lookup_head]
        simp [hz]
      · rw [lookup_tail _ _ hy, lookup_tail _ _ hy, ih]

theorem lookup_filter {α : Type} (l : List (Nat × α)) (x y : Nat) :
    (l.filter fun p => p.1 ≠ x).lookup y = if y = x then none else l.lookup y := by
  induction l with
  | nil => simp
  | cons p l ih =>
    obtain ⟨z, b⟩ := p
    rw [List.filter_cons]
    by_cases hz : z = x
    · subst hz
      simp only [ne_eq, not_true_eq_false, decide_false, Bool.false_eq_true, if_false]
      simp only [ne_eq] at ih
      rw [ih]
      by_cases hy : y = z
      · simp [hy]
      · rw [lookup_tail _ _ hy]
    · simp only [ne_eq, hz, not_false_eq_true, decide_true, if_true]
      simp only [ne_eq] at ih
      by_cases hy : y = z
      · subst hy
        rw [lookup_head, lookup_head]
        simp [hz]
      · rw [lookup_tail _ _ hy, lookup_tail _ _ hy, ih]

theorem filter_names {α : Type} (l : List (Nat × α)) (x : Nat) :
    ((l.filter fun p => p.1 ≠ x).map Prod.fst).Sublist (l.map Prod.fst) :=
  List.filter_sublist.map _

theorem lookup_perm {α : Type} {l l' : List (Nat × α)} (h : l.Perm l') (hn : (l.map Prod.fst).Nodup)
    (x : Nat) : l'.lookup x = l.lookup x := by
  have hn' : (l'.map Prod.fst).Nodup := (h.map _).nodup_iff.1 hn
  cases hx : l.lookup x with
  | some a => exact lookup_of_mem hn' (h.mem_iff.1 (lookup_mem hx))
  | none =>
    apply lookup_none
    rw [← (h.map Prod.fst).mem_iff, mem_names, hx]
    simp

/-- The list after changing what `x` maps to by `g`. (Helper, no code of its own.) -/
def modifyAt {α : Type} (l : List (Nat × α)) (x : Nat) (g : α → α) : List (Nat × α) :=
  l.map fun p => if p.1 = x then (x, g p.2) else p

theorem modifyAt_names {α : Type} (l : List (Nat × α)) (x : Nat) (g : α → α) :
    (modifyAt l x g).map Prod.fst = l.map Prod.fst := by
  unfold modifyAt
  rw [List.map_map]
  apply List.map_congr_left
  intro p _
  by_cases hp : p.1 = x <;> simp [hp]

theorem lookup_modifyAt {α : Type} (l : List (Nat × α)) (x : Nat) (g : α → α) (y : Nat) :
    (modifyAt l x g).lookup y = if y = x then (l.lookup x).map g else l.lookup y := by
  induction l with
  | nil => simp [modifyAt]
  | cons p l ih =>
    obtain ⟨z, b⟩ := p
    have hc : modifyAt ((z, b) :: l) x g = (if z = x then (x, g b) else (z, b)) :: modifyAt l x g := rfl
    rw [hc]
    by_cases hz : z = x
    · subst hz
      rw [if_pos rfl]
      by_cases hy : y = z
      · subst hy
        rw [lookup_head, lookup_head]
        simp
      · rw [lookup_tail _ _ hy, lookup_tail _ _ hy, ih]
        simp [hy]
    · rw [if_neg hz, lookup_tail l b (Ne.symm hz)]
      by_cases hy : y = z
      · subst hy
        rw [lookup_head, lookup_head]
        simp [hz]
      · rw [lookup_tail _ _ hy, lookup_tail _ _ hy, ih]

theorem mem_modifyAt {α : Type} {l : List (Nat × α)} {x : Nat} {g : α → α} {p : Nat × α}
    (h : p ∈ modifyAt l x g) : p ∈ l ∨ ∃ q ∈ l, q.1 = x ∧ p = (x, g q.2) := by
  unfold modifyAt at h
  obtain ⟨q, hq, rfl⟩ := List.mem_map.1 h
  by_cases hx : q.1 = x
  · exact Or.inr ⟨q, hq, hx, by simp [hx]⟩
  · exact Or.inl (by simpa [hx] using hq)

theorem lookup_mapVal {α β : Type} (l : List (Nat × α)) (g : α → β) (y : Nat) :
    (l.map fun p => (p.1, g p.2)).lookup y = (l.lookup y).map g := by
  induction l with
  | nil => rfl
  | cons p l ih =>
    obtain ⟨z, b⟩ := p
    rw [List.map_cons]
    by_cases hy : y = z
    · subst hy
      rw [lookup_head, lookup_head]
      rfl
    · rw [lookup_tail _ _ hy, lookup_tail _ _ hy, ih]

theorem lookup_snoc {α : Type} {l : List (Nat × α)} {x : Nat} (a : α) (h : l.lookup x = none) (y : Nat) :
    (l ++ [(x, a)]).lookup y = if y = x then some a else l.lookup y := by
  induction l with
  | nil =>
    by_cases hy : y = x
    · rw [hy, if_pos rfl]; exact lookup_head ..
    · rw [if_neg hy]; exact lookup_tail _ _ hy
  | cons p l ih =>
    obtain ⟨z, b⟩ := p
    by_cases hz : x = z
    · rw [hz, lookup_head] at h; cases h
    · rw [lookup_tail _ _ hz] at h
      rw [List.cons_append]
      by_cases hy : y = z
      · subst hy
        rw [lookup_head, lookup_head, if_neg (Ne.symm hz)]
      · rw [lookup_tail _ _ hy, lookup_tail _ _ hy, ih h]

theorem not_mem_names {α : Type} {l : List (Nat × α)} {x : Nat} (h : l.lookup x = none) :
    x ∉ l.map Prod.fst := by
  rw [mem_names, h]; simp

end Assoc
end Verif

import Verif.VerboseKeys

/-!
# The program of example/custom_factory.cpp

Tokens are made into flyweights one after the other and kept in a vector, whose end destroys them.
-/

set_option autoImplicit false

namespace Verif
namespace Verbose
variable {K V : Type}

/-- `isNew`, for counting.  (No code of its own: used in statements and proofs.) -/
def _root_.Verif.Note.isNew : Note K → Bool
  | .new _ => true
  | _ => false

/-- `isDel`, for counting.  (No code of its own: used in statements and proofs.) -/
def _root_.Verif.Note.isDel : Note K → Bool
  | .del _ => true
  | _ => false

section Count
variable {keq : K → K → Bool} (q : EquivOk keq)

include q in
theorem read_apart {o o' : List K} (ha : o.Pairwise fun a b => keq a b = false) {n : Note K}
    (h : n.read keq o = some o') :
    (o'.Pairwise fun a b => keq a b = false) ∧
      (if n.isNew then 1 else 0) + o.length = (if n.isDel then 1 else 0) + o'.length := by
  cases n with
  | new k =>
    simp only [Note.read] at h
    split at h
    · cases h
    · rename_i hn
      cases h
      refine ⟨List.pairwise_cons.2 ⟨fun l hl => ?_, ha⟩, by simp [Note.isNew, Note.isDel]; omega⟩
      cases hk : keq k l with
      | false => rfl
      | true => exact absurd (List.any_eq_true.2 ⟨l, hl, q.symm k l hk⟩) hn
  | hit k =>
    simp only [Note.read] at h
    split at h
    · cases h; exact ⟨ha, by simp [Note.isNew, Note.isDel]⟩
    · cases h
  | del k =>
    simp only [Note.read] at h
    split at h
    · rename_i hn
      cases h
      refine ⟨ha.sublist List.filter_sublist, ?_⟩
      simp only [Note.isNew, Note.isDel]
      have : ∀ (l : List K), (l.Pairwise fun a b => keq a b = false) → l.any (keq · k) = true →
          l.length = 1 + (l.filter fun a => !keq a k).length := by
        intro l hl hk
        induction l with
        | nil => cases hk
        | cons a l ih =>
          obtain ⟨h1, h2⟩ := List.pairwise_cons.1 hl
          cases hak : keq a k with
          | true =>
            have : l.filter (fun a => !keq a k) = l := by
              rw [List.filter_eq_self]
              intro c hc
              cases hck : keq c k with
              | false => rfl
              | true =>
                have := q.trans _ _ _ hak (q.symm _ _ hck)
                rw [h1 c hc] at this
                cases this
            simp [hak, this]
            omega
          | false =>
            have := ih h2 (by simpa [hak] using hk)
            simp [hak]
            omega
      have := this o ha hn
      simp
      omega
    · cases h

include q in
/-- As many lines `new` as lines `del` and keys stored. -/
theorem readNotes_count {l : List (Note K)} {o o' : List K} (ha : o.Pairwise fun a b => keq a b = false)
    (h : readNotes keq o l = some o') :
    (o'.Pairwise fun a b => keq a b = false) ∧ l.countP Note.isNew + o.length = l.countP Note.isDel + o'.length := by
  induction l generalizing o with
  | nil => cases h; exact ⟨ha, by simp⟩
  | cons n l ih =>
    simp only [readNotes] at h
    cases h1 : n.read keq o with
    | none => rw [h1] at h; cases h
    | some o1 =>
      rw [h1] at h
      obtain ⟨h2, h3⟩ := read_apart q ha h1
      obtain ⟨h4, h5⟩ := ih h2 h
      refine ⟨h4, ?_⟩
      simp only [List.countP_cons]
      omega

include q in
/-- Not more keys than there are others equivalent to them. -/
theorem length_le {a b : List K} (ha : a.Pairwise fun x y => keq x y = false) (hb : ∀ x ∈ a, ∃ y ∈ b, keq x y = true) :
    a.length ≤ b.length := by
  induction a generalizing b with
  | nil => simp
  | cons x a ih =>
    obtain ⟨h1, h2⟩ := List.pairwise_cons.1 ha
    obtain ⟨y, hy, hxy⟩ := hb x (by simp)
    obtain ⟨b1, b2, rfl⟩ := List.append_of_mem hy
    have := ih (b := b1 ++ b2) h2 fun x' hx' => by
      obtain ⟨y', hy', hxy'⟩ := hb x' (by simp [hx'])
      by_cases h : y' = y
      · subst h
        have := q.trans _ _ _ hxy (q.symm _ _ hxy')
        rw [h1 x' hx'] at this
        cases this
      · refine ⟨y', ?_, hxy'⟩
        simp only [List.mem_append, List.mem_cons] at hy' ⊢
        rcases hy' with h' | h' | h'
        · exact .inl h'
        · exact absurd h' h
        · exact .inr h'
    simp only [List.length_append, List.length_cons] at this ⊢
    omega

end Count

/-- The lines for keys asked for one after the other.  (No code of its own: used in statements and proofs.) -/
def askLines (keq : K → K → Bool) : List K → List K → List (Note K)
  | _, [] => []
  | seen, k :: ks => (if seen.any (keq · k) then .hit k else .new k) :: askLines keq (k :: seen) ks

/-- Programs that make flyweights from sources, at any time copy (or move) flyweights, destroy those of which
there is a copy, and end as `E` tells: after `n` sources, `live` says which variables hold what has
been made from which source.  /repo/example/custom_factory.cpp:115-122, whatever the vector does. -/
inductive Seg (E : Nat → List (Nat × Nat) → List (Op K V) → Prop) :
    Nat → List (Nat × Nat) → List (Src K V) → List (Op K V) → Prop
  | stop {n live ops} : E n live ops → Seg E n live [] ops
  | make {n live x src srcs ops} : (∀ i, (x, i) ∉ live) → Seg E (n + 1) ((x, n) :: live) srcs ops →
      Seg E n live (src :: srcs) (.make x src :: ops)
  | copy {n live x y i srcs ops} : (∀ j, (x, j) ∉ live) → (y, i) ∈ live → Seg E n ((x, i) :: live) srcs ops →
      Seg E n live srcs (.copy x y :: ops)
  | move {n live x y i srcs ops} : (∀ j, (x, j) ∉ live) → (y, i) ∈ live → Seg E n ((x, i) :: live) srcs ops →
      Seg E n live srcs (.move x y :: ops)
  | destroy {n live x y i srcs ops} : (x, i) ∈ live → (∀ j, (x, j) ∈ live → j = i) → (y, i) ∈ live → y ≠ x →
      Seg E n (live.filter fun p => p.1 ≠ x) srcs ops → Seg E n live srcs (.destroy x :: ops)

/-- The operations `ops` destroy all flyweights.  (No code of its own: used in statements and proofs.) -/
def Ends (_n : Nat) (live : List (Nat × Nat)) (ops : List (Op K V)) : Prop :=
  ∃ xs : List Nat, xs.Nodup ∧ (∀ x, x ∈ xs ↔ ∃ i, (x, i) ∈ live) ∧ ops = xs.map .destroy

/-- Such programs that finally destroy all flyweights.  /repo/example/custom_factory.cpp:115-124, whatever the
vector does. -/
abbrev Prog : Nat → List (Nat × Nat) → List (Src K V) → List (Op K V) → Prop := Seg Ends

/-! ## The vector -/

/-- A `std::vector` of flyweights: the names of its elements, its capacity, and the next name not in use. -/
structure Vec where
  next : Nat
  cap : Nat
  elems : List Nat

/-- Moving elements to new storage.  (C++ standard library.) -/
def moves : Nat → List Nat → List (Op K V)
  | _, [] => []
  | n, e :: es => .move n e :: moves (n + 1) es

/-- `v.push_back(fw_string(src))`, /repo/example/custom_factory.cpp:120: the temporary is made, moved into the
vector and destroyed; if there is no room, elements are moved to new storage of capacity `grow cap`.  (C++
standard library; with a library that copies instead, see `Prog`.) -/
def push (grow : Nat → Nat) (v : Vec) (src : Src K V) : List (Op K V) × Vec :=
  if v.elems.length < v.cap then
    ([.make v.next src, .move (v.next + 1) v.next, .destroy v.next],
      ⟨v.next + 2, v.cap, v.elems ++ [v.next + 1]⟩)
  else
    ([.make v.next src, .move (v.next + 1) v.next] ++ moves (v.next + 2) v.elems ++ v.elems.map .destroy ++
      [.destroy v.next],
      ⟨v.next + 2 + v.elems.length, grow v.cap, List.range' (v.next + 2) v.elems.length ++ [v.next + 1]⟩)

/-- The loop of `main` and the end of the vector, /repo/example/custom_factory.cpp:115-124, `srcs` being the
tokens. -/
def mainOps (grow : Nat → Nat) : Vec → List (Src K V) → List (Op K V)
  | v, [] => v.elems.map .destroy
  | v, src :: srcs => (push grow v src).1 ++ mainOps grow (push grow v src).2 srcs

theorem prog_moves {E : Nat → List (Nat × Nat) → List (Op K V) → Prop} {n : Nat} {srcs : List (Src K V)} {ops : List (Op K V)} (es : List Nat) (m : Nat)
    (live : List (Nat × Nat)) (hlt : ∀ p ∈ live, p.1 < m) (hes : ∀ e ∈ es, ∃ i, (e, i) ∈ live)
    (huniq : ∀ e ∈ es, ∀ i j, (e, i) ∈ live → (e, j) ∈ live → i = j)
    (k : ∀ live', (∀ p, p ∈ live' ↔ p ∈ live ∨ ∃ j e i, es[j]? = some e ∧ (e, i) ∈ live ∧ p = (m + j, i)) →
      Seg E n live' srcs ops) : Seg E n live srcs (moves m es ++ ops) := by
  induction es generalizing m live with
  | nil => exact k live fun p => by simp
  | cons e es ih =>
    obtain ⟨i, hi⟩ := hes e (by simp)
    have hlt' : ∀ {x j : Nat}, (x, j) ∈ live → x < m := fun h => hlt _ h
    refine .move (fun j hj => absurd (hlt' hj) (Nat.lt_irrefl _)) hi ?_
    refine ih (m + 1) ((m, i) :: live) ?_ ?_ ?_ ?_
    · intro p hp
      rcases List.mem_cons.1 hp with rfl | hp
      · exact Nat.lt_succ_self m
      · exact Nat.lt_succ_of_lt (hlt p hp)
    · intro e' he'
      obtain ⟨i', hi'⟩ := hes e' (by simp [he'])
      exact ⟨i', by simp [hi']⟩
    · intro e' he' a b ha hb
      have hne : e' ≠ m := by
        obtain ⟨i', hi'⟩ := hes e' (by simp [he'])
        exact Nat.ne_of_lt (hlt' hi')
      simp [hne] at ha hb
      exact huniq e' (by simp [he']) a b ha hb
    · intro live' hl
      refine k live' fun p => ?_
      rw [hl p]
      constructor
      · rintro (h | ⟨j, e', i', h1, h2, rfl⟩)
        · rcases List.mem_cons.1 h with rfl | h
          · exact .inr ⟨0, e, i, rfl, hi, rfl⟩
          · exact .inl h
        · refine .inr ⟨j + 1, e', i', by simpa using h1, ?_, by rw [Nat.add_assoc, Nat.add_comm 1 j]⟩
          rcases List.mem_cons.1 h2 with h | h
          · have he' : e' ∈ e :: es := by simp [List.mem_of_getElem? h1]
            obtain ⟨i2, hi2⟩ := hes e' he'
            cases h
            exact absurd (hlt' hi2) (Nat.lt_irrefl _)
          · exact h
      · rintro (h | ⟨j, e', i', h1, h2, rfl⟩)
        · exact .inl (by simp [h])
        · cases j with
          | zero =>
            simp at h1
            subst h1
            rw [huniq e (by simp) i' i h2 hi]
            exact .inl (by simp)
          | succ j =>
            exact .inr ⟨j, e', i', by simpa using h1, by simp [h2], by
              rw [Nat.add_assoc, Nat.add_comm 1 j]⟩

theorem prog_destroys {E : Nat → List (Nat × Nat) → List (Op K V) → Prop} {n : Nat} {srcs : List (Src K V)} {ops : List (Op K V)} (es : List Nat) (hn : es.Nodup)
    (live : List (Nat × Nat)) (hes : ∀ e ∈ es, ∃ i, (e, i) ∈ live ∧ (∀ j, (e, j) ∈ live → j = i) ∧
      ∃ y, y ∉ es ∧ (y, i) ∈ live)
    (k : ∀ live', (∀ p, p ∈ live' ↔ p ∈ live ∧ p.1 ∉ es) → Seg E n live' srcs ops) :
    Seg E n live srcs (es.map .destroy ++ ops) := by
  induction es generalizing live with
  | nil => exact k live fun p => by simp
  | cons e es ih =>
    obtain ⟨i, hi, hu, y, hy, hyi⟩ := hes e (by simp)
    simp only [List.nodup_cons] at hn
    refine .destroy hi hu hyi (fun h => hy (by simp [h])) ?_
    refine ih hn.2 _ ?_ ?_
    · intro e' he'
      obtain ⟨i', hi', hu', y', hy', hyi'⟩ := hes e' (by simp [he'])
      have h1 : e' ≠ e := fun h => hn.1 (h ▸ he')
      have h2 : y' ≠ e := fun h => hy' (by simp [h])
      exact ⟨i', by simp [hi', h1], fun j hj => hu' j (List.mem_filter.1 hj).1, y', fun h => hy' (by simp [h]),
        by simp [hyi', h2]⟩
    · intro live' hl
      refine k live' fun p => ?_
      rw [hl p]
      simp [and_assoc]

/-- Pushing an element onto the vector. -/
theorem seg_push {E : Nat → List (Nat × Nat) → List (Op K V) → Prop} (grow : Nat → Nat) (src : Src K V)
    (srcs : List (Src K V)) (ops : List (Op K V)) (v : Vec) (live : List (Nat × Nat))
    (hl : ∀ x i, (x, i) ∈ live ↔ v.elems[i]? = some x) (hlt : ∀ x ∈ v.elems, x < v.next) (hnd : v.elems.Nodup)
    (k : ∀ live', (∀ x i, (x, i) ∈ live' ↔ (push grow v src).2.elems[i]? = some x) →
      (∀ x ∈ (push grow v src).2.elems, x < (push grow v src).2.next) → (push grow v src).2.elems.Nodup →
      Seg E (v.elems.length + 1) live' srcs ops) :
    Seg E v.elems.length live (src :: srcs) ((push grow v src).1 ++ ops) := by
  have hlive : ∀ {x i : Nat}, (x, i) ∈ live → x < v.next ∧ i < v.elems.length := fun {x i} h => by
    have h1 := (hl x i).1 h
    exact ⟨hlt x (List.mem_of_getElem? h1), (List.getElem?_eq_some_iff.1 h1).1⟩
  have hun : ∀ {x i j : Nat}, (x, i) ∈ live → (x, j) ∈ live → i = j := fun {x i j} h h' => by
    have h1 := (hl x i).1 h
    have h2 := (hl x j).1 h'
    exact (List.getElem?_inj (hlive h).2 hnd).1 (h1.trans h2.symm)
  revert k
  unfold push
  split
  · intro k
    refine .make (fun i h => absurd (hlive h).1 (Nat.lt_irrefl _)) ?_
    refine .move (i := v.elems.length) (fun j h => ?_) (by simp) ?_
    · rcases List.mem_cons.1 h with h | h
      · exact absurd (congrArg Prod.fst h) (by simp)
      · have := (hlive h).1
        omega
    refine .destroy (i := v.elems.length) (y := v.next + 1) (by simp) ?_ (by simp) (by omega) ?_
    · intro j h
      rcases List.mem_cons.1 h with h | h
      · exact absurd (congrArg Prod.fst h) (by simp)
      · rcases List.mem_cons.1 h with h | h
        · cases h; rfl
        · exact absurd (hlive h).1 (Nat.lt_irrefl _)
    refine k
      (((v.next + 1, v.elems.length) :: (v.next, v.elems.length) :: live).filter fun p => p.1 ≠ v.next) ?_ ?_ ?_
    · intro x i
      simp only [List.mem_filter, List.mem_cons, Prod.mk.injEq, decide_eq_true_eq]
      rw [List.getElem?_append]
      constructor
      · rintro ⟨⟨rfl, rfl⟩ | ⟨rfl, rfl⟩ | h, hne⟩
        · simp
        · exact absurd rfl hne
        · rw [if_pos (hlive h).2]
          exact (hl x i).1 h
      · split
        · intro h
          have hm := (hl x i).2 h
          exact ⟨.inr (.inr hm), Nat.ne_of_lt (hlive hm).1⟩
        · rename_i hge
          intro h
          obtain ⟨h1, h2⟩ := List.getElem?_eq_some_iff.1 h
          simp at h1 h2
          exact ⟨.inl ⟨h2.symm, by omega⟩, by omega⟩
    · intro x hx
      rcases List.mem_append.1 hx with hx | hx
      · have := hlt x hx
        show x < v.next + 2
        omega
      · simp at hx
        show x < v.next + 2
        omega
    · rw [List.nodup_append]
      refine ⟨hnd, by simp, fun a ha b hb => ?_⟩
      simp at hb
      have := hlt a ha
      omega
  · intro k
    have hel : ∀ e ∈ v.elems, ∃ i, (e, i) ∈ live := fun e he => by
      obtain ⟨i, hi⟩ := List.mem_iff_getElem?.1 he
      exact ⟨i, (hl e i).2 hi⟩
    simp only [List.cons_append, List.nil_append, List.append_assoc]
    refine .make (fun i h => absurd (hlive h).1 (Nat.lt_irrefl _)) ?_
    refine .move (i := v.elems.length) (fun j h => ?_) (by simp) ?_
    · rcases List.mem_cons.1 h with h | h
      · exact absurd (congrArg Prod.fst h) (by simp)
      · have := (hlive h).1
        omega
    have old : ∀ {e i : Nat}, e ∈ v.elems →
        (e, i) ∈ (v.next + 1, v.elems.length) :: (v.next, v.elems.length) :: live → (e, i) ∈ live := by
      intro e i he h
      have := hlt e he
      rcases List.mem_cons.1 h with h | h
      · cases h; omega
      · rcases List.mem_cons.1 h with h | h
        · cases h; omega
        · exact h
    refine prog_moves v.elems (v.next + 2) _ ?_ ?_ ?_ fun live1 hl1 => ?_
    · rintro ⟨x, i⟩ h
      rcases List.mem_cons.1 h with h | h
      · cases h; show v.next + 1 < v.next + 2; omega
      · rcases List.mem_cons.1 h with h | h
        · cases h; show v.next < v.next + 2; omega
        · have := (hlive h).1
          show x < v.next + 2
          omega
    · intro e he
      obtain ⟨i, hi⟩ := hel e he
      exact ⟨i, by simp [hi]⟩
    · intro e he i j h1 h2
      exact hun (old he h1) (old he h2)
    have old1 : ∀ {x i : Nat}, x < v.next + 2 → (x, i) ∈ live1 →
        (x, i) ∈ (v.next + 1, v.elems.length) :: (v.next, v.elems.length) :: live := by
      intro x i hx h
      rcases (hl1 _).1 h with h | ⟨j, e, i', _, _, h⟩
      · exact h
      · cases h; omega
    refine prog_destroys v.elems hnd _ ?_ fun live2 hl2 => ?_
    · intro e he
      obtain ⟨i, hi⟩ := hel e he
      have hlt' := hlt e he
      refine ⟨i, (hl1 _).2 (.inl (by simp [hi])), fun j hj => ?_, v.next + 2 + i, ?_, ?_⟩
      · exact hun (old he (old1 (by omega) hj)) hi
      · intro h
        have := hlt _ h
        omega
      · exact (hl1 _).2 (.inr ⟨i, e, i, (hl e i).1 hi, by simp [hi], rfl⟩)
    have hnew : ∀ x i, (x, i) ∈ live2 ↔ x = v.next + 1 ∧ i = v.elems.length ∨
        x = v.next ∧ i = v.elems.length ∨ i < v.elems.length ∧ x = v.next + 2 + i := by
      intro x i
      rw [hl2, hl1]
      constructor
      · rintro ⟨h | ⟨j, e, i', h1, h2, h3⟩, hx⟩
        · rcases List.mem_cons.1 h with h | h
          · cases h; exact .inl ⟨rfl, rfl⟩
          · rcases List.mem_cons.1 h with h | h
            · cases h; exact .inr (.inl ⟨rfl, rfl⟩)
            · exact absurd (List.mem_of_getElem? ((hl x i).1 h)) hx
        · cases h3
          have h4 := old (List.mem_of_getElem? h1) h2
          have : i = j := hun h4 ((hl e j).2 h1)
          subst this
          exact .inr (.inr ⟨(hlive h4).2, rfl⟩)
      · rintro (⟨rfl, rfl⟩ | ⟨rfl, rfl⟩ | ⟨h, rfl⟩)
        · exact ⟨.inl (by simp), fun h => by have := hlt _ h; omega⟩
        · exact ⟨.inl (by simp), fun h => by have := hlt _ h; omega⟩
        · refine ⟨.inr ⟨i, v.elems[i], i, by simp [h], ?_, rfl⟩, fun h => by have := hlt _ h; omega⟩
          have : (v.elems[i], i) ∈ live := (hl _ _).2 (by simp [h])
          simp [this]
    refine .destroy (i := v.elems.length) (y := v.next + 1) ((hnew _ _).2 (.inr (.inl ⟨rfl, rfl⟩))) ?_
      ((hnew _ _).2 (.inl ⟨rfl, rfl⟩)) (by omega) ?_
    · intro j h
      rcases (hnew _ _).1 h with h | h | h <;> omega
    refine k (live2.filter fun p => p.1 ≠ v.next) ?_ ?_ ?_
    · intro x i
      simp only [List.mem_filter, decide_eq_true_eq, hnew]
      rw [List.getElem?_append]
      simp only [List.length_range']
      constructor
      · rintro ⟨⟨rfl, rfl⟩ | ⟨rfl, rfl⟩ | ⟨h, rfl⟩, hne⟩
        · simp
        · exact absurd rfl hne
        · rw [if_pos h]
          simp [h]
      · split
        · rename_i hi
          intro h
          obtain ⟨h1, h2⟩ := List.getElem?_eq_some_iff.1 h
          simp at h2
          exact ⟨.inr (.inr ⟨hi, h2.symm⟩), by omega⟩
        · rename_i hge
          intro h
          obtain ⟨h1, h2⟩ := List.getElem?_eq_some_iff.1 h
          simp at h1 h2
          exact ⟨.inl ⟨h2.symm, by omega⟩, by omega⟩
    · intro x hx
      show x < v.next + 2 + v.elems.length
      rcases List.mem_append.1 hx with hx | hx
      · have := List.mem_range'.1 hx
        omega
      · simp at hx
        omega
    · rw [List.nodup_append]
      refine ⟨List.nodup_range', by simp, fun a ha b hb => ?_⟩
      simp at hb
      have := List.mem_range'.1 ha
      omega

theorem push_length (grow : Nat → Nat) (v : Vec) (src : Src K V) :
    (push grow v src).2.elems.length = v.elems.length + 1 := by
  unfold push
  split <;> simp

/-- `main` is such a program. -/
theorem prog_main (grow : Nat → Nat) (srcs : List (Src K V)) (v : Vec) (live : List (Nat × Nat))
    (hl : ∀ x i, (x, i) ∈ live ↔ v.elems[i]? = some x) (hlt : ∀ x ∈ v.elems, x < v.next) (hnd : v.elems.Nodup) :
    Prog v.elems.length live srcs (mainOps grow v srcs) := by
  induction srcs generalizing v live with
  | nil =>
    refine .stop ⟨_, hnd, fun x => ?_, rfl⟩
    rw [List.mem_iff_getElem?]
    exact ⟨fun ⟨i, h⟩ => ⟨i, (hl x i).2 h⟩, fun ⟨i, h⟩ => ⟨i, (hl x i).1 h⟩⟩
  | cons src srcs ih =>
    refine seg_push grow src srcs _ v live hl hlt hnd fun live' h1 h2 h3 => ?_
    rw [← push_length grow v src]
    exact ih _ live' h1 h2 h3

/-! ## Its lines -/

/-- After making flyweights from keys `keys`: what the variables `live` hold.  (No code of its own: used in
statements and proofs.) -/
structure Held (trk : Tracking) (keq : K → K → Bool) (t : SSt K V) (live : List (Nat × Nat)) (keys : List K) :
    Prop where
  names : ∀ x, x ∈ t.names ↔ ∃ i, (x, i) ∈ live
  key : ∀ x b i, (x, b) ∈ t.vars → (x, i) ∈ live → ∃ k, keys[i]? = some k ∧ keq b.key k = true
  pool : ∀ k, ((t.pool trk).any fun b => keq b.key k) = keys.any (keq · k)

/-- The lines of destroying all flyweights.  (No code of its own: used in statements and proofs.) -/
structure Dels (trk : Tracking) (keq : K → K → Bool) (t : SSt K V) (ds : List K) : Prop where
  none : trk = .noTracking → ds = []
  apart : ds.Pairwise fun a b => keq a b = false
  sub : ∀ d ∈ ds, ∃ p ∈ t.vars, d = p.2.key
  all : trk = .refcounted → ∀ p ∈ t.vars, ∃ d ∈ ds, keq d p.2.key = true

section Lines
variable {sp : SrcSpec K V} {trk : Tracking} {keq : K → K → Bool} (q : sp.Lawful keq) {hp : Nat → Nat}

theorem any_key {l : List (Bind K V)} {k : K} :
    (l.any fun b => keq b.key k) = true ↔ ∃ b ∈ l, keq b.key k = true := by
  rw [List.any_eq_true]

theorem mem_names {t : SSt K V} {x : Nat} : x ∈ t.names ↔ ∃ b, (x, b) ∈ t.vars := by
  constructor
  · intro h
    obtain ⟨⟨y, b⟩, hb, rfl⟩ := List.mem_map.1 h
    exact ⟨b, hb⟩
  · rintro ⟨b, hb⟩
    exact List.mem_map.2 ⟨_, hb, rfl⟩

/-- An operation performed is not skipped. -/
theorem _root_.Verif.SStep.not_skipped {t t' : SSt K V} {op : Op K V} {out : Out K V}
    (h : SStep trk keq sp hp t op out t') : out ≠ .skipped := by
  cases h <;> exact fun h => (nomatch h)

include q in
theorem dels {xs : List Nat} (hn : xs.Nodup) {t t' : SSt K V} (hx : ∀ x, x ∈ xs ↔ x ∈ t.names)
    (hok : SOk trk keq t) {outs : List (Out K V)} {δ : List (Note K)}
    (h : LRun trk keq sp hp t (xs.map .destroy) outs δ t') :
    t'.vars = [] ∧ .skipped ∉ outs ∧ ∃ ds, δ = ds.map .del ∧ Dels trk keq t ds := by
  induction xs generalizing t outs δ with
  | nil =>
    cases h
    have hv : t'.vars = [] := by
      cases hv : t'.vars with
      | nil => rfl
      | cons p l => exact absurd ((hx p.1).2 (by simp [SSt.names, hv])) (by simp)
    exact ⟨hv, by simp, [], rfl, fun _ => rfl, .nil, fun d hd => (by cases hd), fun _ p hp' => by rw [hv] at hp'; cases hp'⟩
  | cons x xs ih =>
    simp only [List.nodup_cons] at hn
    cases h with
    | skip hv _ =>
      have : x ∈ t.names := (hx x).1 (by simp)
      simp [Op.valid, this] at hv
    | thrw _ h _ =>
      obtain ⟨_, ⟨_, h⟩ | ⟨_, h⟩, _⟩ := h <;> cases h
    | step hv _ hs hl hr =>
      have hok' := hs.ok q hok hv
      have hnsk := hs.not_skipped
      cases hs
      obtain ⟨b, hb, rfl⟩ := hl
      have hmem : ∀ p : Nat × Bind K V, p ∈ t.vars.filter (fun p => p.1 ≠ x) ↔ p ∈ t.vars ∧ p.1 ≠ x := by
        intro p; simp
      obtain ⟨h1, h0, ds, rfl, hd⟩ := ih hn.2 (t := { t with vars := t.vars.filter fun p => p.1 ≠ x }) (by
        intro y
        rw [mem_names]
        constructor
        · intro hy
          obtain ⟨c, hc⟩ := mem_names.1 ((hx y).1 (by simp [hy]))
          exact ⟨c, (hmem _).2 ⟨hc, fun h => hn.1 (by rw [← show y = x from h]; exact hy)⟩⟩
        · rintro ⟨c, hc⟩
          obtain ⟨hc, hne⟩ := (hmem _).1 hc
          rcases List.mem_cons.1 ((hx y).2 (mem_names.2 ⟨c, hc⟩)) with h | h
          · exact absurd h hne
          · exact h) hok' hr
      refine ⟨h1, fun h => h0 ((List.mem_cons.1 h).resolve_left (Ne.symm hnsk)), ?_⟩
      have uniq : ∀ p ∈ t.vars, p.1 = x → p.2 = b := fun p hp' hpx =>
        bind_unique hok.nodup (by rw [← hpx]; exact hp') hb
      cases htrk : trk with
      | noTracking =>
        subst htrk
        exact ⟨ds, by simp [dropped], hd.none, hd.apart, fun d hdd => by
          obtain ⟨p, hp', h⟩ := hd.sub d hdd
          exact ⟨p, ((hmem p).1 hp').1, h⟩, fun h => by cases h⟩
      | refcounted =>
        subst htrk
        simp only [dropped]
        split
        · rename_i hany
          refine ⟨ds, rfl, fun h => (by cases h), hd.apart, fun d hdd => ?_, fun _ p hp' => ?_⟩
          · obtain ⟨p, hp', h⟩ := hd.sub d hdd
            exact ⟨p, ((hmem p).1 hp').1, h⟩
          · by_cases hpx : p.1 = x
            · obtain ⟨c, hc, hcb⟩ := List.any_eq_true.1 hany
              obtain ⟨d, hdd, hdc⟩ := hd.all rfl c hc
              exact ⟨d, hdd, by rw [uniq p hp' hpx]; exact q.trans _ _ _ hdc hcb⟩
            · exact hd.all rfl p ((hmem p).2 ⟨hp', hpx⟩)
        · rename_i hany
          refine ⟨b.key :: ds, rfl, fun h => (by cases h), List.pairwise_cons.2 ⟨fun d hdd => ?_, hd.apart⟩,
            fun d hdd => ?_, fun _ p hp' => ?_⟩
          · obtain ⟨p, hp', rfl⟩ := hd.sub d hdd
            cases hk : keq b.key p.2.key with
            | false => rfl
            | true => exact absurd (List.any_eq_true.2 ⟨p, hp', q.symm _ _ hk⟩) hany
          · rcases List.mem_cons.1 hdd with rfl | hdd
            · exact ⟨_, hb, rfl⟩
            · obtain ⟨p, hp', h⟩ := hd.sub d hdd
              exact ⟨p, ((hmem p).1 hp').1, h⟩
          · by_cases hpx : p.1 = x
            · exact ⟨b.key, by simp, by rw [uniq p hp' hpx]; exact q.refl _⟩
            · obtain ⟨d, hdd, h⟩ := hd.all rfl p ((hmem p).2 ⟨hp', hpx⟩)
              exact ⟨d, by simp [hdd], h⟩

/-- The lines of a whole program.  (No code of its own: used in statements and proofs.) -/
structure Final (trk : Tracking) (keq : K → K → Bool) (keys : List K) (ds : List K) : Prop where
  none : trk = .noTracking → ds = []
  apart : ds.Pairwise fun a b => keq a b = false
  sub : ∀ d ∈ ds, ∃ k ∈ keys, keq d k = true
  all : trk = .refcounted → ∀ k ∈ keys, ∃ d ∈ ds, keq d k = true

theorem make_inv {t t' : SSt K V} {x : Nat} {src : Src K V} {out : Out K V} (hne : out ≠ .threw)
    (h : SStep trk keq sp hp t (.make x src) out t') :
    ∃ b s', Create trk keq sp t src b s' ∧ t' = { s' with vars := (x, b) :: s'.vars } := by
  cases h with
  | make _ _ b s' hc => exact ⟨b, s', hc, rfl⟩
  | makeThrow => exact absurd rfl hne

theorem copy_inv {t t' : SSt K V} {x y : Nat} {out : Out K V} {op : Op K V} (ho : op = .copy x y ∨ op = .move x y)
    (h : SStep trk keq sp hp t op out t') :
    ∃ b, (y, b) ∈ t.vars ∧ t' = { t with vars := (x, b) :: t.vars } := by
  rcases ho with rfl | rfl
  · cases h with
    | copy _ _ b hb => exact ⟨b, hb, rfl⟩
  · cases h with
    | move _ _ b hb => exact ⟨b, hb, rfl⟩

include q in
theorem Dels.final {t : SSt K V} {ds : List K} (hd : Dels trk keq t ds) {live : List (Nat × Nat)} {keys : List K}
    (hh : Held trk keq t live keys) : Final trk keq keys ds := by
  refine ⟨hd.none, hd.apart, fun d hdd => ?_, fun htrk k hk => ?_⟩
  · obtain ⟨⟨x, b⟩, hb, rfl⟩ := hd.sub d hdd
    obtain ⟨i, hi⟩ := (hh.names x).1 (mem_names.2 ⟨b, hb⟩)
    obtain ⟨k, hk, hbk⟩ := hh.key x b i hb hi
    exact ⟨k, List.mem_of_getElem? hk, hbk⟩
  · have h2 := hh.pool k
    rw [show (keys.any fun x => keq x k) = true from List.any_eq_true.2 ⟨k, hk, q.refl k⟩] at h2
    obtain ⟨b, hb, hbk⟩ := List.any_eq_true.1 h2
    subst htrk
    obtain ⟨p, hp', rfl⟩ := List.mem_map.1 hb
    obtain ⟨d, hdd, hd2⟩ := hd.all rfl p hp'
    exact ⟨d, hdd, q.trans _ _ _ hd2 hbk⟩

include q in
theorem seg_lines {E : Nat → List (Nat × Nat) → List (Op K V) → Prop} {n : Nat} {live : List (Nat × Nat)}
    {srcs : List (Src K V)} {ops : List (Op K V)}
    (h : Seg E n live srcs ops) (hs : ∀ src ∈ srcs, sp.supports src = true) {keys : List K} (hl : keys.length = n)
    {t t' : SSt K V} (hh : Held trk keq t live keys) (hok : SOk trk keq t)
    {outs : List (Out K V)} (ht : .threw ∉ outs) {δ : List (Note K)} (hr : LRun trk keq sp hp t ops outs δ t') :
    ∃ live' ops' t1 outs' δ', E (n + srcs.length) live' ops' ∧ Held trk keq t1 live' (keys ++ srcs.map sp.key0) ∧
      SOk trk keq t1 ∧ LRun trk keq sp hp t1 ops' outs' δ' t' ∧
      δ = askLines keq keys.reverse (srcs.map sp.key0) ++ δ' ∧
      (.skipped ∈ outs → .skipped ∈ outs') ∧ .threw ∉ outs' := by
  induction h generalizing keys t outs δ with
  | @stop n live ops he =>
    exact ⟨live, ops, t, outs, δ, he, by simpa using hh, hok, hr, by simp [askLines], id, ht⟩
  | @make n live x src srcs ops hx _ ih =>
    have hsup := hs src (by simp)
    have hxn : x ∉ t.names := fun h => by
      obtain ⟨i, hi⟩ := (hh.names x).1 h
      exact hx i hi
    cases hr with
    | skip hv _ => simp [Op.valid, hsup, hxn] at hv
    | thrw _ _ _ => simp at ht
    | step hv hne hst hls hr =>
      have hok' := hst.ok q hok hv
      have hnsk := hst.not_skipped
      have hδ : _ = [told keq (t.pool trk) (sp.key0 src)] := hls
      obtain ⟨b, s', hc, rfl⟩ := make_inv hne hst
      · skip
        have hb : keq b.key (sp.key0 src) = true := by
          cases hc with
          | share _ _ h => exact h
          | fresh => exact q.contract src hsup
        have hvars : s'.vars = t.vars := by cases hc <;> rfl
        have hpool : ∀ c, c ∈ SSt.pool trk { s' with vars := (x, b) :: s'.vars } ↔ c = b ∨ c ∈ t.pool trk := by
          intro c
          cases htrk : trk with
          | refcounted => simp [SSt.pool, hvars]
          | noTracking =>
            subst htrk
            cases hc with
            | share _ h _ =>
              show c ∈ t.kept ↔ c = b ∨ c ∈ t.kept
              exact ⟨.inr, fun h' => h'.elim (fun h' => h' ▸ h) id⟩
            | fresh a _ _ =>
              show c ∈ _ :: t.kept ↔ _
              exact List.mem_cons
        have hh' : Held trk keq { s' with vars := (x, b) :: s'.vars } ((x, n) :: live) (keys ++ [sp.key0 src]) := by
          refine ⟨fun y => ?_, fun y c i hy hi => ?_, fun k => ?_⟩
          · show y ∈ List.map Prod.fst ((x, b) :: s'.vars) ↔ _
            have := hh.names y
            have hn' : y ∈ List.map Prod.fst t.vars ↔ ∃ i, (y, i) ∈ live := this
            rw [hvars, List.map_cons, List.mem_cons, hn']
            constructor
            · rintro (h | ⟨i, hi⟩)
              · exact ⟨n, by rw [h]; simp⟩
              · exact ⟨i, by simp [hi]⟩
            · rintro ⟨i, hi⟩
              rcases List.mem_cons.1 hi with h | h
              · cases h; exact .inl rfl
              · exact .inr ⟨i, h⟩
          · rcases List.mem_cons.1 hi with h | h
            · cases h
              refine ⟨sp.key0 src, by rw [List.getElem?_append_right (by omega)]; simp [hl], ?_⟩
              have : (x, c) ∈ (x, b) :: t.vars := by rw [← hvars]; exact hy
              rcases List.mem_cons.1 this with h | h
              · cases h; exact hb
              · exact absurd (mem_names.2 ⟨c, h⟩) hxn
            · have : (y, c) ∈ (x, b) :: t.vars := by rw [← hvars]; exact hy
              rcases List.mem_cons.1 this with h' | h'
              · cases h'; exact absurd h (hx i)
              · obtain ⟨k, hk, hck⟩ := hh.key y c i h' h
                exact ⟨k, by
                  rw [List.getElem?_append_left (List.getElem?_eq_some_iff.1 hk).1]; exact hk, hck⟩
          · have := hh.pool k
            rw [Bool.eq_iff_iff, List.any_eq_true, List.any_eq_true] at this ⊢
            constructor
            · rintro ⟨c, hc', hck⟩
              rcases (hpool c).1 hc' with rfl | hc'
              · exact ⟨sp.key0 src, by simp, q.trans _ _ _ (q.symm _ _ hb) hck⟩
              · obtain ⟨l, hl', hlk⟩ := this.1 ⟨c, hc', hck⟩
                exact ⟨l, by simp [hl'], hlk⟩
            · rintro ⟨l, hl', hlk⟩
              rcases List.mem_append.1 hl' with hl' | hl'
              · obtain ⟨c, hc', hck⟩ := this.2 ⟨l, hl', hlk⟩
                exact ⟨c, (hpool c).2 (.inr hc'), hck⟩
              · simp at hl'
                subst hl'
                exact ⟨b, (hpool b).2 (.inl rfl), q.trans _ _ _ hb hlk⟩
        obtain ⟨live', ops', t1, outs', δ', h1, h2, h3, h4, h5, h6, h7⟩ := ih (fun s h => hs s (by simp [h]))
          (by simp [hl]) hh' hok' (fun h => ht (by simp [h])) hr
        refine ⟨live', ops', t1, outs', δ', ?_, by simpa using h2, h3, h4, ?_, fun h => h6 ?_, h7⟩
        · rw [List.length_cons, Nat.add_comm srcs.length 1, ← Nat.add_assoc]; exact h1
        · rw [hδ, h5]
          simp [askLines, told, hh.pool]
        · rcases List.mem_cons.1 h with h | h
          · exact absurd h.symm hnsk
          · exact h
  | @copy n live x y i srcs ops hx hy _ ih | @move n live x y i srcs ops hx hy _ ih =>
    have hxn : x ∉ t.names := fun h => by
      obtain ⟨i, hi⟩ := (hh.names x).1 h
      exact hx i hi
    have hyn : y ∈ t.names := (hh.names y).2 ⟨i, hy⟩
    cases hr with
    | skip hv _ => simp [Op.valid, hyn, hxn] at hv
    | thrw _ _ _ => simp at ht
    | step hv _ hst hls hr =>
      have hok' := hst.ok q hok hv
      have hnsk := hst.not_skipped
      have hδ : _ = [] := hls
      obtain ⟨b, hb, rfl⟩ := copy_inv (x := x) (y := y) (by simp) hst
      · skip
        have hpool : ∀ c, c ∈ SSt.pool trk { t with vars := (x, b) :: t.vars } ↔ c ∈ t.pool trk := by
          intro c
          cases htrk : trk with
          | refcounted =>
            show c ∈ List.map Prod.snd ((x, b) :: t.vars) ↔ c ∈ List.map Prod.snd t.vars
            rw [List.map_cons, List.mem_cons]
            exact ⟨fun h => h.elim (fun h => h ▸ List.mem_map.2 ⟨_, hb, rfl⟩) id, .inr⟩
          | noTracking => exact Iff.rfl
        have hh' : Held trk keq { t with vars := (x, b) :: t.vars } ((x, i) :: live) keys := by
          refine ⟨fun z => ?_, fun z c j hz hj => ?_, fun k => ?_⟩
          · show z ∈ List.map Prod.fst ((x, b) :: t.vars) ↔ _
            have hn' : z ∈ List.map Prod.fst t.vars ↔ ∃ i, (z, i) ∈ live := hh.names z
            rw [List.map_cons, List.mem_cons, hn']
            constructor
            · rintro (h | ⟨i, hi⟩)
              · exact ⟨i, by rw [h]; simp⟩
              · exact ⟨i, by simp [hi]⟩
            · rintro ⟨j, hj⟩
              rcases List.mem_cons.1 hj with h | h
              · cases h; exact .inl rfl
              · exact .inr ⟨j, h⟩
          · rcases List.mem_cons.1 hj with h | h
            · cases h
              rcases List.mem_cons.1 hz with h | h
              · cases h; exact hh.key y b i hb hy
              · exact absurd (mem_names.2 ⟨c, h⟩) hxn
            · rcases List.mem_cons.1 hz with h' | h'
              · cases h'; exact absurd h (hx j)
              · exact hh.key z c j h' h
          · rw [← hh.pool k, Bool.eq_iff_iff, List.any_eq_true, List.any_eq_true]
            exact ⟨fun ⟨c, h, h'⟩ => ⟨c, (hpool c).1 h, h'⟩, fun ⟨c, h, h'⟩ => ⟨c, (hpool c).2 h, h'⟩⟩
        obtain ⟨live', ops', t1, outs', δ', h1, h2, h3, h4, h5, h6, h7⟩ := ih hs hl hh' hok'
          (fun h => ht (by simp [h])) hr
        exact ⟨live', ops', t1, outs', δ', h1, h2, h3, h4, by rw [hδ]; exact h5,
          fun h => h6 ((List.mem_cons.1 h).resolve_left (Ne.symm hnsk)), h7⟩
  | @destroy n live x y i srcs ops hx hu hy hne _ ih =>
    have hxn : x ∈ t.names := (hh.names x).2 ⟨i, hx⟩
    obtain ⟨c, hc⟩ := mem_names.1 ((hh.names y).2 ⟨i, hy⟩)
    cases hr with
    | skip hv _ => simp [Op.valid, hxn] at hv
    | thrw _ _ _ => simp at ht
    | step hv _ hst hls hr =>
      have hok' := hst.ok q hok hv
      have hnsk := hst.not_skipped
      cases hst
      obtain ⟨b, hb, hδ⟩ := hls
      have hmem : ∀ p : Nat × Bind K V, p ∈ t.vars.filter (fun p => p.1 ≠ x) ↔ p ∈ t.vars ∧ p.1 ≠ x := by
        intro p; simp
      have hmem' : ∀ p : Nat × Nat, p ∈ live.filter (fun p => p.1 ≠ x) ↔ p ∈ live ∧ p.1 ≠ x := by
        intro p; simp
      obtain ⟨k, hk, hbk⟩ := hh.key x b i hb hx
      obtain ⟨k', hk', hck⟩ := hh.key y c i hc hy
      rw [hk] at hk'
      cases hk'
      have hcb : keq c.key b.key = true := q.trans _ _ _ hck (q.symm _ _ hbk)
      have hbc : b = c := (hok.key _ (hok.bound hc) _ (hok.bound hb) hcb).symm
      have hc' : (y, c) ∈ t.vars.filter (fun p => p.1 ≠ x) := (hmem _).2 ⟨hc, hne⟩
      have hδ0 : dropped keq trk { t with vars := t.vars.filter fun p => p.1 ≠ x } b = [] := by
        unfold dropped
        split
        · rw [if_pos]
          exact List.any_eq_true.2 ⟨_, hc', hcb⟩
        · rfl
      have hpool : ∀ d, d ∈ SSt.pool trk { t with vars := t.vars.filter fun p => p.1 ≠ x } ↔ d ∈ t.pool trk := by
        intro d
        cases htrk : trk with
        | noTracking => exact Iff.rfl
        | refcounted =>
          show d ∈ List.map Prod.snd (t.vars.filter fun p => p.1 ≠ x) ↔ d ∈ List.map Prod.snd t.vars
          rw [List.mem_map, List.mem_map]
          constructor
          · rintro ⟨p, h, rfl⟩
            exact ⟨p, ((hmem p).1 h).1, rfl⟩
          · rintro ⟨p, h, rfl⟩
            by_cases hpx : p.1 = x
            · have : p.2 = b := bind_unique hok.nodup (by rw [← hpx]; exact h) hb
              exact ⟨_, hc', by rw [this, hbc]⟩
            · exact ⟨p, (hmem p).2 ⟨h, hpx⟩, rfl⟩
      have hh' : Held trk keq { t with vars := t.vars.filter fun p => p.1 ≠ x } (live.filter fun p => p.1 ≠ x) keys := by
        refine ⟨fun z => ?_, fun z d j hz hj => ?_, fun k => ?_⟩
        · rw [mem_names]
          constructor
          · rintro ⟨d, hd⟩
            obtain ⟨h1, h2⟩ := (hmem _).1 hd
            obtain ⟨j, hj⟩ := (hh.names z).1 (mem_names.2 ⟨d, h1⟩)
            exact ⟨j, (hmem' _).2 ⟨hj, h2⟩⟩
          · rintro ⟨j, hj⟩
            obtain ⟨h1, h2⟩ := (hmem' _).1 hj
            obtain ⟨d, hd⟩ := mem_names.1 ((hh.names z).2 ⟨j, h1⟩)
            exact ⟨d, (hmem _).2 ⟨hd, h2⟩⟩
        · exact hh.key z d j ((hmem _).1 hz).1 ((hmem' _).1 hj).1
        · rw [← hh.pool k, Bool.eq_iff_iff, List.any_eq_true, List.any_eq_true]
          exact ⟨fun ⟨c, h, h'⟩ => ⟨c, (hpool c).1 h, h'⟩, fun ⟨c, h, h'⟩ => ⟨c, (hpool c).2 h, h'⟩⟩
      obtain ⟨live', ops', t1, outs', δ', h1, h2, h3, h4, h5, h6, h7⟩ := ih hs hl hh' hok'
        (fun h => ht (by simp [h])) hr
      exact ⟨live', ops', t1, outs', δ', h1, h2, h3, h4, by rw [hδ, hδ0]; exact h5,
        fun h => h6 ((List.mem_cons.1 h).resolve_left (Ne.symm hnsk)), h7⟩

include q in
theorem prog_lines {n : Nat} {live : List (Nat × Nat)} {srcs : List (Src K V)} {ops : List (Op K V)}
    (h : Prog n live srcs ops) (hs : ∀ src ∈ srcs, sp.supports src = true) {keys : List K} (hl : keys.length = n)
    {t t' : SSt K V} (hh : Held trk keq t live keys) (hok : SOk trk keq t)
    {outs : List (Out K V)} (ht : .threw ∉ outs) {δ : List (Note K)} (hr : LRun trk keq sp hp t ops outs δ t') :
    t'.vars = [] ∧ ∃ ds, δ = askLines keq keys.reverse (srcs.map sp.key0) ++ ds.map .del ∧
      Final trk keq (keys ++ srcs.map sp.key0) ds := by
  obtain ⟨live', ops', t1, outs', δ', ⟨xs, hn, hx, rfl⟩, hh', hok', hr', rfl, _, _⟩ := seg_lines q h hs hl hh hok ht hr
  obtain ⟨h1, _, ds, rfl, hd⟩ := dels q hn (fun x => (hx x).trans (hh'.names x).symm) hok' hr'
  exact ⟨h1, ds, rfl, hd.final q hh'⟩

end Lines
end Verbose
end Verif

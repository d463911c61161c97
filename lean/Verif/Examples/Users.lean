import Verif.Simple

/-!
# The basic example

Models /repo/example/basic.cpp: users whose names are flyweights, read from a
text, changed and printed.
-/

set_option autoImplicit false

namespace Verif.Users
open Client
variable {T : Type}

/-- First name, last name and age: what is read and printed for a user, /repo/example/basic.cpp:28-37, 77-89. -/
abbrev Entry (T : Type) := T × T × Int

/-- The end of a program: what it prints, or nothing because of an exception, which nobody catches.  (No code of its own.) -/
abbrev Main (T : Type) := End T (List (Entry T))

/-- The names of the variables: the local `u` (/repo/example/basic.cpp:139), `anna` (145) and the `i`-th element of the vector (136). -/
def first (i : Nat) : Nat := 2 * i + 4
/-- See `first`.  (/repo/example/basic.cpp:31) -/
def last (i : Nat) : Nat := 2 * i + 5

/-- `is>>x` for a flyweight `x`: a copy of the value is read into, which gives `v` or leaves the copy as it is, and assigned,
/repo/include/boost/flyweight/flyweight.hpp:439-457.  Simplification: making the copy does not throw (`Operators` models it). -/
def extract (x : Nat) (v : Option T) (k : Main T) : Main T :=
  reading x fun t => stmt (.assignVal x (.copy (v.getD t))) k

/-- `user_entry u; if(iss>>u)users.push_back(u);` for the `i`-th user, or at the end of the text (`none`), where extraction fails but
assigns; /repo/example/basic.cpp:139-140, 84-89, 43-44, 60-64.  Simplification: the copies made when the vector grows
are omitted. -/
def pass (empty : T) (i : Nat) (e : Option (Entry T)) (k : Main T) : Main T :=
  stmt (.make 0 (.key empty)) <| stmt (.make 1 (.key empty)) <|
  extract 0 (e.map fun e => e.1) <| extract 1 (e.map fun e => e.2.1) <|
  let done := stmt (.destroy 1) (stmt (.destroy 0) k)
  match e with
  | some _ => stmt (.copy (first i) 0) (stmt (.copy (last i) 1) done)
  | none => done

/-- The loop `while(iss)`, /repo/example/basic.cpp:138-141: a pass for each user, and one more in which extraction fails.  (A text in
which each user is complete.) -/
def readAll (empty : T) : Nat → List (Entry T) → Main T → Main T
  | i, [], k => pass empty i none k
  | i, e :: es, k => pass empty i (some e) (readAll empty (i + 1) es k)

/-- `same_name`, /repo/example/basic.cpp:70-75: the second comparison is made only if the first gives true. -/
def sameName (i : Nat) (k : Bool → Main T) : Main T :=
  equal (first i) 2 fun b => if b then equal (last i) 3 k else k false

/-- `std::replace_if` on the users `i`, `i+1`, ... with the given ages, /repo/example/basic.cpp:146-149; assignment is memberwise.  The
rest of the program gets the ages.  Simplification: the copies of `anna` held by the function object are omitted. -/
def replaceIf (age : Int) : Nat → List Int → (List Int → Main T) → Main T
  | _, [], k => k []
  | i, a :: as, k => sameName i fun b =>
    if b then stmt (.assign (first i) 2) (stmt (.assign (last i) 3) (replaceIf age (i + 1) as fun l => k (age :: l)))
    else replaceIf age (i + 1) as fun l => k (a :: l)

/-- `std::copy` to the output, /repo/example/basic.cpp:151-153, 79-82. -/
def printAll : Nat → List Int → (List (Entry T) → Main T) → Main T
  | _, [], k => k []
  | i, a :: as, k => reading (first i) fun f => reading (last i) fun l => printAll (i + 1) as fun out => k ((f, l, a) :: out)

/-- Destruction of the vector, /repo/example/basic.cpp:136. -/
def clear : Nat → List Int → Main T → Main T
  | _, [], k => k
  | i, _ :: as, k => stmt (.destroy (first i)) (stmt (.destroy (last i)) (clear (i + 1) as k))

/-- `main`, /repo/example/basic.cpp:122-156, for any text with at least one user (`users[0]` is changed), any new name for it (116-120) and any
replacement (50-54).  `full_name` (91-110) is not called. -/
def main (empty : T) (e : Entry T) (es : List (Entry T)) (newFirst newLast : T) (anna : Entry T) : Main T :=
  readAll empty 0 (e :: es) <|
  stmt (.assignVal (first 0) (.copy newFirst)) <| stmt (.assignVal (last 0) (.copy newLast)) <|
  stmt (.make 2 (.key anna.1)) <| stmt (.make 3 (.key anna.2.1)) <|
  replaceIf anna.2.2 0 ((e :: es).map fun e => e.2.2) fun ages => printAll 0 ages fun out =>
  stmt (.destroy 3) <| stmt (.destroy 2) <| clear 0 ages (.ret (some out))

/-! ## Running it with plain variables -/

section
variable [DecidableEq T] {thr : Prop} {w w' : Nat → Option T} {r : Option (List (Entry T))}

theorem run_extract {x : Nat} {d : T} {v : Option T} {k : Main T} (h : Runs thr (extract x v k) w r w')
    (hx : w x = some d) : Died thr r ∨ Runs thr k (upd w x (some (v.getD d))) r w' :=
  run_assignVal (run_reading h hx) hx

/-- The variables are those of the given users, from the `i`-th on.  (No code of its own: used in statements and proofs.) -/
def Vec (w : Nat → Option T) (i : Nat) (es : List (Entry T)) : Prop :=
  ∀ j e, es[j]? = some e → w (first (i + j)) = some e.1 ∧ w (last (i + j)) = some e.2.1

omit [DecidableEq T] in
theorem Vec.tail {i : Nat} {e : Entry T} {es : List (Entry T)} (h : Vec w i (e :: es)) : Vec w (i + 1) es := by
  intro j e' hj
  have := h (j + 1) e' (by simpa using hj)
  rwa [show i + (j + 1) = i + 1 + j by omega] at this

/-- What reading leaves behind: the users, and otherwise the variables are as before. -/
theorem run_pass {empty : T} {i : Nat} {e : Entry T} {k : Main T} (h : Runs thr (pass empty i (some e) k) w r w')
    (h0 : w 0 = none) (h1 : w 1 = none) (hi : w (first i) = none) (hi' : w (last i) = none) :
    Died thr r ∨ Runs thr k (upd (upd w (first i) (some e.1)) (last i) (some e.2.1)) r w' := by
  unfold pass at h
  rcases run_make h h0 rfl with h | h
  · exact .inl h
  rcases run_make h (by rw [upd_get]; simpa using h1) rfl with h | h
  · exact .inl h
  rcases run_extract (d := empty) h (by simp [upd_get, SrcSpec.default]) with h | h
  · exact .inl h
  rcases run_extract (d := empty) h (by simp [upd_get, SrcSpec.default]) with h | h
  · exact .inl h
  refine .inr ?_
  have h := run_copy (v := e.1) h (by simp only [upd_get, first, last] at *; simpa using hi) (by simp [upd_get])
  have h := run_copy (v := e.2.1) h (by simp only [upd_get, first, last] at *; simpa using hi')
    (by simp [upd_get, first])
  have h := run_destroy (d := e.2.1) h (by simp [upd_get, first, last])
  have h := run_destroy (d := e.1) h (by simp [upd_get, first, last])
  refine (?_ : _ = upd (upd w (first i) (some e.1)) (last i) (some e.2.1)) ▸ h
  funext y
  simp only [upd_get, first, last]
  by_cases y0 : y = 0
  · subst y0; simp [h0]
  · by_cases y1 : y = 1
    · subst y1; simp [h1]
    · simp [y0, y1]

theorem run_stop {empty : T} {i : Nat} {k : Main T} (h : Runs thr (pass empty i none k) w r w')
    (h0 : w 0 = none) (h1 : w 1 = none) : Died thr r ∨ Runs thr k w r w' := by
  unfold pass at h
  rcases run_make h h0 rfl with h | h
  · exact .inl h
  rcases run_make h (by rw [upd_get]; simpa using h1) rfl with h | h
  · exact .inl h
  rcases run_extract (d := empty) h (by simp [upd_get, SrcSpec.default]) with h | h
  · exact .inl h
  rcases run_extract (d := empty) h (by simp [upd_get, SrcSpec.default]) with h | h
  · exact .inl h
  refine .inr ?_
  have h := run_destroy (d := empty) h (by simp [upd_get])
  have h := run_destroy (d := empty) h (by simp [upd_get])
  refine (?_ : _ = w) ▸ h
  funext y
  simp only [upd_get]
  by_cases y0 : y = 0
  · subst y0; simp [h0]
  · by_cases y1 : y = 1
    · subst y1; simp [h1]
    · simp [y0, y1]

theorem run_readAll {empty : T} {k : Main T} {es : List (Entry T)} {i : Nat} {w : Nat → Option T}
    (h : Runs thr (readAll empty i es k) w r w') (hl : ∀ y, y < 4 ∨ 2 * i + 4 ≤ y → w y = none) :
    Died thr r ∨ ∃ w1, Runs thr k w1 r w' ∧ Vec w1 i es ∧ (∀ y, 4 ≤ y → y < 2 * i + 4 → w1 y = w y) ∧
      ∀ y, y < 4 ∨ 2 * (i + es.length) + 4 ≤ y → w1 y = none := by
  induction es generalizing i w with
  | nil =>
    rcases run_stop h (hl 0 (by omega)) (hl 1 (by omega)) with h | h
    · exact .inl h
    · exact .inr ⟨w, h, fun j e hj => by simp at hj, fun _ _ _ => rfl, by simpa using hl⟩
  | cons e es ih =>
    rcases run_pass h (hl 0 (by omega)) (hl 1 (by omega)) (hl _ (by simp [first])) (hl _ (by simp only [last]; omega)) with h | h
    · exact .inl h
    rcases ih h (fun y hy => by
      simp only [upd_get, first, last]
      rw [if_neg (by omega), if_neg (by omega)]
      exact hl y (by omega)) with h | ⟨w1, h1, h2, h3, h4⟩
    · exact .inl h
    · refine .inr ⟨w1, h1, ?_, ?_, ?_⟩
      · intro j e' hj
        cases j with
        | zero =>
          simp only [List.getElem?_cons_zero, Option.some.injEq] at hj
          subst hj
          simp only [Nat.add_zero]
          rw [h3 _ (by simp [first]) (by simp only [first]; omega), h3 _ (by simp [last]) (by simp only [last]; omega)]
          simp [upd_get, first, last]
        | succ j =>
          have := h2 j e' (by simpa using hj)
          rwa [show i + 1 + j = i + (j + 1) by omega] at this
      · intro y hy hy'
        rw [h3 y hy (by omega)]
        simp only [upd_get, first, last]
        rw [if_neg (by omega), if_neg (by omega)]
      · intro y hy
        exact h4 y (by simp only [List.length_cons] at hy; omega)

/-- What `replace_if` makes of a user.  (No code of its own: used in statements and proofs.) -/
def replaced (anna e : Entry T) : Entry T := if e.1 = anna.1 ∧ e.2.1 = anna.2.1 then anna else e

theorem run_replaceIf {anna : Entry T} {es : List (Entry T)} {i : Nat} {k : List Int → Main T} {w : Nat → Option T}
    (h : Runs thr (replaceIf anna.2.2 i (es.map fun e => e.2.2) k) w r w') (hv : Vec w i es)
    (h2 : w 2 = some anna.1) (h3 : w 3 = some anna.2.1) :
    ∃ w1, Runs thr (k ((es.map (replaced anna)).map fun e => e.2.2)) w1 r w' ∧ Vec w1 i (es.map (replaced anna)) ∧
      w1 2 = some anna.1 ∧ w1 3 = some anna.2.1 ∧
      ∀ y, y < 2 * i + 4 ∨ 2 * (i + es.length) + 4 ≤ y → w1 y = w y := by
  induction es generalizing i k w with
  | nil => exact ⟨w, h, fun j e hj => by simp at hj, h2, h3, fun _ _ => rfl⟩
  | cons e es ih =>
    have hc := hv 0 e (by simp)
    simp only [Nat.add_zero] at hc
    have hsame : Runs thr (if (e.1 == anna.1 && e.2.1 == anna.2.1) = true then
        stmt (.assign (first i) 2) (stmt (.assign (last i) 3) (replaceIf anna.2.2 (i + 1) (es.map fun e => e.2.2) fun l =>
          k (anna.2.2 :: l))) else replaceIf anna.2.2 (i + 1) (es.map fun e => e.2.2) fun l => k (e.2.2 :: l)) w r w' := by
      have h := run_equal h hc.1 h2
      by_cases h1 : e.1 = anna.1
      · rw [if_pos (by simpa using h1)] at h
        have h := run_equal h hc.2 h3
        simpa [h1] using h
      · rw [if_neg (by simpa using h1)] at h
        simpa [h1] using h
    have tail : ∀ (a : Entry T) (w1 : Nat → Option T), a = replaced anna e →
        Runs thr (replaceIf anna.2.2 (i + 1) (es.map fun e => e.2.2) fun l => k (a.2.2 :: l)) w1 r w' →
        w1 (first i) = some a.1 → w1 (last i) = some a.2.1 → (∀ y, y ≠ first i → y ≠ last i → w1 y = w y) →
        ∃ w1, Runs thr (k (((e :: es).map (replaced anna)).map fun e => e.2.2)) w1 r w' ∧
          Vec w1 i ((e :: es).map (replaced anna)) ∧ w1 2 = some anna.1 ∧ w1 3 = some anna.2.1 ∧
          ∀ y, y < 2 * i + 4 ∨ 2 * (i + (e :: es).length) + 4 ≤ y → w1 y = w y := by
      intro a w1 ha h hf hl hw
      obtain ⟨w2, g1, g2, g3, g4, g5⟩ := ih h (by
        intro j e' hj
        have := hv.tail j e' hj
        rw [hw _ (by simp only [first]; omega) (by simp only [first, last]; omega),
          hw _ (by simp only [first, last]; omega) (by simp only [last]; omega)]
        exact this) (by rw [hw _ (by simp [first]) (by simp [last])]; exact h2)
        (by rw [hw _ (by simp [first]) (by simp [last])]; exact h3)
      refine ⟨w2, by simpa [ha] using g1, ?_, g3, g4, fun y hy => ?_⟩
      · intro j e' hj
        cases j with
        | zero =>
          simp only [List.map_cons, List.getElem?_cons_zero, Option.some.injEq] at hj
          subst hj
          simp only [Nat.add_zero]
          rw [g5 _ (by simp only [first]; omega), g5 _ (by simp only [last]; omega), ← ha]
          exact ⟨hf, hl⟩
        | succ j =>
          have := g2 j e' (by simpa using hj)
          rwa [show i + 1 + j = i + (j + 1) by omega] at this
      · simp only [List.length_cons] at hy
        rw [g5 y (by omega)]
        exact hw y (by simp only [first]; omega) (by simp only [last]; omega)
    by_cases hb : e.1 = anna.1 ∧ e.2.1 = anna.2.1
    · rw [if_pos (by simpa using hb)] at hsame
      have h := run_assign hsame hc.1 h2
      have h := run_assign (v := anna.2.1) (d := e.2.1) h (by simp [upd_get, first, last]; exact hc.2)
        (by simp [upd_get, first]; exact h3)
      refine tail anna _ (by simp [replaced, hb]) h (by simp [upd_get, first, last]) (by simp [upd_get]) ?_
      intro y hf hl
      simp [upd_get, hf, hl]
    · rw [if_neg (by simpa using hb)] at hsame
      exact tail e w (by rw [replaced, if_neg hb]) hsame hc.1 hc.2 fun _ _ _ => rfl

theorem run_printAll {es : List (Entry T)} {i : Nat} {k : List (Entry T) → Main T} {w : Nat → Option T}
    (h : Runs thr (printAll i (es.map fun e => e.2.2) k) w r w') (hv : Vec w i es) : Runs thr (k es) w r w' := by
  induction es generalizing i k with
  | nil => exact h
  | cons e es ih =>
    have hc := hv 0 e (by simp)
    simp only [Nat.add_zero] at hc
    exact ih (run_reading (run_reading h hc.1) hc.2) hv.tail

theorem run_clear {es : List (Entry T)} {i : Nat} {k : Main T} {w : Nat → Option T}
    (h : Runs thr (clear i (es.map fun e => e.2.2) k) w r w') (hv : Vec w i es) :
    ∃ w1, Runs thr k w1 r w' ∧ (∀ y, y < 2 * i + 4 ∨ 2 * (i + es.length) + 4 ≤ y → w1 y = w y) ∧
      ∀ y, 2 * i + 4 ≤ y → y < 2 * (i + es.length) + 4 → w1 y = none := by
  induction es generalizing i w with
  | nil => exact ⟨w, h, fun _ _ => rfl, fun y h1 h2 => by simp at h2; omega⟩
  | cons e es ih =>
    have hc := hv 0 e (by simp)
    simp only [Nat.add_zero] at hc
    have h := run_destroy h hc.1
    have h := run_destroy (d := e.2.1) h (by simp [upd_get, first, last]; exact hc.2)
    obtain ⟨w1, h1, h2, h3⟩ := ih h (by
      intro j e' hj
      have := hv.tail j e' hj
      simp only [upd_get, first, last] at this ⊢
      rw [if_neg (by omega), if_neg (by omega), if_neg (by omega), if_neg (by omega)]
      exact this)
    refine ⟨w1, h1, ?_, ?_⟩
    · intro y hy
      rw [h2 y (by simp only [List.length_cons] at hy; omega)]
      simp only [upd_get, first, last, List.length_cons] at hy ⊢
      rw [if_neg (by omega), if_neg (by omega)]
    · intro y hy hy'
      by_cases hb : y < 2 * (i + 1) + 4
      · rw [h2 y (.inl hb)]
        simp only [upd_get, first, last]
        by_cases h5 : y = 2 * i + 5
        · simp [h5]
        · rw [if_neg h5, if_pos (by omega)]
      · exact h3 y (by omega) (by simp only [List.length_cons] at hy'; omega)

/-- What the program prints for the users. (/repo/example/basic.cpp:143-153, in terms of values.) -/
def printed (e : Entry T) (es : List (Entry T)) (newFirst newLast : T) (anna : Entry T) : List (Entry T) :=
  ((newFirst, newLast, e.2.2) :: es).map (replaced anna)

theorem run_main {empty : T} {e : Entry T} {es : List (Entry T)} {newFirst newLast : T} {anna : Entry T}
    (h : Runs thr (main empty e es newFirst newLast anna) (fun _ => none) r w') :
    Died thr r ∨ r = some (printed e es newFirst newLast anna) ∧ ∀ y, w' y = none := by
  rcases run_readAll h (fun _ _ => rfl) with h | ⟨w1, h, hv, _, hn⟩
  · exact .inl h
  have hc := hv 0 e (by simp)
  simp only [Nat.add_zero] at hc
  rcases run_assignVal h hc.1 with h | h
  · exact .inl h
  rcases run_assignVal (d := e.2.1) h (by simp [upd_get, first, last]; exact hc.2) with h | h
  · exact .inl h
  rcases run_make (v := anna.1) h (by simp [upd_get, first, last]; exact hn 2 (by omega)) rfl with h | h
  · exact .inl h
  rcases run_make (v := anna.2.1) h (by simp [upd_get, first, last]; exact hn 3 (by omega)) rfl with h | h
  · exact .inl h
  refine .inr ?_
  obtain ⟨w2, h, hv2, e2, e3, hlow⟩ := run_replaceIf (es := (newFirst, newLast, e.2.2) :: es) h (by
    intro j e' hj
    cases j with
    | zero =>
      simp only [List.getElem?_cons_zero, Option.some.injEq] at hj
      subst hj
      simp [upd_get, first, last]
    | succ j =>
      have := hv (j + 1) e' (by simpa using hj)
      simp only [upd_get, first, last] at this ⊢
      rw [if_neg (by omega), if_neg (by omega), if_neg (by omega), if_neg (by omega), if_neg (by omega), if_neg (by omega),
        if_neg (by omega), if_neg (by omega)]
      exact this) (by simp [upd_get]) (by simp [upd_get])
  have h := run_printAll h hv2
  have h := run_destroy h e3
  have h := run_destroy (d := anna.1) h (by simp [upd_get]; exact e2)
  obtain ⟨w3, h, hout, hin⟩ := run_clear h (by
    intro j e' hj
    have := hv2 j e' hj
    simp only [upd_get, first, last] at this ⊢
    rw [if_neg (by omega), if_neg (by omega), if_neg (by omega), if_neg (by omega)]
    exact this)
  cases h
  refine ⟨rfl, fun y => ?_⟩
  simp only [List.length_map, List.length_cons] at hin hout hlow hn
  by_cases hy : 4 ≤ y ∧ y < 2 * (0 + (es.length + 1)) + 4
  · exact hin y (by omega) hy.2
  · rw [hout y (by omega)]
    simp only [upd_get]
    by_cases y2 : y = 2
    · simp [y2]
    · by_cases y3 : y = 3
      · simp [y3]
      · rw [if_neg y2, if_neg y3, hlow y (by omega)]
        simp only [upd_get, first, last]
        rw [if_neg y3, if_neg y2, if_neg (by omega), if_neg (by omega)]
        exact hn y (by omega)

end

end Verif.Users

import Verif.Examples.Parallel

/-!
# C43: the parallel tokenizer

`words m txt` are the maximal runs of characters satisfying `m`, in order.
-/

set_option autoImplicit false

namespace Verif.Props

open Verif.Parallel

variable {α : Type}

/-- Tokenizing the whole text is defined and reports exactly its words, in
order. -/
theorem C43_sequential (m : α → Bool) (txt : List α) :
    ∃ rs, tokenize m txt 0 txt.length = some rs ∧ rs.map (slice txt) = words m txt := by
  obtain ⟨rs, h1, h2⟩ := tokenize_words (m := m) (txt := txt) (Nat.zero_le _) (Nat.le_refl _)
  exact ⟨rs, h1, by rw [h2]; congr 1; unfold slice; simp⟩

example : ∃ rs, tokenize letter "to be, or".toList 0 9 = some rs ∧
    rs.map (slice "to be, or".toList) = ["to".toList, "be".toList, "or".toList] := ⟨[(0, 2), (3, 5), (7, 9)], by decide +kernel, by decide +kernel⟩

/-- With any number of chunks (at least one) and under every interleaving of
the threads, `parse` has no undefined behaviour, and if it comes to an end its
vector holds what tokenizing the whole text gives. -/
theorem C43_parallel (m : α → Bool) (txt : List α) {n : Nat} (hn : 0 < n) (s₁ s₂ : List Nat) :
    parse m txt n s₁ s₂ ≠ .ub ∧
    ∀ ws, parse m txt n s₁ s₂ = .finished ws →
      ∃ rs, tokenize m txt 0 txt.length = some rs ∧ ws = rs.map (slice txt) := by
  obtain ⟨rs, h1, h2⟩ := C43_sequential m txt
  rcases (parse_spec m txt hn s₁ s₂).1 with h | h
  · rw [h]; exact ⟨by simp, fun ws hw => by cases hw⟩
  · rw [h]
    refine ⟨by simp, fun ws hw => ?_⟩
    cases hw
    exact ⟨rs, h1, h2.symm⟩

/-- Three chunks, a schedule running the last thread first, which comes to an end, and one which does not. -/
example : parse letter "to be, or not".toList 3 [2, 0, 1] [2, 1, 0, 2, 0, 1] =
      .finished ["to".toList, "be".toList, "or".toList, "not".toList] ∧
    ∀ ws, parse letter "to be, or not".toList 3 [2, 0, 1] [2, 0] ≠ .finished ws := by
  refine ⟨by decide +kernel, fun ws h => ?_⟩
  have : (match parse letter "to be, or not".toList 3 [2, 0, 1] [2, 0] with | .finished _ => true | _ => false) = false := by
    decide +kernel
  rw [h] at this
  cases this

/-- It does come to an end, with the words of the text, under every schedule
that runs each thread often enough: once in the counting pass, and once per
word (at most the length of the text) in the second. -/
theorem C43_finishes (m : α → Bool) (txt : List α) {n : Nat} (hn : 0 < n) (s₁ s₂ : List Nat)
    (h₁ : ∀ t, t < n → 1 ≤ s₁.count t) (h₂ : ∀ t, t < n → txt.length ≤ s₂.count t) :
    parse m txt n s₁ s₂ = .finished (words m txt) :=
  (parse_spec m txt hn s₁ s₂).2 h₁ h₂

/-- Two runs with different numbers of chunks and different interleavings that
both come to an end give the same words. -/
theorem C43_chunks (m : α → Bool) (txt : List α) {n n' : Nat} (hn : 0 < n) (hn' : 0 < n')
    (s₁ s₂ s₁' s₂' : List Nat) (ws ws' : List (List α))
    (h : parse m txt n s₁ s₂ = .finished ws) (h' : parse m txt n' s₁' s₂' = .finished ws') :
    ws = ws' := by
  rcases (parse_spec m txt hn s₁ s₂).1 with e | e <;> rw [e] at h <;> cases h
  rcases (parse_spec m txt hn' s₁' s₂').1 with e | e <;> rw [e] at h' <;> cases h'
  rfl

example : parse letter "to be, or not".toList 3 [2, 0, 1] [2, 1, 0, 2, 0, 1] =
    parse letter "to be, or not".toList 2 [0, 1] [1, 1, 1, 1, 0, 0, 0, 0] := by decide +kernel

/-- The boundaries found by the code: one per chunk, increasing, the last one
the end of the text, and none inside a word. -/
theorem C43_boundaries (m : α → Bool) (txt : List α) {n : Nat} (hn : 0 < n) :
    ∃ bs, cuts m txt n 0 = some bs ∧ bs.length = n ∧ (0 :: bs).Pairwise (· ≤ ·) ∧
      bs.getLast? = some txt.length ∧ ∀ b ∈ bs, ∀ c, txt[b]? = some c → m c = false := by
  obtain ⟨bs, h1, h2, h3, h4, h5⟩ := cuts_spec (m := m) (txt := txt) n 0 (Nat.zero_le _)
  exact ⟨bs, h1, h2, h4, h5 hn, fun b hb => (h3 b hb).2⟩

/-- `to |be, or| not` would cut at 4 and 8, moved past words. -/
example : cuts letter "to be, or not".toList 3 0 = some [5, 9, 13] := by decide +kernel

/-- The characters that make up words are the letters of the (ASCII) alphabet, small and
capital. -/
theorem C43_letters (c : Char) : letter c = c.isAlpha := by
  simp only [letter, Char.isAlpha, Char.isUpper, Char.isLower]
  rw [Bool.or_comm, Bool.decide_and]
  rfl

/-- Three chunks, a schedule running the last thread first. -/
example : parse letter "to be, or not".toList 3 [2, 0, 1] [2, 1, 0, 2, 0, 1] =
    .finished ["to".toList, "be".toList, "or".toList, "not".toList] := by
  decide +kernel

/-- Its boundaries: `to |be, or| not` would cut at 4 and 8, moved past words. -/
example : cuts letter "to be, or not".toList 3 0 = some [5, 9, 13] := by decide +kernel

/-- A schedule meeting the hypotheses of `C43_finishes`. -/
example : (∀ t, t < 2 → 1 ≤ ([1, 0] : List Nat).count t) ∧
    (∀ t, t < 2 → "a b".toList.length ≤ ([1, 0, 1, 0, 1, 0] : List Nat).count t) := by
  decide +kernel

/-- A cut inside a word would change the words. -/
example : words letter "note".toList ≠ words letter "no".toList ++ words letter "te".toList := by
  simp [words, letter]

end Verif.Props

import Verif.Examples.Archive

/-!
# C62: texts in archives
-/

set_option autoImplicit false

namespace Verif.Props
open Serial Archive

/-- **C62.**  The program of example/serialization.cpp gives back every text: loading the archive saved for it, in a program with
any other flyweights, succeeds, reads the whole archive, yields a vector of the tokens, and writes the text. -/
theorem C62_lossless (text : Str) (w : List (Nat × Key Item)) :
    ∃ H w', loadFile (saveFile text) w = (.ok (vector (tokens text)) ⟨[], H, w'⟩, some text) := by
  have hu : ∀ (c : Nat) (k l : Key Item), True → True → decide (k = l) = true → k = l := fun _ _ _ _ _ h => of_decide_eq_true h
  obtain ⟨w', _, h⟩ := round_trip (fmt := fmt) (intern_faithful (U := fun _ _ => True) hu) (vector (tokens text)) (H := none')
    (nx := wants) (acc := .nil)
    (Known.clean ((show (vector (tokens text)).NoRep [] from elems_noRep _).known none'))
    (show (vector (tokens text)).Fits fmt wants .nil from ⟨rfl, elems_fits _ _ [] (by simp)⟩) (elems_all _) (w := w)
    (fun _ _ => trivial) (fuel := 2 * (archive (vector (tokens text)) none').length + 2) (by simp [archive]) []
  rw [List.append_nil] at h
  have h' : loads fmt (intern fun _ k l => decide (k = l)) wants ⟨saveFile text, none', w⟩ = .ok (vector (tokens text)) _ := h
  refine ⟨(save (vector (tokens text)) none').2, w', ?_⟩
  unfold loadFile
  rw [h']
  simp only [Prod.mk.injEq, true_and, Option.some.injEq]
  show written (elems (tokens text)) = text
  rw [written_elems, tokens, tokensFrom_flatten, List.nil_append]

/-- The archive of a vector after the strings `seen` have been saved: a string saved before is a number, its
position among them; a new one is the next number and the string.  (No code of its own: used to state a property.) -/
def encode (seen : List Str) : List Str → List (Tok Item)
  | [] => []
  | t :: ts => if t ∈ seen then .idx (seen.idxOf t) :: encode seen ts
    else .idx seen.length :: .dat (.str t) :: encode (seen ++ [t]) ts

private def key (t : Str) : Key Item := .dat (.str t) .nil

private theorem key_mem {t : Str} {seen : List Str} : key t ∈ seen.map key ↔ t ∈ seen := by
  rw [List.mem_map]
  exact ⟨fun ⟨a, h, e⟩ => by cases e; exact h, fun h => ⟨t, h, rfl⟩⟩

private theorem key_idx (t : Str) (seen : List Str) : (seen.map key).idxOf (key t) = seen.idxOf t := by
  induction seen with
  | nil => rfl
  | cons a seen ih =>
    rw [List.map_cons, List.idxOf_cons, List.idxOf_cons, ih]
    have : (key a == key t) = (a == t) := by
      rw [Bool.eq_iff_iff, beq_iff_eq, beq_iff_eq]
      exact ⟨fun e => by cases e; rfl, fun e => e ▸ rfl⟩
    rw [this]

private theorem archive_elems (ts seen : List Str) (H : Tables Item) (hH : H 0 = seen.map key) :
    archive (elems ts) H = encode seen ts := by
  induction ts generalizing seen H with
  | nil => rfl
  | cons t ts ih =>
    show (save (.fw 0 (key t) (elems ts)) H).1.map Ev.tok = _
    rw [save_fw, hH]
    by_cases h : t ∈ seen
    · rw [if_pos (key_mem.2 h)]
      have := ih seen H hH
      unfold archive at this
      simp only [List.map_cons, Ev.tok, key_idx, encode, if_pos h, this]
    · rw [if_neg (fun h' => h (key_mem.1 h'))]
      have hk : save (key t) H = ([.dat (.str t)], H) := rfl
      have := ih (seen ++ [t]) (pushSave H 0 (key t)) (by
        have : key t ∉ H 0 := by rw [hH]; exact fun h' => h (key_mem.1 h')
        show (if key t ∈ H 0 then H 0 else H 0 ++ [key t]) = _
        rw [if_neg this, hH, List.map_append]
        rfl)
      unfold archive at this
      simp only [hk, List.map_cons, Ev.tok, encode, if_neg h, this, List.length_map,
        List.cons_append, List.nil_append]

/-- **C62, what is in the archive:** the number of tokens; then for each token a number, its position among the different tokens
so far, and, where it occurs first, the token. -/
theorem C62_archive (text : Str) : saveFile text = .dat (.count (tokens text).length) :: encode [] (tokens text) := by
  have := archive_elems (tokens text) [] none' rfl
  unfold archive at this
  unfold saveFile archive vector save
  simp only [List.map_cons, Ev.tok, this]

private theorem encode_count (ts seen : List Str) (t : Str) :
    (encode seen ts).count (.dat (.str t)) = if t ∈ ts ∧ t ∉ seen then 1 else 0 := by
  induction ts generalizing seen with
  | nil => simp [encode]
  | cons a ts ih =>
    unfold encode
    split
    · rename_i h
      rw [List.count_cons_of_ne (by simp), ih]
      by_cases hat : t = a
      · subst hat; simp [h]
      · simp [hat]
    · rename_i h
      rw [List.count_cons_of_ne (by simp), List.count_cons, ih]
      by_cases hat : t = a
      · subst hat; simp [h]
      · have hat' : ¬ a = t := fun e => hat e.symm
        simp [hat, hat']

/-- **C62, no repetitions:** each different token is in the archive once. -/
theorem C62_once (text t : Str) : (saveFile text).count (.dat (.str t)) = if t ∈ tokens text then 1 else 0 := by
  rw [C62_archive, List.count_cons_of_ne (by simp), encode_count]
  simp

/-- **C62, other archives.**  Whatever is in the archive, loading it either succeeds or throws. -/
theorem C62_safe (toks : List (Tok Item)) (w : List (Nat × Key Item)) :
    (∃ q s text, loadFile toks w = (.ok q s, some text)) ∨ ∃ q s, loadFile toks w = (.exc q s, none) := by
  have h := (load_ok fmt (intern fun _ k l => decide (k = l)) (2 * toks.length + 2)).2 wants .nil ⟨toks, none', w⟩ (Nat.le_refl _)
  unfold loadFile loads
  cases hr : loadKey fmt (intern fun _ k l => decide (k = l)) (2 * toks.length + 2) wants .nil ⟨toks, none', w⟩ with
  | ok q s => exact .inl ⟨q, s, _, rfl⟩
  | exc q s => exact .inr ⟨q, s, rfl⟩
  | ub => rw [hr] at h; exact h.elim
  | fuel => rw [hr] at h; exact h.elim

/-- **C62, tokens:** each is a separator, or a word without separators that is not empty, and between two words there is a
separator. -/
theorem C62_tokens (text : Str) :
    (∀ t ∈ tokens text, (∃ c ∈ separators, t = [c]) ∨ t ≠ [] ∧ ∀ c ∈ t, c ∉ separators) ∧
    ∀ i t u, (tokens text)[i]? = some t → (tokens text)[i + 1]? = some u → (∃ c ∈ separators, t = [c]) ∨ ∃ c ∈ separators, u = [c] := by
  have key : ∀ (cs w : Str), (∀ c ∈ w, c ∉ separators) →
      (∀ t ∈ tokensFrom w cs, (∃ c ∈ separators, t = [c]) ∨ t ≠ [] ∧ ∀ c ∈ t, c ∉ separators) ∧
      ∀ (i : Nat) (t u : Str), (tokensFrom w cs)[i]? = some t → (tokensFrom w cs)[i + 1]? = some u →
        (∃ c ∈ separators, t = [c]) ∨ ∃ c ∈ separators, u = [c] := by
    intro cs
    induction cs with
    | nil =>
      intro w hw
      cases w with
      | nil => simp [tokensFrom, flush]
      | cons a w =>
        refine ⟨fun t ht => ?_, fun i t u ht hu => ?_⟩
        · simp only [tokensFrom, flush, List.mem_singleton] at ht
          exact .inr ⟨by simp [ht], by rw [ht]; exact hw⟩
        · simp [tokensFrom, flush] at hu
    | cons c cs ih =>
      intro w hw
      unfold tokensFrom
      split
      · rename_i hc
        obtain ⟨h1, h2⟩ := ih [] (by simp)
        cases w with
        | nil =>
          refine ⟨fun t ht => ?_, fun i t u ht hu => ?_⟩
          · simp only [flush, List.nil_append, List.mem_cons] at ht
            exact ht.elim (fun h => .inl ⟨c, hc, h⟩) (h1 t)
          · cases i with
            | zero => simp [flush] at ht; exact .inl ⟨c, hc, ht.symm⟩
            | succ i => exact h2 i t u (by simpa [flush] using ht) (by simpa [flush] using hu)
        | cons a w =>
          refine ⟨fun t ht => ?_, fun i t u ht hu => ?_⟩
          · simp only [flush, List.cons_append, List.nil_append, List.mem_cons] at ht
            rcases ht with h | h | h
            · exact .inr ⟨by simp [h], by rw [h]; exact hw⟩
            · exact .inl ⟨c, hc, h⟩
            · exact h1 t h
          · cases i with
            | zero => simp [flush] at hu; exact .inr ⟨c, hc, hu.symm⟩
            | succ i => cases i with
              | zero => simp [flush] at ht; exact .inl ⟨c, hc, ht.symm⟩
              | succ i => exact h2 i t u (by simpa [flush] using ht) (by simpa [flush] using hu)
      · rename_i hc
        exact ih (w ++ [c]) fun d hd => by
          rcases List.mem_append.1 hd with h | h
          · exact hw d h
          · rw [List.mem_singleton.1 h]; exact hc
  exact key text [] (by simp)

/-- A text with repeated tokens, its archive, and a wrong archive. -/
example : tokens "a-b a".toList = [['a'], ['-'], ['b'], [' '], ['a']] ∧
    saveFile "a-b a".toList = [.dat (.count 5), .idx 0, .dat (.str ['a']), .idx 1, .dat (.str ['-']), .idx 2, .dat (.str ['b']),
      .idx 3, .dat (.str [' ']), .idx 0] ∧
    (loadFile (saveFile "a-b a".toList) [(0, .dat (.str ['b']) .nil)]).2 = some "a-b a".toList ∧
    (loadFile [.dat (.count 2), .idx 0, .dat (.str ['a']), .idx 7] []).2 = none := by decide +kernel

end Verif.Props

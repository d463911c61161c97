import Verif.Serial

/-!
# The program of example/serialization.cpp

A text is cut into tokens, a vector of flyweights of these is saved to an archive; the archive is loaded and the
tokens are written one after the other.
-/

set_option autoImplicit false

namespace Verif.Archive
open Serial

/-- Strings.  (No code of its own: `std::string`.) -/
abbrev Str := List Char

/-! ## The code -/

/-- The separators, /repo/example/serialization.cpp:62. -/
def separators : Str := "\t\n\r !\"#$%&'()*+,-./:;<=>?@[\\]^_`{|}~".toList

/-- The word read so far, as a token; empty tokens are dropped.  Part of
`boost::char_separator`, used in /repo/example/serialization.cpp:58-62. -/
def flush : Str → List Str
  | [] => []
  | w => [w]

/-- The tokens of a text for a `char_separator<char>` without dropped and with kept delimiters, /repo/example/serialization.cpp:58-66:
separators are tokens.  `w` is the word read so far.  (Boost.Tokenizer is not in the repository; this follows its
documentation.) -/
def tokensFrom (w : Str) : Str → List Str
  | [] => flush w
  | c :: cs => if c ∈ separators then flush w ++ [c] :: tokensFrom [] cs else tokensFrom (w ++ [c]) cs

/-- All tokens.  (As `tokensFrom`.)  Models /repo/example/serialization.cpp:58-66. -/
def tokens (text : Str) : List Str := tokensFrom [] text

/-- Plain data in the archive: the number of elements of a vector (Boost.Serialization) and strings. -/
inductive Item where
  | count (n : Nat)
  | str (s : Str)
  deriving DecidableEq

/-- The elements of a vector of flyweights: each is of type 0 and has its string as key.  Models `text_container`,
/repo/example/serialization.cpp:31-32. -/
def elems : List Str → Key Item
  | [] => .nil
  | t :: ts => .fw 0 (.dat (.str t) .nil) (elems ts)

/-- What is saved for a vector, /repo/example/serialization.cpp:77: its size and its elements.  (Boost.Serialization; versions
are left out, see `Tok`.) -/
def vector (ts : List Str) : Key Item := .dat (.count ts.length) (elems ts)

/-- `save_serialization_file`, /repo/example/serialization.cpp:36-78: the contents of the archive. -/
def saveFile (text : Str) : List (Tok Item) := archive (vector (tokens text)) none'

/-- How many items have been read.  (No code of its own.) -/
def length : Key Item → Nat
  | .nil => 0
  | .dat _ r => length r + 1
  | .fw _ _ r => length r + 1

/-- Loading the key of a flyweight, a string.  (Boost.Serialization.) -/
def fmt : Fmt Item := fun _ k => match k with
  | .nil => .dat
  | .dat (.str _) .nil => .done
  | _ => .fail

/-- Loading the vector, /repo/example/serialization.cpp:94: its size, then as many elements.  (Boost.Serialization.) -/
def wants : Key Item → Want
  | .nil => .dat
  | .dat (.count n) r => if length r < n then .fw 0 else .done
  | _ => .fail

/-- The text written: the strings of the elements, /repo/example/serialization.cpp:104-106. -/
def written : Key Item → Str
  | .fw _ (.dat (.str s) _) r => s ++ written r
  | .fw _ _ r => written r
  | .dat _ r => written r
  | .nil => []

/-- `load_serialization_file`, /repo/example/serialization.cpp:82-107, in a program in which the flyweights `w` exist: the text
written, or `none` if an exception ends the program (line 127). -/
def loadFile (toks : List (Tok Item)) (w : List (Nat × Key Item)) : Serial.Res (List (Nat × Key Item)) Item × Option Str :=
  let r := loads fmt (intern fun _ k l => decide (k = l)) wants ⟨toks, none', w⟩
  (r, match r with
    | .ok q _ => some (written q)
    | _ => none)

/-! ## Lemmas -/

theorem flush_flatten (w : Str) : (flush w).flatten = w := by
  cases w <;> simp [flush]

theorem tokensFrom_flatten (text w : Str) : (tokensFrom w text).flatten = w ++ text := by
  induction text generalizing w with
  | nil => simp [tokensFrom, flush_flatten]
  | cons c cs ih =>
    unfold tokensFrom
    split
    · simp [flush_flatten, ih]
    · simp [ih]

theorem written_elems (ts : List Str) : written (elems ts) = ts.flatten := by
  induction ts with
  | nil => rfl
  | cons t ts ih => simp [elems, written, ih]

theorem length_elems (ts : List Str) : length (elems ts) = ts.length := by
  induction ts with
  | nil => rfl
  | cons t ts ih => simp [elems, length, ih]

theorem length_app (k l : Key Item) : length (k.app l) = length k + length l := by
  induction k with
  | nil => simp [Key.app, length]
  | dat d r ih => simp [Key.app, length, ih]; omega
  | fw c k r _ ih => simp [Key.app, length, ih]; omega

theorem elems_append (as bs : List Str) : (elems as).app (elems bs) = elems (as ++ bs) := by
  induction as with
  | nil => rfl
  | cons a as ih => simp [elems, Key.app, ih]

theorem elems_noRep (ts : List Str) : (elems ts).NoRep [] := by
  induction ts with
  | nil => trivial
  | cons t ts ih => exact ⟨by simp, trivial, ih⟩

theorem elems_all (ts : List Str) : (elems ts).All fun _ _ => True := by
  induction ts with
  | nil => trivial
  | cons t ts ih => exact ⟨trivial, trivial, ih⟩

theorem elems_fits (ts : List Str) (n : Nat) (done : List Str) (h : done.length + ts.length = n) :
    (elems ts).Fits fmt wants (.dat (.count n) (elems done)) := by
  induction ts generalizing done with
  | nil =>
    show wants _ = .done
    simp only [List.length_nil, Nat.add_zero] at h
    simp [wants, length_elems, h]
  | cons t ts ih =>
    refine ⟨?_, ⟨rfl, rfl⟩, ?_⟩
    · simp only [List.length_cons] at h
      have : done.length < n := by omega
      simp [wants, length_elems, this]
    · have := ih (done ++ [t]) (by simp at h ⊢; omega)
      rw [← elems_append] at this
      exact this

end Verif.Archive

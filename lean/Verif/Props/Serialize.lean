import Verif.Serial
import Verif.SerialSave
import Verif.SerialRec
import Verif.ArchiveTemp
import Verif.Sample

/-!
# Properties of serialization: C20-C24, C41
-/

set_option autoImplicit false

namespace Verif.Props
open Serial

variable {D : Type} [DecidableEq D]

/-! ## Types used in the examples -/

namespace Ser

/-- Number of items in a key.  (No code of its own: used to state a property or an example.) -/
def len : Key Nat → Nat
  | .nil => 0
  | .dat _ r => len r + 1
  | .fw _ _ r => len r + 1

/-- Type 0: flyweights of words, whose keys are a number; type 1: of persons, whose keys are two words and
a number.  Other keys cannot be read.  (No code of its own: used to state a property or an
example.) -/
def fmt : Fmt Nat
  | 0, k => if len k = 0 then .dat else .done
  | 1, k => if len k < 2 then .fw 0 else if len k = 2 then .dat else .done
  | _, _ => .fail

/-- A word.  (No code of its own: used to state a property or an example.) -/
def word (n : Nat) : Key Nat := .dat n .nil

/-- A person.  (No code of its own: used to state a property or an example.) -/
def person (n m a : Nat) : Key Nat := .fw 0 (word n) (.fw 0 (word m) (.dat a .nil))

/-- What is saved: two persons, a word that occurs in one of them, and the first person again.
(No code of its own: used to state a property or an example.) -/
def saved : Key Nat :=
  .fw 1 (person 3 4 50) (.fw 1 (person 4 4 20) (.fw 0 (word 3) (.fw 1 (person 3 4 50) .nil)))

/-- What the program reads.  (No code of its own: used to state a property or an example.) -/
def prog (k : Key Nat) : Want := match len k with
  | 0 => .fw 1
  | 1 => .fw 1
  | 2 => .fw 0
  | 3 => .fw 1
  | _ => .done

/-- Words are equivalent modulo 10, persons if their words and numbers are.  (No code of its
own: used to state a property or an example.) -/
def eqvWord : Key Nat → Key Nat → Bool
  | .dat n .nil, .dat m .nil => n % 10 == m % 10
  | k, l => k == l

theorem eqvWord_refl (k : Key Nat) : eqvWord k k = true := by
  unfold eqvWord
  split <;> simp_all

/-- Exact equality.  (No code of its own: used to state a property or an example.) -/
def eqv (_ : Nat) (k l : Key Nat) : Bool := decide (k = l)

/-- Keys of a type that contains flyweights of its own type: a number, followed by a
flyweight if it is not zero.  (No code of its own: used to state a property or an example.) -/
def fmtRec (_ : Nat) : Key Nat → Want
  | .nil => .dat
  | .dat 0 .nil => .done
  | .dat _ .nil => .fw 0
  | _ => .done

/-- What has been loaded.  (No code of its own: used to state a property or an example.) -/
def result {σ : Type} : Serial.Res σ Nat → Option (Key Nat)
  | .ok q _ => some q
  | _ => none

/-- The program reads one flyweight.  (No code of its own: used to state a property or an
example.) -/
def one : Key Nat → Want
  | .nil => .fw 0
  | _ => .done

/-- The program reads two flyweights.  (No code of its own: used to state a property or an
example.) -/
def two (k : Key Nat) : Want := if len k < 2 then .fw 0 else .done

end Ser

/-! ## C20 -/

/-- **C20.**  What is saved to a new archive, flyweights of any number of types nested in each
other in any way, except in ones of their own type, is loaded in any program (whose flyweights have
inequivalent keys `w`): the same data and flyweights of the same types with equivalent keys, in
the same order, and two of them are equal iff those saved were. -/
theorem C20_round_trip (E : Nat → Key D → Key D → Bool) (hE : EqvOk E) (fmt : Fmt D) (hfmt : ∀ c, NextOk E (fmt c))
    (nx : Key D → Want) (hnx : NextOk E nx) (q : Key D) (hrep : q.NoRep []) (hfit : q.Fits fmt nx .nil)
    (hq : Apart E q.tops) (w : List (Nat × Key D)) (hw : Apart E w) :
    ∃ q' H w', loads fmt (intern E) nx ⟨archive q none', none', w⟩ = .ok q' ⟨[], H, w'⟩ ∧ q.Like E q' ∧
      ∀ (i j c : Nat) (k l k' l' : Key D), q.tops[i]? = some (c, k) → q.tops[j]? = some (c, l) →
        q'.tops[i]? = some (c, k') → q'.tops[j]? = some (c, l') → (k' = l' ↔ k = l) := by
  obtain ⟨q', H, w', h1, h2, h3, _, _, h6⟩ := round_trip_like (fmt := fmt) hE hfmt q (H := none') (H' := none')
    (nx := nx) (acc := .nil) (acc' := .nil) (Known.clean (hrep.known none')) hnx hfit trivial hw
    (fun c => ⟨rfl, fun i k k' h => (by simp [none'] at h)⟩) (fuel := 2 * (archive q none').length + 2)
    (by simp [archive]) []
  refine ⟨q', H, w', ?_, h2, ?_⟩
  · rw [List.append_nil] at h1
    exact h1
  · intro i j c k l k' l' hk hl hk' hl'
    have m1 := List.mem_of_getElem? hk
    have m2 := List.mem_of_getElem? hl
    have m3 := h6 _ (List.mem_of_getElem? hk')
    have m4 := h6 _ (List.mem_of_getElem? hl')
    have e1 : E c k k' = true := by
      rcases h2.tops i with ⟨h, _⟩ | ⟨c', a, b, ha, hb, he⟩
      · rw [hk] at h; cases h
      · rw [hk] at ha; rw [hk'] at hb; cases ha; cases hb; exact he
    have e2 : E c l l' = true := by
      rcases h2.tops j with ⟨h, _⟩ | ⟨c', a, b, ha, hb, he⟩
      · rw [hl] at h; cases h
      · rw [hl] at ha; rw [hl'] at hb; cases ha; cases hb; exact he
    constructor
    · rintro rfl
      exact hq c k l m1 m2 (hE.trans _ _ _ _ e1 (hE.symm _ _ _ e2))
    · rintro rfl
      exact h3 c k' l' m3 m4 (hE.trans _ _ _ _ (hE.symm _ _ _ e1) e2)

/-- **C20.**  If the keys saved and those of the program loading them are inequivalent unless they are
the same, what is loaded is exactly what was saved. -/
theorem C20_exact (E : Nat → Key D → Key D → Bool) (U : Nat → Key D → Prop)
    (hu : ∀ c k l, U c k → U c l → E c k l = true → k = l) (fmt : Fmt D) (nx : Key D → Want) (q : Key D)
    (hrep : q.NoRep []) (hfit : q.Fits fmt nx .nil) (hall : q.All U) (w : List (Nat × Key D))
    (hw : ∀ p ∈ w, U p.1 p.2) :
    ∃ H w', loads fmt (intern E) nx ⟨archive q none', none', w⟩ = .ok q ⟨[], H, w'⟩ := by
  obtain ⟨w', _, h⟩ := round_trip (fmt := fmt) (intern_faithful hu) q (H := none') (nx := nx) (acc := .nil)
    (Known.clean (hrep.known none')) hfit hall (w := w) hw (fuel := 2 * (archive q none').length + 2)
    (by simp [archive]) []
  rw [List.append_nil] at h
  exact ⟨_, w', h⟩

/-- Hypotheses of both are met by two persons, sharing words, one of them saved twice. -/
example : EqvOk Ser.eqv ∧ (∀ c, NextOk Ser.eqv (Ser.fmt c)) ∧ NextOk Ser.eqv Ser.prog ∧ Ser.saved.NoRep [] ∧
    Ser.saved.Fits Ser.fmt Ser.prog .nil ∧ Apart Ser.eqv Ser.saved.tops ∧ Apart Ser.eqv [(0, Ser.word 4), (1, Ser.person 1 1 1)] := by
  have hlen : ∀ a a' : Key Nat, a.Like Ser.eqv a' → Ser.len a = Ser.len a' := by
    intro a
    induction a with
    | nil => intro a' h; cases a' <;> simp only [Key.Like] at h; rfl
    | dat d r ih => intro a' h; cases a' <;> simp only [Key.Like] at h; simp only [Ser.len, ih _ h.2]
    | fw c k r _ ih => intro a' h; cases a' <;> simp only [Key.Like] at h; simp only [Ser.len, ih _ h.2.2]
  refine ⟨⟨?_, ?_, ?_, ?_⟩, ?_, ?_, ?_, ?_, ?_, ?_⟩
  · intro c k; simp [Ser.eqv]
  · intro c k l h; simp [Ser.eqv] at h ⊢; exact h.symm
  · intro c k l m h1 h2; simp [Ser.eqv] at h1 h2 ⊢; exact h1.trans h2
  · intro c k
    simp only [Ser.eqv, decide_eq_true_eq]
    induction k with
    | nil => intro l h; cases l <;> simp only [Key.Like] at h; rfl
    | dat d r ih => intro l h; cases l <;> simp only [Key.Like] at h; rw [h.1, ih _ h.2]
    | fw c k r _ ih =>
      intro l h
      cases l <;> simp only [Key.Like] at h
      rw [h.1, ih _ h.2.2, of_decide_eq_true h.2.1]
  · intro c a a' h
    have := hlen a a' h
    unfold Ser.fmt
    split <;> simp only [this]
  · intro a a' h
    unfold Ser.prog
    rw [hlen a a' h]
  · simp [Ser.saved, Ser.person, Ser.word, Key.NoRep]
  · simp [Ser.saved, Ser.person, Ser.word, Key.Fits, Ser.prog, Ser.fmt, Ser.len, Key.app]
  · intro c k l _ _ h; exact of_decide_eq_true h
  · intro c k l _ _ h; exact of_decide_eq_true h

/-- The archive: numbers and keys, each key once. -/
example : archive Ser.saved none' =
    [.idx 0, .idx 0, .dat 3, .idx 1, .dat 4, .dat 50, .idx 1, .idx 1, .idx 1, .dat 20, .idx 0, .idx 0] := rfl

/-- Loading in a program where the word 13, equivalent to 3, exists. -/
example : Ser.result (loads Ser.fmt (intern fun _ => Ser.eqvWord) Ser.prog
      ⟨archive Ser.saved none', none', [(0, Ser.word 13)]⟩) =
    some (.fw 1 (Ser.person 13 4 50) (.fw 1 (Ser.person 4 4 20) (.fw 0 (Ser.word 13) (.fw 1 (Ser.person 13 4 50) .nil)))) := by
  decide +kernel

/-! ## C21 -/

/-- **C21.**  Whatever is saved to an archive, nested in any way: the key of each flyweight is written the
first time it is saved and never again. -/
theorem C21_once (q : Key D) (c : Nat) (k : Key D) : flags c k (save q none').1 = [] ∨
    ∃ n, flags c k (save q none').1 = true :: List.replicate n false := by
  rcases (save_flags q none' c k).2 (by simp [none']) with ⟨h, _⟩ | ⟨l, h, h1, _⟩
  · exact .inl h
  · exact .inr ⟨l.length, by rw [h, ← List.eq_replicate_of_mem h1]⟩

/-- **C21.**  Saving a flyweight that has been saved to the archive, by itself or as part of a key,
writes a number, which is that of an exemplar with its key. -/
theorem C21_index (q : Key D) (c : Nat) (k : Key D) (h : flags c k (save q none').1 ≠ []) :
    ∃ n, archive (.fw c k .nil) (save q none').2 = [.idx n] ∧ ((save q none').2 c)[n]? = some k := by
  rcases (save_flags q none' c k).2 (by simp [none']) with ⟨h', _⟩ | ⟨l, _, _, hk⟩
  · exact absurd h' h
  · refine ⟨_, by simp only [archive, save_fw, if_pos hk]; rfl, ?_⟩
    rw [List.getElem?_eq_getElem (List.idxOf_lt_length_of_mem hk), List.getElem_idxOf]

/-- The word 4 is saved three times, as part of keys. -/
example : flags 0 (Ser.word 4) (save Ser.saved none').1 = [true, false, false] ∧
    archive (.fw 0 (Ser.word 4) .nil) (save Ser.saved none').2 = [.idx 1] := ⟨rfl, rfl⟩

/-! ## C22 -/

omit [DecidableEq D] in
/-- **C22.**  Loading a flyweight from any archive, with any exemplars, in any program: no undefined
behaviour; an exception leaves the flyweight and the exemplars as they were (some may have
been added); otherwise the flyweight becomes one of the exemplars. -/
theorem C22_safe {σ : Type} (fmt : Fmt D) (make : Nat → Key D → σ → Option (Key D) × σ) (c : Nat) (f : Key D) (s : LSt σ D) :
    (∃ g s', load fmt make c f s = .ok g s' ∧ g ∈ s'.tab c ∧ ∀ i, s.tab i <+: s'.tab i) ∨
    (∃ s', load fmt make c f s = .exc f s' ∧ ∀ i, s.tab i <+: s'.tab i) := by
  have h := (load_ok fmt make (2 * s.toks.length + 1)).1 c f s (Nat.le_refl _)
  unfold load
  cases hr : loadFw fmt make (2 * s.toks.length + 1) c f s with
  | ok g s' => rw [hr] at h; exact .inl ⟨g, s', rfl, h.1, h.2.2⟩
  | exc f' s' => rw [hr] at h; exact .inr ⟨s', by rw [h.1], h.2.2⟩
  | ub => rw [hr] at h; exact h.elim
  | fuel => rw [hr] at h; exact h.elim

omit [DecidableEq D] in
/-- **C22.**  The same for a program that loads any number of flyweights. -/
theorem C22_program {σ : Type} (fmt : Fmt D) (make : Nat → Key D → σ → Option (Key D) × σ) (nx : Key D → Want) (s : LSt σ D) :
    ∃ s', ((∃ q, loads fmt make nx s = .ok q s') ∨ ∃ q, loads fmt make nx s = .exc q s') ∧ ∀ i, s.tab i <+: s'.tab i := by
  have h := (load_ok fmt make (2 * s.toks.length + 2)).2 nx .nil s (Nat.le_refl _)
  unfold loads
  cases hr : loadKey fmt make (2 * s.toks.length + 2) nx .nil s with
  | ok g s' => rw [hr] at h; exact ⟨s', .inl ⟨g, rfl⟩, h.2⟩
  | exc f' s' => rw [hr] at h; exact ⟨s', .inr ⟨f', rfl⟩, h.2⟩
  | ub => rw [hr] at h; exact h.elim
  | fuel => rw [hr] at h; exact h.elim

omit [DecidableEq D] in
/-- **C22.**  A number beyond the table is rejected. -/
theorem C22_reject {σ : Type} (fmt : Fmt D) (make : Nat → Key D → σ → Option (Key D) × σ) (c : Nat) (f : Key D) (s : LSt σ D)
    (n : Nat) (ts : List (Tok D)) (hs : s.toks = .idx n :: ts) (hn : n > (s.tab c).length) :
    load fmt make c f s = .exc f { s with toks := ts } := by
  rw [load, loadFw, hs]
  simp only [if_pos hn]

/-- Archives with a number out of range, an end in the middle of a key, and a number where data should
be: an exception, after which some of what precedes is among the exemplars; and one that
loads. -/
example : (∃ s, load Ser.fmt (intern Ser.eqv) 1 (Ser.person 9 9 9) ⟨[.idx 0, .idx 0, .dat 3, .idx 2], none', []⟩ =
      .exc (Ser.person 9 9 9) s ∧ s.tab 0 = [Ser.word 3]) ∧
    (∃ s, load Ser.fmt (intern Ser.eqv) 1 (Ser.person 9 9 9) ⟨[.idx 0, .idx 0, .dat 3, .idx 1], none', []⟩ =
      .exc (Ser.person 9 9 9) s ∧ s.tab 0 = [Ser.word 3]) ∧
    (∃ s, load Ser.fmt (intern Ser.eqv) 0 (Ser.word 9) ⟨[.idx 0, .idx 0], none', []⟩ = .exc (Ser.word 9) s) ∧
    (∃ s, load Ser.fmt (intern Ser.eqv) 1 (Ser.person 9 9 9) ⟨[.idx 0, .idx 0, .dat 3, .idx 0, .dat 7], none', []⟩ =
      .ok (Ser.person 3 3 7) s) :=
  ⟨⟨_, rfl, rfl⟩, ⟨_, rfl, rfl⟩, ⟨_, rfl⟩, ⟨_, rfl⟩⟩

/-! ## C24 -/

/-- **C24 does not hold**: a flyweight whose key contains one of its own type is loaded as another. -/
theorem C24_violated : ¬ ∀ (fmt : Fmt Nat) (nx : Key Nat → Want) (q : Key Nat), q.Fits fmt nx .nil →
    ∃ H w, loads fmt (intern Ser.eqv) nx ⟨archive q none', none', []⟩ = .ok q ⟨[], H, w⟩ := by
  intro h
  obtain ⟨H, w, h⟩ := h Ser.fmtRec Ser.one (.fw 0 (.dat 1 (.fw 0 (Ser.word 0) .nil)) .nil) ⟨rfl, ⟨rfl, rfl, ⟨rfl, rfl⟩, rfl⟩, rfl⟩
  have h' : Ser.result (loads Ser.fmtRec (intern Ser.eqv) Ser.one
      ⟨archive (.fw 0 (.dat 1 (.fw 0 (Ser.word 0) .nil)) .nil) none', none', []⟩) = some (.fw 0 (Ser.word 0) .nil) := by
    decide +kernel
  rw [h] at h'
  simp only [Ser.result, Option.some.injEq] at h'
  exact absurd h' (by decide)

/-- **C24, how it fails.**  Whenever the first flyweight loaded from an archive has a key that contains
flyweights of its own type (and the key itself can be loaded), what is loaded is the first
flyweight of this type that was saved with the key, which is a different one. -/
theorem C24_wrong (E : Nat → Key D → Key D → Bool) (U : Nat → Key D → Prop)
    (hu : ∀ c k l, U c k → U c l → E c k l = true → k = l) (fmt : Fmt D) (c : Nat) (k : Key D) (hc : Serial.Clean k none')
    (hfit : k.Fits fmt (fmt c) .nil) (hk : U c k) (hall : k.All U) (hin : (save k none').2 c ≠ []) (f : Key D)
    (w : List (Nat × Key D)) (hw : ∀ p ∈ w, U p.1 p.2) :
    ∃ l s, load fmt (intern E) c f ⟨archive (.fw c k .nil) none', none', w⟩ = .ok l s ∧ l ≠ k ∧
      ((save k none').2 c).head? = some l := by
  obtain ⟨w1, hw1, h⟩ := round_trip (fmt := fmt) (intern_faithful hu) k (H := none') (nx := fmt c) (acc := .nil) hc hfit hall
    (w := w) hw (fuel := 2 * (archive k none').length + 2) (by simp [archive]) []
  obtain ⟨w2, h2, _⟩ := intern_faithful hu w1 c k hw1 hk
  obtain ⟨l, m, hl⟩ := List.exists_cons_of_ne_nil hin
  have ha : archive (.fw c k .nil) none' = .idx 0 :: archive k none' := by
    simp [archive, none', save, Ev.tok]
  refine ⟨l, ⟨[], pushLoad (save k none').2 c k, w2⟩, ?_, ?_, by rw [hl]; rfl⟩
  · rw [load, ha]
    show loadFw fmt (intern E) (2 * (archive k none').length + 2 + 1) c f _ = _
    rw [loadFw]
    rw [List.append_nil] at h
    simp only [none', List.length_nil, Nat.lt_irrefl, if_false, gt_iff_lt, if_true] at h ⊢
    rw [h]
    dsimp only
    rw [show Key.app .nil k = k from rfl, h2]
    dsimp only
    have : (pushLoad (save k none').2 c k c)[0]? = some l := by simp [pushLoad, hl]
    rw [this]
  · rintro rfl
    rcases save_parts l none' (c := c) (l := l) (by rw [hl]; exact List.mem_cons_self) with h | h
    · simp [none'] at h
    · exact Nat.lt_irrefl _ h

/-- **C24, where it holds.**  Flyweights that contain flyweights of their own type are loaded as they were
saved if, whenever one of them is saved for the first time, all of its own type inside it have been
saved before (which is what `Clean` says). -/
theorem C24_clean_partial (E : Nat → Key D → Key D → Bool) (U : Nat → Key D → Prop)
    (hu : ∀ c k l, U c k → U c l → E c k l = true → k = l) (fmt : Fmt D) (nx : Key D → Want) (q : Key D)
    (hc : Serial.Clean q none') (hfit : q.Fits fmt nx .nil) (hall : q.All U) (w : List (Nat × Key D))
    (hw : ∀ p ∈ w, U p.1 p.2) :
    ∃ H w', loads fmt (intern E) nx ⟨archive q none', none', w⟩ = .ok q ⟨[], H, w'⟩ := by
  obtain ⟨w', _, h⟩ := round_trip (fmt := fmt) (intern_faithful hu) q (H := none') (nx := nx) (acc := .nil) hc hfit hall
    (w := w) hw (fuel := 2 * (archive q none').length + 2) (by simp [archive]) []
  rw [List.append_nil] at h
  exact ⟨_, w', h⟩

/-- **C24, exactly when it holds.**  Serialization functions may use the data they have read to decide what to
read next, but not what flyweights were loaded as; different keys are not equivalent.  Then what
is loaded is what was saved if and only if, whenever a flyweight was saved for the first time, all of
its own type inside it had been saved before. -/
theorem C24_iff (E : Nat → Key D → Key D → Bool) (hu : ∀ c k l, E c k l = true → k = l) (fmt : Fmt D)
    (hb : ∀ c, Blind (fmt c)) (nx : Key D → Want) (hn : Blind nx) (q : Key D) (hfit : q.Fits fmt nx .nil)
    (w : List (Nat × Key D)) :
    (∃ s, loads fmt (intern E) nx ⟨archive q none', none', w⟩ = .ok q s) ↔ Serial.Clean q none' := by
  have hf := intern_faithful (U := fun _ _ => True) (eqv := E) fun c k l _ _ => hu c k l
  constructor
  · rintro ⟨s, hs⟩
    obtain ⟨w', _, h⟩ := load_reload hb hf q (H := none') (T := none') hn (acc := .nil) (acc' := .nil) trivial
      (fun _ => rfl) hfit (w := w) (fun _ _ => trivial) (fuel := 2 * (archive q none').length + 2) (by simp [archive]) []
    rw [List.append_nil] at h
    unfold loads at hs
    rw [h] at hs
    injection hs with h1 h2
    exact (reload_clean q h1).1
  · intro hc
    obtain ⟨w', _, h⟩ := round_trip (fmt := fmt) hf q (H := none') (nx := nx) (acc := .nil) hc hfit
      (all_true q) (w := w) (fun _ _ => trivial) (fuel := 2 * (archive q none').length + 2) (by simp [archive]) []
    rw [List.append_nil] at h
    exact ⟨_, h⟩

/-- **C24, what is loaded in any case.**  No exception and no undefined behaviour; the whole archive is
read; the data outside flyweights and the types of the flyweights are those saved; and nothing is
bigger than what was saved: wrong flyweights are smaller ones. -/
theorem C24_loaded (E : Nat → Key D → Key D → Bool) (hu : ∀ c k l, E c k l = true → k = l) (fmt : Fmt D)
    (hb : ∀ c, Blind (fmt c)) (nx : Key D → Want) (hn : Blind nx) (q : Key D) (hfit : q.Fits fmt nx .nil)
    (w : List (Nat × Key D)) :
    ∃ g H w', loads fmt (intern E) nx ⟨archive q none', none', w⟩ = .ok g ⟨[], H, w'⟩ ∧ q.Alike g ∧ g.size ≤ q.size := by
  have hf := intern_faithful (U := fun _ _ => True) (eqv := E) fun c k l _ _ => hu c k l
  obtain ⟨w', _, h⟩ := load_reload hb hf q (H := none') (T := none') hn (acc := .nil) (acc' := .nil) trivial
    (fun _ => rfl) hfit (w := w) (fun _ _ => trivial) (fuel := 2 * (archive q none').length + 2) (by simp [archive]) []
  rw [List.append_nil] at h
  refine ⟨_, _, w', h, reload_alike q _ _, (reload_small q (fun _ => rfl) ?_).1⟩
  intro c i k t h1 h2
  rw [h1] at h2
  cases h2
  exact Nat.le_refl _

/-- The serialization functions of the examples are of this kind, and so is the equality. -/
example : (∀ c, Blind (Ser.fmtRec c)) ∧ Blind Ser.one ∧ (∀ c k l, Ser.eqv c k l = true → k = l) := by
  refine ⟨fun c a a' h => ?_, fun a a' h => ?_, fun c k l h => of_decide_eq_true h⟩
  · match a, a' with
    | .nil, .nil => rfl
    | .dat d .nil, .dat d' .nil => obtain ⟨rfl, _⟩ := h; rfl
    | .dat d (.dat _ _), .dat d' (.dat _ _) => simp [Ser.fmtRec]
    | .dat d (.fw _ _ _), .dat d' (.fw _ _ _) => simp [Ser.fmtRec]
    | .fw _ _ _, .fw _ _ _ => rfl
  · match a, a' with
    | .nil, .nil => rfl
    | .dat _ _, .dat _ _ => rfl
    | .fw _ _ _, .fw _ _ _ => rfl

/-- The hypotheses of `C24_wrong` are met by a key that contains one flyweight of its type. -/
example : Serial.Clean (.dat 1 (.fw 0 (Ser.word 0) .nil)) none' ∧
    (Key.dat 1 (.fw 0 (Ser.word 0) .nil)).Fits Ser.fmtRec (Ser.fmtRec 0) .nil ∧
    (save (.dat 1 (.fw 0 (Ser.word 0) .nil)) none').2 0 = [Ser.word 0] :=
  ⟨⟨fun _ => ⟨trivial, rfl⟩, trivial⟩, ⟨rfl, rfl, ⟨rfl, rfl⟩, rfl⟩, rfl⟩

/-- A flyweight containing another loads as the other one; saving the other one first helps. -/
example :
    (∃ s, load Ser.fmtRec (intern Ser.eqv) 0 .nil ⟨archive (.fw 0 (.dat 1 (.fw 0 (Ser.word 0) .nil)) .nil) none', none', []⟩ =
      .ok (Ser.word 0) s) ∧
    Serial.Clean (.fw 0 (Ser.word 0) (.fw 0 (.dat 1 (.fw 0 (Ser.word 0) .nil)) .nil)) none' ∧
    (∃ s, loads Ser.fmtRec (intern Ser.eqv) Ser.two
      ⟨archive (.fw 0 (Ser.word 0) (.fw 0 (.dat 1 (.fw 0 (Ser.word 0) .nil)) .nil)) none', none', []⟩ =
      .ok (.fw 0 (Ser.word 0) (.fw 0 (.dat 1 (.fw 0 (Ser.word 0) .nil)) .nil)) s) := by
  refine ⟨⟨_, rfl⟩, ?_, ⟨_, rfl⟩⟩
  refine ⟨fun _ => ⟨trivial, rfl⟩, ?_⟩
  exact ⟨fun _ => ⟨⟨fun h => absurd (by decide) h, trivial⟩, rfl⟩, trivial⟩

/-- With one more level, the exemplars are wrong, too: saved again, the outermost is loaded with a
different key. -/
example : ∃ s, loads Ser.fmtRec (intern Ser.eqv) Ser.two
    ⟨archive (.fw 0 (.dat 2 (.fw 0 (.dat 1 (.fw 0 (Ser.word 0) .nil)) .nil))
      (.fw 0 (.dat 2 (.fw 0 (.dat 1 (.fw 0 (Ser.word 0) .nil)) .nil)) .nil)) none', none', []⟩ =
    .ok (.fw 0 (Ser.word 0) (.fw 0 (.dat 2 (.fw 0 (Ser.word 0) .nil)) .nil)) s := ⟨_, rfl⟩

/-! ## C23 -/

section
open Setup Saving
variable {K V Rep F : Type}

/-- **C23.**  In any program that saves flyweights to an archive between any other operations, under any
allocator: no undefined behaviour, and every flyweight saved was given the number of an exemplar that
refers to the same address, key and value still at the end of the program; and with this
number its very key was written. -/
theorem C23_exemplar (S : Setup K V Rep F) (hp : Nat → Nat) (fl : Nat → Bool) (alloc : Nat → List Nat → Nat)
    (hal : ∀ n l, alloc n l ∉ l) (os : List (SOp K V)) :
    ∃ st, run S hp (start S fl alloc) os = some st ∧ ∀ r ∈ st.log, (∀ k, r.wrote = some k → k = r.key) ∧
      (r.done = true → S.Sees st.core (2 * r.item + 1) r.addr r.key r.val ∧
        ∃ r₀ ∈ st.log, r₀.item = r.item ∧ r₀.done = true ∧ r₀.wrote = some r.key) := by
  obtain ⟨st, t, h1, h2⟩ := run_ok (hp := hp) os (start_ok (S := S) fl hal)
  refine ⟨st, h1, fun r hr => ⟨(h2.log r hr).2.1, fun hd => ?_⟩⟩
  have hb := (h2.log r hr).1 hd
  refine ⟨(sees_iff h2.sim).2 hb, ?_⟩
  obtain ⟨r₀, a1, a2, a3, a4⟩ := h2.intro r.item ((h2.odd r.item).1 (List.mem_map.2 ⟨_, hb, rfl⟩))
  have hb₀ := (h2.log r₀ a1).1 a3
  rw [a2] at hb₀
  have := bind_unique h2.ok.nodup hb hb₀
  simp only [Bind.mk.injEq] at this
  exact ⟨r₀, a1, a2, a3, by rw [a4, this.2.1]⟩

/-- **C23.**  A `save` in which the archive and the allocation do not fail returns, and is recorded with what the
flyweight refers to. -/
theorem C23_record (S : Setup K V Rep F) (hp : Nat → Nat) (fl : Nat → Bool) (alloc : Nat → List Nat → Nat)
    (hal : ∀ n l, alloc n l ∉ l) (os : List (SOp K V)) (st : ASt K V Rep F)
    (hrun : run S hp (start S fl alloc) os = some st) (x a : Nat) (k : K) (v : V) (hx : S.Sees st.core (2 * x) a k v) :
    ∃ st' r, Saving.step S hp st (.save x .none) = some st' ∧ st'.log = st.log ++ [r] ∧
      r.x = x ∧ r.addr = a ∧ r.key = k ∧ r.val = v ∧ r.done = true := by
  obtain ⟨st1, t, h1, h⟩ := run_ok (hp := hp) os (start_ok (S := S) fl hal)
  rw [hrun] at h1
  cases h1
  have hname := names_contains h.sim hx
  simp only [Saving.step]
  rw [if_pos hname, hx.1, hx.2]
  dsimp only
  rw [if_neg (by decide)]
  by_cases hn : find S st.core st.size a = st.size
  · rw [if_pos hn, if_neg (by decide), if_neg (by decide)]
    have hnew : 2 * st.size + 1 ∉ st.core.objs.map Prod.fst := by
      rw [← h.sim.rel.vars.names]
      exact fun hm => Nat.lt_irrefl _ ((h.odd _).1 hm)
    have hv : (Op.copy (2 * find S st.core st.size a + 1) (2 * x) : Op K V).valid S.sp
        (st.core.objs.map Prod.fst) = true := by
      rw [hn]
      simp only [Op.valid, Bool.and_eq_true, Bool.not_eq_true', hname, and_true]
      simpa using hnew
    rcases perform_cases h.sim hp hv with ⟨out, s', t', h2, _⟩ | ⟨s', _, h3, _⟩
    · rw [h2]
      exact ⟨_, _, rfl, rfl, rfl, rfl, rfl, rfl, rfl⟩
    · cases h3
  · rw [if_neg hn]
    exact ⟨_, _, rfl, rfl, rfl, rfl, rfl, rfl, rfl⟩

/-- Flyweight 0 is saved and destroyed, and 1 is made: it does not get the address of the former.  Without
the save it does. -/
example :
    (run (Sample.var .refcounted) id (start (Sample.var .refcounted) Sample.calm Sample.alloc)
      [.op (.make 0 (.key 3)), .save 0 .none, .op (.destroy 0), .op (.make 1 (.key 4)), .save 1 .push, .save 1 .none,
        .op (.make 0 (.key 13)), .save 0 .none]).map (fun st => st.log.map fun r => (r.addr, r.key, r.item, r.wrote, r.done)) =
      some [(1, 3, 0, some 3, true), (2, 4, 1, some 4, false), (2, 4, 1, some 4, true), (1, 3, 0, none, true)] ∧
    (run (Sample.var .refcounted) id (start (Sample.var .refcounted) Sample.calm Sample.alloc)
      [.op (.make 0 (.key 3)), .op (.destroy 0), .op (.make 1 (.key 4)), .save 1 .none]).map
        (fun st => st.log.map fun r => (r.addr, r.key, r.item, r.wrote, r.done)) =
      some [(1, 4, 0, some 4, true)] := ⟨rfl, rfl⟩

end

/-! ## C41 -/

section
open Temp
variable {σ : Type}

/-- **C41.**  Exactly what happens to the temporary key in `load`, whatever the user's functions `c` (construction),
`r` (reading the contents) and `u` (use) do. -/
theorem C41_paths (c r u : M σ Unit) (s : σ) : block (lift c) (lift r) (lift u) ⟨[], s⟩ =
    match c s with
    | .ub => .ub
    | .exc s => .exc ⟨[⟨false, 0, 0⟩], s⟩
    | .ok _ s => match r s with
      | .ub => .ub
      | .exc s => .exc ⟨[⟨false, 1, 1⟩], s⟩
      | .ok _ s => match u s with
        | .ub => .ub
        | .exc s => .exc ⟨[⟨false, 1, 1⟩], s⟩
        | .ok _ s => .ok () ⟨[⟨false, 1, 1⟩], s⟩ := by
  simp only [block, ctor, bind, M.bind, fresh, lift]
  cases c s with
  | ub => rfl
  | exc s1 => rfl
  | ok a s1 =>
    simp only [made, List.nil_append, List.length_nil, List.getElem?_cons_zero, List.set_cons_zero, M.onExc, M.bind, touch,
      lift]
    cases hr : r s1 with
    | ub => rfl
    | exc s2 => rfl
    | ok a s2 =>
      simp only [M.scope, M.bind, touch, List.getElem?_cons_zero, lift]
      cases hu : u s2 with
      | ub => rfl
      | exc s3 => rfl
      | ok a s3 => rfl

/-- **C41.**  In every program that loads, with loads nested in those of keys in any way: whatever
throws, there is no undefined behaviour, and each temporary key made during it was constructed and
destroyed once each, or neither. -/
theorem C41_nested (p : Prog σ) (hp : p.Safe) (s : σ) :
    ∃ l s', (exec p ⟨[], s⟩ = .ok () ⟨l, s'⟩ ∨ exec p ⟨[], s⟩ = .exc ⟨l, s'⟩) ∧
      ∀ x ∈ l, x.alive = false ∧ x.made = x.dest ∧ x.made ≤ 1 := by
  have h := exec_since p hp [] ⟨[], s⟩ rfl
  have fin : ∀ s' : Temp.St σ, Since [] s' → ∀ x ∈ s'.slots, x.alive = false ∧ x.made = x.dest ∧ x.made ≤ 1 := by
    rintro s' ⟨m, h1, h2⟩ x hx
    rw [h1, List.nil_append] at hx
    rcases h2 x hx with rfl | rfl <;> simp
  cases he : exec p ⟨[], s⟩ with
  | ok a s' => rw [he] at h; exact ⟨s'.slots, s'.usr, .inl rfl, fin s' h⟩
  | exc s' => rw [he] at h; exact ⟨s'.slots, s'.usr, .inr rfl, fin s' h⟩
  | ub => rw [he] at h; exact h.elim

/-- A load whose key contains two flyweights, the reading of the second of which throws. -/
example : exec (.load (.act (M.update (· + 1))) (.seq (.load (.act (pure ())) (.act (pure ())) (.act (pure ())))
      (.load (.act (pure ())) (.act fun s => .exc (s + 5)) (.act (pure ())))) (.act (pure ()))) ⟨[], 0⟩ =
    .exc ⟨[⟨false, 1, 1⟩, ⟨false, 1, 1⟩, ⟨false, 1, 1⟩], 6⟩ ∧
    exec (.load (.act fun s => .exc s) (.act (pure ())) (.act (pure ()))) ⟨[], 0⟩ = .exc ⟨[⟨false, 0, 0⟩], 0⟩ :=
  ⟨rfl, rfl⟩

end

end Verif.Props

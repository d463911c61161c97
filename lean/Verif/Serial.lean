/-!
# Serialization

Models /repo/include/boost/flyweight/serialize.hpp and
/repo/include/boost/flyweight/detail/serialization_helper.hpp for any number of flyweight types
(numbered) saved to one archive, nested in each other's keys.

A flyweight is represented by its type and the key of the entry it refers to: entries of
a type have inequivalent keys, so flyweights of a type refer to the same entry
iff these keys are the same.  The program into which an archive is loaded is
represented by what its flyweight constructor yields (`make`), see `load`.
-/

set_option autoImplicit false

namespace Verif.Serial

/-- A key, as its serialization function sees it: plain data and flyweights, in the order in
which they are saved; `fw c k r` is a flyweight of type `c` whose entry has key `k`,
followed by `r`.  (Also used for what a program saves to an archive.)  Keys are the user's;
a flyweight is saved through `get_key()`,
/repo/include/boost/flyweight/serialize.hpp:60. -/
inductive Key (D : Type) where
  | nil
  | dat (d : D) (r : Key D)
  | fw (c : Nat) (k : Key D) (r : Key D)
  deriving DecidableEq

variable {D : Type}

/-- Sequencing. (Helper, no code of its own.) -/
def Key.app : Key D → Key D → Key D
  | .nil, l => l
  | .dat d r, l => .dat d (r.app l)
  | .fw c k r, l => .fw c k (r.app l)

/-- Contents of an archive: the numbers written by
/repo/include/boost/flyweight/serialize.hpp:58 and plain data.  Simplification: names of
items, class information and versions are left out. -/
inductive Tok (D : Type) where
  | idx (n : Nat)
  | dat (d : D)
  deriving DecidableEq

/-- The exemplars in the helper of each flyweight type: `table` in
/repo/include/boost/flyweight/detail/serialization_helper.hpp:47-53, 76.  There is one helper of
each type for an archive (`get_helper`, part of Boost.Serialization). -/
abbrev Tables (D : Type) := Nat → List (Key D)

/-- No exemplars. (An archive that has just been opened.)  Models the initial state of
/repo/include/boost/flyweight/detail/serialization_helper.hpp:36-90. -/
def none' : Tables D := fun _ => []

/-- `save_helper::push_back`, /repo/include/boost/flyweight/detail/serialization_helper.hpp:67: as the
hashed index is unique, nothing happens if there is an exemplar with the same
value already. -/
def pushSave [DecidableEq D] (H : Tables D) (c : Nat) (k : Key D) : Tables D :=
  fun i => if i = c then if k ∈ H c then H c else H c ++ [k] else H i

/-- `load_helper::push_back`, /repo/include/boost/flyweight/detail/serialization_helper.hpp:86. -/
def pushLoad (H : Tables D) (c : Nat) (k : Key D) : Tables D :=
  fun i => if i = c then H c ++ [k] else H i

/-- What happens during saving: the flyweight of type `c` with key `k` is saved as number `n`, followed
by its key if `new`; or plain data is saved.  Models
/repo/include/boost/flyweight/serialize.hpp:43-63. -/
inductive Ev (D : Type) where
  | item (c : Nat) (k : Key D) (n : Nat) (new : Bool)
  | dat (d : D)

/-- What is written to the archive.  Models /repo/include/boost/flyweight/serialize.hpp:57-62. -/
def Ev.tok : Ev D → Tok D
  | .item _ _ n _ => .idx n
  | .dat d => .dat d

/-- Saving: for each flyweight, `save`, /repo/include/boost/flyweight/serialize.hpp:47-63, with
`save_helper::find`, /repo/include/boost/flyweight/detail/serialization_helper.hpp:61-65: the position of
the exemplar with the same address of the value, or `size()`.  The key is saved by the
user's function, which saves its parts.  Simplification: nothing throws. -/
def save [DecidableEq D] : Key D → Tables D → List (Ev D) × Tables D
  | .nil, H => ([], H)
  | .dat d r, H =>
    let q := save r H
    (.dat d :: q.1, q.2)
  | .fw c k r, H =>
    let n := (H c).idxOf k
    if n = (H c).length then
      let p := save k H
      let q := save r (pushSave p.2 c k)
      (.item c k n true :: p.1 ++ q.1, q.2)
    else
      let q := save r H
      (.item c k n false :: q.1, q.2)

/-- The archive.  (No code of its own: contents of the archive.) -/
def archive [DecidableEq D] (q : Key D) (H : Tables D) : List (Tok D) := (save q H).1.map Ev.tok

/-! ## Loading -/

/-- What a serialization function reads next: plain data, a flyweight of type `c`, nothing more, or it
throws.  (The user's code, no code of the library.) -/
inductive Want where
  | dat
  | fw (c : Nat)
  | done
  | fail
  deriving DecidableEq

/-- What the serialization function for keys of each type reads next, given what it has read so
far.  (The user's code, no code of the library.) -/
abbrev Fmt (D : Type) := Nat → Key D → Want

/-- State while loading: the rest of the archive, the exemplars, and the state of the program.
Models the state used by /repo/include/boost/flyweight/serialize.hpp:65-91 and
/repo/include/boost/flyweight/detail/serialization_helper.hpp:70-90. -/
structure LSt (σ D : Type) where
  toks : List (Tok D)
  tab : Tables D
  w : σ

/-- Outcome: what has been loaded; an exception, with the value `f` of the target of the
loading; undefined behaviour; `fuel` does not occur (`C22_safe`).  Models how
/repo/include/boost/flyweight/serialize.hpp:65-91 may end. -/
inductive Res (σ D : Type) where
  | ok (k : Key D) (s : LSt σ D)
  | exc (f : Key D) (s : LSt σ D)
  | ub
  | fuel

variable {σ : Type}

mutual
/-- `load` into a flyweight of type `c` that has the value `f`,
/repo/include/boost/flyweight/serialize.hpp:69-91, with `load_helper`,
/repo/include/boost/flyweight/detail/serialization_helper.hpp:73-90.  `make c k w` is what the constructor of
flyweights of type `c` from key `k` does in a program with state `w`: it yields the entry found or
inserted (its key is given), or throws (`none`; this stands for the exceptions of
`push_back`, too).  An archive that does not have the item asked for throws (this is
Boost.Serialization). -/
def loadFw (fmt : Fmt D) (make : Nat → Key D → σ → Option (Key D) × σ) :
    Nat → Nat → Key D → LSt σ D → Res σ D
  | 0, _, _, _ => .fuel
  | fuel + 1, c, f, s => match s.toks with
    | .idx n :: ts =>
      if n > (s.tab c).length then .exc f { s with toks := ts }
      else if n = (s.tab c).length then
        match loadKey fmt make fuel (fmt c) .nil { s with toks := ts } with
        | .ok k s => match make c k s.w with
          | (some k, w) => match (pushLoad s.tab c k c)[n]? with
            | some g => .ok g { s with tab := pushLoad s.tab c k, w := w }
            | none => .ub
          | (none, w) => .exc f { s with w := w }
        | .exc _ s => .exc f s
        | .ub => .ub
        | .fuel => .fuel
      else match (s.tab c)[n]? with
        | some g => .ok g { s with toks := ts }
        | none => .ub
    | _ => .exc f s
/-- The serialization function of a key, which reads what `nx` says and has read `acc`.  (The user's; also
used for the program that loads from the archive.)  The flyweights inside it are read into
flyweights made before, whose value does not matter (`nil` here).  Called by
/repo/include/boost/flyweight/detail/archive_constructed.hpp:31-71. -/
def loadKey (fmt : Fmt D) (make : Nat → Key D → σ → Option (Key D) × σ) :
    Nat → (Key D → Want) → Key D → LSt σ D → Res σ D
  | 0, _, _, _ => .fuel
  | fuel + 1, nx, acc, s => match nx acc with
    | .done => .ok acc s
    | .fail => .exc .nil s
    | .dat => match s.toks with
      | .dat d :: ts => loadKey fmt make fuel nx (acc.app (.dat d .nil)) { s with toks := ts }
      | _ => .exc .nil s
    | .fw c => match loadFw fmt make fuel c .nil s with
      | .ok k s => loadKey fmt make fuel nx (acc.app (.fw c k .nil)) s
      | .exc _ s => .exc .nil s
      | .ub => .ub
      | .fuel => .fuel
end

/-- Loading a flyweight.  (Calls `loadFw` with a bound on the depth of calls that is not
reached.)  Models /repo/include/boost/flyweight/serialize.hpp:65-91. -/
def load (fmt : Fmt D) (make : Nat → Key D → σ → Option (Key D) × σ) (c : Nat) (f : Key D) (s : LSt σ D) : Res σ D :=
  loadFw fmt make (2 * s.toks.length + 1) c f s

/-- A program that loads from an archive.  (Calls `loadKey` with a bound on the depth of calls that
is not reached.)  (The user's code.  No code of the library.) -/
def loads (fmt : Fmt D) (make : Nat → Key D → σ → Option (Key D) × σ) (nx : Key D → Want) (s : LSt σ D) : Res σ D :=
  loadKey fmt make (2 * s.toks.length + 2) nx .nil s

/-- The constructor of flyweights from keys: the entry with an equivalent key, or a new one.  `w` lists
the types and keys of the entries there are.  (This is what C01 and C06 prove of it; entries that are not
used any more are not removed here.)  Called by
/repo/include/boost/flyweight/serialize.hpp:88. -/
def intern (eqv : Nat → Key D → Key D → Bool) (c : Nat) (k : Key D) (w : List (Nat × Key D)) :
    Option (Key D) × List (Nat × Key D) :=
  match w.find? fun p => p.1 == c && eqv c p.2 k with
  | some p => (some p.2, w)
  | none => (some k, w ++ [(c, k)])

/-! ## Lemmas -/

theorem app_nil (k : Key D) : k.app .nil = k := by
  induction k with
  | nil => rfl
  | dat d r ih => simp [Key.app, ih]
  | fw c k r _ ih => simp [Key.app, ih]

theorem app_assoc (k l m : Key D) : (k.app l).app m = k.app (l.app m) := by
  induction k with
  | nil => rfl
  | dat d r ih => simp [Key.app, ih]
  | fw c k r _ ih => simp [Key.app, ih]

/-- Every flyweight in it, at any depth, has the property.  (No code of its own: used in
statements and proofs.) -/
def Key.All (P : Nat → Key D → Prop) : Key D → Prop
  | .nil => True
  | .dat _ r => r.All P
  | .fw c k r => P c k ∧ k.All P ∧ r.All P

/-- No flyweight contains, at any depth, one of its own type; `anc`: the types of the
flyweights it is inside of.  (No code of its own: used in statements and proofs.) -/
def Key.NoRep : List Nat → Key D → Prop
  | _, .nil => True
  | anc, .dat _ r => r.NoRep anc
  | anc, .fw c k r => c ∉ anc ∧ k.NoRep (c :: anc) ∧ r.NoRep anc

/-- The same, except for flyweights that have been saved before: those in `H`.  (No code of its
own: used in statements and proofs.) -/
def Key.Known (H : Tables D) : List Nat → Key D → Prop
  | _, .nil => True
  | anc, .dat _ r => r.Known H anc
  | anc, .fw c k r => (k ∈ H c ∨ (c ∉ anc ∧ k.Known H (c :: anc))) ∧ r.Known H anc

theorem Key.NoRep.known {k : Key D} : ∀ {anc : List Nat}, k.NoRep anc → ∀ H, k.Known H anc := by
  induction k with
  | nil => intro anc h H; trivial
  | dat d r ih => intro anc h H; exact ih h H
  | fw c k r ih1 ih2 => intro anc h H; exact ⟨.inr ⟨h.1, ih1 h.2.1 H⟩, ih2 h.2.2 H⟩

/-- The serialization functions read what has been saved.  (No code of its own: used in
statements and proofs.) -/
def Key.Fits (fmt : Fmt D) : (Key D → Want) → Key D → Key D → Prop
  | nx, .nil, acc => nx acc = .done
  | nx, .dat d r, acc => nx acc = .dat ∧ r.Fits fmt nx (acc.app (.dat d .nil))
  | nx, .fw c k r, acc => nx acc = .fw c ∧ k.Fits fmt (fmt c) .nil ∧ r.Fits fmt nx (acc.app (.fw c k .nil))

section
variable [DecidableEq D]

theorem pushSave_mem {H : Tables D} {c : Nat} {k l : Key D} {i : Nat} (h : l ∈ H i) : l ∈ pushSave H c k i := by
  unfold pushSave
  split
  · rename_i hi
    subst hi
    split
    · exact h
    · exact List.mem_append.2 (.inl h)
  · exact h

theorem save_mono (q : Key D) : ∀ (H : Tables D) {i : Nat} {l : Key D}, l ∈ H i → l ∈ (save q H).2 i := by
  induction q with
  | nil => intro H i l h; exact h
  | dat d r ih => intro H i l h; exact ih H h
  | fw c k r ih1 ih2 =>
    intro H i l h
    unfold save
    dsimp only
    split
    · exact ih2 _ (pushSave_mem (ih1 H h))
    · exact ih2 _ h

omit [DecidableEq D] in
theorem Key.Known.mono {H H' : Tables D} (hs : ∀ i l, l ∈ H i → l ∈ H' i) {k : Key D} :
    ∀ {anc : List Nat}, k.Known H anc → k.Known H' anc := by
  induction k with
  | nil => intro anc h; trivial
  | dat d r ih => intro anc h; exact ih h
  | fw c k r ih1 ih2 =>
    intro anc h
    exact ⟨h.1.imp (hs c k) fun h => ⟨h.1, ih1 h.2⟩, ih2 h.2⟩

/-- Whenever the key of a flyweight is saved, no flyweight of its type that has not been saved before
is saved with it.  (No code of its own: used in statements and proofs.) -/
def Clean : Key D → Tables D → Prop
  | .nil, _ => True
  | .dat _ r, H => Clean r H
  | .fw c k r, H => (k ∉ H c → Clean k H ∧ (save k H).2 c = H c) ∧
      Clean r (if k ∈ H c then H else pushSave (save k H).2 c k)

theorem idxOf_eq_length {l : List (Key D)} {k : Key D} : l.idxOf k = l.length ↔ k ∉ l := by
  constructor
  · intro h hm
    have := List.idxOf_lt_length_of_mem hm
    omega
  · exact List.idxOf_eq_length

theorem save_fw (c : Nat) (k r : Key D) (H : Tables D) :
    save (.fw c k r) H = if k ∈ H c then (.item c k ((H c).idxOf k) false :: (save r H).1, (save r H).2)
      else (.item c k (H c).length true :: (save k H).1 ++ (save r (pushSave (save k H).2 c k)).1,
        (save r (pushSave (save k H).2 c k)).2) := by
  conv => lhs; unfold save
  dsimp only
  by_cases h : k ∈ H c
  · rw [if_neg (fun h' => (idxOf_eq_length.1 h') h), if_pos h]
  · rw [if_pos (idxOf_eq_length.2 h), if_neg h, idxOf_eq_length.2 h]

/-- Types of the flyweights around are not touched. -/
theorem Known.anc {q : Key D} : ∀ {H : Tables D} {anc : List Nat}, q.Known H anc → ∀ c ∈ anc, (save q H).2 c = H c := by
  induction q with
  | nil => intro H anc h c hc; rfl
  | dat d r ih => intro H anc h c hc; exact ih h c hc
  | fw c' k r ih1 ih2 =>
    intro H anc h c hc
    rw [save_fw]
    split
    · exact ih2 h.2 c hc
    · rename_i hk
      rcases h.1 with h1 | h1
      · exact absurd h1 hk
      · have hne : c ≠ c' := fun he => h1.1 (he ▸ hc)
        have hm : ∀ i l, l ∈ H i → l ∈ pushSave (save k H).2 c' k i := fun i l hl => pushSave_mem (save_mono k H hl)
        dsimp only
        rw [ih2 (h.2.mono hm) c hc]
        simp only [pushSave, if_neg hne]
        exact ih1 h1.2 c (List.mem_cons_of_mem _ hc)

theorem Known.clean {q : Key D} : ∀ {H : Tables D} {anc : List Nat}, q.Known H anc → Clean q H := by
  induction q with
  | nil => intro H anc h; trivial
  | dat d r ih => intro H anc h; exact ih h
  | fw c k r ih1 ih2 =>
    intro H anc h
    refine ⟨fun hk => ?_, ?_⟩
    · rcases h.1 with h1 | h1
      · exact absurd h1 hk
      · exact ⟨ih1 h1.2, Known.anc h1.2 c List.mem_cons_self⟩
    · split
      · exact ih2 h.2
      · exact ih2 (h.2.mono fun i l hl => pushSave_mem (save_mono k H hl))

theorem save_pos (c : Nat) (k : Key D) (H : Tables D) : 0 < (save (.fw c k .nil) H).1.length := by
  rw [save_fw]
  split <;> simp

/-- In states `I`, flyweights made from the keys `P` refer to entries with these very keys.  (No
code of its own: used in statements and proofs.) -/
def Faithful (make : Nat → Key D → σ → Option (Key D) × σ) (P : Nat → Key D → Prop) (I : σ → Prop) : Prop :=
  ∀ w c k, I w → P c k → ∃ w', make c k w = (some k, w') ∧ I w'

theorem round_trip {fmt : Fmt D} {make : Nat → Key D → σ → Option (Key D) × σ} {P : Nat → Key D → Prop} {I : σ → Prop}
    (hf : Faithful make P I) (q : Key D) : ∀ {H : Tables D} {nx : Key D → Want} {acc : Key D}, Clean q H →
    q.Fits fmt nx acc → q.All P → ∀ {w : σ}, I w → ∀ {fuel : Nat}, 2 * (save q H).1.length + 2 ≤ fuel → ∀ rest,
    ∃ w', I w' ∧ loadKey fmt make fuel nx acc ⟨archive q H ++ rest, H, w⟩ = .ok (acc.app q) ⟨rest, (save q H).2, w'⟩ := by
  induction q with
  | nil =>
    intro H nx acc _ hfit _ w hw fuel hfuel rest
    obtain ⟨m, rfl⟩ : ∃ m, fuel = m + 1 := ⟨fuel - 1, by omega⟩
    refine ⟨w, hw, ?_⟩
    have : nx acc = .done := hfit
    simp [loadKey, this, archive, save, app_nil]
  | dat d r ih =>
    intro H nx acc hc hfit hall w hw fuel hfuel rest
    obtain ⟨m, rfl⟩ : ∃ m, fuel = m + 1 := ⟨fuel - 1, by omega⟩
    have hlen : (save (.dat d r) H).1.length = (save r H).1.length + 1 := rfl
    obtain ⟨w', h1, h2⟩ := ih (H := H) (acc := acc.app (.dat d .nil)) hc hfit.2 hall hw (fuel := m) (by omega) rest
    refine ⟨w', h1, ?_⟩
    have ha : archive (.dat d r) H = .dat d :: archive r H := rfl
    rw [loadKey, hfit.1, ha]
    dsimp only [List.cons_append]
    rw [h2, app_assoc]
    rfl
  | fw c k r ih1 ih2 =>
    intro H nx acc hc hfit hall w hw fuel hfuel rest
    obtain ⟨m, rfl⟩ : ∃ m, fuel = m + 1 := ⟨fuel - 1, by omega⟩
    obtain ⟨m, rfl⟩ : ∃ m', m = m' + 1 := ⟨m - 1, by omega⟩
    rw [loadKey, hfit.1]
    dsimp only
    rw [loadFw]
    unfold archive
    rw [save_fw] at hfuel ⊢
    by_cases hk : k ∈ H c
    · simp only [if_pos hk] at hfuel ⊢
      have hlt : (H c).idxOf k < (H c).length := List.idxOf_lt_length_of_mem hk
      have hget : (H c)[(H c).idxOf k]? = some k := by
        rw [List.getElem?_eq_getElem hlt, List.getElem_idxOf]
      obtain ⟨w', h1, h2⟩ := ih2 (H := H) (acc := acc.app (.fw c k .nil)) (by simpa [hk] using hc.2) hfit.2.2 hall.2.2 hw
        (fuel := m + 1) (by simp only [List.length_cons] at hfuel; omega) rest
      refine ⟨w', h1, ?_⟩
      simp only [List.map_cons, Ev.tok, List.cons_append]
      rw [if_neg (by omega), if_neg (by omega), hget]
      dsimp only
      rw [archive] at h2
      rw [h2, app_assoc]
      rfl
    · simp only [if_neg hk] at hfuel ⊢
      obtain ⟨c1, c2⟩ := hc.1 hk
      simp only [List.length_append, List.length_cons] at hfuel
      obtain ⟨w1, hw1, h1⟩ := ih1 (H := H) (acc := .nil) c1 hfit.2.1 hall.2.1 hw (fuel := m) (by omega)
        ((save r (pushSave (save k H).2 c k)).1.map Ev.tok ++ rest)
      obtain ⟨w2, hm2, hw2⟩ := hf w1 c k hw1 hall.1
      have hpush : pushSave (save k H).2 c k = pushLoad (save k H).2 c k := by
        funext i
        simp only [pushSave, pushLoad]
        rw [c2, if_neg hk]
      obtain ⟨w3, hw3, h3⟩ := ih2 (H := pushSave (save k H).2 c k) (acc := acc.app (.fw c k .nil))
        (by simpa [hk] using hc.2) hfit.2.2 hall.2.2 hw2 (fuel := m + 1) (by omega) rest
      refine ⟨w3, hw3, ?_⟩
      simp only [List.map_cons, List.map_append, Ev.tok, List.cons_append, List.append_assoc]
      rw [if_neg (by omega), if_pos trivial]
      rw [archive] at h1
      rw [h1]
      dsimp only
      rw [show Key.app .nil k = k from rfl, hm2]
      dsimp only
      have hget : (pushLoad (save k H).2 c k c)[(H c).length]? = some k := by
        simp [pushLoad, c2]
      rw [hget]
      dsimp only
      rw [archive, hpush] at h3
      rw [hpush, h3, app_assoc]
      rfl

omit [DecidableEq D] in
/-- The entries there are and the flyweights to be loaded have inequivalent keys: the constructor
yields entries with the very keys. -/
theorem intern_faithful {eqv : Nat → Key D → Key D → Bool} {U : Nat → Key D → Prop}
    (hu : ∀ c k l, U c k → U c l → eqv c k l = true → k = l) :
    Faithful (intern eqv) U fun w => ∀ p ∈ w, U p.1 p.2 := by
  intro w c k hw hk
  unfold intern
  cases h : w.find? fun p => p.1 == c && eqv c p.2 k with
  | some p =>
    have h1 := List.find?_some h
    have h2 := List.mem_of_find?_eq_some h
    simp only [Bool.and_eq_true, beq_iff_eq] at h1
    have := hu c p.2 k (h1.1 ▸ hw p h2) hk h1.2
    exact ⟨w, by dsimp only; rw [this], hw⟩
  | none =>
    refine ⟨_, rfl, fun p hp => ?_⟩
    rcases List.mem_append.1 hp with hp | hp
    · exact hw p hp
    · rw [List.mem_singleton.1 hp]
      exact hk

/-! ## Loading into a program that has equivalent keys -/

/-- The same data, and flyweights of the same types with equivalent keys.  (No code of its own:
used in statements and proofs.) -/
def Key.Like (E : Nat → Key D → Key D → Bool) : Key D → Key D → Prop
  | .nil, .nil => True
  | .dat d r, .dat d' r' => d = d' ∧ r.Like E r'
  | .fw c k r, .fw c' k' r' => c = c' ∧ E c k k' = true ∧ r.Like E r'
  | _, _ => False

/-- Equivalence of keys is an equivalence relation, by which keys with the same data and equivalent
flyweights are equivalent.  (No code of its own: used in statements and proofs.) -/
structure EqvOk (E : Nat → Key D → Key D → Bool) : Prop where
  refl : ∀ c k, E c k k = true
  symm : ∀ c k l, E c k l = true → E c l k = true
  trans : ∀ c k l m, E c k l = true → E c l m = true → E c k m = true
  like : ∀ c k l, k.Like E l → E c k l = true

omit [DecidableEq D] in
theorem Key.Like.app {E : Nat → Key D → Key D → Bool} {k : Key D} : ∀ {k' l l' : Key D}, k.Like E k' → l.Like E l' →
    (k.app l).Like E (k'.app l') := by
  induction k with
  | nil => intro k' l l' h1 h2; cases k' <;> simp only [Key.Like] at h1; exact h2
  | dat d r ih =>
    intro k' l l' h1 h2
    cases k' <;> simp only [Key.Like] at h1
    exact ⟨h1.1, ih h1.2 h2⟩
  | fw c k r _ ih =>
    intro k' l l' h1 h2
    cases k' <;> simp only [Key.Like] at h1
    exact ⟨h1.1, h1.2.1, ih h1.2.2 h2⟩

/-- The entries there are have inequivalent keys.  (No code of its own: used in statements and
proofs.) -/
def Apart (E : Nat → Key D → Key D → Bool) (w : List (Nat × Key D)) : Prop :=
  ∀ c k l, (c, k) ∈ w → (c, l) ∈ w → E c k l = true → k = l

/-- The exemplars of the loading side are entries of the program, equivalent to those of the saving side.
(No code of its own: used in statements and proofs.) -/
def Rel (E : Nat → Key D → Key D → Bool) (w : List (Nat × Key D)) (H H' : Tables D) : Prop :=
  ∀ c, (H' c).length = (H c).length ∧ ∀ (i : Nat) (k k' : Key D), (H c)[i]? = some k → (H' c)[i]? = some k' →
    E c k k' = true ∧ (c, k') ∈ w

/-- What is read next does not depend on which of several equivalent flyweights has been read.
(No code of its own: used in statements and proofs.) -/
def NextOk (E : Nat → Key D → Key D → Bool) (nx : Key D → Want) : Prop := ∀ a a', a.Like E a' → nx a = nx a'

/-- The flyweights in it, not those inside keys of others.  (No code of its own: used in
statements and proofs.) -/
def Key.tops : Key D → List (Nat × Key D)
  | .nil => []
  | .dat _ r => r.tops
  | .fw c k r => (c, k) :: r.tops

omit [DecidableEq D] in
theorem intern_spec {E : Nat → Key D → Key D → Bool} (hE : EqvOk E) {w : List (Nat × Key D)} (hw : Apart E w) (c : Nat)
    (k : Key D) : ∃ k' w', intern E c k w = (some k', w') ∧ E c k k' = true ∧ (c, k') ∈ w' ∧ Apart E w' ∧
      ∀ p ∈ w, p ∈ w' := by
  unfold intern
  cases h : w.find? fun p => p.1 == c && E c p.2 k with
  | some p =>
    have h1 := List.find?_some h
    have h2 := List.mem_of_find?_eq_some h
    simp only [Bool.and_eq_true, beq_iff_eq] at h1
    exact ⟨p.2, w, rfl, hE.symm _ _ _ h1.2, h1.1 ▸ h2, hw, fun p hp => hp⟩
  | none =>
    have h1 : ∀ l, (c, l) ∈ w → E c l k = false := by
      intro l hl
      have := List.find?_eq_none.1 h (c, l) hl
      simpa using this
    refine ⟨k, _, rfl, hE.refl c k, by simp, ?_, fun p hp => List.mem_append.2 (.inl hp)⟩
    intro d l m hl hm he
    simp only [List.mem_append, List.mem_singleton, Prod.mk.injEq] at hl hm
    rcases hl with hl | ⟨rfl, rfl⟩ <;> rcases hm with hm | ⟨h2, rfl⟩
    · exact hw d l m hl hm he
    · subst h2
      rw [h1 l hl] at he
      cases he
    · have := h1 m hm
      rw [hE.symm _ _ _ he] at this
      cases this
    · rfl

theorem Rel.push {E : Nat → Key D → Key D → Bool} {w : List (Nat × Key D)} {H H' : Tables D} (h : Rel E w H H')
    {c : Nat} {k k' : Key D} (hk : k ∉ H c) (he : E c k k' = true) (hm : (c, k') ∈ w) :
    Rel E w (pushSave H c k) (pushLoad H' c k') := by
  intro i
  obtain ⟨h1, h2⟩ := h i
  by_cases hi : i = c
  · subst hi
    simp only [pushSave, pushLoad, if_true, if_neg hk]
    refine ⟨by simp [h1], fun j l l' hl hl' => ?_⟩
    by_cases hj : j < (H i).length
    · rw [List.getElem?_append_left hj] at hl
      rw [List.getElem?_append_left (by omega)] at hl'
      exact h2 j l l' hl hl'
    · rw [List.getElem?_append_right (by omega)] at hl
      rw [List.getElem?_append_right (by omega)] at hl'
      have e1 := List.mem_of_getElem? hl
      have e2 := List.mem_of_getElem? hl'
      rw [List.mem_singleton.1 e1, List.mem_singleton.1 e2]
      exact ⟨he, hm⟩
  · simp only [pushSave, pushLoad, if_neg hi]
    exact ⟨h1, h2⟩

omit [DecidableEq D] in
theorem Rel.mono {E : Nat → Key D → Key D → Bool} {w w' : List (Nat × Key D)} {H H' : Tables D} (h : Rel E w H H')
    (hs : ∀ p ∈ w, p ∈ w') : Rel E w' H H' :=
  fun c => ⟨(h c).1, fun i k k' h1 h2 => ⟨((h c).2 i k k' h1 h2).1, hs _ ((h c).2 i k k' h1 h2).2⟩⟩

theorem round_trip_like {fmt : Fmt D} {E : Nat → Key D → Key D → Bool} (hE : EqvOk E) (hfmt : ∀ c, NextOk E (fmt c))
    (q : Key D) : ∀ {H H' : Tables D} {nx : Key D → Want} {acc acc' : Key D}, Clean q H → NextOk E nx →
    q.Fits fmt nx acc → acc.Like E acc' → ∀ {w : List (Nat × Key D)}, Apart E w → Rel E w H H' →
    ∀ {fuel : Nat}, 2 * (save q H).1.length + 2 ≤ fuel → ∀ rest,
    ∃ q' H'' w', loadKey fmt (intern E) fuel nx acc' ⟨archive q H ++ rest, H', w⟩ = .ok (acc'.app q') ⟨rest, H'', w'⟩ ∧
      q.Like E q' ∧ Apart E w' ∧ Rel E w' (save q H).2 H'' ∧ (∀ p ∈ w, p ∈ w') ∧ ∀ p ∈ q'.tops, p ∈ w' := by
  induction q with
  | nil =>
    intro H H' nx acc acc' _ hnx hfit hl w hw hr fuel hfuel rest
    obtain ⟨m, rfl⟩ : ∃ m, fuel = m + 1 := ⟨fuel - 1, by omega⟩
    have : nx acc' = .done := by rw [← hnx _ _ hl]; exact hfit
    exact ⟨.nil, H', w, by simp [loadKey, this, archive, save, app_nil], trivial, hw, hr, fun p hp => hp,
      fun p hp => by cases hp⟩
  | dat d r ih =>
    intro H H' nx acc acc' hc hnx hfit hl w hw hr fuel hfuel rest
    obtain ⟨m, rfl⟩ : ∃ m, fuel = m + 1 := ⟨fuel - 1, by omega⟩
    have hlen : (save (.dat d r) H).1.length = (save r H).1.length + 1 := rfl
    obtain ⟨q', H'', w', h1, h2, h3, h4, h5, h6⟩ := ih (H := H) (H' := H') (acc := acc.app (.dat d .nil))
      (acc' := acc'.app (.dat d .nil)) hc hnx hfit.2 (hl.app ⟨rfl, trivial⟩) hw hr (fuel := m) (by omega) rest
    refine ⟨.dat d q', H'', w', ?_, ⟨rfl, h2⟩, h3, h4, h5, h6⟩
    have ha : archive (.dat d r) H = .dat d :: archive r H := rfl
    rw [loadKey, ← hnx _ _ hl, hfit.1, ha]
    dsimp only [List.cons_append]
    rw [h1, app_assoc]
    rfl
  | fw c k r ih1 ih2 =>
    intro H H' nx acc acc' hc hnx hfit hl w hw hr fuel hfuel rest
    obtain ⟨m, rfl⟩ : ∃ m, fuel = m + 1 := ⟨fuel - 1, by omega⟩
    obtain ⟨m, rfl⟩ : ∃ m', m = m' + 1 := ⟨m - 1, by omega⟩
    rw [loadKey, ← hnx _ _ hl, hfit.1]
    dsimp only
    rw [loadFw]
    unfold archive
    rw [save_fw] at hfuel ⊢
    by_cases hk : k ∈ H c
    · simp only [if_pos hk] at hfuel ⊢
      have hlt : (H c).idxOf k < (H c).length := List.idxOf_lt_length_of_mem hk
      have hget : (H c)[(H c).idxOf k]? = some k := by
        rw [List.getElem?_eq_getElem hlt, List.getElem_idxOf]
      have hlen := (hr c).1
      obtain ⟨k', hk'⟩ : ∃ k', (H' c)[(H c).idxOf k]? = some k' :=
        ⟨_, List.getElem?_eq_getElem (by omega)⟩
      obtain ⟨he, hin⟩ := (hr c).2 _ _ _ hget hk'
      obtain ⟨q', H'', w', h1, h2, h3, h4, h5, h6⟩ := ih2 (H := H) (H' := H') (acc := acc.app (.fw c k .nil))
        (acc' := acc'.app (.fw c k' .nil)) (by simpa [hk] using hc.2) hnx hfit.2.2 (hl.app ⟨rfl, he, trivial⟩) hw hr
        (fuel := m + 1) (by simp only [List.length_cons] at hfuel; omega) rest
      refine ⟨.fw c k' q', H'', w', ?_, ⟨rfl, he, h2⟩, h3, h4, h5, fun p hp => ?_⟩
      · simp only [List.map_cons, Ev.tok, List.cons_append]
        rw [if_neg (by omega), if_neg (by omega), hk']
        dsimp only
        rw [archive] at h1
        rw [h1, app_assoc]
        rfl
      · rcases List.mem_cons.1 hp with rfl | hp
        · exact h5 _ hin
        · exact h6 p hp
    · simp only [if_neg hk] at hfuel ⊢
      obtain ⟨c1, c2⟩ := hc.1 hk
      simp only [List.length_append, List.length_cons] at hfuel
      obtain ⟨k1, H1, w1, a1, a2, a3, a4, a5, a6⟩ := ih1 (H := H) (H' := H') (acc := .nil) (acc' := .nil) c1 (hfmt c)
        hfit.2.1 trivial hw hr (fuel := m) (by omega) ((save r (pushSave (save k H).2 c k)).1.map Ev.tok ++ rest)
      obtain ⟨k', w2, b1, b2, b3, b4, b5⟩ := intern_spec hE a3 c k1
      have he : E c k k' = true := hE.trans _ _ _ _ (hE.like c _ _ a2) b2
      have hr2 : Rel E w2 (pushSave (save k H).2 c k) (pushLoad H1 c k') :=
        (a4.mono b5).push (by rw [c2]; exact hk) he b3
      obtain ⟨q', H'', w', h1, h2, h3, h4, h5, h6⟩ := ih2 (H := pushSave (save k H).2 c k) (H' := pushLoad H1 c k')
        (acc := acc.app (.fw c k .nil)) (acc' := acc'.app (.fw c k' .nil)) (by simpa [hk] using hc.2) hnx hfit.2.2
        (hl.app ⟨rfl, he, trivial⟩) b4 hr2 (fuel := m + 1) (by omega) rest
      refine ⟨.fw c k' q', H'', w', ?_, ⟨rfl, he, h2⟩, h3, h4, fun p hp => h5 p (b5 p (a5 p hp)), fun p hp => ?_⟩
      · simp only [List.map_cons, List.map_append, Ev.tok, List.cons_append, List.append_assoc]
        have hlen := (hr c).1
        rw [if_neg (by omega), if_pos hlen.symm]
        rw [archive] at a1
        rw [a1]
        dsimp only
        rw [show Key.app .nil k1 = k1 from rfl, b1]
        dsimp only
        have hlen1 := (a4 c).1
        rw [c2] at hlen1
        have hget : (pushLoad H1 c k' c)[(H c).length]? = some k' := by
          simp [pushLoad, ← hlen1]
        rw [hget]
        dsimp only
        rw [archive] at h1
        rw [h1, app_assoc]
        rfl
      · rcases List.mem_cons.1 hp with rfl | hp
        · exact h5 _ b3
        · exact h6 p hp

omit [DecidableEq D] in
theorem Key.Like.tops {E : Nat → Key D → Key D → Bool} {k : Key D} : ∀ {k' : Key D}, k.Like E k' → ∀ i : Nat,
    (k.tops[i]? = none ∧ k'.tops[i]? = none) ∨
    ∃ c l l', k.tops[i]? = some (c, l) ∧ k'.tops[i]? = some (c, l') ∧ E c l l' = true := by
  induction k with
  | nil => intro k' h i; cases k' <;> simp only [Key.Like] at h; simp [Key.tops]
  | dat d r ih =>
    intro k' h i
    cases k' <;> simp only [Key.Like] at h
    exact ih h.2 i
  | fw c k r _ ih =>
    intro k' h i
    cases k' <;> simp only [Key.Like] at h
    obtain ⟨rfl, h1, h2⟩ := h
    cases i with
    | zero => exact .inr ⟨_, _, _, rfl, rfl, h1⟩
    | succ i => simpa only [Key.tops, List.getElem?_cons_succ] using ih h2 i

/-! ## Which keys are saved -/

/-- Size of a key.  (No code of its own: used in statements and proofs.) -/
def Key.size : Key D → Nat
  | .nil => 0
  | .dat _ r => r.size + 1
  | .fw _ k r => k.size + r.size + 1

/-- For each time the flyweight of type `c` with key `k` is saved, whether its key is saved.
(No code of its own: used in statements and proofs.) -/
def flags (c : Nat) (k : Key D) (l : List (Ev D)) : List Bool :=
  l.filterMap fun e => match e with
    | .item c' k' _ b => if c' = c ∧ k' = k then some b else none
    | .dat _ => none

theorem flags_append (c : Nat) (k : Key D) (l m : List (Ev D)) : flags c k (l ++ m) = flags c k l ++ flags c k m := by
  simp [flags, List.filterMap_append]

theorem flags_dat (c : Nat) (k : Key D) (d : D) (l : List (Ev D)) : flags c k (.dat d :: l) = flags c k l := by
  simp [flags]

theorem flags_item (c : Nat) (k : Key D) (c' : Nat) (k' : Key D) (n : Nat) (b : Bool) (l : List (Ev D)) :
    flags c k (.item c' k' n b :: l) = if c' = c ∧ k' = k then b :: flags c k l else flags c k l := by
  simp only [flags, List.filterMap_cons]
  split
  · rename_i h
    split at h <;> simp_all
  · rename_i b' h
    split at h <;> simp_all

/-- Only parts of what is saved are saved. -/
theorem flags_small (q : Key D) : ∀ (H : Tables D) {c : Nat} {k : Key D}, q.size ≤ k.size → flags c k (save q H).1 = [] := by
  induction q with
  | nil => intro H c k h; rfl
  | dat d r ih =>
    intro H c k h
    simp only [save, flags_dat]
    exact ih H (by simp only [Key.size] at h; omega)
  | fw c' k' r ih1 ih2 =>
    intro H c k h
    simp only [Key.size] at h
    have hne : ¬ (c' = c ∧ k' = k) := fun he => by rw [he.2] at h; omega
    rw [save_fw]
    split
    · simp only [flags_item, if_neg hne]
      exact ih2 H (by omega)
    · simp only [List.cons_append, flags_item, if_neg hne, flags_append]
      rw [ih1 H (by omega), ih2 _ (by omega)]
      rfl

theorem save_flags (q : Key D) : ∀ (H : Tables D) (c : Nat) (k : Key D),
    (k ∈ H c → ∀ b ∈ flags c k (save q H).1, b = false) ∧
    (k ∉ H c → (flags c k (save q H).1 = [] ∧ k ∉ (save q H).2 c) ∨
      ∃ l, flags c k (save q H).1 = true :: l ∧ (∀ b ∈ l, b = false) ∧ k ∈ (save q H).2 c) := by
  induction q with
  | nil => intro H c k; exact ⟨fun _ b hb => (by cases hb), fun h => .inl ⟨rfl, h⟩⟩
  | dat d r ih =>
    intro H c k
    simp only [save, flags_dat]
    exact ih H c k
  | fw c' k' r ih1 ih2 =>
    intro H c k
    rw [save_fw]
    by_cases hk' : k' ∈ H c'
    · simp only [if_pos hk']
      by_cases he : c' = c ∧ k' = k
      · obtain ⟨rfl, rfl⟩ := he
        refine ⟨fun _ b hb => ?_, fun h => absurd hk' h⟩
        rw [flags_item, if_pos ⟨rfl, rfl⟩] at hb
        rcases List.mem_cons.1 hb with hb | hb
        · exact hb
        · exact (ih2 H c' k').1 hk' b hb
      · simp only [flags_item, if_neg he]
        exact ih2 H c k
    · simp only [if_neg hk', List.cons_append]
      by_cases he : c' = c ∧ k' = k
      · obtain ⟨rfl, rfl⟩ := he
        refine ⟨fun h => absurd h hk', fun _ => .inr ?_⟩
        have hin : k' ∈ pushSave (save k' H).2 c' k' c' := by
          simp only [pushSave, if_true]
          split
          · assumption
          · simp
        refine ⟨_, by rw [flags_item, if_pos ⟨rfl, rfl⟩], fun b hb => ?_, save_mono r _ hin⟩
        rw [flags_append, flags_small k' H (Nat.le_refl _), List.nil_append] at hb
        exact (ih2 _ c' k').1 hin b hb
      · simp only [flags_item, if_neg he, flags_append]
        have hpush : k ∈ pushSave (save k' H).2 c' k' c ↔ k ∈ (save k' H).2 c := by
          refine ⟨fun h => ?_, pushSave_mem⟩
          simp only [pushSave] at h
          split at h
          · rename_i hcc
            split at h
            · rw [hcc]; exact h
            · rcases List.mem_append.1 h with h | h
              · rw [hcc]; exact h
              · exact absurd ⟨hcc.symm, (List.mem_singleton.1 h).symm⟩ he
          · exact h
        obtain ⟨a1, a2⟩ := ih1 H c k
        obtain ⟨b1, b2⟩ := ih2 (pushSave (save k' H).2 c' k') c k
        rw [hpush] at b1 b2
        constructor
        · intro h b hb
          rcases List.mem_append.1 hb with hb | hb
          · exact a1 h b hb
          · exact b1 (save_mono k' H h) b hb
        · intro h
          rcases a2 h with ⟨h1, h2⟩ | ⟨l, h1, h2, h3⟩
          · rw [h1, List.nil_append]
            exact b2 h2
          · right
            refine ⟨l ++ flags c k (save r (pushSave (save k' H).2 c' k')).1, by rw [h1]; rfl, fun b hb => ?_,
              save_mono r _ (hpush.2 h3)⟩
            rcases List.mem_append.1 hb with hb | hb
            · exact h2 b hb
            · exact b1 h3 b hb

/-- Only parts of what is saved become exemplars. -/
theorem save_parts (q : Key D) : ∀ (H : Tables D) {c : Nat} {l : Key D}, l ∈ (save q H).2 c → l ∈ H c ∨ l.size < q.size := by
  induction q with
  | nil => intro H c l h; exact .inl h
  | dat d r ih =>
    intro H c l h
    exact (ih H h).imp id fun h => by simp only [Key.size]; omega
  | fw c' k r ih1 ih2 =>
    intro H c l h
    rw [save_fw] at h
    simp only [Key.size]
    split at h
    · exact (ih2 H h).imp id fun h => by omega
    · rcases ih2 _ h with h | h
      · simp only [pushSave] at h
        split at h
        · rename_i hc
          subst hc
          split at h
          · exact (ih1 H h).imp id fun h => by omega
          · rcases List.mem_append.1 h with h | h
            · exact (ih1 H h).imp id fun h => by omega
            · rw [List.mem_singleton.1 h]
              exact .inr (by omega)
        · exact (ih1 H h).imp id fun h => by omega
      · exact .inr (by omega)

end

/-! ## Any archive -/

/-- What holds of every outcome of loading into a flyweight with value `f` of type `c`.  (No
code of its own: used in statements and proofs.) -/
def LoadOk (s : LSt σ D) (c : Nat) (f : Key D) : Res σ D → Prop
  | .ok k s' => k ∈ s'.tab c ∧ s'.toks.length < s.toks.length ∧ ∀ i, s.tab i <+: s'.tab i
  | .exc f' s' => f' = f ∧ s'.toks.length ≤ s.toks.length ∧ ∀ i, s.tab i <+: s'.tab i
  | .ub => False
  | .fuel => False

/-- What holds of every outcome of loading a key.  (No code of its own: used in statements and
proofs.) -/
def KeyOk (s : LSt σ D) : Res σ D → Prop
  | .ok _ s' => s'.toks.length ≤ s.toks.length ∧ ∀ i, s.tab i <+: s'.tab i
  | .exc _ s' => s'.toks.length ≤ s.toks.length ∧ ∀ i, s.tab i <+: s'.tab i
  | .ub => False
  | .fuel => False

theorem pushLoad_prefix (H : Tables D) (c : Nat) (k : Key D) (i : Nat) : H i <+: pushLoad H c k i := by
  unfold pushLoad
  split
  · rename_i h
    rw [h]
    exact List.prefix_append _ _
  · exact List.prefix_refl _

theorem load_ok (fmt : Fmt D) (make : Nat → Key D → σ → Option (Key D) × σ) (fuel : Nat) :
    (∀ c f (s : LSt σ D), 2 * s.toks.length + 1 ≤ fuel → LoadOk s c f (loadFw fmt make fuel c f s)) ∧
    (∀ nx acc (s : LSt σ D), 2 * s.toks.length + 2 ≤ fuel → KeyOk s (loadKey fmt make fuel nx acc s)) := by
  induction fuel with
  | zero => exact ⟨fun _ _ _ h => by omega, fun _ _ _ h => by omega⟩
  | succ fuel ih =>
    obtain ⟨ih1, ih2⟩ := ih
    constructor
    · intro c f s hfuel
      rw [loadFw]
      split
      · rename_i n ts hts
        have hlen : s.toks.length = ts.length + 1 := by rw [hts]; rfl
        split
        · exact ⟨rfl, by dsimp only; omega, fun i => List.prefix_refl _⟩
        split
        · rename_i hn
          have hk := ih2 (fmt c) .nil { s with toks := ts } (by dsimp only; omega)
          cases hr : loadKey fmt make fuel (fmt c) .nil { s with toks := ts } with
          | ok k s1 =>
            rw [hr] at hk
            obtain ⟨h1, h2⟩ := hk
            dsimp only at h1 h2 ⊢
            cases hm : make c k s1.w with
            | mk o w =>
              cases o with
              | none => exact ⟨rfl, by dsimp only; omega, h2⟩
              | some k' =>
                dsimp only
                have hpre : ∀ i, s.tab i <+: pushLoad s1.tab c k' i := fun i => (h2 i).trans (pushLoad_prefix _ _ _ _)
                have hlt : n < (pushLoad s1.tab c k' c).length := by
                  have := (h2 c).length_le
                  simp only [pushLoad, if_true, List.length_append, List.length_singleton]
                  omega
                rw [List.getElem?_eq_getElem hlt]
                exact ⟨List.getElem_mem hlt, by dsimp only; omega, hpre⟩
          | exc f' s1 =>
            rw [hr] at hk
            obtain ⟨h1, h2⟩ := hk
            dsimp only at h1
            exact ⟨rfl, by omega, h2⟩
          | ub => rw [hr] at hk; exact hk
          | fuel => rw [hr] at hk; exact hk
        · rename_i h1 h2
          have hlt : n < (s.tab c).length := by omega
          rw [List.getElem?_eq_getElem hlt]
          exact ⟨List.getElem_mem hlt, by dsimp only; omega, fun i => List.prefix_refl _⟩
      · exact ⟨rfl, Nat.le_refl _, fun i => List.prefix_refl _⟩
    · intro nx acc s hfuel
      rw [loadKey]
      split
      · exact ⟨Nat.le_refl _, fun i => List.prefix_refl _⟩
      · exact ⟨Nat.le_refl _, fun i => List.prefix_refl _⟩
      · split
        · rename_i d ts hts
          have hlen : s.toks.length = ts.length + 1 := by rw [hts]; rfl
          have hk := ih2 nx (acc.app (.dat d .nil)) { s with toks := ts } (by dsimp only; omega)
          cases hr : loadKey fmt make fuel nx (acc.app (.dat d .nil)) { s with toks := ts } with
          | ok k s1 => rw [hr] at hk; obtain ⟨h1, h2⟩ := hk; dsimp only at h1; exact ⟨by omega, h2⟩
          | exc f s1 => rw [hr] at hk; obtain ⟨h1, h2⟩ := hk; dsimp only at h1; exact ⟨by omega, h2⟩
          | ub => rw [hr] at hk; exact hk
          | fuel => rw [hr] at hk; exact hk
        · exact ⟨Nat.le_refl _, fun i => List.prefix_refl _⟩
      · rename_i c _
        have hl := ih1 c .nil s (by omega)
        cases hr : loadFw fmt make fuel c .nil s with
        | ok k s1 =>
          rw [hr] at hl
          obtain ⟨_, h1, h2⟩ := hl
          dsimp only
          have hk := ih2 nx (acc.app (.fw c k .nil)) s1 (by omega)
          cases hr' : loadKey fmt make fuel nx (acc.app (.fw c k .nil)) s1 with
          | ok k' s2 => rw [hr'] at hk; obtain ⟨h3, h4⟩ := hk; exact ⟨by omega, fun i => (h2 i).trans (h4 i)⟩
          | exc f s2 => rw [hr'] at hk; obtain ⟨h3, h4⟩ := hk; exact ⟨by omega, fun i => (h2 i).trans (h4 i)⟩
          | ub => rw [hr'] at hk; exact hk
          | fuel => rw [hr'] at hk; exact hk
        | exc f s1 => rw [hr] at hl; exact ⟨hl.2.1, hl.2.2⟩
        | ub => rw [hr] at hl; exact hl
        | fuel => rw [hr] at hl; exact hl

end Verif.Serial

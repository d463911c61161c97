import Verif.Examples.Composite
import Verif.Props.NestedRef

/-!
# C45: the nested lists of the composite example

A list is the tree whose label is `none` and whose forest are its elements.
`flat` writes a forest as tokens.
-/

set_option autoImplicit false

namespace Verif.Props

open Verif.Nest Verif.Composite

/-- What a program does with lists: parse a text and keep the list, unless the
text is rejected, or destroy a list.  (No code of its own: used to state a property or an
example.) -/
inductive ListCmd where
  | parse (text : Str)
  | drop (i : Nat)

/-- One statement; `none` is undefined behaviour.  (No code of its own: used to state a property
or an example.) -/
def listStep (s : Prog Label) : ListCmd → Option (Prog Label)
  | .parse text =>
    match parseText text s.heap with
    | .ub => none
    | .exc H => some ⟨s.vars, H⟩
    | .ok h _ H => some ⟨h :: s.vars, H⟩
  | .drop i => s.step (.drop i)

/-- A program from its beginning, last statement first.  (No code of its own: used to state a
property or an example.) -/
def listRun (alloc : Nat → List Nat → Nat) : List ListCmd → Option (Prog Label)
  | [] => some ⟨[], ⟨[], alloc, 0⟩⟩
  | c :: cs => (listRun alloc cs).bind fun s => listStep s c

theorem listRun_inv (alloc : Nat → List Nat → Nat) (ha : ∀ t l, alloc t l ∉ l) :
    ∀ cs, ∃ s, listRun alloc cs = some s ∧ Nest.Inv s.vars s.heap
  | [] => ⟨_, rfl, inv_empty alloc ha⟩
  | c :: cs => by
    obtain ⟨s, h1, I⟩ := listRun_inv alloc ha cs
    cases c with
    | parse text =>
      rcases parseText_spec I text with ⟨h, H', f, e, I', _⟩ | ⟨H', e, I', _⟩
      · exact ⟨⟨h :: s.vars, H'⟩, by simp [listRun, h1, listStep, e], I'⟩
      · exact ⟨⟨s.vars, H'⟩, by simp [listRun, h1, listStep, e], I'⟩
    | drop i =>
      obtain ⟨f, hf⟩ := I.means (hs := s.vars) fun x hx => I.root hx
      obtain ⟨s', e, h'⟩ := step_agree ⟨I, means_iff.1 hf⟩ (.drop i)
      exact ⟨s', by simp [listRun, h1, listStep, e], h'.inv⟩

theorem atoms_text {text : Str} {f : Forest Label} (ha : Atoms NoParen f)
    (ht : tokens text = flat f) : Atoms (fun s => Word s ∧ ∀ c ∈ s, c ∈ text) f := by
  refine atoms_of_flat ha fun s hs hn => ?_
  rw [← ht] at hs
  rcases tokensFrom_words text [] (by simp) s hs with h | h | ⟨h, h'⟩
  · exact absurd h hn.1
  · exact absurd h hn.2
  · refine ⟨h, fun c hc => ?_⟩
    rcases h' c hc with h | h
    · cases h
    · exact h

/-- The tokens determine the lists. -/
theorem flat_inj : ∀ {f g : Forest Label} {ts ts' : List Str}, Atoms NoParen f → Atoms NoParen g →
    (ts = [] ∨ ts.head? = some [')']) → (ts' = [] ∨ ts'.head? = some [')']) →
    flat f ++ ts = flat g ++ ts' → f = g ∧ ts = ts'
  | .nil, .nil, _, _, _, _, _, _, h => ⟨rfl, h⟩
  | .nil, .cons (some s) _ _, ts, ts', _, ⟨hs, _⟩, ht, _, h => by
    simp only [flat, List.nil_append, List.cons_append] at h
    subst h
    rcases ht with h | h
    · cases h
    · simp only [List.head?_cons, Option.some.injEq] at h; exact absurd h hs.2
  | .nil, .cons none _ _, ts, ts', _, _, ht, _, h => by
    simp only [flat, List.nil_append, List.cons_append] at h
    subst h
    rcases ht with h | h
    · cases h
    · simp at h
  | .cons (some s) _ _, .nil, ts, ts', ⟨hs, _⟩, _, _, ht, h => by
    simp only [flat, List.nil_append, List.cons_append] at h
    subst h
    rcases ht with h | h
    · cases h
    · simp only [List.head?_cons, Option.some.injEq] at h; exact absurd h hs.2
  | .cons none _ _, .nil, ts, ts', _, _, _, ht, h => by
    simp only [flat, List.nil_append, List.cons_append] at h
    subst h
    rcases ht with h | h
    · cases h
    · simp at h
  | .cons (some s) b f, .cons (some s') b' g, ts, ts', ⟨_, h2, h3⟩, ⟨_, h2', h3'⟩, ht, ht', h => by
    simp only [flat, List.cons_append, List.cons.injEq] at h
    obtain ⟨e1, e2⟩ := flat_inj h3 h3' ht ht' h.2
    subst h2 h2' e1
    exact ⟨by rw [h.1], e2⟩
  | .cons (some s) b f, .cons none b' g, ts, ts', ⟨h1, _⟩, _, _, _, h => by
    simp only [flat, List.cons_append, List.cons.injEq] at h
    exact absurd h.1 h1.1
  | .cons none b f, .cons (some s) b' g, ts, ts', _, ⟨h1, _⟩, _, _, h => by
    simp only [flat, List.cons_append, List.cons.injEq] at h
    exact absurd h.1.symm h1.1
  | .cons none b f, .cons none b' g, ts, ts', ⟨h1, h2⟩, ⟨h1', h2'⟩, ht, ht', h => by
    simp only [flat, List.cons_append, List.cons.injEq, List.append_assoc, true_and] at h
    obtain ⟨e1, e2⟩ := flat_inj h1 h1' (.inr rfl) (.inr rfl) h
    simp only [List.cons.injEq, true_and] at e2
    obtain ⟨e3, e4⟩ := flat_inj h2 h2' ht ht' e2
    exact ⟨by rw [e1, e3], e4⟩

/-- Programs of parsing and destroying lists are free of undefined behaviour,
also when texts are rejected by an exception in the middle of a list. -/
theorem C45_safe (alloc : Nat → List Nat → Nat) (ha : ∀ t l, alloc t l ∉ l)
    (cs : List ListCmd) : ∃ s, listRun alloc cs = some s := by
  obtain ⟨s, h, _⟩ := listRun_inv alloc ha cs
  exact ⟨s, h⟩

/-- A text is accepted exactly if it is the text of some sequence of nested
lists; the result is that list, made of words of the text. -/
theorem C45_parse (alloc : Nat → List Nat → Nat) (ha : ∀ t l, alloc t l ∉ l) (cs : List ListCmd)
    (s : Prog Label) (hs : listRun alloc cs = some s) (text : Str) :
    (∃ h H f, parseText text s.heap = .ok h [] H ∧ Is H (none, f) h ∧
      Atoms (fun w => Word w ∧ ∀ c ∈ w, c ∈ text) f ∧ tokens text = flat f) ∨
    (∃ H, parseText text s.heap = .exc H ∧ ¬ ∃ f, Atoms NoParen f ∧ tokens text = flat f) := by
  obtain ⟨s', h1, I⟩ := listRun_inv alloc ha cs
  rw [hs] at h1
  cases h1
  rcases parseText_spec I text with ⟨h, H', f, e, I', _, m, a, t⟩ | ⟨H', e, _, _, hn⟩
  · exact .inl ⟨h, H', f, e, is_iff.2 m, atoms_text a t, t⟩
  · exact .inr ⟨H', e, hn⟩

/-- Printing a list obtained from a line of text gives the tokens of the text in
one more pair of parentheses (the result of parsing is the list of all that is
on the line).  Partial: newlines have to be read as blanks, see `C45_violated`. -/
theorem C45_print_partial (alloc : Nat → List Nat → Nat) (ha : ∀ t l, alloc t l ∉ l)
    (cs : List ListCmd) (s : Prog Label) (hs : listRun alloc cs = some s) (text : Str)
    (hl : '\n' ∉ text) (h : Nat) (rest : List Str) (H : Heap Label)
    (hp : parseText text s.heap = .ok h rest H) :
    ∃ out steps, (∀ fuel, steps ≤ fuel → print fuel 0 [h] H = some out) ∧
      tokens (blanks out) = ['('] :: tokens text ++ [[')']] := by
  rcases C45_parse alloc ha cs s hs text with ⟨h', H', f, e, i, a, t⟩ | ⟨H', e, _⟩
  · rw [hp] at e
    cases e
    refine ⟨render 0 (.tree none f), (Forest.tree none f).size, fun fuel hf =>
      print_ok _ _ _ _ (is_iff.1 i) hf, ?_⟩
    have := tokens_render (.tree none f) 0 [] ⟨a.mono fun w hw => ⟨hw.1, fun hn => hl (hw.2 _ hn)⟩,
      trivial⟩
    rw [List.append_nil] at this
    unfold tokens at t ⊢
    rw [this, t]
    simp [flat, tokensFrom, flush]
  · rw [hp] at e; cases e

/-- Parsing a printed list gives the list whose only element is the one printed:
not a copy, but the same entry.  Partial: newlines have to be read as blanks,
see `C45_violated`. -/
theorem C45_reparse_partial (alloc : Nat → List Nat → Nat) (ha : ∀ t l, alloc t l ∉ l)
    (cs : List ListCmd) (s : Prog Label) (hs : listRun alloc cs = some s) (text : Str)
    (hl : '\n' ∉ text) (h : Nat) (rest : List Str) (H : Heap Label)
    (hp : parseText text s.heap = .ok h rest H) (out : Str)
    (hout : ∃ steps, ∀ fuel, steps ≤ fuel → print fuel 0 [h] H = some out) :
    ∃ h' H', parseText (blanks out) H = .ok h' [] H' ∧ H'.val h' = some ⟨none, [h]⟩ := by
  obtain ⟨out', steps, hs1, hs2⟩ := C45_print_partial alloc ha cs s hs text hl h rest H hp
  obtain ⟨more, hm⟩ := hout
  have he : out = out' := by
    have h1 := hs1 (max steps more) (Nat.le_max_left _ _)
    have h2 := hm (max steps more) (Nat.le_max_right _ _)
    rw [h1] at h2
    cases h2
    rfl
  subst he
  obtain ⟨s', h1, I⟩ := listRun_inv alloc ha cs
  rw [hs] at h1
  cases h1
  rcases parseText_spec I text with ⟨h', H1, f, e, I', _, m, a, t⟩ | ⟨H1, e, _⟩
  · rw [hp] at e
    cases e
    have hflat : tokens (blanks out) = flat (.tree none f) := by
      rw [hs2, t]; simp [flat]
    rcases parseText_spec I' (blanks out) with ⟨h2, H2, f2, e2, I2, k2, m2, a2, t2⟩ | ⟨H2, e2, _, _, hn⟩
    · refine ⟨h2, H2, e2, ?_⟩
      have hf2 : f2 = .tree none f := by
        have : flat f2 ++ [] = flat (.tree none f) ++ [] := by
          rw [List.append_nil, List.append_nil, ← t2, hflat]
        exact (flat_inj (g := .tree none f) a2 ⟨a, trivial⟩ (.inl rfl) (.inl rfl) this).1
      subst hf2
      obtain ⟨x, sub, rest, e, hv, hsub, _⟩ := m2
      cases e
      have hk := k2 (g := .tree none f) (hs := [h]) (by simp) m
      rw [hv, Means.shared I2.canon hsub hk]
    · exact absurd ⟨.tree none f, ⟨a, trivial⟩, hflat⟩ hn
  · rw [hp] at e; cases e

/-- Equal lists and strings, wherever they occur, are one entry. -/
theorem C45_shared (alloc : Nat → List Nat → Nat) (ha : ∀ t l, alloc t l ∉ l)
    (cs : List ListCmd) (s : Prog Label) (hs : listRun alloc cs = some s) (t t' : Tree Label)
    (x x' : Nat) (hx : Is s.heap t x) (hx' : Is s.heap t' x') : x = x' ↔ t = t' := by
  obtain ⟨s', h1, I⟩ := listRun_inv alloc ha cs
  rw [hs] at h1
  cases h1
  constructor
  · rintro rfl
    have := Means.unique (is_iff.1 hx) (is_iff.1 hx')
    cases t; cases t'; cases this; rfl
  · rintro rfl
    have := Means.shared I.canon (is_iff.1 hx) (is_iff.1 hx')
    simpa using this

/-- The table holds exactly the lists and strings that occur in the lists held:
nothing is left of destroyed lists and rejected texts. -/
theorem C45_exact (alloc : Nat → List Nat → Nat) (ha : ∀ t l, alloc t l ∉ l)
    (cs : List ListCmd) (s : Prog Label) (hs : listRun alloc cs = some s) (t : Tree Label) :
    (∃ x, Is s.heap t x) ↔ ∃ r, (∃ h ∈ s.vars, Is s.heap r h) ∧ Subtree t r := by
  obtain ⟨s', h1, I⟩ := listRun_inv alloc ha cs
  rw [hs] at h1
  cases h1
  obtain ⟨f, hf⟩ := I.means (hs := s.vars) fun x hx => I.root hx
  rw [Agree.exact ⟨I, means_iff.1 hf⟩]
  constructor
  · rintro ⟨r, hr, ht⟩
    obtain ⟨i, hi⟩ := List.getElem?_of_mem hr
    rcases forall₂_get (means_iff.1 hf) i with ⟨h2, _⟩ | ⟨r', y, h1, h2, h3⟩
    · rw [hi] at h2; cases h2
    · rw [hi] at h1
      cases h1
      exact ⟨r, ⟨y, List.mem_of_getElem? h2, h3⟩, ht⟩
  · rintro ⟨r, ⟨h, hh, hr⟩, ht⟩
    obtain ⟨i, hi⟩ := List.getElem?_of_mem hh
    rcases forall₂_get (means_iff.1 hf) i with ⟨_, h2⟩ | ⟨r', y, h1, h2, h3⟩
    · rw [hi] at h2; cases h2
    · rw [hi] at h2
      cases h2
      have := Means.unique (is_iff.1 hr) (is_iff.1 h3)
      have he : r = r' := by cases r; cases r'; cases this; rfl
      exact ⟨r', List.mem_of_getElem? h1, he ▸ ht⟩

/-- Two texts give the same list if and only if they have the same tokens. -/
theorem C45_texts (alloc : Nat → List Nat → Nat) (ha : ∀ t l, alloc t l ∉ l)
    (cs : List ListCmd) (s : Prog Label) (hs : listRun alloc cs = some s) (text text' : Str)
    (h h' : Nat) (rest rest' : List Str) (H H' : Heap Label)
    (hp : parseText text s.heap = .ok h rest H) (hp' : parseText text' H = .ok h' rest' H') :
    h = h' ↔ tokens text = tokens text' := by
  obtain ⟨s', h1, I⟩ := listRun_inv alloc ha cs
  rw [hs] at h1
  cases h1
  rcases parseText_spec I text with ⟨y, H1, f, e, I', _, m, a, t⟩ | ⟨H1, e, _⟩
  · rw [hp] at e
    cases e
    rcases parseText_spec I' text' with ⟨y, H1, f', e, I2, k2, m', a', t'⟩ | ⟨H1, e, _⟩
    · rw [hp'] at e
      cases e
      have m2 := k2 (g := .tree none f) (hs := [h]) (by simp) m
      rw [t, t']
      constructor
      · rintro rfl
        have := Means.unique m2 m'
        cases this
        rfl
      · intro hf
        have := (flat_inj (ts := []) (ts' := []) a a' (.inl rfl) (.inl rfl) (by rw [hf])).1
        subst this
        simpa using Means.shared I2.canon m2 m'
    · rw [hp'] at e; cases e
  · rw [hp] at e; cases e

/-- The tables of the examples.  (No code of its own: used to state a property or an example.) -/
def listHeap : Heap Label := ⟨[], fun _ l => l.sum + 1, 0⟩

/-- Parse a text, print the list, parse what has been printed after `g`.  (No code of its own:
used to state a property or an example.) -/
def reread (g : Str → Str) (text : String) : Option (Option String × Option Nat) :=
  match parseText text.toList listHeap with
  | .ok h _ H =>
    match print 100 0 [h] H with
    | some out =>
      match parseText (g out) H with
      | .ok h' _ H' =>
        some (some (String.ofList out), ((H'.val h').bind fun v => if v.subs = [h] then some v.subs.length
          else none))
      | _ => some (some (String.ofList out), none)
    | none => none
  | _ => none

/-- The printed text is not separated by blanks only: as newlines are no
separators for `parse_list`, they become part of the words, and reading the
text back does not give the list. -/
theorem C45_violated :
    tokens "(\n  a\n)\n".toList = ["(", "\n", "a\n", ")", "\n"].map String.toList ∧
    reread id "a" = some (some "(\n  a\n)\n", none) ∧
    reread blanks "a" = some (some "(\n  a\n)\n", some 1) := by
  decide +kernel

/-- A larger text, with shared sublists. -/
example : reread blanks "(a b) c ((a b) ())" =
    some (some "(\n  (\n    a\n    b\n  )\n  c\n  (\n    (\n      a\n      b\n    )\n    (\n    )\n  )\n)\n",
      some 1) := by
  decide +kernel

/-- Its ten nodes are seven entries. -/
example : (match parseText "(a b) c ((a b) ())".toList listHeap with
    | .ok _ rest H => some (rest, H.ents.length)
    | _ => none) = some ([], 7) := by
  decide +kernel

/-- Rejected texts leave nothing behind. -/
example : (["(a (b)", "a) b", ")", "(("].map fun t =>
    match parseText (String.toList t) listHeap with
    | .exc H => some H.ents.length
    | _ => none) = [some 0, some 0, some 0, some 0] := by
  decide +kernel

end Verif.Props

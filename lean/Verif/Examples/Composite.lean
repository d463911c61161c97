import Verif.NestedProg

/-!
# The nested lists of example/composite.cpp
-/

set_option autoImplicit false

namespace Verif.Composite

open Nest

/-- Strings.  (No code of its own: `std::string`.) -/
abbrev Str := List Char

/-- `list_impl`, /repo/example/composite.cpp:37-46: a string (`some`, with no flyweights
in the value) or a vector of lists (`none`). -/
abbrev Label := Option Str

/-! ## The code -/

/-- The word read so far, as a token; empty tokens are dropped.  Part of
`boost::char_separator`, used in /repo/example/composite.cpp:155-157. -/
def flush : Str → List Str
  | [] => []
  | w => [w]

/-- The tokens of a text for `char_separator<char>(" ","()")`,
/repo/example/composite.cpp:155-156: blanks separate and are dropped, parentheses
separate and are tokens.  `w` is the word read so far.  (Boost.Tokenizer is not in the repository;
this follows its documentation.) -/
def tokensFrom (w : Str) : Str → List Str
  | [] => flush w
  | c :: cs =>
    if c = ' ' then flush w ++ tokensFrom [] cs
    else if c = '(' ∨ c = ')' then flush w ++ [c] :: tokensFrom [] cs
    else tokensFrom (w ++ [c]) cs

/-- All tokens. (As `tokensFrom`.)  Models /repo/example/composite.cpp:155-157. -/
def tokens (text : Str) : List Str := tokensFrom [] text

/-- Result of parsing. (No code of its own.) -/
inductive Parsed where
  | ub
  | exc (H : Heap Label)
  | ok (h : Nat) (rest : List Str) (H : Heap Label)

/-- Leaving `parse_list` by an exception: `elms` is destroyed,
/repo/example/composite.cpp:135, 142, 149. -/
def throwing (elms : List Nat) (H : Heap Label) : Parsed :=
  match drop elms H with
  | none => .ub
  | some H => .exc H

/-- `return list(elms);`, /repo/example/composite.cpp:143, 150: the list is constructed,
then `elms` destroyed. -/
def finish (elms : List Nat) (rest : List Str) (H : Heap Label) : Parsed :=
  match make ⟨none, elms⟩ false H with
  | .ub => .ub
  | .exc H => throwing elms H
  | .ok h H =>
    match drop elms H with
    | none => .ub
    | some H => .ok h rest H

/-- `elms.push_back(temporary)`, /repo/example/composite.cpp:139, 146: copy into the vector,
destroy the temporary.  Simplification: the copies made when the vector grows are
not represented. -/
def push (h : Nat) (H : Heap Label) : Option (Heap Label) := (addRef h H).bind (drop [h])

/-- `parse_list(first,last,nest)` from some point of its loop on,
/repo/example/composite.cpp:132-151; `elms` is the local vector.  The first argument
bounds the number of steps, running out of it is undefined.  Simplification:
memory is never exhausted (cf. `Nest.make` for a throwing construction). -/
def parse : Nat → List Str → Nat → List Nat → Heap Label → Parsed
  | 0, _, _, _, _ => .ub
  | _ + 1, [], nest, elms, H => if nest ≠ 0 then throwing elms H else finish elms [] H
  | fuel + 1, t :: ts, nest, elms, H =>
    if t = ['('] then
      match parse fuel ts (nest + 1) [] H with
      | .ub => .ub
      | .exc H => throwing elms H
      | .ok h rest H =>
        match push h H with
        | none => .ub
        | some H => parse fuel rest nest (elms ++ [h]) H
    else if t = [')'] then
      if nest = 0 then throwing elms H else finish elms ts H
    else
      match make ⟨some t, []⟩ false H with
      | .ub => .ub
      | .exc H => throwing elms H
      | .ok h H =>
        match push h H with
        | none => .ub
        | some H => parse fuel ts nest (elms ++ [h]) H

/-- `parse_list(str)`, /repo/example/composite.cpp:153-159. -/
def parseText (text : Str) (H : Heap Label) : Parsed :=
  parse ((tokens text).length + 1) (tokens text) 0 [] H

/-- `indent()`, /repo/example/composite.cpp:116-119. -/
def indent : Nat → Str
  | 0 => []
  | n + 1 => ' ' :: ' ' :: indent n

/-- `list_pretty_printer` applied to lists one after another,
/repo/example/composite.cpp:94-113; undefined if an entry is gone.  The first
argument bounds the number of steps. -/
def print : Nat → Nat → List Nat → Heap Label → Option Str
  | _, _, [], _ => some []
  | 0, _, _ :: _, _ => none
  | fuel + 1, nest, h :: hs, H =>
    match H.val h with
    | none => none
    | some ⟨some s, _⟩ =>
      (print fuel nest hs H).map fun r => indent nest ++ s ++ '\n' :: r
    | some ⟨none, subs⟩ =>
      (print fuel (nest + 1) subs H).bind fun b =>
        (print fuel nest hs H).map fun r =>
          indent nest ++ '(' :: '\n' :: b ++ indent nest ++ ')' :: '\n' :: r

/-! ## Specification -/

/-- The tokens of a sequence of nested lists.  (No code of its own: used in statements and
proofs.) -/
def flat : Forest Label → List Str
  | .nil => []
  | .cons (some s) _ g => s :: flat g
  | .cons none f g => ['('] :: flat f ++ [')'] :: flat g

/-- The printed form.  (No code of its own: used in statements and proofs.) -/
def render : Nat → Forest Label → Str
  | _, .nil => []
  | n, .cons (some s) _ g => indent n ++ s ++ '\n' :: render n g
  | n, .cons none f g =>
    indent n ++ '(' :: '\n' :: render (n + 1) f ++ indent n ++ ')' :: '\n' :: render n g

/-- Strings contain no lists and satisfy `P`.  (No code of its own: used in statements and
proofs.) -/
def Atoms (P : Str → Prop) : Forest Label → Prop
  | .nil => True
  | .cons (some s) f g => P s ∧ f = .nil ∧ Atoms P g
  | .cons none f g => Atoms P f ∧ Atoms P g

/-- Neither parenthesis as a token.  (No code of its own: used in statements and proofs.) -/
def NoParen (s : Str) : Prop := s ≠ ['('] ∧ s ≠ [')']

/-- A word: not empty, without blanks and parentheses.  (No code of its own: used in statements
and proofs.) -/
def Word (s : Str) : Prop := s ≠ [] ∧ ∀ c ∈ s, c ≠ ' ' ∧ c ≠ '(' ∧ c ≠ ')'

/-- Concatenation.  (No code of its own: used in statements and proofs.) -/
def Forest.app : Forest Label → Forest Label → Forest Label
  | .nil, g => g
  | .cons l f f', g => .cons l f (Forest.app f' g)

/-! ## Forests -/

theorem app_nil : ∀ f : Forest Label, Forest.app f .nil = f
  | .nil => rfl
  | .cons l f g => by simp [Forest.app, app_nil g]

theorem app_assoc : ∀ f g h : Forest Label,
    Forest.app (Forest.app f g) h = Forest.app f (Forest.app g h)
  | .nil, _, _ => rfl
  | .cons l f f', g, h => by simp [Forest.app, app_assoc f' g h]

theorem means_app {H : Heap Label} : ∀ {f g : Forest Label} {hs gs : List Nat},
    Means H f hs → Means H g gs → Means H (Forest.app f g) (hs ++ gs)
  | .nil, _, _, _, h, h' => by
    change _ = [] at h
    subst h; exact h'
  | .cons _ _ _, _, _, _, ⟨x, sub, rest, e, h1, h2, h3⟩, h' => by
    subst e
    exact ⟨x, sub, _, rfl, h1, h2, means_app h3 h'⟩

theorem Atoms.mono {P Q : Str → Prop} (h : ∀ s, P s → Q s) : ∀ {f : Forest Label},
    Atoms P f → Atoms Q f
  | .nil, _ => trivial
  | .cons (some _) _ _, ⟨h1, h2, h3⟩ => ⟨h _ h1, h2, Atoms.mono h h3⟩
  | .cons none _ _, ⟨h1, h2⟩ => ⟨Atoms.mono h h1, Atoms.mono h h2⟩

/-- Which strings occur is known from the tokens. -/
theorem atoms_of_flat {P : Str → Prop} : ∀ {f : Forest Label}, Atoms NoParen f →
    (∀ s ∈ flat f, NoParen s → P s) → Atoms P f
  | .nil, _, _ => trivial
  | .cons (some s) _ g, ⟨h1, h2, h3⟩, h =>
    ⟨h s (by simp [flat]) h1, h2, atoms_of_flat h3 fun x hx => h x (by simp [flat, hx])⟩
  | .cons none f g, ⟨h1, h2⟩, h =>
    ⟨atoms_of_flat h1 fun x hx => h x (by simp [flat, hx]),
      atoms_of_flat h2 fun x hx => h x (by simp [flat, hx])⟩

/-! ## The parser -/

/-- Lists held by the caller keep their meaning.  (No code of its own: used in statements and
proofs.) -/
def Keeps (R : List Nat) (H H' : Heap Label) : Prop :=
  ∀ {g : Forest Label} {hs : List Nat}, (∀ h ∈ hs, h ∈ R) → Means H g hs → Means H' g hs

theorem Keeps.refl (R : List Nat) (H : Heap Label) : Keeps R H H := fun _ h => h

theorem Keeps.trans {R : List Nat} {H H' H'' : Heap Label} (h : Keeps R H H')
    (h' : Keeps R H' H'') : Keeps R H H'' := fun hr hm => h' hr (h hr hm)

theorem Keeps.sub {R R' : List Nat} {H H' : Heap Label} (h : Keeps R H H')
    (hs : ∀ x ∈ R', x ∈ R) : Keeps R' H H' := fun hr hm => h (fun x hx => hs x (hr x hx)) hm

theorem throwing_ok {elms R : List Nat} {H : Heap Label} (I : Inv (elms ++ R) H) :
    ∃ H', throwing elms H = .exc H' ∧ Inv R H' ∧ Keeps R H H' := by
  obtain ⟨H', e, I', L⟩ := drop_ok I
  exact ⟨H', by simp [throwing, e], I', fun hr hm => L.keep hr hm⟩

theorem finish_ok {elms R : List Nat} {H : Heap Label} (I : Inv (elms ++ R) H) {f : Forest Label}
    (hf : Means H f elms) (rest : List Str) :
    ∃ h H', finish elms rest H = .ok h rest H' ∧ Inv (h :: R) H' ∧
      Means H' (.tree none f) [h] ∧ Keeps R H H' := by
  rcases make_ok I (v := ⟨none, elms⟩) (fun x hx => by simp at hx ⊢; exact .inl hx) hf false with
    ⟨h, _⟩ | ⟨_, h, H1, e1, I1, m1, k1⟩
  · cases h
  · obtain ⟨H2, e2, I2, L2⟩ := drop_ok (hs := elms) (roots := h :: R) (I1.perm List.perm_middle.symm)
    refine ⟨h, H2, by simp [finish, e1, e2], I2, L2.keep (by simp) m1, ?_⟩
    intro g hs hr hm
    exact L2.keep (fun x hx => by simp [hr x hx]) (k1 (fun x hx => by simp [hr x hx]) hm)

theorem push_ok {h : Nat} {R : List Nat} {H : Heap Label} (I : Inv (h :: R) H) :
    ∃ H', push h H = some H' ∧ Inv (h :: R) H' ∧ Keeps (h :: R) H H' := by
  obtain ⟨v, hv⟩ := I.root (h := h) (by simp)
  obtain ⟨H1, e1, I1, v1, _, _⟩ := addRef_ok I hv
  obtain ⟨H2, e2, I2, L2⟩ := drop_ok (hs := [h]) (roots := h :: R) I1
  refine ⟨H2, by simp [push, e1, e2], I2, fun hr hm => L2.keep hr ?_⟩
  exact hm.mono fun x u hu => by rw [v1]; exact hu

/-- A parsed sublist or string has been added to `elms`. -/
theorem pushed {elms R : List Nat} {h : Nat} {H : Heap Label} (I : Inv (h :: (elms ++ R)) H)
    {f : Forest Label} (hf : Means H f elms) {l : Label} {g : Forest Label}
    (hg : Means H (.tree l g) [h]) :
    ∃ H', push h H = some H' ∧ Inv ((elms ++ [h]) ++ R) H' ∧
      Means H' (Forest.app f (.tree l g)) (elms ++ [h]) ∧ Keeps R H H' := by
  obtain ⟨H1, e1, I1, k1⟩ := push_ok I
  refine ⟨H1, e1, I1.perm ?_, ?_, k1.sub fun x hx => by simp [hx]⟩
  · rw [List.append_assoc]; exact List.perm_middle.symm
  · refine means_app (k1 (fun x hx => by simp [hx]) hf) (k1 (by simp) hg)

/-- What parsing does: it never is undefined; if it succeeds, the tokens read are
those of the resulting list. -/
theorem parse_sound : ∀ (fuel : Nat) (ts : List Str) (nest : Nat) (elms R : List Nat)
    (H : Heap Label) (f : Forest Label), ts.length < fuel → Inv (elms ++ R) H → Means H f elms →
    (∃ H', parse fuel ts nest elms H = .exc H' ∧ Inv R H' ∧ Keeps R H H') ∨
    (∃ h rest H' g, parse fuel ts nest elms H = .ok h rest H' ∧ Inv (h :: R) H' ∧
      Keeps R H H' ∧ Means H' (.tree none (Forest.app f g)) [h] ∧ Atoms NoParen g ∧
      rest.length ≤ ts.length ∧
      ((nest = 0 ∧ rest = [] ∧ ts = flat g) ∨ (nest ≠ 0 ∧ ts = flat g ++ [')'] :: rest))) := by
  intro fuel
  induction fuel with
  | zero => intro ts _ _ _ _ _ h; exact absurd h (Nat.not_lt_zero _)
  | succ fuel ih =>
    intro ts nest elms R H f hlen I hf
    cases ts with
    | nil =>
      unfold parse
      by_cases hn : nest = 0
      · right
        obtain ⟨h, H', e, I', m, k⟩ := finish_ok I hf []
        refine ⟨h, [], H', .nil, by simp [hn, e], I', k, by rw [app_nil]; exact m, trivial,
          Nat.le_refl _, .inl ⟨hn, rfl, rfl⟩⟩
      · left
        obtain ⟨H', e, I', k⟩ := throwing_ok I
        exact ⟨H', by simp [hn, e], I', k⟩
    | cons t ts =>
      simp only [List.length_cons] at hlen
      unfold parse
      by_cases h1 : t = ['(']
      · rw [if_pos h1]
        rcases ih ts (nest + 1) [] (elms ++ R) H .nil (by omega) I rfl with
          ⟨H1, e1, I1, k1⟩ | ⟨h, rest, H1, g, e1, I1, k1, m1, a1, l1, c1⟩
        · left
          obtain ⟨H2, e2, I2, k2⟩ := throwing_ok I1
          exact ⟨H2, by simp [e1, e2], I2, Keeps.trans (k1.sub fun x hx => by simp [hx]) k2⟩
        · have hc : ts = flat g ++ [')'] :: rest := by
            rcases c1 with ⟨h0, _⟩ | ⟨_, h⟩
            · omega
            · exact h
          obtain ⟨H2, e2, I2, m2, k2⟩ := pushed (elms := elms) (R := R) I1
            (k1 (fun x hx => by simp [hx]) hf) m1
          have hk : Keeps R H H2 := Keeps.trans (k1.sub fun x hx => by simp [hx]) k2
          simp only [e1, e2]
          rcases ih rest nest (elms ++ [h]) R H2 _ (by omega) I2 m2 with
            ⟨H3, e3, I3, k3⟩ | ⟨h', rest', H3, g', e3, I3, k3, m3, a3, l3, c3⟩
          · left; exact ⟨H3, e3, I3, hk.trans k3⟩
          · right
            refine ⟨h', rest', H3, .cons none g g', e3, I3, hk.trans k3, ?_, ⟨a1, a3⟩, by
              simp only [List.length_cons]; omega, ?_⟩
            · rw [app_assoc] at m3; exact m3
            · rcases c3 with ⟨h0, h2, h3⟩ | ⟨h0, h3⟩
              · left
                refine ⟨h0, h2, ?_⟩
                rw [h1, hc, h3]; simp [flat]
              · right
                refine ⟨h0, ?_⟩
                rw [h1, hc, h3]; simp [flat]
      · rw [if_neg h1]
        by_cases h2 : t = [')']
        · rw [if_pos h2]
          by_cases hn : nest = 0
          · left
            obtain ⟨H', e, I', k⟩ := throwing_ok I
            exact ⟨H', by simp [hn, e], I', k⟩
          · right
            obtain ⟨h, H', e, I', m, k⟩ := finish_ok I hf ts
            refine ⟨h, ts, H', .nil, by simp [hn, e], I', k, by rw [app_nil]; exact m, trivial,
              by simp, .inr ⟨hn, by rw [h2]; rfl⟩⟩
        · rw [if_neg h2]
          rcases make_ok I (v := ⟨some t, []⟩) (f := .nil) (by simp) rfl false with
            ⟨h, _⟩ | ⟨_, h, H1, e1, I1, m1, k1⟩
          · cases h
          · obtain ⟨H2, e2, I2, m2, k2⟩ := pushed (elms := elms) (R := R) I1
              (k1 (fun x hx => by simp [hx]) hf) m1
            have hk : Keeps R H H2 := by
              intro g hs hr hm
              exact k2 hr (k1 (fun x hx => by simp [hr x hx]) hm)
            simp only [e1, e2]
            rcases ih ts nest (elms ++ [h]) R H2 _ (by omega) I2 m2 with
              ⟨H3, e3, I3, k3⟩ | ⟨h', rest', H3, g', e3, I3, k3, m3, a3, l3, c3⟩
            · left; exact ⟨H3, e3, I3, hk.trans k3⟩
            · right
              refine ⟨h', rest', H3, .cons (some t) .nil g', e3, I3, hk.trans k3, ?_,
                ⟨⟨h1, h2⟩, rfl, a3⟩, by simp only [List.length_cons]; omega, ?_⟩
              · rw [app_assoc] at m3; exact m3
              · rcases c3 with ⟨h0, h3, h4⟩ | ⟨h0, h4⟩
                · left
                  refine ⟨h0, h3, ?_⟩
                  rw [h4]; rfl
                · right
                  refine ⟨h0, ?_⟩
                  rw [h4]; rfl

/-- Reading the tokens of some lists appends them to `elms`. -/
theorem parse_complete : ∀ (g : Forest Label) (fuel : Nat) (ts : List Str) (nest : Nat)
    (elms R : List Nat) (H : Heap Label) (f : Forest Label), Atoms NoParen g →
    (flat g ++ ts).length < fuel → Inv (elms ++ R) H → Means H f elms →
    ∃ fuel' hs H', ts.length < fuel' ∧
      parse fuel (flat g ++ ts) nest elms H = parse fuel' ts nest (elms ++ hs) H' ∧
      Inv ((elms ++ hs) ++ R) H' ∧ Means H' (Forest.app f g) (elms ++ hs)
  | .nil, fuel, ts, nest, elms, R, H, f, _, hl, I, hf =>
    ⟨fuel, [], H, hl, by simp [flat], by simpa using I, by rw [app_nil]; simpa using hf⟩
  | .cons (some s) b g, fuel, ts, nest, elms, R, H, f, ⟨⟨h1, h2⟩, hb, ha⟩, hl, I, hf => by
    subst hb
    cases fuel with
    | zero => exact absurd hl (Nat.not_lt_zero _)
    | succ fuel =>
      simp only [flat, List.cons_append, List.length_cons] at hl
      rcases make_ok I (v := ⟨some s, []⟩) (f := .nil) (by simp) rfl false with
        ⟨h, _⟩ | ⟨_, h, H1, e1, I1, m1, k1⟩
      · cases h
      · obtain ⟨H2, e2, I2, m2, _⟩ := pushed (elms := elms) (R := R) I1
          (k1 (fun x hx => by simp [hx]) hf) m1
        obtain ⟨fuel', hs, H3, l3, e3, I3, m3⟩ := parse_complete g fuel ts nest (elms ++ [h]) R H2 _
          ha (by omega) I2 m2
        refine ⟨fuel', h :: hs, H3, l3, ?_, by simpa using I3, ?_⟩
        · rw [flat, List.cons_append, parse, if_neg h1, if_neg h2]
          simp only [e1, e2, e3]
          simp
        · rw [app_assoc] at m3
          simpa [Forest.app] using m3
  | .cons none b g, fuel, ts, nest, elms, R, H, f, ⟨ha, ha'⟩, hl, I, hf => by
    cases fuel with
    | zero => exact absurd hl (Nat.not_lt_zero _)
    | succ fuel =>
      simp only [flat, List.cons_append, List.length_cons, List.append_assoc,
        List.length_append] at hl
      obtain ⟨fuel1, hs1, H1, l1, e1, I1, m1⟩ := parse_complete b fuel ([')'] :: (flat g ++ ts))
        (nest + 1) [] (elms ++ R) H .nil ha (by simp; omega) I rfl
      cases fuel1 with
      | zero => exact absurd l1 (Nat.not_lt_zero _)
      | succ fuel1 =>
        have hk := parse_sound fuel (flat b ++ [')'] :: (flat g ++ ts)) (nest + 1) [] (elms ++ R) H
          .nil (by simp; omega) I rfl
        obtain ⟨h, H2, e2, I2, m2, k2⟩ := finish_ok I1 m1 (flat g ++ ts)
        have e12 : parse fuel (flat b ++ [')'] :: (flat g ++ ts)) (nest + 1) [] H =
            .ok h (flat g ++ ts) H2 := by
          rw [e1, parse, if_neg (by decide), if_pos rfl, if_neg (by omega)]
          exact e2
        rcases hk with ⟨H', e', _⟩ | ⟨h', rest', H', g', e', _, k', _⟩
        · rw [e12] at e'; cases e'
        · rw [e12] at e'
          cases e'
          obtain ⟨H3, e3, I3, m3, _⟩ := pushed (elms := elms) (R := R) I2
            (k' (fun x hx => by simp [hx]) hf) m2
          obtain ⟨fuel', hs, H4, l4, e4, I4, m4⟩ := parse_complete g fuel ts nest (elms ++ [h]) R H3 _
            ha' (by rw [List.length_append]; omega) I3 m3
          refine ⟨fuel', h :: hs, H4, l4, ?_, by simpa using I4, ?_⟩
          · rw [flat, List.append_assoc, List.cons_append, List.cons_append, parse, if_pos rfl]
            simp only [e12, e3, e4]
            simp
          · rw [app_assoc] at m4
            simpa [Forest.app] using m4

/-- The whole parser. -/
theorem parseText_spec {R : List Nat} {H : Heap Label} (I : Inv R H) (text : Str) :
    (∃ h H' f, parseText text H = .ok h [] H' ∧ Inv (h :: R) H' ∧ Keeps R H H' ∧
      Means H' (.tree none f) [h] ∧ Atoms NoParen f ∧ tokens text = flat f) ∨
    (∃ H', parseText text H = .exc H' ∧ Inv R H' ∧ Keeps R H H' ∧
      ¬ ∃ f, Atoms NoParen f ∧ tokens text = flat f) := by
  unfold parseText
  rcases parse_sound _ (tokens text) 0 [] R H .nil (Nat.lt_succ_self _) I rfl with
    ⟨H', e, I', k⟩ | ⟨h, rest, H', g, e, I', k, m, a, _, c⟩
  · right
    refine ⟨H', e, I', k, ?_⟩
    rintro ⟨f, ha, hf⟩
    obtain ⟨fuel', hs, H1, l1, e1, I1, m1⟩ := parse_complete f ((tokens text).length + 1) [] 0 [] R
      H .nil ha (by simp [hf]) I rfl
    rw [List.append_nil, ← hf, e] at e1
    cases fuel' with
    | zero => exact absurd l1 (Nat.not_lt_zero _)
    | succ fuel' =>
      obtain ⟨h, H2, e2, _⟩ := finish_ok I1 m1 []
      rw [parse, if_neg (by simp), e2] at e1
      cases e1
  · left
    rcases c with ⟨_, rfl, c⟩ | ⟨h0, _⟩
    · exact ⟨h, H', g, e, I', k, m, a, c⟩
    · exact absurd rfl h0

/-! ## The tokenizer -/

theorem flush_words {w : Str} (h : ∀ c ∈ w, c ≠ ' ' ∧ c ≠ '(' ∧ c ≠ ')') :
    ∀ s ∈ flush w, Word s := by
  cases w with
  | nil => intro s hs; cases hs
  | cons c cs =>
    intro s hs
    simp only [flush, List.mem_singleton] at hs
    subst hs
    exact ⟨by simp, h⟩

/-- Tokens are parentheses and words; words have no characters of their own. -/
theorem tokensFrom_words : ∀ (text w : Str), (∀ c ∈ w, c ≠ ' ' ∧ c ≠ '(' ∧ c ≠ ')') →
    ∀ s ∈ tokensFrom w text, s = ['('] ∨ s = [')'] ∨
      (Word s ∧ ∀ c ∈ s, c ∈ w ∨ c ∈ text)
  | [], w, hw, s, hs => by
    refine .inr (.inr ⟨flush_words hw s hs, ?_⟩)
    cases w with
    | nil => cases hs
    | cons c cs =>
      simp only [tokensFrom, flush, List.mem_singleton] at hs
      subst hs
      exact fun c hc => .inl hc
  | c :: cs, w, hw, s, hs => by
    have hfl : ∀ s ∈ flush w, s = ['('] ∨ s = [')'] ∨
        (Word s ∧ ∀ x ∈ s, x ∈ w ∨ x ∈ c :: cs) := by
      intro s hs
      refine .inr (.inr ⟨flush_words hw s hs, ?_⟩)
      cases w with
      | nil => cases hs
      | cons d ds =>
        simp only [flush, List.mem_singleton] at hs
        subst hs
        exact fun c hc => .inl hc
    have hrec : ∀ s ∈ tokensFrom [] cs, s = ['('] ∨ s = [')'] ∨
        (Word s ∧ ∀ x ∈ s, x ∈ w ∨ x ∈ c :: cs) := by
      intro s hs
      rcases tokensFrom_words cs [] (by simp) s hs with h | h | ⟨h, h'⟩
      · exact .inl h
      · exact .inr (.inl h)
      · refine .inr (.inr ⟨h, fun x hx => ?_⟩)
        rcases h' x hx with h | h
        · cases h
        · exact .inr (by simp [h])
    unfold tokensFrom at hs
    split at hs
    · rcases List.mem_append.1 hs with hs | hs
      · exact hfl s hs
      · exact hrec s hs
    · split at hs
      · rename_i hc
        rcases List.mem_append.1 hs with hs | hs
        · exact hfl s hs
        · rcases List.mem_cons.1 hs with rfl | hs
          · rcases hc with rfl | rfl
            · exact .inl rfl
            · exact .inr (.inl rfl)
          · exact hrec s hs
      · rename_i h1 h2
        have hw' : ∀ x ∈ w ++ [c], x ≠ ' ' ∧ x ≠ '(' ∧ x ≠ ')' := by
          intro x hx
          rcases List.mem_append.1 hx with hx | hx
          · exact hw x hx
          · simp only [List.mem_singleton] at hx
            subst hx
            exact ⟨h1, fun e => h2 (.inl e), fun e => h2 (.inr e)⟩
        rcases tokensFrom_words cs (w ++ [c]) hw' s hs with h | h | ⟨h, h'⟩
        · exact .inl h
        · exact .inr (.inl h)
        · refine .inr (.inr ⟨h, fun x hx => ?_⟩)
          rcases h' x hx with h | h
          · rcases List.mem_append.1 h with h | h
            · exact .inl h
            · simp only [List.mem_singleton] at h
              exact .inr (by simp [h])
          · exact .inr (by simp [h])

/-- Newlines read as blanks.  (No code of its own: used in statements and proofs.) -/
def blanks (text : Str) : Str := text.map fun c => if c = '\n' then ' ' else c

theorem blanks_append (a b : Str) : blanks (a ++ b) = blanks a ++ blanks b := by
  simp [blanks]

theorem blanks_cons (c : Char) (b : Str) :
    blanks (c :: b) = (if c = '\n' then ' ' else c) :: blanks b := rfl

theorem blanks_indent : ∀ n, blanks (indent n) = indent n
  | 0 => rfl
  | n + 1 => by simp [indent, blanks_cons, blanks_indent n]

theorem blanks_word {s : Str} (h : '\n' ∉ s) : blanks s = s := by
  unfold blanks
  conv_rhs => rw [← List.map_id s]
  apply List.map_congr_left
  intro c hc
  have hne : c ≠ '\n' := fun e => h (e ▸ hc)
  simp [hne]

theorem tokens_indent (n : Nat) (t : Str) : tokensFrom [] (indent n ++ t) = tokensFrom [] t := by
  induction n with
  | zero => rfl
  | succ n ih => simp [indent, tokensFrom, flush, ih]

theorem tokens_word {s : Str} (h : ∀ c ∈ s, c ≠ ' ' ∧ c ≠ '(' ∧ c ≠ ')') :
    ∀ (w t : Str), tokensFrom w (s ++ ' ' :: t) = flush (w ++ s) ++ tokensFrom [] t := by
  induction s with
  | nil => intro w t; simp [tokensFrom]
  | cons c s ih =>
    intro w t
    obtain ⟨h1, h2, h3⟩ := h c (by simp)
    have := ih (fun x hx => h x (by simp [hx])) (w ++ [c]) t
    rw [List.cons_append, tokensFrom, if_neg h1, if_neg (by simp [h2, h3]), this]
    simp

/-- The tokens of the printed form are those of the list, if newlines are read as
blanks. -/
theorem tokens_render : ∀ (f : Forest Label) (n : Nat) (t : Str),
    Atoms (fun s => Word s ∧ '\n' ∉ s) f →
    tokensFrom [] (blanks (render n f) ++ t) = flat f ++ tokensFrom [] t
  | .nil, _, _, _ => rfl
  | .cons (some s) b g, n, t, ⟨⟨⟨h0, h1⟩, h2⟩, _, ha⟩ => by
    have hfl : flush s = [s] := by cases s with
      | nil => exact absurd rfl h0
      | cons c cs => rfl
    simp only [render, blanks_append, blanks_cons, blanks_indent, blanks_word h2, if_true,
      List.append_assoc, tokens_indent, List.cons_append]
    rw [tokens_word h1, List.nil_append, hfl, tokens_render g n t ha]
    rfl
  | .cons none b g, n, t, ⟨ha, ha'⟩ => by
    simp only [render, blanks_append, blanks_cons, blanks_indent, if_true,
      List.append_assoc, tokens_indent, List.cons_append]
    rw [if_neg (by decide), if_neg (by decide)]
    have h1 : ∀ t, tokensFrom [] ('(' :: ' ' :: t) = ['('] :: tokensFrom [] t := by
      intro t; simp [tokensFrom, flush]
    have h2 : ∀ t, tokensFrom [] (')' :: ' ' :: t) = [')'] :: tokensFrom [] t := by
      intro t; simp [tokensFrom, flush]
    rw [h1, tokens_render b (n + 1) _ ha, tokens_indent, h2, tokens_render g n t ha']
    simp [flat]

/-! ## The printer -/

theorem print_ok {H : Heap Label} : ∀ (f : Forest Label) (fuel n : Nat) (hs : List Nat),
    Means H f hs → f.size ≤ fuel → print fuel n hs H = some (render n f)
  | .nil, fuel, n, hs, hm, _ => by
    change hs = [] at hm
    subst hm
    cases fuel <;> rfl
  | .cons l b g, fuel, n, hs, ⟨h, sub, rest, e, hv, h1, h2⟩, hl => by
    subst e
    cases fuel with
    | zero => simp [Forest.size] at hl
    | succ fuel =>
      simp only [Forest.size] at hl
      have e2 := print_ok g fuel n rest h2 (by omega)
      have e1 := print_ok b fuel (n + 1) sub h1 (by omega)
      cases l with
      | none => simp [print, hv, e1, e2, render]
      | some s => simp [print, hv, e2, render]

end Verif.Composite

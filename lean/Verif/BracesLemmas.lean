import Verif.Braces
import Verif.OverloadSets

/-!
# Braced lists: which function is chosen
-/

set_option autoImplicit false

namespace Verif.Overload

variable {T : Type} [DecidableEq T]

theorem elem_some {l : List (Arg T)} {v : T} (hne : l ≠ []) (h : ∀ a ∈ l, a.ty = v) : elem l = some v := by
  cases l with
  | nil => exact absurd rfl hne
  | cons a l =>
    have h1 := h a (by simp)
    subst h1
    have : (l.all fun b => decide (b.ty = a.ty)) = true := by
      rw [List.all_eq_true]
      intro b hb
      simp [h b (by simp [hb])]
    simp only [elem, this, if_true]

theorem elem_all {l : List (Arg T)} {v : T} (h : elem l = some v) : l ≠ [] ∧ ∀ a ∈ l, a.ty = v := by
  cases l with
  | nil => cases h
  | cons a l =>
    simp only [elem] at h
    split at h
    · next hall =>
      cases h
      refine ⟨by simp, fun b hb => ?_⟩
      rcases List.mem_cons.1 hb with rfl | hb
      · rfl
      · simpa using List.all_eq_true.1 hall b hb
    · cases h

theorem listOf_some {W : World T} {L : Lists T} {l : List (Arg T)} {v : T} (hne : l ≠ []) (h : ∀ a ∈ l, a.ty = v)
    (hl : W.list (L.of v) = true) : listOf W L l = some (L.of v) := by
  simp [listOf, elem_some hne h, hl]

theorem listOf_none {W : World T} {L : Lists T} {l : List (Arg T)}
    (h : ∀ v, (∀ a ∈ l, a.ty = v) → W.list (L.of v) = false) : listOf W L l = none := by
  unfold listOf
  cases he : elem l with
  | none => rfl
  | some v => simp [h v (elem_all he).2]

/-- The constructor for any arguments takes any elements. -/
theorem fromBraces_true (W : World T) (L : Lists T) (Y : Types T) (l : List (Arg T)) : fromBraces W L Y l = true := by
  unfold fromBraces
  have : ((ctors .variadic Y).any fun c => (c.conv W l).isSome) = true := by
    rw [List.any_eq_true]
    refine ⟨⟨.fwd [], true, true, []⟩, by simp [ctors, fwds], ?_⟩
    simp [Cand.conv, Cand.params, deduce_fwd, ics_fwd]
  simp [this]

variable {I : Type} [DecidableEq I]

omit [DecidableEq I] in
/-- A function of one reference. -/
theorem plain_braces {W : World T} {L : Lists T} {Y : Types T} {l : List (Arg T)} (i : I) (rv cst : Bool) (t : T) :
    (plain i (.ref rv cst t)).convI W L Y [.braces l] =
      (icsI W L Y (.braces l) (.ref rv cst t)).map fun x => [(.ref rv cst t, x)] := by
  simp only [plain, Cand.convI, convAll, deduceI, Bool.false_eq_true, if_false]
  cases icsI W L Y (.braces l) (.ref rv cst t) <;> rfl

omit [DecidableEq I] in
/-- The function for `initializer_list`s. -/
theorem list_braces {W : World T} {L : Lists T} {Y : Types T} {l : List (Arg T)} (i : I) :
    (⟨i, true, false, [.list]⟩ : Cand I T).convI W L Y [.braces l] =
      (listOf W L l).map fun t => [(.val t, ⟨⟨0, false, false, false, t⟩, true⟩)] := by
  simp only [Cand.convI, convAll, deduceI, Bool.false_eq_true, if_false]
  cases listOf W L l <;> rfl

omit [DecidableEq I] in
theorem fwd_braces {W : World T} {L : Lists T} {Y : Types T} {l : List (Arg T)} (i : I) :
    (⟨i, true, true, []⟩ : Cand I T).convI W L Y [.braces l] = none := rfl

omit [DecidableEq I] in
theorem dflt_braces {W : World T} {L : Lists T} {Y : Types T} {l : List (Arg T)} (i : I) :
    (⟨i, false, false, []⟩ : Cand I T).convI W L Y [.braces l] = none := rfl

/-- Binding a reference to a braced list is no conversion to an `initializer_list`. -/
theorem ref_toList {W : World T} {L : Lists T} {Y : Types T} {l : List (Arg T)} {rv cst : Bool} {t : T} {x : Lconv T}
    (h : icsI W L Y (.braces l) (.ref rv cst t) = some x) : x.toList = false := by
  simp only [icsI] at h
  split at h
  · obtain ⟨y, _, rfl⟩ := Option.map_eq_some_iff.1 h; rfl
  · split at h
    · cases h
    · split at h
      · split at h <;> cases h; rfl
      · split at h
        · obtain ⟨y, _, rfl⟩ := Option.map_eq_some_iff.1 h; rfl
        · cases h

omit [DecidableEq I] in
theorem list_beats {W : World T} {L : Lists T} {Y : Types T} {l : List (Arg T)} {t u : T} (h : listOf W L l = some t) (i j : I)
    (rv cst : Bool) (hv : ((plain j (.ref rv cst u)).convI W L Y [.braces l]).isSome = true) :
    betterI W L Y [.braces l] (⟨i, true, false, [.list]⟩ : Cand I T) (plain j (.ref rv cst u)) = true := by
  rw [plain_braces] at hv
  unfold betterI
  rw [plain_braces, list_braces, h]
  cases hi : icsI W L Y (.braces l) (.ref rv cst u) with
  | none => simp [hi] at hv
  | some x => simp [Lconv.better, ref_toList hi]

theorem zip_all_swap {α β : Type} (f : α × β → Bool) : ∀ (xs : List α) (ys : List β),
    (ys.zip xs).all (fun p => f (p.2, p.1)) = (xs.zip ys).all f
  | [], ys => by cases ys <;> rfl
  | _ :: _, [] => rfl
  | x :: xs, y :: ys => by simp only [List.zip_cons_cons, List.all_cons, zip_all_swap f xs ys]

theorem betterI_asymm {W : World T} {L : Lists T} {Y : Types T} {is : List (Ini T)} {c d : Cand I T}
    (h : betterI W L Y is c d = true) : betterI W L Y is d c = false := by
  unfold betterI at h ⊢
  cases hc : c.convI W L Y is with
  | none => simp [hc] at h
  | some xs =>
    cases hd : d.convI W L Y is with
    | none => rfl
    | some ys =>
      simp only [hc, hd, Bool.and_eq_true] at h
      simp only
      obtain ⟨h1, h2⟩ := h
      have hs : ((ys.zip xs).all fun p => !p.2.2.better p.1.2) = (xs.zip ys).all fun p => !p.1.2.better p.2.2 :=
        zip_all_swap (fun p => !p.1.2.better p.2.2) xs ys
      have hs' : ((ys.zip xs).any fun p => p.1.2.better p.2.2) = false := by
        rw [List.any_eq_false]
        have := zip_all_swap (fun p => !p.2.2.better p.1.2) xs ys
        rw [h1, List.all_eq_true] at this
        intro p hp
        simpa using this p hp
      rw [hs']
      simp only [Bool.or_eq_true] at h2
      rcases h2 with (h2 | h2) | h2
      · have : ((xs.zip ys).all fun p => !p.1.2.better p.2.2) = false := by
          rw [List.all_eq_false]
          obtain ⟨p, hp, hb⟩ := List.any_eq_true.1 h2
          exact ⟨p, hp, by simp [hb]⟩
        rw [hs, this]; rfl
      · simp only [Bool.and_eq_true, Bool.not_eq_true'] at h2
        simp [h2.1, h2.2]
      · simp only [Bool.and_eq_true] at h2
        simp [h2.1.1, h2.1.2, moreSpec_asymm h2.2]

theorem resolveI_eq {W : World T} {L : Lists T} {Y : Types T} {cs : List (Cand I T)} {is : List (Ini T)} {c : Cand I T}
    (hm : c ∈ cs) (hv : (c.convI W L Y is).isSome = true)
    (hb : ∀ d ∈ cs, d.id ≠ c.id → (d.convI W L Y is).isSome = true → betterI W L Y is c d = true)
    (hu : ∀ d ∈ cs, d.id = c.id → d = c) : resolveI W L Y cs is = some c := by
  unfold resolveI
  have hc : (cs.all fun d => d.id == c.id || !(d.convI W L Y is).isSome || betterI W L Y is c d) = true := by
    rw [List.all_eq_true]
    intro d hd
    by_cases h1 : d.id = c.id
    · simp [h1]
    · by_cases h2 : (d.convI W L Y is).isSome = true
      · simp [hb d hd h1 h2]
      · simp at h2; simp [h2]
  have hmem : c ∈ cs.filter fun c => (c.convI W L Y is).isSome := List.mem_filter.2 ⟨hm, hv⟩
  cases hf : (cs.filter fun c => (c.convI W L Y is).isSome).find? fun c =>
      cs.all fun d => d.id == c.id || !(d.convI W L Y is).isSome || betterI W L Y is c d with
  | none =>
    have := List.find?_eq_none.1 hf c hmem
    exact absurd hc this
  | some e =>
    have he := List.find?_some hf
    have hem := List.mem_filter.1 (List.mem_of_find?_eq_some hf)
    by_cases h1 : e.id = c.id
    · rw [hu e hem.1 h1]
    · have h2 := hb e hem.1 h1 hem.2
      have h3 := List.all_eq_true.1 he c hm
      simp [Ne.symm h1, hv, betterI_asymm h2] at h3

theorem resolveI_none {W : World T} {L : Lists T} {Y : Types T} {cs : List (Cand I T)} {is : List (Ini T)}
    (h : ∀ c ∈ cs, c.convI W L Y is = none) : resolveI W L Y cs is = none := by
  unfold resolveI
  rw [List.find?_eq_none]
  intro c hc
  have := List.mem_filter.1 hc
  rw [h c this.1] at this
  simp at this

/-- Two candidates none of which is better. -/
theorem resolveI_tie {W : World T} {L : Lists T} {Y : Types T} {cs : List (Cand I T)} {is : List (Ini T)}
    (h : ∀ c ∈ cs, (c.convI W L Y is).isSome = true →
      ∃ d ∈ cs, d.id ≠ c.id ∧ (d.convI W L Y is).isSome = true ∧ betterI W L Y is c d = false) :
    resolveI W L Y cs is = none := by
  unfold resolveI
  rw [List.find?_eq_none]
  intro c hc
  have := List.mem_filter.1 hc
  obtain ⟨d, hd, h1, h2, h3⟩ := h c this.1 this.2
  intro ht
  have := List.all_eq_true.1 ht d hd
  simp [h1, h2, h3] at this

omit [DecidableEq T] in
theorem ctors_variadic (Y : Types T) : ctors .variadic Y = [⟨.fwd [], true, true, []⟩, ⟨.dflt, false, false, []⟩,
    plain .copyC (.ref false true Y.fw), plain .copy (.ref false false Y.fw), ⟨.list, true, false, [.list]⟩,
    plain .moveC (.ref true true Y.fw), plain .move (.ref true false Y.fw)] := rfl

omit [DecidableEq T] in
theorem assigns_variadic (Y : Types T) : assigns .variadic Y = [plain .fw (.ref false true Y.fw),
    plain .val (.ref false true Y.val), ⟨.list, true, false, [.list]⟩, plain .rval (.ref true false Y.val)] := rfl

/-- A braced list in parentheses: the `initializer_list` if there is one. -/
theorem ctors_braces_list {W : World T} {L : Lists T} {Y : Types T} {l : List (Arg T)} {t : T} (h : listOf W L l = some t) :
    resolveI W L Y (ctors .variadic Y) [.braces l] = some ⟨.list, true, false, [.list]⟩ := by
  have hb := fun (j : Ctor) (rv cst : Bool) => (list_beats (Y := Y) (u := Y.fw) h Ctor.list j rv cst)
  apply resolveI_eq
  · simp [ctors_variadic]
  · rw [list_braces, h]; rfl
  · intro d hd hne hv
    simp only [ctors_variadic, List.mem_cons, List.not_mem_nil, or_false] at hd
    rcases hd with rfl | rfl | rfl | rfl | rfl | rfl | rfl
    · cases hv
    · cases hv
    · exact hb .copyC false true hv
    · exact hb .copy false false hv
    · exact absurd rfl hne
    · exact hb .moveC true true hv
    · exact hb .move true false hv
  · intro d hd he
    simp only [ctors_variadic, List.mem_cons, List.not_mem_nil, or_false] at hd
    rcases hd with rfl | rfl | rfl | rfl | rfl | rfl | rfl <;> first | rfl | cases he

theorem assigns_braces_list {W : World T} {L : Lists T} {Y : Types T} {l : List (Arg T)} {t : T}
    (h : listOf W L l = some t) :
    resolveI W L Y (assigns .variadic Y) [.braces l] = some ⟨.list, true, false, [.list]⟩ := by
  have hb := fun (j : Asg) (rv cst : Bool) (u : T) => (list_beats (Y := Y) (u := u) h Asg.list j rv cst)
  apply resolveI_eq
  · simp [assigns_variadic]
  · rw [list_braces, h]; rfl
  · intro d hd hne hv
    simp only [assigns_variadic, List.mem_cons, List.not_mem_nil, or_false] at hd
    rcases hd with rfl | rfl | rfl | rfl
    · exact hb .fw false true _ hv
    · exact hb .val false true _ hv
    · exact absurd rfl hne
    · exact hb .rval true false _ hv
  · intro d hd he
    simp only [assigns_variadic, List.mem_cons, List.not_mem_nil, or_false] at hd
    rcases hd with rfl | rfl | rfl | rfl <;> first | rfl | cases he

theorem single_some {W : World T} {t : T} {l : List (Arg T)} {a : Arg T} (h : single W t l = some a) :
    l = [a] ∧ (a.ty = t ∨ W.derives a.ty t = true) := by
  match l with
  | [] => cases h
  | [b] =>
    simp only [single] at h
    split at h
    · next hb => cases h; exact ⟨rfl, by simpa using hb⟩
    · cases h
  | _ :: _ :: _ => cases h

/-- Conversion of a flyweight (or an object derived from it) in braces to a reference to a flyweight. -/
theorem ref_single {W : World T} {L : Lists T} {Y : Types T} {l : List (Arg T)} {t : T} {a : Arg T}
    (h : single W t l = some a) (rv cst : Bool) :
    icsI W L Y (.braces l) (.ref rv cst t) = if bindOk rv cst a then
      some ⟨⟨if a.ty = t then 0 else 1, true, rv, cst, t⟩, false⟩ else none := by
  simp only [icsI, h, ics]
  by_cases h1 : a.ty = t
  · simp only [h1, if_true]
    split <;> rfl
  · rcases (single_some h).2 with h2 | h2
    · exact absurd h2 h1
    · simp only [h1, h2, if_true, if_false]
      split <;> rfl

/-- Conversion of any other braced list to a reference to a flyweight. -/
theorem ref_fw {W : World T} {L : Lists T} {Y : Types T} {l : List (Arg T)} (h : single W Y.fw l = none) (rv cst : Bool) :
    icsI W L Y (.braces l) (.ref rv cst Y.fw) =
      if rv || cst then some ⟨⟨2, true, rv, cst, Y.fw⟩, false⟩ else none := by
  simp only [icsI, h, fromBraces_true, if_true]
  cases rv <;> cases cst <;> rfl

/-- Conversion of any other braced list to a reference to a value. -/
theorem ref_val {W : World T} {L : Lists T} {Y : Types T} {l : List (Arg T)} (hne : Y.val ≠ Y.fw)
    (h : single W Y.val l = none) (rv cst : Bool) :
    icsI W L Y (.braces l) (.ref rv cst Y.val) =
      if rv || cst then (L.toVal l).map fun r => ⟨⟨if r.user then 2 else 1, true, rv, cst, Y.val⟩, false⟩ else none := by
  simp only [icsI, h, hne, if_true, if_false]
  cases rv <;> cases cst <;> rfl

/-- Without an `initializer_list`, a braced list in parentheses makes a flyweight to be copied or moved. -/
theorem ctors_braces_fw {W : World T} {L : Lists T} {Y : Types T} {l : List (Arg T)} (h : listOf W L l = none) :
    ∃ i rv cst, resolveI W L Y (ctors .variadic Y) [.braces l] = some (plain i (.ref rv cst Y.fw)) ∧
      (i = .copyC ∨ i = .copy ∨ i = .moveC ∨ i = .move) := by
  cases hs : single W Y.fw l with
  | none =>
    refine ⟨.move, true, false, ?_, by simp⟩
    have hr := ref_fw (L := L) hs
    apply resolveI_eq
    · simp [ctors_variadic]
    · rw [plain_braces, hr]; rfl
    · intro d hd hne hv
      simp only [ctors_variadic, List.mem_cons, List.not_mem_nil, or_false] at hd
      rcases hd with rfl | rfl | rfl | rfl | rfl | rfl | rfl
      · cases hv
      · cases hv
      · unfold betterI; simp only [plain_braces, hr]; simp [Lconv.better, Ics.better]
      · rw [plain_braces, hr] at hv; cases hv
      · rw [list_braces, h] at hv; cases hv
      · unfold betterI; simp only [plain_braces, hr]; simp [Lconv.better, Ics.better]
      · exact absurd rfl hne
    · intro d hd he
      simp only [ctors_variadic, List.mem_cons, List.not_mem_nil, or_false] at hd
      rcases hd with rfl | rfl | rfl | rfl | rfl | rfl | rfl <;> first | rfl | cases he
  | some a =>
    have hr := ref_single (L := L) (Y := Y) hs
    obtain ⟨t, c, r⟩ := a
    have key : ∀ (i : Ctor), plain i (.ref r c Y.fw) ∈ ctors .variadic Y →
        (∀ d ∈ ctors .variadic Y, d.id = i → d = plain i (.ref r c Y.fw)) →
        (∀ j rv cst, plain j (.ref rv cst Y.fw) ∈ ctors .variadic Y → j ≠ i → ¬(rv = r ∧ cst = c)) →
        resolveI W L Y (ctors .variadic Y) [.braces l] = some (plain i (.ref r c Y.fw)) := by
      intro i hi hu hn
      have hb : ∀ j rv cst, plain j (.ref rv cst Y.fw) ∈ ctors .variadic Y → j ≠ i →
          ((plain j (.ref rv cst Y.fw)).convI W L Y [.braces l]).isSome = true →
          betterI W L Y [.braces l] (plain i (.ref r c Y.fw)) (plain j (.ref rv cst Y.fw)) = true := by
        intro j rv cst hm hne hv
        have hne' := hn j rv cst hm hne
        rw [plain_braces, hr] at hv
        unfold betterI
        simp only [plain_braces, hr]
        by_cases ht : t = Y.fw <;> cases r <;> cases c <;> cases rv <;> cases cst <;>
          simp_all [bindOk, Lconv.better, Ics.better]
      apply resolveI_eq hi
      · rw [plain_braces, hr, if_pos (by cases r <;> cases c <;> rfl)]; rfl
      · intro d hd hne hv
        simp only [ctors_variadic, List.mem_cons, List.not_mem_nil, or_false] at hd
        rcases hd with rfl | rfl | rfl | rfl | rfl | rfl | rfl
        · cases hv
        · cases hv
        · exact hb _ _ _ (by simp [ctors_variadic]) hne hv
        · exact hb _ _ _ (by simp [ctors_variadic]) hne hv
        · rw [list_braces, h] at hv; cases hv
        · exact hb _ _ _ (by simp [ctors_variadic]) hne hv
        · exact hb _ _ _ (by simp [ctors_variadic]) hne hv
      · exact hu
    cases r <;> cases c
    · exact ⟨.copy, _, _, key .copy (by simp [ctors_variadic]) (by
        intro d hd he
        simp only [ctors_variadic, List.mem_cons, List.not_mem_nil, or_false] at hd
        rcases hd with rfl | rfl | rfl | rfl | rfl | rfl | rfl <;> first | rfl | cases he)
        (by simp [ctors_variadic, plain]; try grind), by simp⟩
    · exact ⟨.copyC, _, _, key .copyC (by simp [ctors_variadic]) (by
        intro d hd he
        simp only [ctors_variadic, List.mem_cons, List.not_mem_nil, or_false] at hd
        rcases hd with rfl | rfl | rfl | rfl | rfl | rfl | rfl <;> first | rfl | cases he)
        (by simp [ctors_variadic, plain]; try grind), by simp⟩
    · exact ⟨.move, _, _, key .move (by simp [ctors_variadic]) (by
        intro d hd he
        simp only [ctors_variadic, List.mem_cons, List.not_mem_nil, or_false] at hd
        rcases hd with rfl | rfl | rfl | rfl | rfl | rfl | rfl <;> first | rfl | cases he)
        (by simp [ctors_variadic, plain]; try grind), by simp⟩
    · exact ⟨.moveC, _, _, key .moveC (by simp [ctors_variadic]) (by
        intro d hd he
        simp only [ctors_variadic, List.mem_cons, List.not_mem_nil, or_false] at hd
        rcases hd with rfl | rfl | rfl | rfl | rfl | rfl | rfl <;> first | rfl | cases he)
        (by simp [ctors_variadic, plain]; try grind), by simp⟩

/-- Assignment of a flyweight in braces. -/
theorem assigns_braces_fw {W : World T} {L : Lists T} {Y : Types T} {a : Arg T} (hl : listOf W L [a] = none)
    (ha : a.ty = Y.fw) (hne : Y.fw ≠ Y.val) :
    resolveI W L Y (assigns .variadic Y) [.braces [a]] = some (plain .fw (.ref false true Y.fw)) := by
  have hs : single W Y.fw [a] = some a := by simp [single, ha]
  have hc : icsI W L Y (.braces [a]) (.ref false true Y.fw) = some ⟨⟨0, true, false, true, Y.fw⟩, false⟩ := by
    rw [ref_single hs, if_pos (by simp [bindOk]), if_pos ha]
  have hv : ∀ rv cst x, icsI W L Y (.braces [a]) (.ref rv cst Y.val) = some x → x.toList = false ∧ x.ics.rank ≠ 0 := by
    intro rv cst x hx
    refine ⟨ref_toList hx, ?_⟩
    cases hs' : single W Y.val [a] with
    | none =>
      rw [ref_val hne.symm hs'] at hx
      split at hx
      · obtain ⟨r, hr, rfl⟩ := Option.map_eq_some_iff.1 hx
        cases r.user <;> simp
      · cases hx
    | some b =>
      rw [ref_single hs'] at hx
      have hb : b.ty ≠ Y.val := by
        have := (single_some hs').1
        simp only [List.cons.injEq, and_true] at this
        rw [← this, ha]; exact hne
      split at hx
      · cases hx; simp
      · cases hx
  have hb : ∀ i rv cst, ((plain i (.ref rv cst Y.val)).convI W L Y [.braces [a]]).isSome = true →
      betterI W L Y [.braces [a]] (plain Asg.fw (.ref false true Y.fw)) (plain i (.ref rv cst Y.val)) = true := by
    intro i rv cst h
    unfold betterI
    rw [plain_braces] at h
    simp only [plain_braces, hc]
    cases hx : icsI W L Y (.braces [a]) (.ref rv cst Y.val) with
    | none => simp [hx] at h
    | some x =>
      obtain ⟨h1, h2⟩ := hv rv cst x hx
      have h3 : x.ics.rank ≠ 0 := h2
      simp [Lconv.better, h1, Ics.better, h3]
      omega
  apply resolveI_eq
  · simp [assigns_variadic]
  · rw [plain_braces, hc]; rfl
  · intro d hd hne' h
    simp only [assigns_variadic, List.mem_cons, List.not_mem_nil, or_false] at hd
    rcases hd with rfl | rfl | rfl | rfl
    · exact absurd rfl hne'
    · exact hb _ _ _ h
    · rw [list_braces, hl] at h; cases h
    · exact hb _ _ _ h
  · intro d hd he
    simp only [assigns_variadic, List.mem_cons, List.not_mem_nil, or_false] at hd
    rcases hd with rfl | rfl | rfl | rfl <;> first | rfl | cases he

/-- Assignment of a braced list that converts to the value type without the user's functions. -/
theorem assigns_braces_val {W : World T} {L : Lists T} {Y : Types T} {l : List (Arg T)} (hl : listOf W L l = none)
    {x y : Ics T} (hf : single W Y.fw l = none)
    (hy : icsI W L Y (.braces l) (.ref false true Y.val) = some ⟨y, false⟩)
    (hx : icsI W L Y (.braces l) (.ref true false Y.val) = some ⟨x, false⟩ ∧ x.better y = true ∧ y.better x = false ∧ x.rank < 2) :
    resolveI W L Y (assigns .variadic Y) [.braces l] = some (plain .rval (.ref true false Y.val)) := by
  apply resolveI_eq
  · simp [assigns_variadic]
  · rw [plain_braces, hx.1]; rfl
  · intro d hd hne' h
    simp only [assigns_variadic, List.mem_cons, List.not_mem_nil, or_false] at hd
    rcases hd with rfl | rfl | rfl | rfl
    · unfold betterI
      simp only [plain_braces, hx.1, ref_fw hf]
      have := hx.2.2.2
      simp [Lconv.better, Ics.better, this]
      omega
    · unfold betterI
      simp only [plain_braces, hx.1, hy]
      simp [Lconv.better, hx.2.1, hx.2.2.1]
    · rw [list_braces, hl] at h; cases h
    · exact absurd rfl hne'
  · intro d hd he
    simp only [assigns_variadic, List.mem_cons, List.not_mem_nil, or_false] at hd
    rcases hd with rfl | rfl | rfl | rfl <;> first | rfl | cases he

/-- The same for an lvalue of the value type in braces, which only `const value_type&` takes. -/
theorem assigns_braces_lval {W : World T} {L : Lists T} {Y : Types T} {l : List (Arg T)} (hl : listOf W L l = none)
    {y : Ics T} (hf : single W Y.fw l = none)
    (hy : icsI W L Y (.braces l) (.ref false true Y.val) = some ⟨y, false⟩ ∧ y.rank < 2)
    (hx : icsI W L Y (.braces l) (.ref true false Y.val) = none) :
    resolveI W L Y (assigns .variadic Y) [.braces l] = some (plain .val (.ref false true Y.val)) := by
  apply resolveI_eq
  · simp [assigns_variadic]
  · rw [plain_braces, hy.1]; rfl
  · intro d hd hne' h
    simp only [assigns_variadic, List.mem_cons, List.not_mem_nil, or_false] at hd
    rcases hd with rfl | rfl | rfl | rfl
    · unfold betterI
      simp only [plain_braces, hy.1, ref_fw hf]
      have := hy.2
      simp [Lconv.better, Ics.better, this]
      omega
    · exact absurd rfl hne'
    · rw [list_braces, hl] at h; cases h
    · rw [plain_braces, hx] at h; cases h
  · intro d hd he
    simp only [assigns_variadic, List.mem_cons, List.not_mem_nil, or_false] at hd
    rcases hd with rfl | rfl | rfl | rfl <;> first | rfl | cases he

/-- Assignment of a braced list that does not convert to the value type. -/
theorem assigns_braces_none {W : World T} {L : Lists T} {Y : Types T} {l : List (Arg T)} (hl : listOf W L l = none)
    (hf : single W Y.fw l = none) (hv : single W Y.val l = none) (hne : Y.fw ≠ Y.val) (h : L.toVal l = none) :
    resolveI W L Y (assigns .variadic Y) [.braces l] = some (plain .fw (.ref false true Y.fw)) := by
  have hn : ∀ rv cst, icsI W L Y (.braces l) (.ref rv cst Y.val) = none := by
    intro rv cst; rw [ref_val hne.symm hv, h]; simp
  apply resolveI_eq
  · simp [assigns_variadic]
  · rw [plain_braces, ref_fw hf]; rfl
  · intro d hd hne' h
    simp only [assigns_variadic, List.mem_cons, List.not_mem_nil, or_false] at hd
    rcases hd with rfl | rfl | rfl | rfl
    · exact absurd rfl hne'
    · rw [plain_braces, hn] at h; cases h
    · rw [list_braces, hl] at h; cases h
    · rw [plain_braces, hn] at h; cases h
  · intro d hd he
    simp only [assigns_variadic, List.mem_cons, List.not_mem_nil, or_false] at hd
    rcases hd with rfl | rfl | rfl | rfl <;> first | rfl | cases he

/-- Assignment of a braced list that converts to the value type by the user's functions: it converts to the flyweight as
well, as everything does. -/
theorem assigns_braces_tie {W : World T} {L : Lists T} {Y : Types T} {l : List (Arg T)} (hl : listOf W L l = none)
    (hf : single W Y.fw l = none) (hv : single W Y.val l = none) (hne : Y.fw ≠ Y.val) {r : ToVal}
    (h : L.toVal l = some r) (hr : r.user = true) :
    resolveI W L Y (assigns .variadic Y) [.braces l] = none := by
  have hn : ∀ rv cst, icsI W L Y (.braces l) (.ref rv cst Y.val) =
      if rv || cst then some ⟨⟨2, true, rv, cst, Y.val⟩, false⟩ else none := by
    intro rv cst; rw [ref_val hne.symm hv, h]; simp [hr]
  apply resolveI_tie
  intro c hc hcv
  simp only [assigns_variadic, List.mem_cons, List.not_mem_nil, or_false] at hc
  rcases hc with rfl | rfl | rfl | rfl
  · refine ⟨plain .rval (.ref true false Y.val), by simp [assigns_variadic], by simp [plain], ?_, ?_⟩
    · rw [plain_braces, hn]; rfl
    · unfold betterI
      simp only [plain_braces, hn, ref_fw hf]
      simp [Lconv.better, Ics.better, plain, hne]
  · refine ⟨plain .rval (.ref true false Y.val), by simp [assigns_variadic], by simp [plain], ?_, ?_⟩
    · rw [plain_braces, hn]; rfl
    · unfold betterI
      simp only [plain_braces, hn]
      simp [Lconv.better, Ics.better]
  · rw [list_braces, hl] at hcv; cases hcv
  · refine ⟨plain .fw (.ref false true Y.fw), by simp [assigns_variadic], by simp [plain], ?_, ?_⟩
    · rw [plain_braces, ref_fw hf]; rfl
    · unfold betterI
      simp only [plain_braces, hn, ref_fw hf]
      simp [Lconv.better, Ics.better, plain, hne.symm]

/-- With several arguments and a braced list among them there is no constructor. -/
theorem ctors_braces_several {W : World T} {L : Lists T} {Y : Types T} {is : List (Ini T)} (h2 : 2 ≤ is.length)
    {l : List (Arg T)} (hm : Ini.braces l ∈ is) : resolveI W L Y (ctors .variadic Y) is = none := by
  apply resolveI_none
  have hp : ∀ (js : List (Ini T)) (ps : List (Tp T)), Ini.braces l ∈ js → ps = js.map (fun _ => .fwd) →
      convAll W L Y js ps = none := by
    intro js
    induction js with
    | nil => intro ps h; cases h
    | cons j js ih =>
      intro ps h he
      subst he
      simp only [List.map_cons, convAll]
      rcases List.mem_cons.1 h with rfl | h
      · rfl
      · rw [ih _ h rfl]
        cases deduceI W L j .fwd with
        | none => rfl
        | some q =>
          simp only
          cases icsI W L Y j q <;> rfl
  have hlen : ∀ (js : List (Ini T)) (ps : List (Tp T)) xs, convAll W L Y js ps = some xs → js.length = ps.length := by
    intro js
    induction js with
    | nil => intro ps xs h; cases ps <;> simp_all [convAll]
    | cons j js ih =>
      intro ps xs h
      cases ps with
      | nil => simp [convAll] at h
      | cons p ps =>
        simp only [convAll] at h
        split at h
        · split at h
          · next hh => simp [ih _ _ hh]
          · cases h
        · cases h
  intro c hc
  have hone : ∀ c : Cand Ctor T, c.pack = false → c.pars.length ≤ 1 → c.convI W L Y is = none := by
    intro c h0 h1
    unfold Cand.convI
    simp only [h0, Bool.false_eq_true, if_false]
    cases h : convAll W L Y is c.pars with
    | none => rfl
    | some xs => have := hlen _ _ _ h; omega
  simp only [ctors_variadic, List.mem_cons, List.not_mem_nil, or_false] at hc
  rcases hc with rfl | rfl | rfl | rfl | rfl | rfl | rfl
  · unfold Cand.convI
    simp only [if_true]
    exact hp _ _ hm rfl
  all_goals exact hone _ rfl (by simp [plain])

omit [DecidableEq T] in
theorem typed_braces {l : List (Arg T)} : ∀ {is : List (Ini T)}, Ini.braces l ∈ is → typed is = none
  | .braces _ :: _, _ => rfl
  | .arg a :: is, h => by
    have : Ini.braces l ∈ is := by simpa using h
    simp [typed, typed_braces this]

end Verif.Overload

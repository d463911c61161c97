import Verif.BracesLemmas
import Verif.Props.Forwarding

/-!
# C73: braced lists as initializers
-/

set_option autoImplicit false

namespace Verif.Props

open Verif.Overload

variable {T : Type} [DecidableEq T]

/-- The library's types are as in `Sane`, and no `std::initializer_list<V>` is one of them.  (No code of its own.) -/
structure SaneLists (W : World T) (L : Lists T) (Y : Types T) : Prop extends Sane W Y where
  fw : ∀ v, L.of v ≠ Y.fw
  val : ∀ v, L.of v ≠ Y.val
  rep : ∀ v, L.of v ≠ Y.rep

/-- The elements, of which there are some, are of one type `v`, and `initializer_list<v>` converts to the key type.  (No code of its own.) -/
def AsList (W : World T) (L : Lists T) (l : List (Arg T)) (v : T) : Prop :=
  l ≠ [] ∧ (∀ a ∈ l, a.ty = v) ∧ W.list (L.of v) = true

/-- Elements of one type of which an `initializer_list` converts to the key type: in every form of initialization and
assignment the key is constructed from that `initializer_list`. -/
theorem C73_list (W : World T) (L : Lists T) (Y : Types T) (pol : Pol) (hs : SaneLists W L Y) (l : List (Arg T)) (v : T)
    (h : AsList W L l v) :
    (∀ copy, listInit copy W L Y pol l = .key [⟨L.of v, false, false⟩]) ∧
    constructI W L Y pol [.braces l] = .key [⟨L.of v, false, false⟩] ∧
    assignBraces W L Y pol l = .key [⟨L.of v, false, false⟩] := by
  obtain ⟨hne, hall, hl⟩ := h
  have ho := listOf_some (L := L) hne hall hl
  have hi : insert .variadic W Y pol [⟨L.of v, false, false⟩] = .key [⟨L.of v, false, false⟩] := by
    rw [insert_key rfl (by intro a ha; cases ha; exact hs.rep v) (by intro a ha; cases ha; exact hs.val v)]
    rfl
  refine ⟨fun copy => ?_, ?_, ?_⟩
  · match l, hne with
    | a :: l, _ => simp only [listInit, ho, hi]
  · unfold constructI
    rw [typed_braces (l := l) (by simp), ctors_braces_list ho]
    simp only [list_braces, ho, Option.map_some, Par.name, hi]
  · unfold assignBraces
    rw [assigns_braces_list ho]
    simp only [list_braces, ho, Option.map_some, Par.name]
    exact C52_list .variadic W Y pol ⟨L.of v, false, false⟩ rfl rfl hl ⟨hs.fw v, hs.val v, hs.rep v⟩

/-- Empty braces are the default constructor. -/
theorem C73_empty (W : World T) (L : Lists T) (Y : Types T) (pol : Pol) (copy : Bool) :
    listInit copy W L Y pol [] = construct .variadic W Y pol [] ∧ construct .variadic W Y pol [] = .key [] ∧
    constructI W L Y pol [.braces []] = .key [] := by
  have h0 : construct .variadic W Y pol [] = .key [] := C52_forward .variadic W Y pol [] rfl (by simp)
  refine ⟨rfl, h0, ?_⟩
  obtain ⟨i, rv, cst, hr, hi⟩ := ctors_braces_fw (W := W) (L := L) (Y := Y) (l := []) rfl
  unfold constructI
  rw [typed_braces (l := []) (by simp), hr]
  have : fwParam W L Y pol [] = .key [] := h0
  rcases hi with rfl | rfl | rfl | rfl <;> simp [plain, this]

/-- Any other elements are the arguments, as if they were in parentheses; in the form with `=` the program is rejected unless the only element is
a flyweight, or an object of a type `initializer_list<V>` that converts to the key type. -/
theorem C73_elements (W : World T) (L : Lists T) (Y : Types T) (pol : Pol) (hs : Sane W Y) (l : List (Arg T))
    (hne : l ≠ []) (h : ∀ v, ¬ AsList W L l v) :
    listInit false W L Y pol l = construct .variadic W Y pol l ∧
    ((∃ a, l = [a] ∧ a.ty = Y.fw) → listInit true W L Y pol l = .copied) ∧
    ((∃ a, l = [a] ∧ a.ty ≠ Y.fw ∧ W.list a.ty = true) → listInit true W L Y pol l = construct .variadic W Y pol l) ∧
    ((∀ a, l = [a] → a.ty ≠ Y.fw ∧ W.list a.ty = false) → listInit true W L Y pol l = .error) := by
  have ho : listOf W L l = none := listOf_none fun v hv => by
    cases hl : W.list (L.of v) with
    | false => rfl
    | true => exact absurd ⟨hne, hv, hl⟩ (h v)
  have hu : ∀ copy, listInit copy W L Y pol l = match resolve W (ctors .variadic Y) l with
      | some c => if copy && c.id.isExplicit then .error else construct .variadic W Y pol l
      | none => .error := by
    intro copy
    match l, hne with
    | a :: l, _ => simp only [listInit, ho]; cases resolve W (ctors .variadic Y) (a :: l) <;> rfl
  refine ⟨?_, ?_, ?_, ?_⟩
  · rw [hu]
    cases hr : resolve W (ctors .variadic Y) l with
    | none => simp only [construct, hr]
    | some c => rfl
  · rintro ⟨a, rfl, ha⟩
    rw [hu, ctors_fw ha hs.fw_list, construct_copied ha hs.fw_list]
    unfold copyId
    cases (Mode.variadic.bestRef a) with
    | mk r c => cases r <;> cases c <;> rfl
  · rintro ⟨a, rfl, ha, hl⟩
    rw [hu, ctors_list rfl ha hl]
    rfl
  · intro h1
    rw [hu, ctors_fwd hne rfl (fun a ha => (h1 a ha).1) (fun _ a ha => (h1 a ha).2)]
    rfl

/-- A braced list as the only argument in parentheses: apart from an `initializer_list` and `{}` it has to be a flyweight (or an object of
a class derived from it), which is copied. -/
theorem C73_parentheses (W : World T) (L : Lists T) (Y : Types T) (pol : Pol) (hs : Sane W Y) (l : List (Arg T))
    (hne : l ≠ []) (h : ∀ v, ¬ AsList W L l v) :
    ((∃ a, l = [a] ∧ (a.ty = Y.fw ∨ W.derives a.ty Y.fw = true)) → constructI W L Y pol [.braces l] = .copied) ∧
    ((∀ a, l = [a] → a.ty ≠ Y.fw ∧ W.derives a.ty Y.fw = false ∧ W.list a.ty = false) →
      constructI W L Y pol [.braces l] = .error) := by
  have ho : listOf W L l = none := listOf_none fun v hv => by
    cases hl : W.list (L.of v) with
    | false => rfl
    | true => exact absurd ⟨hne, hv, hl⟩ (h v)
  obtain ⟨i, rv, cst, hr, hi⟩ := ctors_braces_fw (Y := Y) ho
  have hc : constructI W L Y pol [.braces l] = fwParam W L Y pol l := by
    unfold constructI
    rw [typed_braces (l := l) (by simp), hr]
    rcases hi with rfl | rfl | rfl | rfl <;> simp [plain]
  rw [hc]
  unfold fwParam
  refine ⟨?_, ?_⟩
  · rintro ⟨a, rfl, ha⟩
    rw [show single W Y.fw [a] = some a by simp [single, ha]]
  · intro h1
    have : single W Y.fw l = none := by
      cases hsg : single W Y.fw l with
      | none => rfl
      | some a =>
        obtain ⟨hl, ha⟩ := single_some hsg
        have := h1 a hl
        rcases ha with ha | ha
        · exact absurd ha this.1
        · rw [this.2.1] at ha; cases ha
    rw [this]
    exact (C73_elements W L Y pol hs l hne h).2.2.2 fun a ha => ⟨(h1 a ha).1, (h1 a ha).2.2⟩

/-- A braced list among several arguments is rejected: nothing can be forwarded from it. -/
theorem C73_several (W : World T) (L : Lists T) (Y : Types T) (pol : Pol) (is : List (Ini T)) (h2 : 2 ≤ is.length)
    (l : List (Arg T)) (hm : Ini.braces l ∈ is) : constructI W L Y pol is = .error := by
  unfold constructI
  rw [typed_braces hm, ctors_braces_several h2 hm]

/-- Assignment of a braced list with a flyweight or a value in it is assignment of that. -/
theorem C73_assign_one (W : World T) (L : Lists T) (Y : Types T) (pol : Pol) (hs : Sane W Y) (a : Arg T)
    (h : W.list (L.of a.ty) = false) :
    (a.ty = Y.fw → assignBraces W L Y pol [a] = .copied) ∧
    (a.ty = Y.val → W.derives Y.val Y.fw = false → assignBraces W L Y pol [a] = assign .variadic W Y pol a) := by
  have ho : listOf W L [a] = none := by simp [listOf, elem, h]
  refine ⟨fun ha => ?_, fun ha hd => ?_⟩
  · unfold assignBraces
    rw [assigns_braces_fw ho ha hs.fw_val]
    simp [plain, fwParam, single, ha]
  · have hf : single W Y.fw [a] = none := by simp [single, ha, hs.fw_val.symm, hd]
    have hv : single W Y.val [a] = some a := by simp [single, ha]
    rw [C52_assign_value .variadic W Y pol hs a ha rfl, C52_value .variadic W Y pol hs a ha rfl]
    by_cases hm : movable .variadic a = true
    · have hrc : a.rv = true ∧ a.cst = false := by simpa [movable, Mode.rvalues] using hm
      have h1 : icsI W L Y (.braces [a]) (.ref true false Y.val) = some ⟨⟨0, true, true, false, Y.val⟩, false⟩ := by
        rw [ref_single hv, if_pos (by simp [bindOk, hrc]), if_pos ha]
      have h2 : icsI W L Y (.braces [a]) (.ref false true Y.val) = some ⟨⟨0, true, false, true, Y.val⟩, false⟩ := by
        rw [ref_single hv, if_pos (by simp [bindOk]), if_pos ha]
      unfold assignBraces
      rw [assigns_braces_val ho hf h2 ⟨h1, by simp [Ics.better], by simp [Ics.better], by simp⟩]
      simp only [plain_braces, h1, Option.map_some, show (plain Asg.rval (.ref true false Y.val)).id = Asg.rval from rfl,
        valParam, hv, if_true, Par.forward]
      rw [C52_value .variadic W Y pol hs _ rfl rfl]
      rw [hm]; rfl
    · have hm' : movable .variadic a = false := by simpa using hm
      have hb : bindOk true false a = false := by
        simp only [movable, Mode.rvalues] at hm'
        simpa [bindOk] using hm'
      have h1 : icsI W L Y (.braces [a]) (.ref true false Y.val) = none := by
        rw [ref_single hv, hb]; rfl
      have h2 : icsI W L Y (.braces [a]) (.ref false true Y.val) = some ⟨⟨0, true, false, true, Y.val⟩, false⟩ := by
        rw [ref_single hv, if_pos (by simp [bindOk]), if_pos ha]
      unfold assignBraces
      rw [assigns_braces_lval ho hf ⟨h2, by simp⟩ h1]
      simp only [plain_braces, h2, Option.map_some, show (plain Asg.val (.ref false true Y.val)).id = Asg.val from rfl,
        valParam, hv, if_true, Par.name]
      rw [C52_value .variadic W Y pol hs _ rfl rfl]
      rw [hm']; rfl

/-- Assignment of any other braced list.  If it converts to the value type without functions of the user (numbers), a value is made
and moved.  If it takes a constructor of the value type, the program is rejected as ambiguous, because the constructor of
the flyweight would take the elements as well.  If it does not convert to the value type, only `{}` is accepted, which
assigns a default-constructed flyweight. -/
theorem C73_assign (W : World T) (L : Lists T) (Y : Types T) (pol : Pol) (hs : Sane W Y) (l : List (Arg T))
    (h : ∀ v, ¬ AsList W L l v)
    (h1 : ∀ a, l = [a] → (a.ty ≠ Y.fw ∧ W.derives a.ty Y.fw = false ∧ W.list a.ty = false) ∧
      a.ty ≠ Y.val ∧ W.derives a.ty Y.val = false) :
    assignBraces W L Y pol l =
      match L.toVal l with
      | some r => if r.user || !r.ok then .error else construct .variadic W Y pol [⟨Y.val, false, true⟩]
      | none => if l = [] then .key [] else .error := by
  have ho : listOf W L l = none := by
    cases l with
    | nil => rfl
    | cons a l =>
      refine listOf_none fun v hv => ?_
      cases hl : W.list (L.of v) with
      | false => rfl
      | true => exact absurd ⟨by simp, hv, hl⟩ (h v)
  have hsg : ∀ t, (∀ a, l = [a] → a.ty ≠ t ∧ W.derives a.ty t = false) → single W t l = none := by
    intro t ht
    cases hc : single W t l with
    | none => rfl
    | some a =>
      obtain ⟨hl, ha⟩ := single_some hc
      have := ht a hl
      rcases ha with ha | ha
      · exact absurd ha this.1
      · rw [this.2] at ha; cases ha
  have hf := hsg Y.fw fun a ha => ⟨(h1 a ha).1.1, (h1 a ha).1.2.1⟩
  have hv := hsg Y.val fun a ha => (h1 a ha).2
  have hne := hs.fw_val
  unfold assignBraces
  cases hr : L.toVal l with
  | none =>
    rw [assigns_braces_none ho hf hv hne hr]
    simp only [plain, fwParam, hf]
    by_cases hl : l = []
    · subst hl
      exact (C73_empty W L Y pol true).2.1
    · rw [if_neg hl]
      exact (C73_elements W L Y pol hs l hl h).2.2.2 fun a ha => ⟨(h1 a ha).1.1, (h1 a ha).1.2.2⟩
  | some r =>
    cases hu : r.user with
    | true => rw [assigns_braces_tie ho hf hv hne hr hu]; simp [hu]
    | false =>
      have hx := ref_val (L := L) hne.symm hv
      simp only [hr, Option.map_some, hu] at hx
      have h1 : icsI W L Y (.braces l) (.ref true false Y.val) = some ⟨⟨1, true, true, false, Y.val⟩, false⟩ := by
        rw [hx]; rfl
      have h2 : icsI W L Y (.braces l) (.ref false true Y.val) = some ⟨⟨1, true, false, true, Y.val⟩, false⟩ := by
        rw [hx]; rfl
      rw [assigns_braces_val ho hf h2 ⟨h1, by simp [Ics.better], by simp [Ics.better], by simp⟩]
      simp only [plain_braces, h1, Option.map_some, show (plain Asg.rval (.ref true false Y.val)).id = Asg.rval from rfl,
        valParam, hv, hr, Par.forward]
      cases hk : r.ok <;> simp [hu]

/-! ## Cases: test/test_multictor.cpp -/

/-- Types: a flyweight, its value type and `rep_type`, `initctor::arg`, `int`, `unsigned int`, a class derived from the flyweight, and
`initializer_list`s.  (Example, no code of its own: /repo/test/test_multictor.cpp:86-131.) -/
inductive MTy where
  | fw | val | rep | arg | int | uint | derived | list (t : MTy)
  deriving DecidableEq

/-- `flyweight<initctor>`: the value type has constructors from `initializer_list<int>` and `initializer_list<unsigned int>`.  (Example, no code
of its own: /repo/test/test_multictor.cpp:86-118.) -/
def mWorld : World MTy where
  derives a b := decide (a = .derived ∧ b = .fw)
  convR a b := decide (b = .val ∧ (a = .list .int ∨ a = .list .uint))
  convL a b := decide (b = .val ∧ a = .fw)
  list a := decide (a = .list .int ∨ a = .list .uint)

/-- The library's types among them.  (Example, no code of its own.) -/
def mTypes : Types MTy := ⟨.fw, .val, .rep⟩

/-- Any braced list of no or two elements takes a constructor of `initctor`.  (Example, no code of its own: /repo/test/test_multictor.cpp:90-92.) -/
def mLists : Lists MTy := ⟨.list, fun l => if l.length = 0 ∨ l.length = 2 then some ⟨true, true⟩ else none⟩

/-- `flyweight<int>`: braced lists of no or one number convert without constructors.  (Example, no code of its own.) -/
def iLists : Lists MTy := ⟨.list, fun l => if l.length ≤ 1 then some ⟨false, true⟩ else none⟩

/-- The hypotheses hold. -/
theorem mSane : SaneLists mWorld mLists mTypes :=
  ⟨⟨by decide, by decide, rfl, rfl⟩, by simp [mLists, mTypes], by simp [mLists, mTypes], by simp [mLists, mTypes]⟩

/-- Different types are not one. -/
theorem not_list {l : List (Arg MTy)} {v : MTy} {a b : Arg MTy} (ha : a ∈ l) (hb : b ∈ l) (h : a.ty ≠ b.ty) :
    ¬ AsList mWorld mLists l v := fun hl => h ((hl.2.1 a ha).trans (hl.2.1 b hb).symm)

-- `flyweight<initctor> ff{};`
example : listInit false mWorld mLists mTypes .dflt [] = .key [] :=
  (C73_empty mWorld mLists mTypes .dflt false).1.trans (C73_empty mWorld mLists mTypes .dflt false).2.1

-- `flyweight<initctor>{initctor::arg(),1}`
example : listInit false mWorld mLists mTypes .dflt [⟨.arg, false, true⟩, ⟨.int, false, true⟩] =
    .key [⟨.arg, false, true⟩, ⟨.int, false, true⟩] :=
  (C73_elements mWorld mLists mTypes .dflt mSane.toSane _ (by simp) fun v =>
    not_list (a := ⟨.arg, false, true⟩) (b := ⟨.int, false, true⟩) (by simp) (by simp) (by simp)).1.trans
    (C52_forward .variadic mWorld mTypes .dflt _ rfl (by simp))

-- `flyweight<initctor> ff0{initctor::arg(),initctor::arg()};`
example : listInit false mWorld mLists mTypes .dflt [⟨.arg, false, true⟩, ⟨.arg, false, true⟩] =
    .key [⟨.arg, false, true⟩, ⟨.arg, false, true⟩] :=
  (C73_elements mWorld mLists mTypes .dflt mSane.toSane _ (by simp) fun v h => by
    have := h.2.1 ⟨.arg, false, true⟩ (by simp)
    simp only at this
    subst this
    exact absurd h.2.2 (by decide)).1.trans
    (C52_forward .variadic mWorld mTypes .dflt _ rfl (by simp))

-- `ff1={1u,2u,3u};`, `flyweight<initctor> ff2{1u};`
example : assignBraces mWorld mLists mTypes .dflt [⟨.uint, false, true⟩, ⟨.uint, false, true⟩, ⟨.uint, false, true⟩] =
    .key [⟨.list .uint, false, false⟩] :=
  (C73_list mWorld mLists mTypes .dflt mSane _ .uint ⟨by simp, by simp, rfl⟩).2.2

example : listInit true mWorld mLists mTypes .variant [⟨.uint, false, true⟩] = .key [⟨.list .uint, false, false⟩] :=
  (C73_list mWorld mLists mTypes .variant mSane _ .uint ⟨by simp, by simp, rfl⟩).1 true

-- `flyweight<initctor> ff={initctor::arg(),1};` and `ff={initctor::arg(),1};` do not compile
example : listInit true mWorld mLists mTypes .dflt [⟨.arg, false, true⟩, ⟨.int, false, true⟩] = .error :=
  (C73_elements mWorld mLists mTypes .dflt mSane.toSane _ (by simp) fun v =>
    not_list (a := ⟨.arg, false, true⟩) (b := ⟨.int, false, true⟩) (by simp) (by simp) (by simp)).2.2.2 (by simp)

example : assignBraces mWorld mLists mTypes .dflt [⟨.arg, false, true⟩, ⟨.int, false, true⟩] = .error :=
  C73_assign mWorld mLists mTypes .dflt mSane.toSane _ (fun v =>
    not_list (a := ⟨.arg, false, true⟩) (b := ⟨.int, false, true⟩) (by simp) (by simp) (by simp)) (by simp)

-- `ff={};` does not compile either, but for `flyweight<int>` it does
example : assignBraces mWorld mLists mTypes .dflt [] = .error :=
  C73_assign mWorld mLists mTypes .dflt mSane.toSane _ (fun _ h => h.1 rfl) (by simp)

example : assignBraces mWorld iLists mTypes .dflt [] = .key [⟨.val, false, true⟩] :=
  (C73_assign mWorld iLists mTypes .dflt mSane.toSane _ (fun _ h => h.1 rfl) (by simp)).trans
    (C52_value .variadic mWorld mTypes .dflt mSane.toSane ⟨.val, false, true⟩ rfl rfl)

-- `flyweight<initctor> g({f});` copies; an object of a derived class too, unlike `g{d}`
example : constructI mWorld mLists mTypes .dflt [.braces [⟨.derived, false, false⟩]] = .copied :=
  (C73_parentheses mWorld mLists mTypes .dflt mSane.toSane _ (by simp) (fun v h => by
    have := h.2.1 ⟨.derived, false, false⟩ (by simp)
    simp only at this
    subst this
    exact absurd h.2.2 (by decide))).1 ⟨_, rfl, Or.inr rfl⟩

example : constructI mWorld mLists mTypes .dflt [.braces [⟨.int, false, true⟩], .arg ⟨.int, false, true⟩] = .error :=
  C73_several mWorld mLists mTypes .dflt _ (by simp) _ (List.mem_cons_self ..)

example : assignBraces mWorld mLists mTypes .dflt [⟨.val, false, true⟩] = assign .variadic mWorld mTypes .dflt ⟨.val, false, true⟩ :=
  (C73_assign_one mWorld mLists mTypes .dflt mSane.toSane ⟨.val, false, true⟩ rfl).2 rfl rfl

end Verif.Props

import Verif.OverloadSets

/-!
# C52: which arguments reach the key's and value's constructors
-/

set_option autoImplicit false

namespace Verif.Props

open Verif.Overload

variable {T : Type} [DecidableEq T]

/-- The flyweight and value types are different, and neither is an `initializer_list` or the library's `rep_type`.  (No code
of its own.) -/
structure Sane (W : World T) (Y : Types T) : Prop where
  fw_val : Y.fw ≠ Y.val
  val_rep : Y.val ≠ Y.rep
  fw_list : W.list Y.fw = false
  val_list : W.list Y.val = false

/-- An argument is a non-`const` rvalue, and the compiler has rvalue references.  (No code of its own.) -/
def movable (mode : Mode) (a : Arg T) : Bool := mode.rvalues && (a.rv && !a.cst)

/-- A flyweight of the same type is always copied, whatever its constness and value category; nothing is looked up. -/
theorem C52_copy (mode : Mode) (W : World T) (Y : Types T) (pol : Pol) (hs : Sane W Y) (a : Arg T) (ha : a.ty = Y.fw) :
    construct mode W Y pol [a] = .copied ∧ assign mode W Y pol a = .copied := by
  refine ⟨construct_copied ha hs.fw_list, ?_⟩
  have hv : a.ty ≠ Y.val := ha ▸ hs.fw_val
  have hc : (plain Asg.fw (.ref false true Y.fw)).conv W [a] = some [⟨0, true, false, true, Y.fw⟩] := by
    rw [← ha, plain_exact, if_pos (by simp [bindOk])]
  have hr : resolve W (assigns mode Y) [a] = some (plain .fw (.ref false true Y.fw)) := by
    apply resolve_eq
    · simp [assigns]
    · rw [hc]; rfl
    · intro d hd hne h
      simp only [assigns, List.mem_append, List.mem_cons, List.not_mem_nil, or_false] at hd
      rcases hd with (rfl | rfl) | hd
      · exact absurd rfl hne
      · exact exact_beats hc rfl hv h
      · by_cases hr : mode.rvalues = true
        · simp only [hr, if_true, List.mem_cons, List.not_mem_nil, or_false] at hd
          rcases hd with rfl | rfl
          · simp [Cand.conv, Cand.params, deduceAll, deduce, ha, hs.fw_list] at h
          · exact exact_beats hc rfl hv h
        · simp [hr] at hd
    · intro d hd he
      simp only [assigns, List.mem_append, List.mem_cons, List.not_mem_nil, or_false] at hd
      rcases hd with (rfl | rfl) | hd
      · rfl
      · simp [plain] at he
      · by_cases hr : mode.rvalues = true
        · simp only [hr, if_true, List.mem_cons, List.not_mem_nil, or_false] at hd
          rcases hd with rfl | rfl <;> simp [plain] at he
        · simp [hr] at hd
  unfold assign
  rw [hr]
  simp [plain]

/-- A value is copied, unless it is a non-`const` rvalue, which is moved; a flyweight with keys extracts the key from it,
or does not compile if it cannot. -/
theorem C52_value (mode : Mode) (W : World T) (Y : Types T) (pol : Pol) (hs : Sane W Y) (a : Arg T) (ha : a.ty = Y.val)
    (hf : mode.fits 1 = true) :
    construct mode W Y pol [a] =
      match pol with
      | .dflt => .key [⟨Y.val, !movable mode a, movable mode a⟩]
      | .variant => .value (movable mode a)
      | .product => .error := by
  rw [construct_fwd hf (by simpa [ha] using hs.fw_val.symm) (by simpa [ha] using fun _ => hs.val_list)]
  rw [List.map_cons, List.map_nil, insert_val ((passed_ty _ _).trans ha) hs.val_rep hf]
  have : (mode.rvalues && (mode.passed a).rv && !(mode.passed a).cst) = movable mode a := by
    unfold movable Mode.passed
    cases mode.rvalues <;> simp
  rw [this]
  cases pol <;> rfl

/-- In every other case the key (or the value, if it is its own key) is constructed from the arguments given, in
number, order, type, constness and value category; without rvalue references, rvalues arrive as `const` lvalues. -/
theorem C52_forward (mode : Mode) (W : World T) (Y : Types T) (pol : Pol) (as : List (Arg T))
    (hf : mode.fits as.length = true)
    (h : ∀ a, as = [a] → a.ty ≠ Y.fw ∧ a.ty ≠ Y.val ∧ a.ty ≠ Y.rep ∧ W.list a.ty = false) :
    construct mode W Y pol as =
      .key (if mode.rvalues then as else as.map fun a => ⟨a.ty, a.cst || a.rv, false⟩) := by
  rw [construct_fwd hf (fun a ha => (h a ha).1) (fun _ a ha => (h a ha).2.2.2)]
  rw [insert_key (by simpa using hf) (passed_one (P := fun t => t ≠ Y.rep) fun a ha => (h a ha).2.2.1)
    (passed_one (P := fun t => t ≠ Y.val) fun a ha => (h a ha).2.1), map_passed]
  congr 1
  unfold Mode.passed
  by_cases hr : mode.rvalues = true <;> simp [hr]

/-- An `initializer_list` that converts to the key type arrives as an lvalue. -/
theorem C52_list (mode : Mode) (W : World T) (Y : Types T) (pol : Pol) (a : Arg T) (hr : mode.rvalues = true)
    (hf : mode.fits 1 = true) (hl : W.list a.ty = true) (h : a.ty ≠ Y.fw ∧ a.ty ≠ Y.val ∧ a.ty ≠ Y.rep) :
    construct mode W Y pol [a] = .key [⟨a.ty, false, false⟩] := by
  rw [construct_list hr h.1 hl, insert_key hf (by simpa using h.2.2) (by simpa using h.2.1)]
  simp [Mode.passed, hr]

/-- With too many arguments for the emulation of variadic templates, the program is rejected. -/
theorem C52_limit (mode : Mode) (W : World T) (Y : Types T) (pol : Pol) (as : List (Arg T)) (h2 : 2 ≤ as.length)
    (hf : mode.fits as.length = false) : construct mode W Y pol as = .error :=
  construct_long h2 hf

/-- An object of a class derived from the flyweight type is not copied by the constructor but used as an argument for the
key, although assigning the same object does copy the handle. -/
theorem C52_derived (mode : Mode) (W : World T) (Y : Types T) (pol : Pol) (a : Arg T)
    (hf : mode.fits 1 = true) (hd : W.derives a.ty Y.fw = true) (hdv : W.derives a.ty Y.val = false)
    (h : a.ty ≠ Y.fw ∧ a.ty ≠ Y.val ∧ a.ty ≠ Y.rep ∧ W.list a.ty = false) :
    construct mode W Y pol [a] = .key [if mode.rvalues then a else ⟨a.ty, a.cst || a.rv, false⟩] ∧
    assign mode W Y pol a = .copied := by
  constructor
  · rw [C52_forward mode W Y pol [a] hf (by intro b hb; cases hb; exact h)]
    split <;> rfl
  · have hr : resolve W (assigns mode Y) [a] = some (plain .fw (.ref false true Y.fw)) := by
      obtain ⟨t, c, r⟩ := a
      simp only at h hd hdv
      unfold assigns resolve
      cases mode.rvalues <;> cases h1 : W.convR t Y.val <;> cases h2 : W.convL t Y.val <;>
        simp [better, plain, Cand.conv, Cand.params, deduceAll, deduce, icsAll, ics, bindOk, noWorse, someBetter,
          Ics.better, h.1, h.2.1, h.2.2.2, hd, hdv, h1, h2]
    unfold assign
    rw [hr]
    simp [plain]

/-- Assignment of a value is construction from it followed by copying the handle: a non-`const` rvalue is moved, anything
else copied. -/
theorem C52_assign_value (mode : Mode) (W : World T) (Y : Types T) (pol : Pol) (hs : Sane W Y) (a : Arg T)
    (ha : a.ty = Y.val) (hf : mode.fits 1 = true) :
    assign mode W Y pol a = construct mode W Y pol [a] := by
  have hr : resolve W (assigns mode Y) [a] =
      some (if movable mode a then plain .rval (.ref true false Y.val) else plain .val (.ref false true Y.val)) :=
    assigns_val ha hs.fw_val.symm hs.val_list
  unfold assign
  rw [hr]
  by_cases hm : movable mode a = true
  · have hmr : mode.rvalues = true := by
      unfold movable at hm; simp only [Bool.and_eq_true] at hm; exact hm.1
    simp only [hm, if_true, plain, Cand.params, Bool.false_eq_true, if_false, deduceAll, deduce, Par.forward]
    rw [C52_value mode W Y pol hs _ rfl hf, C52_value mode W Y pol hs a ha hf, hm]
    simp [movable, hmr]
  · have hm' : movable mode a = false := by simpa using hm
    simp only [hm', Bool.false_eq_true, if_false, plain, Cand.params, deduceAll, deduce, Par.name]
    rw [C52_value mode W Y pol hs _ rfl hf, C52_value mode W Y pol hs a ha hf, hm']
    simp [movable]

/-- Assignment of anything that converts to the value type and not to the flyweight type: a temporary made by the conversion is moved, a
value inside another object is copied; and what converts to neither is rejected. -/
theorem C52_assign_converted (mode : Mode) (W : World T) (Y : Types T) (pol : Pol) (a : Arg T)
    (h : a.ty ≠ Y.fw ∧ a.ty ≠ Y.val ∧ W.list a.ty = false) (hf : W.convR a.ty Y.fw = false ∧ W.convL a.ty Y.fw = false)
    (hd : W.derives a.ty Y.fw = false ∧ W.derives a.ty Y.val = false)
    (hb : ¬ (W.convR a.ty Y.val = true ∧ W.convL a.ty Y.val = true)) :
    assign mode W Y pol a =
      if W.convR a.ty Y.val then construct mode W Y pol [⟨Y.val, !mode.rvalues, mode.rvalues⟩]
      else if W.convL a.ty Y.val then construct mode W Y pol [⟨Y.val, true, false⟩]
      else .error := by
  obtain ⟨t, c, r⟩ := a
  simp only at h hf hd hb
  unfold assign assigns resolve
  cases mode.rvalues <;> cases h1 : W.convR t Y.val <;> cases h2 : W.convL t Y.val <;>
    simp_all [better, plain, Cand.conv, Cand.params, deduceAll, deduce, icsAll, ics, noWorse, someBetter,
      Ics.better, Par.name, Par.forward]

/-- Assignment of an `initializer_list` that converts to the key type is construction from it. -/
theorem C52_assign_list (mode : Mode) (W : World T) (Y : Types T) (pol : Pol) (a : Arg T) (hr : mode.rvalues = true)
    (hl : W.list a.ty = true) (h : a.ty ≠ Y.fw ∧ a.ty ≠ Y.val) :
    assign mode W Y pol a = construct mode W Y pol [⟨a.ty, false, false⟩] := by
  have hc : (⟨.list, true, false, [.list]⟩ : Cand Asg T).conv W [a] = some [⟨0, false, false, false, a.ty⟩] := by
    simp [Cand.conv, Cand.params, deduceAll, deduce, hl, icsAll, ics]
  have hres : resolve W (assigns mode Y) [a] = some ⟨.list, true, false, [.list]⟩ := by
    apply resolve_eq
    · simp [assigns, hr]
    · rw [hc]; rfl
    · intro d hd hne hv
      simp only [assigns, hr, if_true, List.mem_append, List.mem_cons, List.not_mem_nil, or_false] at hd
      rcases hd with (rfl | rfl) | (rfl | rfl)
      · exact exact_beats hc rfl h.1 hv
      · exact exact_beats hc rfl h.2 hv
      · exact absurd rfl hne
      · exact exact_beats hc rfl h.2 hv
    · intro d hd he
      simp only [assigns, hr, if_true, List.mem_append, List.mem_cons, List.not_mem_nil, or_false] at hd
      rcases hd with (rfl | rfl) | (rfl | rfl) <;> first | rfl | simp [plain] at he
  unfold assign
  rw [hres]
  simp [Cand.params, deduceAll, deduce, hl, Par.name]

/-- What converts to both is rejected as ambiguous. -/
theorem C52_assign_ambiguous (mode : Mode) (W : World T) (Y : Types T) (pol : Pol) (hs : Sane W Y) (a : Arg T)
    (h : a.ty ≠ Y.fw ∧ a.ty ≠ Y.val ∧ W.list a.ty = false)
    (hd : W.derives a.ty Y.fw = false ∧ W.derives a.ty Y.val = false)
    (hf : W.convR a.ty Y.fw = true) (hv : W.convR a.ty Y.val = true) :
    assign mode W Y pol a = .error := by
  obtain ⟨t, c, r⟩ := a
  simp only at h hf hd hv
  have hne := hs.fw_val
  have hne' := hs.fw_val.symm
  unfold assign assigns resolve
  cases mode.rvalues <;>
    simp [better, plain, Cand.conv, Cand.params, deduceAll, deduce, icsAll, ics, noWorse, someBetter,
      Ics.better, h, hf, hd, hv, hne, hne']

/-- The overloads of the emulation without rvalue references are, for every number of parameters, all combinations of `T&` and
`const T&`, each once; and the handwritten table is the same as the generated one. -/
theorem C52_tables :
    (∀ n m, m ∈ masks n ↔ m.length = n) ∧ (∀ n, (masks n).Nodup) ∧ ∀ n, n ≤ 5 → ppMasks n = masks n := by
  refine ⟨fun n m => ⟨masks_length, fun h => h ▸ masks_mem m⟩, fun n => ?_, fun n hn => ?_⟩
  · induction n with
    | zero => simp [masks]
    | succ n ih =>
      simp only [masks]
      refine List.nodup_append.2 ⟨?_, ?_, ?_⟩
      · exact List.pairwise_map.2 (ih.imp fun h he => h (by simpa using he))
      · exact List.pairwise_map.2 (ih.imp fun h he => h (by simpa using he))
      · intro x hx y hy
        obtain ⟨_, _, rfl⟩ := List.mem_map.1 hx
        obtain ⟨_, _, rfl⟩ := List.mem_map.1 hy
        simp
  · match n, hn with
    | 0, _ => rfl
    | 1, _ => rfl
    | 2, _ => rfl
    | 3, _ => rfl
    | 4, _ => rfl
    | 5, _ => rfl

/-! ## The documented interface -/

/-- Constructors as documented, /repo/doc/reference/flyweight.html, "Constructors, copy and assignment": in addition to those that the
class has, four for values.  (Documentation, not code.) -/
inductive Doc where
  | dflt
  | fwd (m : List Bool)
  | list
  | copy (rv cst : Bool)
  | val (rv cst : Bool)
  deriving DecidableEq

/-- The documented constructors.  (Documentation, not code: /repo/doc/reference/flyweight.html.) -/
def docCtors (Y : Types T) : List (Cand Doc T) :=
  fwds .variadic false .fwd ++
  [⟨.dflt, false, false, []⟩, ⟨.list, true, false, [.list]⟩,
   plain (.copy false true) (.ref false true Y.fw), plain (.copy false false) (.ref false false Y.fw),
   plain (.copy true true) (.ref true true Y.fw), plain (.copy true false) (.ref true false Y.fw),
   plain (.val false true) (.ref false true Y.val), plain (.val false false) (.ref false false Y.val),
   plain (.val true true) (.ref true true Y.val), plain (.val true false) (.ref true false Y.val)]

/-- The documented effects.  (Documentation, not code: /repo/doc/reference/flyweight.html.)  Of values it says only that the flyweight is
associated to a copy; moving from non-`const` rvalues is what their overload is for. -/
def docConstruct (W : World T) (Y : Types T) (pol : Pol) (as : List (Arg T)) : Made T :=
  match resolve W (docCtors Y) as with
  | some c => match c.id with
    | .dflt => .key []
    | .fwd _ => .key as
    | .list => match as with
      | [a] => .key [⟨a.ty, false, false⟩]
      | _ => .error
    | .copy _ _ => .copied
    | .val rv cst => match pol with
      | .dflt => .key [⟨Y.val, !(rv && !cst), rv && !cst⟩]
      | .variant => .value (rv && !cst)
      | .product => .error
  | none => .error

/-- Construction has the documented effects for all arguments, although the class does not have the documented constructors:
the choice between values and other arguments is made later. -/
theorem C52_documented (W : World T) (Y : Types T) (pol : Pol) (hs : Sane W Y) (as : List (Arg T))
    (hr : ∀ a ∈ as, a.ty ≠ Y.rep) : construct .variadic W Y pol as = docConstruct W Y pol as := by
  have hid : ∀ (d : Cand Doc T), d ∈ fwds .variadic false Doc.fwd → d = ⟨.fwd [], true, true, []⟩ := by
    intro d hd; simpa [fwds] using hd
  have gen : ∀ as : List (Arg T), as ≠ [] →
      (∀ a, as = [a] → a.ty ≠ Y.fw ∧ a.ty ≠ Y.val ∧ W.list a.ty = false) →
      docConstruct W Y pol as = .key as := by
    intro as hne h
    have : resolve W (docCtors Y) as = some (fwdCand .variadic .fwd as) := by
      apply resolve_fwd (by intro m m' h; simpa using h) rfl (Or.inr (Or.inr rfl))
      intro d hd
      simp only [List.mem_cons, List.not_mem_nil, or_false] at hd
      rcases hd with rfl | rfl | rfl | rfl | rfl | rfl | rfl | rfl | rfl | rfl
      · exact ⟨by simp, Or.inl (conv_length rfl (by simpa using hne))⟩
      · refine ⟨by simp, Or.inl ?_⟩
        by_cases h1 : as.length = 1
        · match as, h1 with
          | [a], _ => simp [Cand.conv, Cand.params, deduceAll, deduce, (h a rfl).2.2]
        · exact conv_length rfl (by simpa using h1)
      all_goals
        first
        | exact ⟨by simp [plain], plain_worse fun a ha => (h a ha).1⟩
        | exact ⟨by simp [plain], plain_worse fun a ha => (h a ha).2.1⟩
    unfold docConstruct
    rw [this]
    rfl
  match as with
  | [] =>
    rw [C52_forward .variadic W Y pol [] rfl (by simp)]
    have : resolve W (docCtors Y) [] = some ⟨.dflt, false, false, []⟩ := by
      apply resolve_eq
      · simp [docCtors]
      · rfl
      · intro d hd hne hv
        simp only [docCtors, List.mem_append, List.mem_cons, List.not_mem_nil, or_false] at hd
        rcases hd with hd | rfl | rfl | rfl | rfl | rfl | rfl | rfl | rfl | rfl | rfl
        · rw [hid d hd]
          simp [better, Cand.conv, Cand.params, deduceAll, icsAll, noWorse, someBetter]
        · exact absurd rfl hne
        · rw [conv_length rfl (by simp)] at hv; cases hv
        all_goals rw [plain_length (by simp)] at hv; cases hv
      · intro d hd he
        simp only [docCtors, List.mem_append, List.mem_cons, List.not_mem_nil, or_false] at hd
        rcases hd with hd | rfl | rfl | rfl | rfl | rfl | rfl | rfl | rfl | rfl | rfl
        · rw [hid d hd] at he; cases he
        all_goals first | rfl | cases he
    unfold docConstruct
    rw [this]
    rfl
  | a :: b :: l =>
    rw [C52_forward .variadic W Y pol (a :: b :: l) rfl (by simp), gen _ (by simp) (by simp)]
    rfl
  | [a] =>
    have har := hr a (by simp)
    have hval : Mode.variadic.bestRef a = (a.rv, a.cst) := rfl
    by_cases h1 : a.ty = Y.fw
    · rw [(C52_copy .variadic W Y pol hs a h1).1]
      have h2 : a.ty ≠ Y.val := h1 ▸ hs.fw_val
      have hc : (plain (Doc.copy a.rv a.cst) (.ref a.rv a.cst Y.fw)).conv W [a] = some [⟨0, true, a.rv, a.cst, Y.fw⟩] := by
        rw [← h1, plain_exact, if_pos (bindOk_self a)]
      have : resolve W (docCtors Y) [a] = some (plain (.copy a.rv a.cst) (.ref a.rv a.cst Y.fw)) := by
        apply resolve_exact (mode := .variadic) (i := Doc.copy a.rv a.cst) h1
        · rw [hval]; cases a.rv <;> cases a.cst <;> simp
        · simp
        · rw [hval]
          intro d hd hne hv
          simp only [List.mem_cons, List.not_mem_nil, or_false] at hd
          have hne' : ∀ r k, d.id = Doc.copy r k → (r, k) ≠ (a.rv, a.cst) := by
            intro r k he he'
            simp only [Prod.mk.injEq] at he'
            exact hne (by rw [he, he'.1, he'.2])
          rcases hd with rfl | rfl | rfl | rfl | rfl | rfl | rfl | rfl | rfl | rfl
          · rw [conv_length rfl (by simp)] at hv; cases hv
          · simp [Cand.conv, Cand.params, deduceAll, deduce, h1, hs.fw_list] at hv
          · exact best_beats h1 (hne' _ _ rfl) hv
          · exact best_beats h1 (hne' _ _ rfl) hv
          · exact best_beats h1 (hne' _ _ rfl) hv
          · exact best_beats h1 (hne' _ _ rfl) hv
          · exact exact_beats hc rfl h2 hv
          · exact exact_beats hc rfl h2 hv
          · exact exact_beats hc rfl h2 hv
          · exact exact_beats hc rfl h2 hv
        · rw [hval]
          intro d hd he
          simp only [List.mem_cons, List.not_mem_nil, or_false] at hd
          rcases hd with rfl | rfl | rfl | rfl | rfl | rfl | rfl | rfl | rfl | rfl <;>
            first | (cases he; done) | (simp only [plain, Doc.copy.injEq] at he; rw [← he.1, ← he.2])
      unfold docConstruct
      rw [this]
      rfl
    · by_cases h2 : a.ty = Y.val
      · rw [C52_value .variadic W Y pol hs a h2 rfl]
        have hc : (plain (Doc.val a.rv a.cst) (.ref a.rv a.cst Y.val)).conv W [a] = some [⟨0, true, a.rv, a.cst, Y.val⟩] := by
          rw [← h2, plain_exact, if_pos (bindOk_self a)]
        have : resolve W (docCtors Y) [a] = some (plain (.val a.rv a.cst) (.ref a.rv a.cst Y.val)) := by
          apply resolve_exact (mode := .variadic) (i := Doc.val a.rv a.cst) h2
          · rw [hval]; cases a.rv <;> cases a.cst <;> simp
          · simp
          · rw [hval]
            intro d hd hne hv
            simp only [List.mem_cons, List.not_mem_nil, or_false] at hd
            have hne' : ∀ r k, d.id = Doc.val r k → (r, k) ≠ (a.rv, a.cst) := by
              intro r k he he'
              simp only [Prod.mk.injEq] at he'
              exact hne (by rw [he, he'.1, he'.2])
            rcases hd with rfl | rfl | rfl | rfl | rfl | rfl | rfl | rfl | rfl | rfl
            · rw [conv_length rfl (by simp)] at hv; cases hv
            · simp [Cand.conv, Cand.params, deduceAll, deduce, h2, hs.val_list] at hv
            · exact exact_beats hc rfl h1 hv
            · exact exact_beats hc rfl h1 hv
            · exact exact_beats hc rfl h1 hv
            · exact exact_beats hc rfl h1 hv
            · exact best_beats h2 (hne' _ _ rfl) hv
            · exact best_beats h2 (hne' _ _ rfl) hv
            · exact best_beats h2 (hne' _ _ rfl) hv
            · exact best_beats h2 (hne' _ _ rfl) hv
          · rw [hval]
            intro d hd he
            simp only [List.mem_cons, List.not_mem_nil, or_false] at hd
            rcases hd with rfl | rfl | rfl | rfl | rfl | rfl | rfl | rfl | rfl | rfl <;>
              first | (cases he; done) | (simp only [plain, Doc.val.injEq] at he; rw [← he.1, ← he.2])
        unfold docConstruct
        rw [this]
        cases pol <;> rfl
      · by_cases h3 : W.list a.ty = true
        · rw [C52_list .variadic W Y pol a rfl rfl h3 ⟨h1, h2, har⟩]
          have hc : (⟨.list, true, false, [.list]⟩ : Cand Doc T).conv W [a] = some [⟨0, false, false, false, a.ty⟩] := by
            simp [Cand.conv, Cand.params, deduceAll, deduce, h3, icsAll, ics]
          have : resolve W (docCtors Y) [a] = some ⟨.list, true, false, [.list]⟩ := by
            apply resolve_eq
            · simp [docCtors]
            · rw [hc]; rfl
            · intro d hd hne hv
              simp only [docCtors, List.mem_append, List.mem_cons, List.not_mem_nil, or_false] at hd
              rcases hd with hd | rfl | rfl | rfl | rfl | rfl | rfl | rfl | rfl | rfl | rfl
              · obtain ⟨htm, rv, cst, hc', _⟩ := fwds_one hd hv
                have hs : moreSpec (⟨.list, true, false, [.list]⟩ : Cand Doc T) d = true := by rw [hid d hd]; rfl
                unfold better
                rw [hc, hc']
                simp [noWorse, someBetter, Ics.better, htm, hs]
              · rw [conv_length rfl (by simp)] at hv; cases hv
              · exact absurd rfl hne
              all_goals first | exact exact_beats hc rfl h1 hv | exact exact_beats hc rfl h2 hv
            · intro d hd he
              simp only [docCtors, List.mem_append, List.mem_cons, List.not_mem_nil, or_false] at hd
              rcases hd with hd | rfl | rfl | rfl | rfl | rfl | rfl | rfl | rfl | rfl | rfl
              · rw [hid d hd] at he; cases he
              all_goals first | rfl | cases he
          unfold docConstruct
          rw [this]
        · have h3' : W.list a.ty = false := by simpa using h3
          rw [C52_forward .variadic W Y pol [a] rfl (by intro b hb; cases hb; exact ⟨h1, h2, har, h3'⟩),
            gen [a] (by simp) (by intro b hb; cases hb; exact ⟨h1, h2, h3'⟩)]
          rfl

/-! ## Cases -/

/-- Types of a program: `flyweight<std::string>`, `std::string`, its `rep_type`, a class derived from the flyweight, `const char*`, another flyweight
of `std::string`, `std::initializer_list<char>`, `int`, and a class that converts both to the string and to the flyweight.  (Example, no code
of its own.) -/
inductive Ty where
  | fw | str | rep | derived | chars | other | list | int | both
  deriving DecidableEq

/-- How they are related.  (Example, no code of its own.) -/
def world : World Ty where
  derives a b := match a, b with
    | .derived, .fw => true
    | _, _ => false
  convR a b := match a, b with
    | .chars, .str => true
    | .list, .str => true
    | .both, .str => true
    | .both, .fw => true
    | .list, .fw => true
    | _, _ => false
  convL a b := match a, b with
    | .fw, .str => true
    | .derived, .str => true
    | .other, .str => true
    | _, _ => false
  list a := match a with
    | .list => true
    | _ => false

/-- The library's types among them.  (Example, no code of its own.) -/
def types : Types Ty := ⟨.fw, .str, .rep⟩

/-- The hypotheses hold. -/
theorem sane : Sane world types := ⟨by decide, by decide, rfl, rfl⟩

example : construct .variadic world types .dflt [⟨.fw, true, true⟩] = .copied :=
  (C52_copy _ _ _ _ sane _ rfl).1

example : construct (.masks 5) world types .variant [⟨.str, false, true⟩] = .value false :=
  C52_value _ _ _ .variant sane _ rfl rfl

example : construct .variadic world types .variant [⟨.str, false, true⟩] = .value true :=
  C52_value _ _ _ .variant sane _ rfl rfl

example : construct (.masks 5) world types .product [⟨.chars, true, false⟩, ⟨.int, false, true⟩, ⟨.str, false, false⟩] =
    .key [⟨.chars, true, false⟩, ⟨.int, true, false⟩, ⟨.str, false, false⟩] :=
  C52_forward _ _ _ _ _ rfl (by simp)

example : construct .variadic world types .dflt [⟨.other, false, true⟩] = .key [⟨.other, false, true⟩] :=
  C52_forward _ _ _ _ _ rfl (by intro a ha; cases ha; decide)

example : construct (.nary 3) world types .dflt [⟨.list, false, true⟩] = .key [⟨.list, false, false⟩] :=
  C52_list _ _ _ _ _ rfl rfl rfl (by decide)

example : construct (.masks 1) world types .dflt [⟨.chars, true, false⟩, ⟨.int, false, true⟩] = .error :=
  C52_limit _ _ _ _ _ (by decide) rfl

example : construct .variadic world types .dflt [⟨.derived, true, false⟩] = .key [⟨.derived, true, false⟩] ∧
    assign .variadic world types .dflt ⟨.derived, true, false⟩ = .copied :=
  C52_derived _ _ _ _ _ rfl rfl rfl (by decide)

example : assign .variadic world types .dflt ⟨.str, false, true⟩ = .key [⟨.str, false, true⟩] :=
  (C52_assign_value _ _ _ _ sane _ rfl rfl).trans (C52_value _ _ _ .dflt sane _ rfl rfl)

example : assign .variadic world types .dflt ⟨.chars, true, false⟩ = .key [⟨.str, false, true⟩] :=
  (C52_assign_converted _ _ _ _ _ (by decide) (by decide) (by decide) (by decide)).trans
    (C52_value .variadic _ _ .dflt sane ⟨.str, false, true⟩ rfl rfl)

example : assign .variadic world types .dflt ⟨.other, false, true⟩ = .key [⟨.str, true, false⟩] :=
  (C52_assign_converted _ _ _ _ _ (by decide) (by decide) (by decide) (by decide)).trans
    (C52_value .variadic _ _ .dflt sane ⟨.str, true, false⟩ rfl rfl)

example : assign .variadic world types .dflt ⟨.int, false, true⟩ = .error :=
  C52_assign_converted _ _ _ _ _ (by decide) (by decide) (by decide) (by decide)

example : assign .variadic world types .dflt ⟨.list, true, true⟩ = .key [⟨.list, false, false⟩] :=
  (C52_assign_list _ _ _ _ _ rfl rfl (by decide)).trans (C52_list .variadic _ _ _ _ rfl rfl rfl (by decide))

example : assign .variadic world types .dflt ⟨.both, false, false⟩ = .error :=
  C52_assign_ambiguous _ _ _ _ sane _ (by decide) (by decide) rfl rfl

example : construct .variadic world types .variant [⟨.str, true, true⟩] = docConstruct world types .variant [⟨.str, true, true⟩] :=
  C52_documented _ _ _ sane _ (by decide)

end Verif.Props

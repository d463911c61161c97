import Verif.LambdaLemmas

/-!
# C54: specifiers as lambda expressions

`w` has the compiler and the user's templates and metafunction classes, which are arbitrary; `lib w` is the form
`BOOST_FLYWEIGHT_NOT_A_PLACEHOLDER_EXPRESSION` takes with this compiler.  `e` and `k` are the entry and key types (never
`mpl::na`); `h`, `p`, `a`, `c` the arguments given for hash function, predicate, allocator, comparison or container.
-/

set_option autoImplicit false

namespace Verif.Props
open Verif.Lambda

namespace Lm

/-- The form of the macro, /repo/include/boost/flyweight/detail/not_placeholder_expr.hpp:32-61. -/
abbrev lib (w : World) : Guard := .macro w.lenient

/-- `_1`, `_2`.  (No code of its own: used to state a property or an example.) -/
abbrev _1 : Ty := .ph 0
/-- See `_1`.  (No code of its own: used to state a property or an example.) -/
abbrev _2 : Ty := .ph 1

/-- What an argument of a specifier means: the default if it is omitted, otherwise the argument with `_1` replaced by
the entry type and `_2` by the key type.  (No code of its own: used to state a property or an example.) -/
def meant (w : World) (e k : Ty) (x dflt : Ty) : Ty :=
  match x with
  | .na => dflt
  | x => inst w (lib w) e k x

/-- Types of the user for examples: `T0 = std::string`, `T1 = rep_type`.  (No code of its own: used to state a property or
an example.) -/
abbrev str : Ty := .cls (.user 0)
/-- See `str`.  (No code of its own: used to state a property or an example.) -/
abbrev rep : Ty := .cls (.user 1)

/-- A world for examples.  The templates `user 0` and `user 1` are functors with one parameter, the latter with a nested type
`type` (its argument); `user 2` has six parameters; `user 3` is a factory class derived from a library class with its own
nested `type`.  The class `user 5` is a metafunction class that makes a set.  (No code of its own: used to state a property or
an example.) -/
def world (lenient : Bool) : World where
  lenient := lenient
  params n := if n = 2 then ⟨6, false⟩ else if n = 3 then ⟨2, false⟩ else ⟨1, false⟩
  member n as := match n, as with
    | 1, [a] => some a
    | 3, [e, k] => some (.app .setClass [e, k, .na, .na])
    | _, _ => none
  apply f as := match f, as with
    | .cls (.user 5), [e, k] => some (.app .stdSet [e, .app .less [k], .app .allocator [e]])
    | _, _ => none

end Lm
open Lm

variable {w : World}

/-! ## Specifiers are not lambda expressions themselves -/

theorem visible_lib (w : World) : visible w (lib w) .hashed = false ∧ visible w (lib w) .set = false ∧
    visible w (lib w) .conc = false ∧ visible w (lib w) .assoc = false := by
  cases h : w.lenient <;> simp [visible, params, Guard.add, Guard.macro, h]

/-- Whatever their arguments, `hashed_factory`, `set_factory`, `concurrent_factory`, `assoc_container_factory` are not taken for
placeholder expressions, nor is a flyweight type, even if its specifiers are. -/
theorem C54_opaque (as : List Ty) (t : Tmpl)
    (ht : t = .hashed ∨ t = .set ∨ t = .conc ∨ t = .assoc ∨ t = .flyweight) :
    isPlaceholderExpr w (lib w) (.app t as) = some false := by
  obtain ⟨h1, h2, h3, h4⟩ := visible_lib w
  have h5 : visible w (lib w) .flyweight = false := by simp [visible, params]
  rw [isPlaceholderExpr_eq]
  rcases ht with rfl | rfl | rfl | rfl | rfl <;> simp [isLe, *]

/-- A specifier with a placeholder in it; and a flyweight configured with a lambda expression, which may therefore be the value
type of another flyweight. -/
example : isPlaceholderExpr (world true) (lib (world true)) (.app .hashed [.app .hash [_2], .na, .na]) = some false ∧
    isPlaceholderExpr (world true) (lib (world true))
      (.app .flyweight [str, .app .hashedClass [_1, _2, .na, .na, .na], .na, .na, .na, .na]) = some false :=
  ⟨C54_opaque _ _ (by simp), C54_opaque _ _ (by simp)⟩

/-- `is_placeholder_expression<T>` tells whether a placeholder occurs in `T`, and always compiles. -/
theorem C54_detect (g : Guard) (t : Ty) :
    ∃ b, isPlaceholderExpr w g t = some b ∧ (b = true ↔ Occurs w g t) :=
  ⟨_, isPlaceholderExpr_eq t, isLe_iff t⟩

/-- The class behind the specifier is a placeholder expression, the functor is one, and plain types are not. -/
example : isPlaceholderExpr (world false) (lib (world false)) (.app .hashedClass [_1, _2, .na, .na, .na]) = some true ∧
    isPlaceholderExpr (world false) (lib (world false)) (.app (.user 0) [.app .hash [_2]]) = some true ∧
    isPlaceholderExpr (world false) (lib (world false)) (.app .hash [str]) = some false := by
  refine ⟨?_, ?_, ?_⟩ <;>
    simp [isPlaceholderExpr_eq, isLe, anyLe, visible, params, Guard.macro, world]

/-- A placeholder is seen through all other templates of the library, of the standard library and of Boost that specifiers are
made of, by compilers of both kinds. -/
theorem C54_transparent (as : List Ty) (t : Tmpl)
    (ht : t ∈ [.hashedClass, .setClass, .concClass, .assocClass, .staticClass, .interClass, .refValue, .refHandle, .hash, .equalTo,
      .less, .allocator, .rebind, .stdSet, .multiIndex, .hashedUnique, .identity, .concNodeSet, .refEntry]) :
    isPlaceholderExpr w (lib w) (.app t as) = some true ↔ ∃ a ∈ as, isPlaceholderExpr w (lib w) a = some true := by
  have hv : visible w (lib w) t = true := by
    simp only [List.mem_cons, List.not_mem_nil, or_false] at ht
    rcases ht with rfl | rfl | rfl | rfl | rfl | rfl | rfl | rfl | rfl | rfl | rfl | rfl | rfl | rfl | rfl | rfl | rfl | rfl | rfl <;>
      simp [visible, params]
  simp only [isPlaceholderExpr_eq, isLe, hv, Bool.true_and, Option.some.injEq]
  induction as with
  | nil => simp [anyLe]
  | cons a as ih => simp [anyLe, ih]

/-- A container of Boost.MultiIndex given as a placeholder expression. -/
example : isPlaceholderExpr (world false) (lib (world false))
    (.app .multiIndex [_1, .app .hashedUnique [.app .identity [_1], .na, .na], .na]) = some true :=
  (C54_transparent _ _ (by simp)).2 ⟨_1, by simp, by simp [isPlaceholderExpr_eq, isLe]⟩

/-- Each form of the macro is needed by the compilers it is for: without it, or with the other one on a lenient compiler, the
default factory given a hash function with a placeholder would make a specifier out of a specifier, instead of a
factory. -/
theorem C54_guard_needed (l : Bool) (g : Guard) (hg : g = .none ∨ (g = .nonType ∧ l = true)) :
    apply (world l) g (.app .hashed [.app .hash [_2], .na, .na]) [rep, str] =
      some (.app .hashed [.app .hash [str], .na, .na]) ∧
    apply (world l) g (.app .set [.app .less [_2], .na]) [rep, str] = some (.app .set [.app .less [str], .na]) ∧
    apply (world l) g (.app .conc [.app .hash [_2], .na, .na]) [rep, str] =
      some (.app .conc [.app .hash [str], .na, .na]) ∧
    apply (world l) g (.app .assoc [.app .stdSet [_1, .app .less [_2], .na]]) [rep, str] =
      some (.app .assoc [.app .stdSet [rep, .app .less [str], .na]]) := by
  rcases hg with rfl | ⟨rfl, rfl⟩
  · cases l <;>
      simp [apply, isLe, anyLe, visible, params, Guard.add, world, resolve, resolves, nth, quote, member]
  · simp [apply, isLe, anyLe, visible, params, Guard.add, world, resolve, resolves, nth, quote, member]

/-- With the macro as it is, both compilers get a factory out of it. -/
example (l : Bool) : apply (world l) (lib (world l)) (.app .hashed [.app .hash [_2], .na, .na]) [rep, str] =
    some (.app .hashedClass [rep, str, .app .hash [str], .na, .na]) := by
  cases l <;>
    simp [apply, nested, applyClass, isLe, anyLe, visible, params, Guard.add, Guard.macro, world, resolve, resolves, nth, quote,
      member]

/-! ## The two forms of a specifier -/

theorem nested_class {g : Guard} {t : Tmpl} (hv : visible w g t = true) (as args : List Ty) :
    applyClass w g (.app t (_1 :: as)) args = apply w g (.app t (_1 :: as)) args := by
  have : isLe w g (.app t (_1 :: as)) = true := by simp [isLe, anyLe, hv]
  rw [applyClass, apply, if_pos this, if_pos this]

theorem apply_spec {t : Tmpl} (as args : List Ty) (hv : visible w (lib w) t = false) :
    apply w (lib w) (.app t as) args = nested w (lib w) (.app t as) args := by
  rw [apply, if_neg]
  simp [isLe, hv]

/-- `hashed_factory<h,p,a>` and `hashed_factory_class<_1,_2,h,p,a>` make the same factory, and fail to compile alike; likewise
for the other factories. -/
theorem C54_forms (e k h p a : Ty) :
    apply w (lib w) (.app .hashed [h, p, a]) [e, k] =
      apply w (lib w) (.app .hashedClass [_1, _2, h, p, a]) [e, k] ∧
    apply w (lib w) (.app .set [p, a]) [e, k] = apply w (lib w) (.app .setClass [_1, _2, p, a]) [e, k] ∧
    apply w (lib w) (.app .conc [h, p, a]) [e, k] = apply w (lib w) (.app .concClass [_1, _2, h, p, a]) [e, k] := by
  obtain ⟨h1, h2, h3, h4⟩ := visible_lib w
  refine ⟨?_, ?_, ?_⟩
  · rw [apply_spec _ _ h1, nested, nested_class (by simp [visible, params])]
  · rw [apply_spec _ _ h2, nested, nested_class (by simp [visible, params])]
  · rw [apply_spec _ _ h3, nested, nested_class (by simp [visible, params])]

/-- With an argument that has a placeholder, one that has none and one omitted. -/
example : apply (world true) (lib (world true)) (.app .conc [.app (.user 0) [_2], .app .equalTo [str], .na]) [rep, str] =
    some (.app .concClass [rep, str, .app (.user 0) [str], .app .equalTo [str], .na]) := by
  rw [(C54_forms _ _ _ _ _).2.2]
  simp [apply, isLe, anyLe, visible, params, Guard.macro, world, resolve, resolves, nth, quote, member]

/-- A placeholder for which there is no argument is an error in both forms. -/
example : apply (world true) (lib (world true)) (.app .set [.app .less [.ph 2], .na]) [rep, str] = none := by
  rw [(C54_forms _ _ .na _ _).2.1]
  simp [apply, isLe, anyLe, visible, params, Guard.macro, world, resolve, resolves, nth]

/-- `assoc_container_factory<c>` makes a factory of the container that `c` makes, be it a metafunction class or a lambda
expression; in the latter case `assoc_container_factory_class<c>` does the same. -/
theorem C54_assoc (e k c : Ty) :
    apply w (lib w) (.app .assoc [c]) [e, k] = (apply w (lib w) c [e, k]).map (fun x => .app .assocClass [x]) ∧
    (Occurs w (lib w) c →
      apply w (lib w) (.app .assocClass [c]) [e, k] = apply w (lib w) (.app .assoc [c]) [e, k]) := by
  have h1 : apply w (lib w) (.app .assoc [c]) [e, k] =
      (apply w (lib w) c [e, k]).map (fun x => .app .assocClass [x]) := by
    rw [apply_spec _ _ (visible_lib w).2.2.2, nested]
  refine ⟨h1, fun ho => ?_⟩
  have h2 : isLe w (lib w) (.app .assocClass [c]) = true :=
    (isLe_iff _).2 (.app (by simp [visible, params]) (by simp) ho)
  rw [h1, apply, if_pos h2, resolve, if_pos h2, apply, if_pos ((isLe_iff c).2 ho)]
  cases h : resolve w (lib w) [e, k] c <;> simp [resolves, h, quote, member]

/-- Given a lambda expression, and given a metafunction class. -/
example : apply (world false) (lib (world false)) (.app .assoc [.app .stdSet [_1, .app .less [_2], .app .allocator [_1]]])
      [rep, str] = some (.app .assocClass [.app .stdSet [rep, .app .less [str], .app .allocator [rep]]]) ∧
    apply (world false) (lib (world false)) (.app .assoc [.cls (.user 5)]) [rep, str] =
      some (.app .assocClass [.app .stdSet [rep, .app .less [str], .app .allocator [rep]]]) := by
  rw [(C54_assoc _ _ _).1, (C54_assoc _ _ _).1]
  constructor <;>
    simp [apply, nested, isLe, anyLe, visible, params, Guard.macro, world, resolve, resolves, nth, quote, member]

/-- `static_holder` and `static_holder_class<_1>` make the same holder; so do the two forms of the intermodule holder. -/
theorem C54_holders (g : Guard) (x : Ty) (hx : x ≠ .na) :
    holderType w g (.cls .staticHolder) x = some (.app .staticClass [x]) ∧
    holderType w g (.app .staticClass [_1]) x = some (.app .staticClass [x]) ∧
    holderType w g (.cls .interHolder) x = some (.app .interClass [x]) ∧
    holderType w g (.app .interClass [_1]) x = some (.app .interClass [x]) := by
  have hn : nth [x] 0 = some x := by cases x <;> first | rfl | exact absurd rfl hx
  refine ⟨?_, ?_, ?_, ?_⟩ <;>
    simp [holderType, apply, isLe, anyLe, visible, params, nested, resolve, resolves, hn, quote, member]

/-- The holder of a core. -/
example : holderType (world true) (lib (world true)) (.app .staticClass [_1]) rep = some (.app .staticClass [rep]) :=
  (C54_holders _ _ (by simp)).2.1

/-! ## What the factory is -/

theorem orElse_inst {e k x d : Ty} (he : e ≠ .na) (hk : k ≠ .na) :
    orElse (inst w (lib w) e k x) d = meant w e k x d := by
  have nz : ∀ {y : Ty}, y ≠ .na → orElse y d = y := by
    intro y hy
    cases y <;> first | rfl | exact absurd rfl hy
  cases x with
  | na => rfl
  | int => rfl
  | cls c => rfl
  | ph n =>
    refine nz ?_
    rw [inst]
    split
    · exact he
    · exact hk
  | app t as =>
    refine nz ?_
    rw [inst]
    split <;> simp

/-- A factory class applied by means of placeholders. -/
theorem resolve_class {g : Guard} {t : Tmpl} (hv : visible w g t = true) (hq : ∀ bs, quote w t bs = .app t bs) {e k : Ty}
    (he : e ≠ .na) (hk : k ≠ .na) {as : List Ty} (hp : ∀ x ∈ as, Plain w x) :
    apply w g (.app t (_1 :: _2 :: as)) [e, k] = some (.app t (e :: k :: insts w g e k as)) := by
  have hl : isLe w g (.app t (_1 :: _2 :: as)) = true := by simp [isLe, anyLe, hv]
  rw [apply, if_pos hl, resolve_plain he hk]
  · rw [inst, if_pos hv]
    rfl
  · refine .app hq fun a ha => ?_
    simp only [List.mem_cons] at ha
    rcases ha with rfl | rfl | ha
    · exact .one
    · exact .two
    · exact hp a ha

/-- `hashed_factory<h,p,a>` makes a factory whose container has elements of the entry type, hash function `h`, predicate `p`
and allocator `a` with entry type and key type put in for `_1` and `_2`; if omitted, `boost::hash<Key>`,
`std::equal_to<Key>` and `std::allocator<Entry>`. -/
theorem C54_hashed {e k h p a : Ty} (he : e ≠ .na) (hk : k ≠ .na) (hh : Plain w h) (hp : Plain w p) (ha : Plain w a) :
    ∃ f, apply w (lib w) (.app .hashed [h, p, a]) [e, k] = some f ∧
      container w (lib w) f = some (some (.app .multiIndex [e,
        .app .hashedUnique [.app .identity [e], meant w e k h (.app .hash [k]), meant w e k p (.app .equalTo [k])],
        meant w e k a (.app .allocator [e])])) := by
  refine ⟨.app .hashedClass (e :: k :: insts w (lib w) e k [h, p, a]), ?_, ?_⟩
  · rw [(C54_forms e k h p a).1]
    exact resolve_class (by simp [visible, params]) (fun _ => rfl) he hk (by simp [hh, hp, ha])
  · simp only [insts, container, orElse_inst he hk]

/-- `hashed_factory<hash<_2>>`, and the default factory. -/
example : ∃ f, apply (world true) (lib (world true)) (.app .hashed [.app (.user 0) [_2], .na, .app .allocator [_1]]) [rep, str] =
      some f ∧
    container (world true) (lib (world true)) f = some (some (.app .multiIndex [rep,
      .app .hashedUnique [.app .identity [rep], .app (.user 0) [str], .app .equalTo [str]], .app .allocator [rep]])) := by
  obtain ⟨f, h1, h2⟩ := C54_hashed (w := world true) (e := rep) (k := str) (h := .app (.user 0) [_2]) (p := .na)
    (a := .app .allocator [_1]) (by simp) (by simp) (.app (fun _ => by simp [quote, member, world]) (by simp [Plain.two])) .na
    (.app (fun _ => rfl) (by simp [Plain.one]))
  refine ⟨f, h1, h2.trans ?_⟩
  simp [meant, inst, insts, visible, params, world]

/-- `set_factory<c,a>`: a set of entries with comparison `c`, by default `std::less<Key>`, and allocator `a`.  The entry and key
types are not themselves placeholder expressions. -/
theorem C54_set {e k c a : Ty} (he : e ≠ .na) (hk : k ≠ .na) (oe : ¬ Occurs w (lib w) e) (ok : ¬ Occurs w (lib w) k)
    (hc : Plain w c) (ha : Plain w a) :
    ∃ f, apply w (lib w) (.app .set [c, a]) [e, k] = some f ∧
      container w (lib w) f = some (some (.app .stdSet [e, meant w e k c (.app .less [k]),
        meant w e k a (.app .allocator [e])])) := by
  have om : ∀ {x d : Ty}, ¬ Occurs w (lib w) d → ¬ Occurs w (lib w) (meant w e k x d) := by
    intro x d hd
    cases x with
    | na => exact hd
    | _ => exact not_occurs_inst oe ok _
  refine ⟨.app .setClass (e :: k :: insts w (lib w) e k [c, a]), ?_, ?_⟩
  · rw [(C54_forms e k .na c a).2.1]
    exact resolve_class (by simp [visible, params]) (fun _ => rfl) he hk (by simp [hc, ha])
  · simp only [insts, container, container.assocCont, orElse_inst he hk, isPlaceholderExpr_eq]
    rw [isLe_false]
    · rfl
    · intro ho
      cases ho with
      | app hv hm ho =>
        simp only [List.mem_cons, List.not_mem_nil, or_false] at hm
        rcases hm with rfl | rfl | rfl
        · exact oe ho
        · refine om (fun h => ?_) ho
          cases h with
          | app _ hm ho =>
            rw [List.mem_singleton.1 hm] at ho
            exact ok ho
        · refine om (fun h => ?_) ho
          cases h with
          | app _ hm ho =>
            rw [List.mem_singleton.1 hm] at ho
            exact oe ho

/-- `set_factory<std::greater<_2>>`, say. -/
example : ∃ f, apply (world false) (lib (world false)) (.app .set [.app (.user 0) [_2], .na]) [rep, str] = some f ∧
    container (world false) (lib (world false)) f =
      some (some (.app .stdSet [rep, .app (.user 0) [str], .app .allocator [rep]])) := by
  obtain ⟨f, h1, h2⟩ := C54_set (w := world false) (e := rep) (k := str) (c := .app (.user 0) [_2]) (a := .na)
    (by simp) (by simp) nofun nofun (.app (fun _ => by simp [quote, member, world]) (by simp [Plain.two])) .na
  refine ⟨f, h1, h2.trans ?_⟩
  simp [meant, inst, insts, visible, params, world]

/-- `concurrent_factory<h,p,a>`: a concurrent set of counted entries, with hash function `h`, predicate `p`, and the allocator
`a` rebound. -/
theorem C54_concurrent {e k h p a : Ty} (he : e ≠ .na) (hk : k ≠ .na) (oe : ¬ Occurs w (lib w) e)
    (ok : ¬ Occurs w (lib w) k) (hh : Plain w h) (hp : Plain w p) (ha : Plain w a) :
    ∃ f, apply w (lib w) (.app .conc [h, p, a]) [e, k] = some f ∧
      container w (lib w) f = some (some (.app .concNodeSet [.app .refEntry [e], meant w e k h (.app .hash [k]),
        meant w e k p (.app .equalTo [k]),
        .app .rebind [meant w e k a (.app .allocator [.app .refEntry [e]]), .app .refEntry [e]]])) := by
  refine ⟨.app .concClass (e :: k :: insts w (lib w) e k [h, p, a]), ?_, ?_⟩
  · rw [(C54_forms e k h p a).2.2]
    exact resolve_class (by simp [visible, params]) (fun _ => rfl) he hk (by simp [hh, hp, ha])
  · simp only [insts, container, orElse_inst he hk, isPlaceholderExpr_eq]
    rw [isLe_false]
    · rfl
    · intro ho
      cases ho with
      | app hv hm ho =>
        simp only [List.mem_cons, List.not_mem_nil, or_false] at hm
        rcases hm with rfl | rfl | rfl | rfl | rfl
        · exact oe ho
        · exact ok ho
        · exact not_occurs_inst oe ok _ ho
        · exact not_occurs_inst oe ok _ ho
        · exact not_occurs_inst oe ok _ ho

/-- With defaults and an allocator of the user. -/
example : ∃ f, apply (world false) (lib (world false)) (.app .conc [.na, .na, .app (.user 0) [_1]]) [rep, str] = some f ∧
    container (world false) (lib (world false)) f =
      some (some (.app .concNodeSet [.app .refEntry [rep], .app .hash [str], .app .equalTo [str],
        .app .rebind [.app (.user 0) [rep], .app .refEntry [rep]]])) := by
  obtain ⟨f, h1, h2⟩ := C54_concurrent (w := world false) (e := rep) (k := str) (h := .na) (p := .na)
    (a := .app (.user 0) [_1]) (by simp) (by simp) nofun nofun .na .na
    (.app (fun _ => by simp [quote, member, world]) (by simp [Plain.one]))
  refine ⟨f, h1, h2.trans ?_⟩
  simp [meant, inst, insts, visible, params, world]

/-- An argument without placeholders is used as it is. -/
theorem C54_verbatim (e k d : Ty) {x : Ty} (hx : x ≠ .na) (ho : ¬ Occurs w (lib w) x) : meant w e k x d = x := by
  cases x with
  | na => exact absurd rfl hx
  | _ => exact inst_of_not _ ho

/-- A functor for strings; and one hidden in a template with six parameters, where Boost.MPL does not look. -/
example : meant (world true) rep str (.app .hash [str]) rep = .app .hash [str] ∧
    meant (world true) rep str (.app (.user 2) [_1, _1, _1, _1, _1, _2]) rep = .app (.user 2) [_1, _1, _1, _1, _1, _2] := by
  refine ⟨C54_verbatim _ _ _ (by simp) ?_, C54_verbatim _ _ _ (by simp) ?_⟩ <;> rw [← isLe_iff] <;>
    simp [isLe, anyLe, visible, params, world]

/-- With the default configuration entries are counted values; with `no_tracking` they are the values themselves. -/
theorem C54_entries {spec r k : Ty} (g : Guard) :
    factoryType w g (.cls .refEntryType) spec r k = apply w g spec [.app .refValue [r, k], k] ∧
    factoryType w g (.cls .plainEntryType) spec r k = apply w g spec [r, k] := by
  constructor <;> simp [factoryType, apply, isLe, nested]

/-- The default factory of a flyweight of strings. -/
example : factoryType (world true) (lib (world true)) (.cls .refEntryType) (.app .hashed [.na, .na, .na]) rep str =
    some (.app .hashedClass [.app .refValue [rep, str], str, .na, .na, .na]) := by
  rw [(C54_entries _).1, (C54_forms _ _ _ _ _).1]
  simp [apply, isLe, anyLe, visible, params, Guard.macro, world, resolve, resolves, nth, quote, member]

/-- With the default configuration flyweights hold counted handles that know how to erase the entry; with `no_tracking` they
hold the handles of the factory. -/
theorem C54_handles {base helper : Ty} (g : Guard) :
    handleType w g (.cls .refHandleType) base helper = some (.app .refHandle [base, helper]) ∧
    handleType w g (.cls .plainHandleType) base helper = some base := by
  constructor <;> simp [handleType, apply, isLe, nested]

/-- A handle of `set_factory` and a helper, both classes of their own. -/
example : handleType (world true) (lib (world true)) (.cls .refHandleType) (.cls (.user 7)) (.cls (.user 8)) =
    some (.app .refHandle [.cls (.user 7), .cls (.user 8)]) := (C54_handles _).1

/-! ## Placeholder expressions are not instantiated -/

/-- A factory class with a placeholder in it has no container made of placeholders: `assoc_container_factory_class` and
`set_factory_class` have an `int` in its place, `concurrent_factory_class` nothing. -/
theorem C54_unopened (g : Guard) {e k h p a : Ty} :
    (∀ c, Occurs w g c → container w g (.app .assocClass [c]) = some (some .int)) ∧
    (Occurs w g e ∨ Occurs w g p ∨ Occurs w g a ∨ (Occurs w g k ∧ p = .na) →
      container w g (.app .setClass [e, k, p, a]) = some (some .int)) ∧
    (∀ x ∈ [e, k, h, p, a], Occurs w g x → container w g (.app .concClass [e, k, h, p, a]) = some none) := by
  have vis : ∀ t, t = Tmpl.stdSet ∨ t = .less ∨ t = .check → visible w g t = true := by
    rintro t (rfl | rfl | rfl) <;> simp [visible, params]
  refine ⟨fun c ho => ?_, fun ho => ?_, fun x hm ho => ?_⟩
  · simp only [container, container.assocCont, isPlaceholderExpr_eq, (isLe_iff c).2 ho, Option.map_some]
  · have key : Occurs w g (.app .stdSet [e, orElse p (.app .less [k]), orElse a (.app .allocator [e])]) →
        container w g (.app .setClass [e, k, p, a]) = some (some .int) := fun h => by
      simp only [container, container.assocCont, isPlaceholderExpr_eq, (isLe_iff _).2 h, Option.map_some]
    have same : ∀ {x d : Ty}, Occurs w g x → orElse x d = x := by
      intro x d ho
      cases ho <;> rfl
    apply key
    rcases ho with ho | ho | ho | ⟨ho, rfl⟩
    · exact .app (vis _ (by simp)) (by simp) ho
    · exact .app (vis _ (by simp)) (by rw [same ho]; simp) ho
    · exact .app (vis _ (by simp)) (by rw [same ho]; simp) ho
    · have h1 : Occurs w g (.app .less [k]) := .app (vis _ (by simp)) (by simp) ho
      exact .app (vis _ (by simp)) (by simp [orElse]) h1
  · have h1 : isLe w g (.app .check [e, k, h, p, a]) = true := (isLe_iff _).2 (.app (vis _ (by simp)) hm ho)
    simp only [container, isPlaceholderExpr_eq, h1, Option.map_some]

/-- As they are while the factory is still a lambda expression. -/
example : container (world true) (lib (world true)) (.app .setClass [_1, _2, .na, .na]) = some (some .int) ∧
    container (world true) (lib (world true)) (.app .concClass [_1, _2, .na, .na, .na]) = some none :=
  ⟨(C54_unopened (h := .na) _).2.1 (.inl (.ph 0)), (C54_unopened _).2.2 _1 (by simp) (.ph 0)⟩

/-! ## What to beware of -/

/-- A hash function (or predicate, comparison, allocator) given by means of a placeholder is replaced by its nested type `type`,
if it has one; written out, it is used as it is. -/
theorem C54_nested_type {e k m : Ty} (n : Nat) (he : e ≠ .na) (hk : k ≠ .na) (hn : visible w (lib w) (.user n) = true)
    (hm : w.member n [k] = some m) (ok : ¬ Occurs w (lib w) k) :
    apply w (lib w) (.app .hashed [.app (.user n) [_2], .na, .na]) [e, k] =
      some (.app .hashedClass [e, k, m, .na, .na]) ∧
    apply w (lib w) (.app .hashed [.app (.user n) [k], .na, .na]) [e, k] =
      some (.app .hashedClass [e, k, .app (.user n) [k], .na, .na]) := by
  obtain ⟨h0, h1⟩ := nth_two he hk
  have hc : visible w (lib w) .hashedClass = true := by simp [visible, params]
  have hl := isLe_false ok
  rw [(C54_forms _ _ _ _ _).1, (C54_forms _ _ _ _ _).1]
  constructor
  · simp [apply, isLe, anyLe, hc, hn, resolve, resolves, h0, h1, quote, member, hm]
  · simp [apply, isLe, anyLe, hc, hn, resolve, resolves, h0, h1, quote, member, hl]

/-- `user 1`, whose `type` is its argument: the hash function used is `std::string`. -/
example : apply (world true) (lib (world true)) (.app .hashed [.app (.user 1) [_2], .na, .na]) [rep, str] =
    some (.app .hashedClass [rep, str, str, .na, .na]) :=
  (C54_nested_type (w := world true) (e := rep) (k := str) 1 (by simp) (by simp) rfl rfl nofun).1

/-- A value type that mentions a placeholder, such as `std::less<_1>`, gets no container from `set_factory` or
`concurrent_factory`, while `hashed_factory` is fine.  (The key type is the value type; the entry type may be anything.) -/
theorem C54_value_types {e k : Ty} (he : e ≠ .na) (ho : Occurs w (lib w) k) :
    (∃ f, apply w (lib w) (.app .set [.na, .na]) [e, k] = some f ∧ container w (lib w) f = some (some .int)) ∧
    (∃ f, apply w (lib w) (.app .conc [.na, .na, .na]) [e, k] = some f ∧ container w (lib w) f = some none) ∧
    (∃ f, apply w (lib w) (.app .hashed [.na, .na, .na]) [e, k] = some f ∧
      container w (lib w) f = some (some (.app .multiIndex [e,
        .app .hashedUnique [.app .identity [e], .app .hash [k], .app .equalTo [k]], .app .allocator [e]]))) := by
  have hk : k ≠ .na := by rintro rfl; cases ho
  refine ⟨⟨.app .setClass [e, k, .na, .na], ?_, ?_⟩, ⟨.app .concClass [e, k, .na, .na, .na], ?_, ?_⟩, ?_⟩
  · rw [(C54_forms e k .na .na .na).2.1]
    exact resolve_class (by simp [visible, params]) (fun _ => rfl) he hk (as := [.na, .na]) (by simp [Plain.na])
  · exact (C54_unopened (h := .na) _).2.1 (.inr (.inr (.inr ⟨ho, rfl⟩)))
  · rw [(C54_forms e k .na .na .na).2.2]
    exact resolve_class (by simp [visible, params]) (fun _ => rfl) he hk (as := [.na, .na, .na]) (by simp [Plain.na])
  · exact (C54_unopened _).2.2 k (by simp) ho
  · exact C54_hashed he hk .na .na .na

/-- `std::less<_1>` as a value type. -/
example : Occurs (world true) (lib (world true)) (.app .less [_1]) :=
  .app (by simp [visible, params]) (List.mem_singleton.2 rfl) (.ph 0)

/-- A factory class of the user used with placeholders stands for its nested `type`: if it is derived from a factory class of the
library and does not redefine `type`, what is used is the base class, not the derived one. -/
theorem C54_derived {e k b : Ty} (n : Nat) (he : e ≠ .na) (hk : k ≠ .na) (hn : visible w (lib w) (.user n) = true)
    (hm : w.member n [e, k] = some b) :
    apply w (lib w) (.app (.user n) [_1, _2]) [e, k] = some b := by
  obtain ⟨h0, h1⟩ := nth_two he hk
  simp [apply, isLe, anyLe, hn, resolve, resolves, h0, h1, quote, member, hm]

/-- `user 3`, derived from `set_factory_class`. -/
example : apply (world true) (lib (world true)) (.app (.user 3) [_1, _2]) [rep, str] =
    some (.app .setClass [rep, str, .na, .na]) :=
  C54_derived 3 (by simp) (by simp) rfl rfl

end Verif.Props

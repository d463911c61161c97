/-!
# Specifiers as MPL lambda expressions

Factory and holder specifiers, and the nested types of tracking policies, are invoked with `boost::mpl::apply2` (and
`apply1`): they are metafunction classes or MPL lambda expressions (class templates instantiated with placeholders).  Models
the specifiers of the library and the machinery in /repo/include/boost/flyweight/detail that deals with placeholders, over
types represented as terms.  Boost.MPL itself is not in /repo; what is used of it (`isLe`, `resolve`, `quote`) follows its
documentation.
-/

set_option autoImplicit false

namespace Verif.Lambda

/-- Class templates: those of the library, of the standard library and of Boost that it names, and those of the user.
/repo/include/boost/flyweight/hashed_factory.hpp:37-120, set_factory.hpp:32-77, concurrent_factory.hpp:40-242,
assoc_container_factory.hpp:41-110, static_holder.hpp:28-39, intermodule_holder.hpp:30-37, refcounted.hpp:53-151,
flyweight.hpp:119-123, detail/is_placeholder_expr.hpp:33-45 (`probe`). -/
inductive Tmpl
  | hashedClass | setClass | concClass | assocClass
  | hashed | set | conc | assoc
  | staticClass | interClass
  | refValue | refHandle | flyweight
  | hash | equalTo | less | allocator | rebind | stdSet | multiIndex | hashedUnique | identity | concNodeSet | refEntry
  | probe | check
  | user (n : Nat)
deriving DecidableEq

/-- Classes that are not templates: `static_holder`, `intermodule_holder`, the `entry_type` and `handle_type` of the tracking
policies, /repo/include/boost/flyweight/static_holder.hpp:43-50, intermodule_holder.hpp:41-48, refcounted.hpp:181-197,
no_tracking.hpp:29-39; and those of the user. -/
inductive Cls
  | staticHolder | interHolder
  | refEntryType | refHandleType
  | plainEntryType | plainHandleType
  | user (n : Nat)
deriving DecidableEq

/-- Types.  `ph n` is the placeholder `boost::mpl::_1` (`n = 0`) to `_5`; `na` is `boost::mpl::na`, the default of
omitted arguments (e.g. /repo/include/boost/flyweight/hashed_factory_fwd.hpp:24-34).  Trailing arguments that exist only
for `BOOST_FLYWEIGHT_NOT_A_PLACEHOLDER_EXPRESSION` are left out; they always have their defaults. -/
inductive Ty
  | int
  | cls (c : Cls)
  | ph (n : Fin 5)
  | na
  | app (t : Tmpl) (args : List Ty)

/-- What `BOOST_FLYWEIGHT_NOT_A_PLACEHOLDER_EXPRESSION` adds to the parameters of a template,
/repo/include/boost/flyweight/detail/not_placeholder_expr.hpp:32-61: five more type parameters, or one that is not a type.
`none` is there to show what the macro is for. -/
inductive Guard
  | none | types | nonType
deriving DecidableEq

/-- Parameters of a class template: how many types, and whether there are others.  (C++.) -/
structure Params where
  types : Nat
  other : Bool := false

/-- Parameters `p` followed by the macro, /repo/include/boost/flyweight/detail/not_placeholder_expr.hpp:32-61;
`BOOST_MPL_LIMIT_METAFUNCTION_ARITY` is 5. -/
def Guard.add (g : Guard) (p : Params) : Params :=
  match g with
  | .none => p
  | .types => { p with types := p.types + 5 }
  | .nonType => { p with other := true }

/-- Which of the two the macro stands for, /repo/include/boost/flyweight/detail/not_placeholder_expr.hpp:32-61: with compilers
that let a template with a further parameter that has a default match a template template parameter (`lenient`), the
former. -/
def Guard.macro (lenient : Bool) : Guard := if lenient then .types else .nonType

/-- The compiler, see `Guard.macro`; the user's templates and metafunction classes: parameters, the nested type `type` of an instantiation if there is one,
and nested `apply<...>::type`.  (No code of its own.) -/
structure World where
  lenient : Bool
  params : Nat → Params
  member : Nat → List Ty → Option Ty
  apply : Ty → List Ty → Option Ty

/-- Parameters of the templates: /repo/include/boost/flyweight/hashed_factory_fwd.hpp:24-34, set_factory_fwd.hpp:24-34,
concurrent_factory_fwd.hpp:24-34, assoc_container_factory_fwd.hpp:22-29, static_holder_fwd.hpp:20-21,
intermodule_holder_fwd.hpp:20-21, refcounted.hpp:53, 108, flyweight_fwd.hpp:32-40,
detail/is_placeholder_expr.hpp:33, concurrent_factory.hpp:40, 182-186; the others are those of the standard library and of Boost (Boost.MultiIndex's have
further parameters with defaults, left out). -/
def params (w : World) (g : Guard) : Tmpl → Params
  | .hashedClass => ⟨5, false⟩
  | .setClass => ⟨4, false⟩
  | .concClass => ⟨5, false⟩
  | .assocClass => ⟨1, false⟩
  | .hashed => g.add ⟨3, false⟩
  | .set => g.add ⟨2, false⟩
  | .conc => g.add ⟨3, false⟩
  | .assoc => g.add ⟨1, false⟩
  | .staticClass => ⟨1, false⟩
  | .interClass => ⟨1, false⟩
  | .refValue => ⟨2, false⟩
  | .refHandle => ⟨2, false⟩
  | .flyweight => ⟨6, false⟩
  | .hash => ⟨1, false⟩
  | .equalTo => ⟨1, false⟩
  | .less => ⟨1, false⟩
  | .allocator => ⟨1, false⟩
  | .rebind => ⟨2, false⟩
  | .stdSet => ⟨3, false⟩
  | .multiIndex => ⟨3, false⟩
  | .hashedUnique => ⟨3, false⟩
  | .identity => ⟨1, false⟩
  | .concNodeSet => ⟨4, false⟩
  | .refEntry => ⟨1, false⟩
  | .probe => ⟨1, false⟩
  | .check => ⟨5, false⟩
  | .user n => w.params n

/-- `boost::mpl::lambda` looks inside instantiations of templates with one to five parameters, all of them
types; a lenient compiler ignores others, if they have defaults, but not the number of types.  (Boost.MPL, as the comment in
/repo/include/boost/flyweight/detail/not_placeholder_expr.hpp:16-27, 36-45 says.) -/
def visible (w : World) (g : Guard) (t : Tmpl) : Bool :=
  (w.lenient || !(params w g t).other) && (params w g t).types ≤ 5

mutual
/-- The type is a placeholder expression: `boost::mpl::is_lambda_expression`.  (Boost.MPL; used by
`mpl::apply2` in /repo/include/boost/flyweight/detail/flyweight_core.hpp:129-147.) -/
def isLe (w : World) (g : Guard) : Ty → Bool
  | .ph _ => true
  | .app t as => visible w g t && anyLe w g as
  | _ => false
/-- One of the types is a placeholder expression.  (Boost.MPL, see `isLe`.) -/
def anyLe (w : World) (g : Guard) : List Ty → Bool
  | [] => false
  | a :: as => isLe w g a || anyLe w g as
end

/-- The nested type `type` of an instantiation: /repo/include/boost/flyweight/hashed_factory.hpp:97,
set_factory.hpp:54, assoc_container_factory.hpp:91, static_holder.hpp:37, intermodule_holder.hpp:35 (the class itself).
`concurrent_factory_class` has none. -/
def member (w : World) : Tmpl → List Ty → Option Ty
  | .hashedClass, as => some (.app .hashedClass as)
  | .setClass, as => some (.app .setClass as)
  | .assocClass, as => some (.app .assocClass as)
  | .staticClass, as => some (.app .staticClass as)
  | .interClass, as => some (.app .interClass as)
  | .user n, as => w.member n as
  | _, _ => none

/-- `boost::mpl::quote`: instantiate the template; the result is the nested type `type` if there is one, otherwise the
class itself.  (Boost.MPL; used as `isLe`.) -/
def quote (w : World) (t : Tmpl) (as : List Ty) : Ty := (member w t as).getD (.app t as)

/-- The n-th argument; it is an error if it is missing.  (Boost.MPL, `arg<n>`.) -/
def nth (args : List Ty) (n : Fin 5) : Option Ty :=
  match args[n.val]? with
  | some .na => none
  | x => x

mutual
/-- Invocation of a lambda expression with arguments: placeholders are replaced and the templates around them
instantiated, from the inside out; parts without placeholders are left alone.  `none` is a compile error.
(Boost.MPL, `bind`; used as `isLe`.) -/
def resolve (w : World) (g : Guard) (args : List Ty) : Ty → Option Ty
  | .ph n => nth args n
  | .app t as =>
    if isLe w g (.app t as) then (resolves w g args as).map (quote w t) else some (.app t as)
  | x => some x
/-- The same for a list of types.  (Boost.MPL, see `resolve`.) -/
def resolves (w : World) (g : Guard) (args : List Ty) : List Ty → Option (List Ty)
  | [] => some []
  | a :: as => (resolve w g args a).bind fun x => (resolves w g args as).map (x :: ·)
end

/-- `boost::mpl::apply2` of `hashed_factory_class<_1,_2,...>` and the like, which have no nested `apply`.
/repo/include/boost/flyweight/hashed_factory.hpp:110-119. -/
def applyClass (w : World) (g : Guard) (f : Ty) (args : List Ty) : Option Ty :=
  if isLe w g f then resolve w g args f else none

mutual
/-- `boost::mpl::apply1`, `apply2`, `apply`: a lambda expression is invoked as such, anything else by its nested `apply`.
(Boost.MPL; used in /repo/include/boost/flyweight/detail/flyweight_core.hpp:129-147, 219-222 and
detail/is_placeholder_expr.hpp:47-57.) -/
def apply (w : World) (g : Guard) (f : Ty) (args : List Ty) : Option Ty :=
  if isLe w g f then resolve w g args f else nested w g f args
termination_by (sizeOf f, 1)
/-- Nested `apply<...>::type`: /repo/include/boost/flyweight/hashed_factory.hpp:108-120, set_factory.hpp:65-77,
concurrent_factory.hpp:231-242, assoc_container_factory.hpp:101-110, static_holder.hpp:43-50,
intermodule_holder.hpp:41-48, refcounted.hpp:181-197, no_tracking.hpp:29-39, detail/is_placeholder_expr.hpp:36-42. -/
def nested (w : World) (g : Guard) (f : Ty) (args : List Ty) : Option Ty :=
  match f, args with
  | .app .hashed [h, p, a], [e, k] => applyClass w g (.app .hashedClass [.ph 0, .ph 1, h, p, a]) [e, k]
  | .app .set [c, a], [e, k] => applyClass w g (.app .setClass [.ph 0, .ph 1, c, a]) [e, k]
  | .app .conc [h, p, a], [e, k] => applyClass w g (.app .concClass [.ph 0, .ph 1, h, p, a]) [e, k]
  | .app .assoc [c], [e, k] => (apply w g c [e, k]).map fun x => .app .assocClass [x]
  | .cls .staticHolder, [c] => some (.app .staticClass [c])
  | .cls .interHolder, [c] => some (.app .interClass [c])
  | .cls .refEntryType, [v, k] => some (.app .refValue [v, k])
  | .cls .refHandleType, [h, t] => some (.app .refHandle [h, t])
  | .cls .plainEntryType, [v, _] => some v
  | .cls .plainHandleType, [h, _] => some h
  | .app .probe [_], [_, _, _, _, _] => some .int
  | .cls (.user n), as => w.apply (.cls (.user n)) as
  | .app (.user n) bs, as => w.apply (.app (.user n) bs) as
  | _, _ => none
termination_by (sizeOf f, 0)
end

/-- `detail::is_placeholder_expression<T>`, /repo/include/boost/flyweight/detail/is_placeholder_expr.hpp:47-57; `none` is a
compile error. -/
def isPlaceholderExpr (w : World) (g : Guard) (t : Ty) : Option Bool :=
  (apply w g (.app .probe [t]) [.int, .int, .int, .int, .int]).map fun
    | .int => false
    | _ => true

/-- `mpl::if_<mpl::is_na<X>,D,X>`, e.g. /repo/include/boost/flyweight/hashed_factory.hpp:46-50. -/
def orElse : Ty → Ty → Ty
  | .na, d => d
  | x, _ => x

/-- The container of a factory class: the type of its member `cont`,
/repo/include/boost/flyweight/hashed_factory.hpp:42-69, 94, set_factory.hpp:36-51,
assoc_container_factory.hpp:83-88 (`int` for a placeholder expression), concurrent_factory.hpp:90-112, 194-210
(`some none`: there is no container, the base class being empty).  `none` is a compile error or another type. -/
def container (w : World) (g : Guard) : Ty → Option (Option Ty)
  | .app .hashedClass [e, k, h, p, a] =>
    some (some (.app .multiIndex [e,
      .app .hashedUnique [.app .identity [e], orElse h (.app .hash [k]), orElse p (.app .equalTo [k])],
      orElse a (.app .allocator [e])]))
  | .app .assocClass [c] => assocCont c
  | .app .setClass [e, k, c, a] =>
    assocCont (.app .stdSet [e, orElse c (.app .less [k]), orElse a (.app .allocator [e])])
  | .app .concClass [e, k, h, p, a] =>
    (isPlaceholderExpr w g (.app .check [e, k, h, p, a])).map fun
      | true => none
      | false =>
        let x := Ty.app .refEntry [e]
        some (.app .concNodeSet [x, orElse h (.app .hash [k]), orElse p (.app .equalTo [k]),
          .app .rebind [orElse a (.app .allocator [x]), x]])
  | _ => none
where
  /-- /repo/include/boost/flyweight/assoc_container_factory.hpp:83-88. -/
  assocCont (c : Ty) : Option (Option Ty) :=
    (isPlaceholderExpr w g c).map fun
      | true => some .int
      | false => some c

/-- The factory type of a core: `entry_type` and `factory_type`,
/repo/include/boost/flyweight/detail/flyweight_core.hpp:129-138, from the tracking policy's `entry_type`, the factory
specifier, and the `rep_type` and `key_type` of the value policy. -/
def factoryType (w : World) (g : Guard) (entryType spec rep key : Ty) : Option Ty :=
  (apply w g entryType [rep, key]).bind fun e => apply w g spec [e, key]

/-- The handle type of a core, /repo/include/boost/flyweight/detail/flyweight_core.hpp:139-147, from the tracking policy's
`handle_type`, the handle type of the factory and the tracking helper. -/
def handleType (w : World) (g : Guard) (handleType base helper : Ty) : Option Ty := apply w g handleType [base, helper]

/-- The holder type of a core, /repo/include/boost/flyweight/detail/flyweight_core.hpp:214-222. -/
def holderType (w : World) (g : Guard) (spec arg : Ty) : Option Ty := apply w g spec [arg]

end Verif.Lambda

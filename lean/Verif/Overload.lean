/-!
# Which function is called: overload resolution and forwarding of arguments

The overload sets of /repo/include/boost/flyweight/flyweight.hpp:193-239,
/repo/include/boost/flyweight/detail/flyweight_core.hpp:167-184, 261-311 and of the `rep_type` classes, as they are (template
constructors that accept anything, beside copy constructors and functions for values), together with the part of C++'s rules for overload
resolution that decides between them.  Any number of arguments of any types.
-/

set_option autoImplicit false

namespace Verif.Overload

variable {T I : Type}

/-- An argument: type without reference and top-level `const`, whether it is `const`, and whether it is an rvalue.  (No
code of its own: C++ language.) -/
structure Arg (T : Type) where
  ty : T
  cst : Bool
  rv : Bool
  deriving DecidableEq

/-- What has to be known about types: whether the first is derived from the second; whether it is implicitly converted
by the user's functions into a temporary of the second type, or by a conversion function into a `const`
reference to one (as every flyweight is, /repo/include/boost/flyweight/flyweight.hpp:251); whether it is an
`initializer_list` that is convertible to the key type (/repo/include/boost/flyweight/flyweight.hpp:205-211). -/
structure World (T : Type) where
  derives : T → T → Bool
  convR : T → T → Bool
  convL : T → T → Bool
  list : T → Bool

/-- A parameter: reference (rvalue reference or not, to `const` or not) or object.  (No code of its own: C++
language.) -/
inductive Par (T : Type) where
  | ref (rv cst : Bool) (t : T)
  | val (t : T)

/-- A parameter of a function template, from which the argument's type is deduced (`Tn&&`, `Tn&`, `const Tn&`,
`std::initializer_list<V>`), or of a plain function.  (No code of its own: C++ language.) -/
inductive Tp (T : Type) where
  | fwd
  | lref
  | cref
  | list
  | par (p : Par T)

/-- A conversion of an argument to the type of a parameter: its rank (0 exact match, 1 to a base class, 2 by the user's
functions), whether it binds a reference, which kind of it, and to what type.  (No code of its own: C++ language.) -/
structure Ics (T : Type) where
  rank : Nat
  isRef : Bool
  rv : Bool
  cst : Bool
  ty : T

/-- A candidate: its name, whether it is a template, whether it takes any number of arguments as `Args&&...`, and its
parameters otherwise.  (No code of its own: C++ language.) -/
structure Cand (I T : Type) where
  id : I
  tmpl : Bool
  pack : Bool
  pars : List (Tp T)

/-- A reference can be bound directly: rvalue references to rvalues, non-`const` lvalue references to lvalues, `const` lvalue
references to anything, and none drops `const`.  (No code of its own: C++ language, [dcl.init.ref].) -/
def bindOk (rv cst : Bool) (a : Arg T) : Bool :=
  if rv then a.rv && (cst || !a.cst) else cst || (!a.rv && !a.cst)

variable [DecidableEq T] [DecidableEq I]

/-- Conversion of an argument to a parameter, if there is one.  (No code of its own: C++ language, [over.best.ics],
[over.ics.ref].)  Simplification: conversions by the user's functions yield temporaries or `const` lvalues. -/
def ics (W : World T) (a : Arg T) : Par T → Option (Ics T)
  | .ref rv cst t =>
    if a.ty = t then if bindOk rv cst a then some ⟨0, true, rv, cst, t⟩ else none
    else if W.derives a.ty t then if bindOk rv cst a then some ⟨1, true, rv, cst, t⟩ else none
    else if (if rv then W.convR a.ty t else cst && (W.convR a.ty t || W.convL a.ty t)) then some ⟨2, true, rv, cst, t⟩
    else none
  | .val t =>
    if a.ty = t then some ⟨0, false, false, false, t⟩
    else if W.derives a.ty t then some ⟨1, false, false, false, t⟩
    else if W.convR a.ty t || W.convL a.ty t then some ⟨2, false, false, false, t⟩
    else none

/-- Better conversion: lower rank; or the same rank (and, if made by the user's functions, to the same type), and both
references, of which the first is an rvalue reference and the second is not, or they are the same but the
second is to `const`.  (No code of its own: C++ language, [over.ics.rank].) -/
def Ics.better (x y : Ics T) : Bool :=
  decide (x.rank < y.rank) ||
  (x.rank == y.rank && (decide (x.rank < 2) || decide (x.ty = y.ty)) && x.isRef && y.isRef &&
    ((x.rv && !y.rv) || (x.rv == y.rv && decide (x.ty = y.ty) && !x.cst && y.cst)))

/-- Deduction of a parameter from an argument; `T&&` becomes an lvalue reference for an lvalue.  (No code of its own: C++
language, [temp.deduct.call]; for `list` see /repo/include/boost/flyweight/flyweight.hpp:205-211.) -/
def deduce (W : World T) (a : Arg T) : Tp T → Option (Par T)
  | .fwd => some (.ref a.rv a.cst a.ty)
  | .lref => some (.ref false a.cst a.ty)
  | .cref => some (.ref false true a.ty)
  | .list => if W.list a.ty then some (.val a.ty) else none
  | .par p => some p

/-- Deduction for all arguments; `none` if their number is wrong.  (No code of its own: C++ language.) -/
def deduceAll (W : World T) : List (Arg T) → List (Tp T) → Option (List (Par T))
  | [], [] => some []
  | a :: as, p :: ps => match deduce W a p, deduceAll W as ps with
    | some q, some qs => some (q :: qs)
    | _, _ => none
  | _, _ => none

/-- Conversions of all arguments.  (No code of its own: C++ language.) -/
def icsAll (W : World T) : List (Arg T) → List (Par T) → Option (List (Ics T))
  | [], [] => some []
  | a :: as, p :: ps => match ics W a p, icsAll W as ps with
    | some q, some qs => some (q :: qs)
    | _, _ => none
  | _, _ => none

/-- Parameters of a candidate for these arguments.  (No code of its own: C++ language.) -/
def Cand.params (W : World T) (c : Cand I T) (as : List (Arg T)) : Option (List (Par T)) :=
  deduceAll W as (if c.pack then as.map (fun _ => .fwd) else c.pars)

/-- Conversions for a candidate, if it is viable.  (No code of its own: C++ language, [over.match.viable].) -/
def Cand.conv (W : World T) (c : Cand I T) (as : List (Arg T)) : Option (List (Ics T)) :=
  match c.params W as with
  | some ps => icsAll W as ps
  | none => none

/-- No conversion is worse.  (No code of its own: C++ language.) -/
def noWorse : List (Ics T) → List (Ics T) → Bool
  | x :: xs, y :: ys => !y.better x && noWorse xs ys
  | _, _ => true

/-- Some conversion is better.  (No code of its own: C++ language.) -/
def someBetter : List (Ics T) → List (Ics T) → Bool
  | x :: xs, y :: ys => x.better y || someBetter xs ys
  | _, _ => false

/-- At least as specialized: `const T&` is more specialized than `T&`, and `initializer_list<V>` than `T&&`.  (No code of its own: C++ language,
[temp.deduct.partial].) -/
def Tp.atLeast : Tp T → Tp T → Bool
  | .lref, .cref => false
  | .fwd, .list => false
  | _, _ => true

/-- Pointwise.  (No code of its own: C++ language.) -/
def atLeast : List (Tp T) → List (Tp T) → Bool
  | p :: ps, q :: qs => p.atLeast q && atLeast ps qs
  | _, _ => true

/-- More specialized template; one with a parameter pack is less specialized than one without.  (No code of its own: C++ language,
[temp.func.order].) -/
def moreSpec (c d : Cand I T) : Bool :=
  if c.pack then false else if d.pack then true else atLeast c.pars d.pars && !atLeast d.pars c.pars

/-- Better candidate: no conversion is worse, and some conversion is better, or it is not a template and the other is, or it is
a more specialized template.  (No code of its own: C++ language, [over.match.best].) -/
def better (W : World T) (as : List (Arg T)) (c d : Cand I T) : Bool :=
  match c.conv W as, d.conv W as with
  | some xs, some ys => noWorse xs ys && (someBetter xs ys || (!c.tmpl && d.tmpl) || (c.tmpl && d.tmpl && moreSpec c d))
  | _, _ => false

/-- Overload resolution: the viable candidate better than every other; `none` if there is none (no viable function, or
ambiguity).  (No code of its own: C++ language, [over.match].) -/
def resolve (W : World T) (cs : List (Cand I T)) (as : List (Arg T)) : Option (Cand I T) :=
  (cs.filter fun c => (c.conv W as).isSome).find? fun c =>
    cs.all fun d => d.id == c.id || !(d.conv W as).isSome || better W as c d

/-! ## Forwarding of any arguments -/

/-- How functions are declared that accept any arguments, depending on the compiler: /repo/include/boost/flyweight/detail/perfect_fwd.hpp:61-89
chooses between one variadic template; templates with up to a given number of parameters `Tn&&`; and templates with
up to a given number of parameters `Tn&` or `const Tn&`. -/
inductive Mode where
  | variadic
  | nary (limit : Nat)
  | masks (limit : Nat)
  deriving DecidableEq

/-- All lists of `0` and `1` of a length, in the order of the preprocessor's product, /repo/include/boost/flyweight/detail/dyn_perfect_fwd.hpp:94-102. -/
def masks : Nat → List (List Bool)
  | 0 => [[]]
  | n + 1 => (masks n).map (false :: ·) ++ (masks n).map (true :: ·)

/-- The handwritten table for up to five parameters, /repo/include/boost/flyweight/detail/pp_perfect_fwd.hpp:52-135: for each overload, in the order of the
file, which parameters are `const Tn&` (`true`) and which `Tn&`. -/
def ppMasks : Nat → List (List Bool)
  | 0 => [[]]
  | 1 =>
    [[false], [true]]
  | 2 =>
    [[false, false], [false, true], [true, false], [true, true]]
  | 3 =>
    [[false, false, false], [false, false, true], [false, true, false], [false, true, true], [true, false,
     false], [true, false, true], [true, true, false], [true, true, true]]
  | 4 =>
    [[false, false, false, false], [false, false, false, true], [false, false, true, false], [false, false,
     true, true], [false, true, false, false], [false, true, false, true], [false, true, true, false], [false,
     true, true, true], [true, false, false, false], [true, false, false, true], [true, false, true, false],
     [true, false, true, true], [true, true, false, false], [true, true, false, true], [true, true, true,
     false], [true, true, true, true]]
  | 5 =>
    [[false, false, false, false, false], [false, false, false, false, true], [false, false, false, true,
     false], [false, false, false, true, true], [false, false, true, false, false], [false, false, true, false,
     true], [false, false, true, true, false], [false, false, true, true, true], [false, true, false, false,
     false], [false, true, false, false, true], [false, true, false, true, false], [false, true, false, true,
     true], [false, true, true, false, false], [false, true, true, false, true], [false, true, true, true,
     false], [false, true, true, true, true], [true, false, false, false, false], [true, false, false, false,
     true], [true, false, false, true, false], [true, false, false, true, true], [true, false, true, false,
     false], [true, false, true, false, true], [true, false, true, true, false], [true, false, true, true,
     true], [true, true, false, false, false], [true, true, false, false, true], [true, true, false, true,
     false], [true, true, false, true, true], [true, true, true, false, false], [true, true, true, false, true],
     [true, true, true, true, false], [true, true, true, true, true]]
  | _ => []

/-- Parameters for a mask, /repo/include/boost/flyweight/detail/dyn_perfect_fwd.hpp:64-74. -/
def maskPars (m : List Bool) : List (Tp T) := m.map fun b => if b then .cref else .lref

/-- Overloads that `BOOST_FLYWEIGHT_PERFECT_FWD_WITH_ARGS` declares (`zero` false) or `BOOST_FLYWEIGHT_PERFECT_FWD` (`zero` true):
/repo/include/boost/flyweight/detail/perfect_fwd.hpp:82-87, /repo/include/boost/flyweight/detail/dyn_perfect_fwd.hpp:27-47, 72-111, and, which is the same,
/repo/include/boost/flyweight/detail/pp_perfect_fwd.hpp:20-170. -/
def fwds (mode : Mode) (zero : Bool) (mk : List Bool → I) : List (Cand I T) :=
  match mode with
  | .variadic => [⟨mk [], true, true, []⟩]
  | .nary l => (if zero then [⟨mk [], false, false, []⟩] else []) ++
      (List.range l).map fun n => ⟨mk (List.replicate (n + 1) false), true, false, List.replicate (n + 1) .fwd⟩
  | .masks l => (if zero then [⟨mk [], false, false, []⟩] else []) ++
      (List.range l).flatMap fun n => (masks (n + 1)).map fun m => ⟨mk m, true, false, maskPars m⟩

/-- Whether there are rvalue references (`BOOST_NO_CXX11_RVALUE_REFERENCES` not defined). -/
def Mode.rvalues : Mode → Bool
  | .masks _ => false
  | _ => true

/-- What `std::forward` makes of a parameter: what the argument was;
/repo/include/boost/flyweight/detail/perfect_fwd.hpp:47-48, 84. -/
def Par.forward : Par T → Arg T
  | .ref rv cst t => ⟨t, cst, rv⟩
  | .val t => ⟨t, false, true⟩

/-- Use of a parameter by its name, which is an lvalue: /repo/include/boost/flyweight/detail/perfect_fwd.hpp:53, and
e.g. /repo/include/boost/flyweight/detail/flyweight_core.hpp:178. -/
def Par.name : Par T → Arg T
  | .ref _ cst t => ⟨t, cst, false⟩
  | .val t => ⟨t, false, false⟩

/-- `BOOST_FLYWEIGHT_FORWARD(args)`, /repo/include/boost/flyweight/detail/perfect_fwd.hpp:47-59: `FORWARD`, `PASS`
(of forwarded arguments, line 84) or `ENUM`. -/
def Mode.pass (mode : Mode) (p : Par T) : Arg T := if mode.rvalues then p.forward else p.name

/-! ## The library's overload sets -/

/-- The types involved: the flyweight type, value type and `rep_type`
(/repo/include/boost/flyweight/flyweight.hpp:126-178). -/
structure Types (T : Type) where
  fw : T
  val : T
  rep : T

/-- Constructors of `flyweight`, /repo/include/boost/flyweight/flyweight.hpp:193-219. -/
inductive Ctor where
  | dflt
  | fwd (m : List Bool)
  | list
  | copyC
  | copy
  | moveC
  | move
  deriving DecidableEq

/-- A plain function with one parameter.  (Helper, no code of its own.) -/
def plain (i : I) (p : Par T) : Cand I T := ⟨i, false, false, [.par p]⟩

/-- Constructors, /repo/include/boost/flyweight/flyweight.hpp:193-219.  Simplification: `initializer_list` goes with rvalue references;
`explicit` matters only for implicit conversions to a flyweight, which are in `World`. -/
def ctors (mode : Mode) (Y : Types T) : List (Cand Ctor T) :=
  fwds mode false .fwd ++
  ([⟨.dflt, false, false, []⟩, plain .copyC (.ref false true Y.fw), plain .copy (.ref false false Y.fw)] ++
  if mode.rvalues then
    [⟨.list, true, false, [.list]⟩, plain .moveC (.ref true true Y.fw), plain .move (.ref true false Y.fw)]
  else [])

/-- Overloads of `core::insert`, /repo/include/boost/flyweight/detail/flyweight_core.hpp:167-184. -/
inductive Ins where
  | fwd (m : List Bool)
  | valC
  | val
  | rvalC
  | rval
  deriving DecidableEq

/-- Overloads of `core::insert`, /repo/include/boost/flyweight/detail/flyweight_core.hpp:167-184. -/
def inserts (mode : Mode) (Y : Types T) : List (Cand Ins T) :=
  fwds mode true .fwd ++
  ([plain .valC (.ref false true Y.val), plain .val (.ref false false Y.val)] ++
  if mode.rvalues then [plain .rvalC (.ref true true Y.val), plain .rval (.ref true false Y.val)] else [])

/-- Overloads of `insert_value` (`false`: 276-289, `true`: 302-311 of
/repo/include/boost/flyweight/detail/flyweight_core.hpp). -/
def insertValues (mode : Mode) (Y : Types T) : List (Cand Bool T) :=
  plain false (.ref false true Y.val) :: if mode.rvalues then [plain true (.ref true false Y.val)] else []

/-- Value policies: /repo/include/boost/flyweight/detail/default_value_policy.hpp:30-76, and the two of
/repo/include/boost/flyweight/key_value.hpp:299-306. -/
inductive Pol where
  | dflt
  | variant
  | product
  deriving DecidableEq

/-- Constructors of `rep_type`, see `repCtors`. -/
inductive RepCtor where
  | fwd (m : List Bool)
  | copy
  | move
  | val
  | rval
  deriving DecidableEq

/-- Constructors of `rep_type`: /repo/include/boost/flyweight/detail/default_value_policy.hpp:50-63;
/repo/include/boost/flyweight/key_value.hpp:61-95; 216-231. -/
def repCtors (mode : Mode) (Y : Types T) (pol : Pol) : List (Cand RepCtor T) :=
  fwds mode true .fwd ++
  (plain .copy (.ref false true Y.rep) ::
  ((if mode.rvalues then [plain .move (.ref true false Y.rep)] else []) ++
  (if pol = .dflt then [] else plain .val (.ref false true Y.val) ::
    if mode.rvalues then [plain .rval (.ref true false Y.val)] else [])))

/-- Overloads of assignment, /repo/include/boost/flyweight/flyweight.hpp:221-239. -/
inductive Asg where
  | list
  | fw
  | val
  | rval
  deriving DecidableEq

/-- Overloads of assignment, /repo/include/boost/flyweight/flyweight.hpp:221-239. -/
def assigns (mode : Mode) (Y : Types T) : List (Cand Asg T) :=
  [plain .fw (.ref false true Y.fw), plain .val (.ref false true Y.val)] ++
  if mode.rvalues then [⟨.list, true, false, [.list]⟩, plain .rval (.ref true false Y.val)] else []

/-! ## Construction and assignment -/

/-- What constructing a flyweight comes down to.  (No code of its own: summary of the functions below.) -/
inductive Made (T : Type) where
  /-- the handle is copied, nothing is looked up -/
  | copied
  /-- the entry's key (or its value, if there is no other key) is constructed from these arguments -/
  | key (as : List (Arg T))
  /-- the entry's key is extracted from the given value, and a new value is copied or moved from it -/
  | value (moved : Bool)
  /-- the compiler reports an error: no function can be chosen, or no key can be extracted from a value -/
  | error
  deriving DecidableEq

/-- `rep_type(args...)`, /repo/include/boost/flyweight/detail/flyweight_core.hpp:169, 279, 305: the constructors
/repo/include/boost/flyweight/detail/default_value_policy.hpp:50-55 and /repo/include/boost/flyweight/key_value.hpp:61-69,
79-82, 91-94, 216-221, 226, 230 (the last two do not compile when used, 254-262). -/
def makeRep (mode : Mode) (W : World T) (Y : Types T) (pol : Pol) (moved : Bool) (as : List (Arg T)) : Made T :=
  match resolve W (repCtors mode Y pol) as with
  | some c => match c.id, c.params W as with
    | .fwd _, some ps => .key (ps.map mode.pass)
    | .val, _ => if pol = .product then .error else .value moved
    | .rval, _ => if pol = .product then .error else .value moved
    | _, _ => .error
  | none => .error

/-- `insert_value(x)`, /repo/include/boost/flyweight/detail/flyweight_core.hpp:276-311. -/
def insertValue (mode : Mode) (W : World T) (Y : Types T) (pol : Pol) (a : Arg T) : Made T :=
  match resolve W (insertValues mode Y) [a] with
  | some c => match c.id, c.params W [a] with
    | false, some [p] => makeRep mode W Y pol false [p.name]
    | true, some [p] => makeRep mode W Y pol true [p.forward]
    | _, _ => .error
  | none => .error

/-- `core::insert(args...)`, /repo/include/boost/flyweight/detail/flyweight_core.hpp:167-184. -/
def insert (mode : Mode) (W : World T) (Y : Types T) (pol : Pol) (as : List (Arg T)) : Made T :=
  match resolve W (inserts mode Y) as with
  | some c => match c.id, c.params W as with
    | .fwd _, some ps => makeRep mode W Y pol false (ps.map mode.pass)
    | .valC, some [p] => insertValue mode W Y pol p.name
    | .val, some [p] => insertValue mode W Y pol p.name
    | .rvalC, some [p] => insertValue mode W Y pol p.name
    | .rval, some [p] => insertValue mode W Y pol p.forward
    | _, _ => .error
  | none => .error

/-- `flyweight(args...)`, /repo/include/boost/flyweight/flyweight.hpp:193-219. -/
def construct (mode : Mode) (W : World T) (Y : Types T) (pol : Pol) (as : List (Arg T)) : Made T :=
  match resolve W (ctors mode Y) as with
  | some c => match c.id, c.params W as with
    | .dflt, _ => insert mode W Y pol []
    | .fwd _, some ps => insert mode W Y pol (ps.map mode.pass)
    | .list, some [p] => insert mode W Y pol [p.name]
    | .copyC, _ => .copied
    | .copy, _ => .copied
    | .moveC, _ => .copied
    | .move, _ => .copied
    | _, _ => .error
  | none => .error

/-- `f = arg`: what the assigned handle is made from, /repo/include/boost/flyweight/flyweight.hpp:221-239 (a flyweight made from
the value or list is then assigned by 231). -/
def assign (mode : Mode) (W : World T) (Y : Types T) (pol : Pol) (a : Arg T) : Made T :=
  match resolve W (assigns mode Y) [a] with
  | some c => match c.id, c.params W [a] with
    | .list, some [p] => construct mode W Y pol [p.name]
    | .fw, _ => .copied
    | .val, some [p] => construct mode W Y pol [p.name]
    | .rval, some [p] => construct mode W Y pol [p.forward]
    | _, _ => .error
  | none => .error

end Verif.Overload

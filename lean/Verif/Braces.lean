import Verif.Overload

/-!
# Braced lists as initializers and arguments

`flyweight<T> f{a,b}`, `flyweight<T> f={a,b}`, `flyweight<T> f({a,b})` and `f={a,b}` with the constructors and assignments of
/repo/include/boost/flyweight/flyweight.hpp:193-239, and the part of C++'s rules for list initialization that decides between
them.  Any number of elements of any types.  Simplifications: variadic templates and rvalue references (compilers with braced
lists have both); no braces inside the braces.
-/

set_option autoImplicit false

namespace Verif.Overload

variable {T I : Type} [DecidableEq T] [DecidableEq I]

/-- How a braced list converts to the value type: by a constructor (or as an aggregate), or without one (numbers, pointers); and
whether the program is accepted if this conversion is used: it is not if the constructor is `explicit`, the conversion
narrowing or ambiguous.  (The user's types.) -/
structure ToVal where
  user : Bool
  ok : Bool

/-- What has to be known about braced lists: the type `std::initializer_list<V>`; whether and how a braced list converts to the
value type.  (The user's types.) -/
structure Lists (T : Type) where
  of : T → T
  toVal : List (Arg T) → Option ToVal

/-- An argument: an expression, or a braced list of expressions.  (No code of its own: C++ language.) -/
inductive Ini (T : Type) where
  | arg (a : Arg T)
  | braces (l : List (Arg T))

/-- The type deduced for `V` in `std::initializer_list<V>` from a braced list: that of all elements, of which there
must be some.  (No code of its own: C++ language, [temp.deduct.call].) -/
def elem : List (Arg T) → Option T
  | [] => none
  | a :: l => if l.all fun b => b.ty = a.ty then some a.ty else none

/-- The `initializer_list` that a template with parameter `std::initializer_list<V>` takes from a braced list, if the library's
condition on `V` holds: /repo/include/boost/flyweight/flyweight.hpp:206-210, 222-225. -/
def listOf (W : World T) (L : Lists T) (l : List (Arg T)) : Option T :=
  match elem l with
  | some v => if W.list (L.of v) then some (L.of v) else none
  | none => none

/-- Constructors declared `explicit`, /repo/include/boost/flyweight/flyweight.hpp:199-201. -/
def Ctor.isExplicit : Ctor → Bool
  | .fwd _ => true
  | _ => false

/-- `flyweight<T> f{l...}` (`copy` false) and `flyweight<T> f={l...}` (`copy` true): with no elements the default constructor;
otherwise the constructor taking an `initializer_list`, /repo/include/boost/flyweight/flyweight.hpp:205-211, if it can
be; otherwise all constructors, with the elements as arguments; then one that is `explicit` is an error in the form with `=`.
(Rules: C++ language, [dcl.init.list], [over.match.list].) -/
def listInit (copy : Bool) (W : World T) (L : Lists T) (Y : Types T) (pol : Pol) (l : List (Arg T)) : Made T :=
  match l with
  | [] => construct .variadic W Y pol []
  | _ => match listOf W L l with
    | some t => insert .variadic W Y pol [⟨t, false, false⟩]
    | none => match resolve W (ctors .variadic Y) l with
      | some c => if copy && c.id.isExplicit then .error else construct .variadic W Y pol l
      | none => .error

/-- Some constructor of the flyweight can take the braced list.  (Rules: C++ language, [over.ics.list]: also `explicit` ones count;
constructors /repo/include/boost/flyweight/flyweight.hpp:193-219.) -/
def fromBraces (W : World T) (L : Lists T) (Y : Types T) (l : List (Arg T)) : Bool :=
  l.isEmpty || (listOf W L l).isSome || (ctors .variadic Y).any fun c => (c.conv W l).isSome

/-- A conversion of an argument, and whether it is of a braced list to an `initializer_list`.  (No code of its own: C++
language.) -/
structure Lconv (T : Type) where
  ics : Ics T
  toList : Bool

/-- A braced list of one element of the class wanted, or of one derived from it, is treated as this element.  (No code of its
own: C++ language, [over.ics.list].) -/
def single (W : World T) (t : T) : List (Arg T) → Option (Arg T)
  | [a] => if a.ty = t || W.derives a.ty t then some a else none
  | _ => none

/-- Conversion of an argument to a parameter.  (No code of its own: C++ language, [over.ics.list].)  Simplification: the only parameters that are no
references are `initializer_list`s, and the only references are to flyweights and values, as in
/repo/include/boost/flyweight/flyweight.hpp:193-239; conversions to the value type without a constructor are not told apart, because they are
compared only with such as need one. -/
def icsI (W : World T) (L : Lists T) (Y : Types T) : Ini T → Par T → Option (Lconv T)
  | .arg a, p => (ics W a p).map fun x => ⟨x, false⟩
  | .braces _, .val t => some ⟨⟨0, false, false, false, t⟩, true⟩
  | .braces l, .ref rv cst t =>
    match single W t l with
    | some a => (ics W a (.ref rv cst t)).map fun x => ⟨x, false⟩
    | none =>
      if !(rv || cst) then none
      else if t = Y.fw then if fromBraces W L Y l then some ⟨⟨2, true, rv, cst, t⟩, false⟩ else none
      else if t = Y.val then (L.toVal l).map fun r => ⟨⟨if r.user then 2 else 1, true, rv, cst, t⟩, false⟩
      else none

/-- Deduction from an argument; from a braced list nothing can be deduced except for `initializer_list`.  (No code of its own: C++
language, [temp.deduct.call].) -/
def deduceI (W : World T) (L : Lists T) : Ini T → Tp T → Option (Par T)
  | .arg a, p => deduce W a p
  | .braces l, .list => (listOf W L l).map .val
  | .braces _, .par p => some p
  | .braces _, _ => none

/-- Parameters and conversions for all arguments.  (No code of its own: C++ language.) -/
def convAll (W : World T) (L : Lists T) (Y : Types T) : List (Ini T) → List (Tp T) → Option (List (Par T × Lconv T))
  | [], [] => some []
  | i :: is, p :: ps => match deduceI W L i p with
    | some q => match icsI W L Y i q, convAll W L Y is ps with
      | some x, some xs => some ((q, x) :: xs)
      | _, _ => none
    | none => none
  | _, _ => none

/-- Parameters and conversions for a candidate, if it is viable.  (No code of its own: C++ language.) -/
def Cand.convI (W : World T) (L : Lists T) (Y : Types T) (c : Cand I T) (is : List (Ini T)) :
    Option (List (Par T × Lconv T)) :=
  convAll W L Y is (if c.pack then is.map (fun _ => .fwd) else c.pars)

/-- Better conversion: to an `initializer_list` if the other one is not; otherwise as for expressions.  (No code of its own: C++
language, [over.ics.rank].) -/
def Lconv.better (x y : Lconv T) : Bool :=
  if x.toList == y.toList then x.ics.better y.ics else x.toList

/-- Better candidate.  (No code of its own: C++ language, [over.match.best].) -/
def betterI (W : World T) (L : Lists T) (Y : Types T) (is : List (Ini T)) (c d : Cand I T) : Bool :=
  match c.convI W L Y is, d.convI W L Y is with
  | some xs, some ys =>
    ((xs.zip ys).all fun p => !p.2.2.better p.1.2) &&
      (((xs.zip ys).any fun p => p.1.2.better p.2.2) || (!c.tmpl && d.tmpl) || (c.tmpl && d.tmpl && moreSpec c d))
  | _, _ => false

/-- Overload resolution.  (No code of its own: C++ language, [over.match].) -/
def resolveI (W : World T) (L : Lists T) (Y : Types T) (cs : List (Cand I T)) (is : List (Ini T)) : Option (Cand I T) :=
  (cs.filter fun c => (c.convI W L Y is).isSome).find? fun c =>
    cs.all fun d => d.id == c.id || !(d.convI W L Y is).isSome || betterI W L Y is c d

/-- The arguments, if none is a braced list.  (No code of its own.) -/
def typed : List (Ini T) → Option (List (Arg T))
  | [] => some []
  | .arg a :: is => (typed is).map (a :: ·)
  | .braces _ :: _ => none

/-- A parameter of type `flyweight&&`, `const flyweight&` … initialized by a braced list: a flyweight in braces is itself, and of it the handle is
copied (/repo/include/boost/flyweight/flyweight.hpp:213-219, 231); otherwise a temporary is made as by `flyweight<T> x={l...}`,
of which the handle is copied. -/
def fwParam (W : World T) (L : Lists T) (Y : Types T) (pol : Pol) (l : List (Arg T)) : Made T :=
  match single W Y.fw l with
  | some _ => .copied
  | none => listInit true W L Y pol l

/-- `flyweight<T> f(is...)` with braced lists among the arguments, /repo/include/boost/flyweight/flyweight.hpp:193-219. -/
def constructI (W : World T) (L : Lists T) (Y : Types T) (pol : Pol) (is : List (Ini T)) : Made T :=
  match typed is with
  | some as => construct .variadic W Y pol as
  | none => match resolveI W L Y (ctors .variadic Y) is with
    | some c => match c.id, c.convI W L Y is, is with
      | .list, some [(p, _)], _ => insert .variadic W Y pol [p.name]
      | .copyC, _, [.braces l] => fwParam W L Y pol l
      | .copy, _, [.braces l] => fwParam W L Y pol l
      | .moveC, _, [.braces l] => fwParam W L Y pol l
      | .move, _, [.braces l] => fwParam W L Y pol l
      | _, _, _ => .error
    | none => .error

/-- A parameter of type `value_type&&` or `const value_type&` can be initialized by the braced list.  (Rules: C++ language,
[dcl.init.list].) -/
def valParam (W : World T) (L : Lists T) (Y : Types T) (l : List (Arg T)) : Bool :=
  match single W Y.val l with
  | some _ => true
  | none => match L.toVal l with
    | some r => r.ok
    | none => false

/-- `f={l...}`, /repo/include/boost/flyweight/flyweight.hpp:221-239. -/
def assignBraces (W : World T) (L : Lists T) (Y : Types T) (pol : Pol) (l : List (Arg T)) : Made T :=
  match resolveI W L Y (assigns .variadic Y) [.braces l] with
  | some c => match c.id, c.convI W L Y [.braces l] with
    | .list, some [(p, _)] => construct .variadic W Y pol [p.name]
    | .fw, _ => fwParam W L Y pol l
    | .val, some [(p, _)] => if valParam W L Y l then construct .variadic W Y pol [p.name] else .error
    | .rval, some [(p, _)] => if valParam W L Y l then construct .variadic W Y pol [p.forward] else .error
    | _, _ => .error
  | none => .error

end Verif.Overload

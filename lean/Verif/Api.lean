/-!
# Vocabulary of the API

Types shared by the model and the specification: what a flyweight can be
created from, the operations of class template `flyweight`, and their results.
-/

set_option autoImplicit false

namespace Verif

/-- What a flyweight is being created from: constructor arguments denoting a
key, an lvalue or an rvalue of the value type.  Models the `insert` overload
set of /repo/include/boost/flyweight/detail/flyweight_core.hpp:167-184; also
selects the visitor among `key_construct_value`, `copy_construct_value` and
`move_construct_value` (226-259).  Simplification: perfectly forwarded
arguments are represented by the key they construct. -/
inductive Src (K V : Type) where
  | key (k : K)
  | copy (v : V)
  | move (v : V)

/-- User-supplied functions: `ctor` is the constructor of a value from a key,
`kfv` the key extractor, `movedK`/`movedV` the (unspecified) contents of a
moved-from key/value.  Used by
/repo/include/boost/flyweight/key_value.hpp:130-162.  Simplifications: copies
and moves yield objects equal to the source, `kfv` does not throw. -/
structure UserFns (K V : Type) where
  ctor : K → V
  kfv : V → K
  movedK : K → K
  movedV : V → V

/-- Tracking policies: /repo/include/boost/flyweight/refcounted.hpp:179-198 and
/repo/include/boost/flyweight/no_tracking.hpp:27-40. -/
inductive Tracking where
  | refcounted
  | noTracking
  deriving DecidableEq

/-- Operations on flyweight variables (named by numbers) of one flyweight type,
/repo/include/boost/flyweight/flyweight.hpp:181-278, 470-506.  `make` covers
the constructors from arguments, values and initializer lists (193-212),
`copy`/`move` the copy and move constructors (214-219), `assign` the assignment
from a flyweight (231), `assignVal` those from a value or initializer list
(221-229, 232-239), `init` is `flyweight::init` (181). -/
inductive Op (K V : Type) where
  | init
  | make (x : Nat) (s : Src K V)
  | copy (x y : Nat)
  | move (x y : Nat)
  | assign (x y : Nat)
  | assignVal (x : Nat) (s : Src K V)
  | swap (x y : Nat)
  | destroy (x : Nat)
  | get (x : Nat)
  | getKey (x : Nat)
  | eq (x y : Nat)
  | hash (x : Nat)

/-- What the caller of an operation sees: normal return, an exception, the
address and value behind the reference returned by `get`, a key, a truth value
or a hash.  `skipped` marks an operation that is not a valid program (use of a
variable that does not exist, redefinition of one that does, construction from
a value without key extractor), which is not executed.
Models the result types in /repo/include/boost/flyweight/flyweight.hpp:181-278. -/
inductive Out (K V : Type) where
  | done
  | threw
  | val (addr : Nat) (v : V)
  | key (k : K)
  | bool (b : Bool)
  | num (n : Nat)
  | skipped

end Verif

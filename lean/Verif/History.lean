import Verif.Spec

/-!
# What a program's history says about its variables

Notions defined on operations and their outcomes alone, for use in property
statements.  They do not refer to the model.
-/

set_option autoImplicit false

namespace Verif
variable {K V : Type}

/-- Replace the value of a function at one point.  (No code of its own: used in statements and
proofs.) -/
def upd {α : Type} (g : Nat → α) (x : Nat) (a : α) : Nat → α := fun y => if y = x then a else g y

/-- The key each variable was last given, after one more operation with the
given outcome; `none` if the variable does not exist.  (No code of its own: used in statements
and proofs.) -/
def givenStep (sp : SrcSpec K V) (g : Nat → Option K) (op : Op K V) (out : Out K V) : Nat → Option K :=
  match out with
  | .threw => g
  | .skipped => g
  | _ => match op with
    | .make x src => upd g x (some (sp.key0 src))
    | .copy x y => upd g x (g y)
    | .move x y => upd g x (g y)
    | .assign x y => upd g x (g y)
    | .assignVal x src => upd g x (some (sp.key0 src))
    | .swap x y => upd (upd g x (g y)) y (g x)
    | .destroy x => upd g x none
    | _ => g

/-- The key each variable was last given, after a run.  (No code of its own: used in statements
and proofs.) -/
def given (sp : SrcSpec K V) (g : Nat → Option K) : List (Op K V) → List (Out K V) → Nat → Option K
  | op :: ops, out :: outs => given sp (givenStep sp g op out) ops outs
  | _, _ => g

/-- The operation assigns, swaps or destroys variable `x`.  (No code of its own: used in
statements and proofs.) -/
def Op.touches (x : Nat) : Op K V → Bool
  | .assign y _ => y == x
  | .assignVal y _ => y == x
  | .swap y z => y == x || z == x
  | .destroy y => y == x
  | _ => false

/-- The source from which an operation may create a flyweight.  (No code of its own: used in
statements and proofs.) -/
def Op.creates {K V : Type} : Op K V → Option (Src K V)
  | .make _ s => some s
  | .assignVal _ s => some s
  | _ => none

/-- Keys from which flyweights have been successfully created or assigned.  (No code of its own:
used in statements and proofs.) -/
def asked (sp : SrcSpec K V) : List (Op K V) → List (Out K V) → List K
  | op :: ops, out :: outs => match op.creates, out with
    | some src, .done => sp.key0 src :: asked sp ops outs
    | _, _ => asked sp ops outs
  | _, _ => []

/-- Forget addresses (and hashes, which are hashes of addresses).  (No code of its own: used in
statements and proofs.) -/
def Out.erase : Out K V → Out K V
  | .val _ v => .val 0 v
  | .num _ => .num 0
  | o => o

end Verif

import Verif.Nested

/-!
# Programs that keep flyweights whose constructors use flyweights of the same type
-/

set_option autoImplicit false

namespace Verif.Nested
variable {K V F : Type}

/-- What a program does with its flyweights, which it keeps in a list of variables: construct one from a key, copy
or destroy the `i`-th, read the value of the `i`-th.  (The user's program, no code of the library.) -/
inductive VOp (K : Type) where
  | make (k : K)
  | copy (i : Nat)
  | drop (i : Nat)
  | read (i : Nat)

/-- The outcome of a statement; one about a place outside of the list is skipped.  (The user's program, no code of the
library.) -/
inductive VOut (V : Type) where
  | done
  | threw
  | value (v : V)
  | skipped

/-- One statement; `none` is undefined behaviour.  Construction: `request`.  Copy:
/repo/include/boost/flyweight/refcounted.hpp:118-122.  Destruction: ibid. 130-135.  Access to the value:
/repo/include/boost/flyweight/flyweight.hpp:250-253. -/
def vstep (P : Policy K V (PRep K V)) (Fa : Factory F (Ent (PRep K V))) (trk : Tracking) (body : K → Body K V) (fuel : Nat)
    (hs : List Nat) (s : St (PRep K V) F) : VOp K → Option (VOut V × List Nat × St (PRep K V) F)
  | .make k =>
    match request P Fa trk body fuel k s with
    | .ok h s' => some (.done, hs ++ [h], s')
    | .exc s' => some (.threw, hs, s')
    | .ub => none
  | .copy i =>
    match hs[i]? with
    | none => some (.skipped, hs, s)
    | some h =>
      match Core.handleCopy Fa trk h s with
      | .ok _ s' => some (.done, hs ++ [h], s')
      | .exc s' => some (.threw, hs, s')
      | .ub => none
  | .drop i =>
    match hs[i]? with
    | none => some (.skipped, hs, s)
    | some h =>
      match Core.handleDtor P Fa trk h s with
      | .ok _ s' => some (.done, hs.eraseIdx i, s')
      | .exc s' => some (.threw, hs.eraseIdx i, s')
      | .ub => none
  | .read i =>
    match hs[i]? with
    | none => some (.skipped, hs, s)
    | some h =>
      match valueOf Fa h s with
      | .ok v s' => some (.value v, hs, s')
      | .exc s' => some (.threw, hs, s')
      | .ub => none

/-- A program.  (The user's program, no code of the library.) -/
def vrun (P : Policy K V (PRep K V)) (Fa : Factory F (Ent (PRep K V))) (trk : Tracking) (body : K → Body K V) (fuel : Nat) :
    List (VOp K) → List Nat → St (PRep K V) F → Option (List (VOut V) × List Nat × St (PRep K V) F)
  | [], hs, s => some ([], hs, s)
  | op :: ops, hs, s =>
    match vstep P Fa trk body fuel hs s op with
    | none => none
    | some (out, hs', s') => (vrun P Fa trk body fuel ops hs' s').map fun p => (out :: p.1, p.2)

/-- What the program does if a flyweight is just its key and its value is `val` of it; a construction may throw if `faulty`.
(No code of its own: used in statements and proofs.) -/
inductive VRun (val : K → V) (faulty : Prop) : List K → List (VOp K) → List (VOut V) → List K → Prop
  | nil (ks : List K) : VRun val faulty ks [] [] ks
  | make {ks ks' : List K} {ops : List (VOp K)} {outs : List (VOut V)} (k : K) :
      VRun val faulty (ks ++ [k]) ops outs ks' → VRun val faulty ks (.make k :: ops) (.done :: outs) ks'
  | threw {ks ks' : List K} {ops : List (VOp K)} {outs : List (VOut V)} (k : K) : faulty →
      VRun val faulty ks ops outs ks' → VRun val faulty ks (.make k :: ops) (.threw :: outs) ks'
  | copy {ks ks' : List K} {ops : List (VOp K)} {outs : List (VOut V)} (i : Nat) (k : K) : ks[i]? = some k →
      VRun val faulty (ks ++ [k]) ops outs ks' → VRun val faulty ks (.copy i :: ops) (.done :: outs) ks'
  | drop {ks ks' : List K} {ops : List (VOp K)} {outs : List (VOut V)} (i : Nat) : i < ks.length →
      VRun val faulty (ks.eraseIdx i) ops outs ks' → VRun val faulty ks (.drop i :: ops) (.done :: outs) ks'
  | read {ks ks' : List K} {ops : List (VOp K)} {outs : List (VOut V)} (i : Nat) (k : K) : ks[i]? = some k →
      VRun val faulty ks ops outs ks' → VRun val faulty ks (.read i :: ops) (.value (val k) :: outs) ks'
  | skip {ks ks' : List K} {ops : List (VOp K)} {outs : List (VOut V)} (i : Nat) (op : VOp K) : ks.length ≤ i →
      op = .copy i ∨ op = .drop i ∨ op = .read i →
      VRun val faulty ks ops outs ks' → VRun val faulty ks (op :: ops) (.skipped :: outs) ks'

end Verif.Nested

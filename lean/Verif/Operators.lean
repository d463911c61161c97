import Verif.Observe

/-!
# Comparison operators and streams

Models the free operators of /repo/include/boost/flyweight/flyweight.hpp:291-457.
-/

set_option autoImplicit false

namespace Verif
namespace Operators

/-- An operand of a comparison: a flyweight (variable `x` of some flyweight type in state `s`) or a plain value,
/repo/include/boost/flyweight/flyweight.hpp:294-356. -/
inductive Operand (V : Type) : Type 1
  | fly {K Rep F : Type} (P : Policy K V Rep) (Fa : Factory F (Ent Rep)) (s : St Rep F) (x : Nat)
  | plain (v : V)

/-- `x.get()` for a flyweight, `x` for a value; `none` is undefined behaviour.
/repo/include/boost/flyweight/flyweight.hpp:302, 313, 322, 332, 342, 352. -/
def Operand.read {V : Type} : Operand V → Option V
  | .fly P Fa s x => match Core.get P Fa x s with
    | .ok r _ => some r.2
    | _ => none
  | .plain v => some v

/-- The six comparisons. (Names only.)  Models the operators in
/repo/include/boost/flyweight/flyweight.hpp:360-413. -/
inductive Cmp
  | eq | ne | lt | gt | ge | le

/-- `==` and `<` of the value types, in both directions.  (The user's; assumed not to throw.)
Called by /repo/include/boost/flyweight/flyweight.hpp:294-356. -/
structure UserCmp (V W : Type) where
  eq : V → W → Bool
  lt : V → W → Bool
  gt : W → V → Bool

section
variable {V W : Type}

/-- `operator==` on two flyweights of different types or on a flyweight and a value,
/repo/include/boost/flyweight/flyweight.hpp:294-303, 316-334. -/
def eqOp (u : UserCmp V W) (x : Operand V) (y : Operand W) : Option Bool :=
  x.read.bind fun v => y.read.map fun w => u.eq v w

/-- `operator<`, /repo/include/boost/flyweight/flyweight.hpp:305-314, 336-355. -/
def ltOp (u : UserCmp V W) (x : Operand V) (y : Operand W) : Option Bool :=
  x.read.bind fun v => y.read.map fun w => u.lt v w

/-- `y<x` with the operands in the other order, same lines.
/repo/include/boost/flyweight/flyweight.hpp:294-356. -/
def gtOp (u : UserCmp V W) (x : Operand V) (y : Operand W) : Option Bool :=
  y.read.bind fun w => x.read.map fun v => u.gt w v

/-- All operators, the last four from the macro, /repo/include/boost/flyweight/flyweight.hpp:360-413. -/
def compare (u : UserCmp V W) (op : Cmp) (x : Operand V) (y : Operand W) : Option Bool :=
  match op with
  | .eq => eqOp u x y
  | .ne => (eqOp u x y).map (!·)
  | .lt => ltOp u x y
  | .gt => gtOp u x y
  | .ge => (ltOp u x y).map (!·)
  | .le => (gtOp u x y).map (!·)

theorem compare_read (u : UserCmp V W) (op : Cmp) {x : Operand V} {y : Operand W} {v : V} {w : W} (hx : x.read = some v)
    (hy : y.read = some w) : compare u op x y = some (match op with
      | .eq => u.eq v w
      | .ne => !u.eq v w
      | .lt => u.lt v w
      | .gt => u.gt w v
      | .ge => !u.lt v w
      | .le => !u.gt w v) := by
  cases op <;> simp [compare, eqOp, ltOp, gtOp, hx, hy]

/-- `==` and `<` of the value types with effects `m`: they may throw, print, count calls ...  (The user's; simplification: they do
not use the flyweights compared.)  Called by /repo/include/boost/flyweight/flyweight.hpp:294-356. -/
structure UserCmpM (m : Type → Type) (V W : Type) where
  eq : V → W → m Bool
  lt : V → W → m Bool
  gt : W → V → m Bool

/-- The operators of `compare` with such comparisons; the outer `none` is undefined behaviour.
/repo/include/boost/flyweight/flyweight.hpp:294-413. -/
def compareM {m : Type → Type} [Functor m] (u : UserCmpM m V W) (op : Cmp) (x : Operand V) (y : Operand W) : Option (m Bool) :=
  match op with
  | .eq => x.read.bind fun v => y.read.map fun w => u.eq v w
  | .ne => (x.read.bind fun v => y.read.map fun w => u.eq v w).map fun r => (!·) <$> r
  | .lt => x.read.bind fun v => y.read.map fun w => u.lt v w
  | .gt => y.read.bind fun w => x.read.map fun v => u.gt w v
  | .ge => (x.read.bind fun v => y.read.map fun w => u.lt v w).map fun r => (!·) <$> r
  | .le => (y.read.bind fun w => x.read.map fun v => u.gt w v).map fun r => (!·) <$> r

/-- Without effects it is `compare`. -/
theorem compareM_pure (u : UserCmp V W) (op : Cmp) (x : Operand V) (y : Operand W) :
    compareM (m := Id) ⟨u.eq, u.lt, u.gt⟩ op x y = compare u op x y := by
  cases op <;> rfl

end

section
variable {K V Rep F : Type}

/-- Comparisons of two flyweights of the same type: `==` and `!=` compare addresses
(/repo/include/boost/flyweight/flyweight.hpp:257-274), the others are as for different types. -/
def compareSame (S : Setup K V Rep F) (u : UserCmp V V) (op : Cmp) (x y : Nat) (s : St Rep F) : Option Bool :=
  match op with
  | .eq => match Core.eq S.P S.Fa x y s with
    | .ok b _ => some b
    | _ => none
  | .ne => match Core.eq S.P S.Fa x y s with
    | .ok b _ => some (!b)
    | _ => none
  | op => compare u op (.fly S.P S.Fa s x) (.fly S.P S.Fa s y)

/-! ## Streams -/

/-- A computation on the flyweights in a program that has also a stream. (Notation.)  (No code
of its own.) -/
def lift {Str α : Type} (m : M (St Rep F) α) : M (Str × St Rep F) α := fun p =>
  match m p.2 with
  | .ok a s => .ok a (p.1, s)
  | .exc s => .exc (p.1, s)
  | .ub => .ub

/-- What `in>>t` does: the new state of the stream and of `t`, or an exception (then `t` is irrelevant). (The user's.)
Called by /repo/include/boost/flyweight/flyweight.hpp:419-457. -/
structure Extract (Str V : Type) where
  str : Str
  val : Option V

/-- `operator<<`: `out<<x.get()`, /repo/include/boost/flyweight/flyweight.hpp:427-437; `ins` is the insertion of values,
which may throw. -/
def write {Str : Type} (S : Setup K V Rep F) (ins : Str → V → Str × Bool) (x : Nat) : M (Str × St Rep F) Unit := do
  let r ← lift (Core.get S.P S.Fa x)
  fun p => match ins p.1 r.2 with
    | (str, true) => .ok () (str, p.2)
    | (str, false) => .exc (str, p.2)

/-- `in>>t`, `v` being the value of `t` (/repo/include/boost/flyweight/flyweight.hpp:454). -/
def readInto {Str : Type} (ext : Str → V → Extract Str V) (v : V) : M (Str × St Rep F) V := fun p =>
  match (ext p.1 v).val with
  | some v' => .ok v' ((ext p.1 v).str, p.2)
  | none => .exc ((ext p.1 v).str, p.2)

/-- `operator>>`: `value_type t(x.get()); in>>t; x=t;`, /repo/include/boost/flyweight/flyweight.hpp:439-457; the assignment is
line 234.  Copying may throw.  Simplification: the copy `t` is not counted as a live value. -/
def extract {Str : Type} (S : Setup K V Rep F) (ext : Str → V → Extract Str V) (x : Nat) : M (Str × St Rep F) Unit := do
  let r ← lift (Core.get S.P S.Fa x)
  lift (Core.env mayThrow)
  let v ← readInto ext r.2
  lift (Core.assignVal S.P S.Fa S.trk x (.copy v))

/-- The next operation that may throw has been passed.  (No code of its own: used in statements
and proofs.) -/
def ticked (s : St Rep F) : St Rep F := { s with env := { s.env with tick := s.env.tick + 1 } }

theorem extract_eq {Str : Type} (S : Setup K V Rep F) (ext : Str → V → Extract Str V) (x : Nat) (str : Str) (s : St Rep F) (a : Nat)
    (v : V) (hget : Core.get S.P S.Fa x s = .ok (a, v) s) :
    extract S ext x (str, s) =
      if s.env.faults s.env.tick = true then .exc (str, ticked s)
      else match (ext str v).val with
        | none => .exc ((ext str v).str, ticked s)
        | some v' => match Core.assignVal S.P S.Fa S.trk x (.copy v') (ticked s) with
          | .ok _ s' => .ok () ((ext str v).str, s')
          | .exc s' => .exc ((ext str v).str, s')
          | .ub => .ub := by
  have h1 : (lift (Core.get S.P S.Fa x) : M (Str × St Rep F) (Nat × V)) (str, s) = .ok (a, v) (str, s) := by
    simp [lift, hget]
  have h2 : (lift (Core.env mayThrow) : M (Str × St Rep F) Unit) (str, s) =
      if s.env.faults s.env.tick = true then .exc (str, ticked s) else .ok () (str, ticked s) := by
    by_cases h : s.env.faults s.env.tick = true <;> simp [lift, Core.env, mayThrow, h, ticked]
  simp only [extract, bind, M.bind, h1]
  rw [h2]
  by_cases h : s.env.faults s.env.tick = true
  · rw [if_pos h, if_pos h]
  · rw [if_neg h, if_neg h]
    simp only [readInto]
    cases hv : (ext str v).val with
    | none => simp [hv]
    | some v' =>
      simp only [hv, lift]
      cases Core.assignVal S.P S.Fa S.trk x (.copy v') (ticked s) <;> rfl

end

end Operators

namespace Setup
variable {K V Rep F : Type} {S : Setup K V Rep F}

theorem Sees.read {s : St Rep F} {x a : Nat} {k : K} {v : V} (h : S.Sees s x a k v) :
    (Operators.Operand.fly S.P S.Fa s x).read = some v := by
  simp [Operators.Operand.read, h.1]

/-- A change in the oracle's position only. -/
theorem Sim.setTick {fl : Nat → Bool} {s : St Rep F} {t : SSt K V} (h : Sim S fl s t) (n : Nat) :
    Sim S fl { s with env := { s.env with tick := n } } t := by
  have hI := h.rel.inv
  exact ⟨⟨⟨hI.fac, hI.alloc, hI.full, hI.counts, hI.objs, hI.ext, hI.ini, hI.lt, hI.inj, hI.keys, hI.vals⟩, h.rel.vars, h.rel.nodup,
    h.rel.kept⟩, ⟨h.idle.locals, h.idle.depth⟩, h.faults⟩

/-- Keys seen are the values seen if the policy says so. -/
theorem Sees.same {K Rep F : Type} {S : Setup K K Rep F} (hkv : ∀ r, S.P.toKey r = S.P.toValue r) {s : St Rep F} {x a : Nat}
    {k v : K} (h : S.Sees s x a k v) : k = v := by
  obtain ⟨h1, h2⟩ := h
  unfold Core.get at h1
  unfold Core.getKey at h2
  simp only [bind, M.bind] at h1 h2
  cases hh : (Core.handleOf x : M (St Rep F) Nat) s with
  | exc s' => rw [hh] at h1; cases h1
  | ub => rw [hh] at h1; cases h1
  | ok i s1 =>
    rw [hh] at h1 h2
    simp only at h1 h2
    cases he : Core.entry S.Fa i s1 with
    | exc s' => rw [he] at h1; cases h1
    | ub => rw [he] at h1; cases h1
    | ok e s2 =>
      rw [he] at h1 h2
      simp only [M.read] at h1 h2
      rw [hkv] at h2
      cases hv : S.P.toValue e.rep with
      | none => rw [hv] at h1; cases h1
      | some w =>
        rw [hv] at h1 h2
        cases h1
        cases h2
        rfl

/-- Equality of two flyweights is equivalence of their keys. -/
theorem eq_keys {fl : Nat → Bool} {s : St Rep F} {t : SSt K V} (hS : Sim S fl s t) (hok : SOk S.trk S.keq t) {x y a b : Nat}
    {k l : K} {v w : V} (hx : S.Sees s x a k v) (hy : S.Sees s y b l w) : (a = b ↔ S.keq k l = true) := by
  have hxb := hok.bound ((sees_iff hS).1 hx)
  have hyb := hok.bound ((sees_iff hS).1 hy)
  constructor
  · intro h
    have := hok.addr _ hxb _ hyb h
    cases this
    exact S.LS.refl _
  · intro h
    have := hok.key _ hxb _ hyb h
    cases this
    rfl

end Setup
end Verif

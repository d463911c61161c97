import Verif.SessionRules

/-!
# Serialization of flyweights of several types, with any factories

Models `save` and `load` of /repo/include/boost/flyweight/serialize.hpp with their helpers
(/repo/include/boost/flyweight/detail/serialization_helper.hpp) as programs of `Verif.Session`: an interactive program does what it likes while an
archive is open, and now and then saves or loads a flyweight of one of its types.  Keys are plain data here.
-/

set_option autoImplicit false

namespace Verif.SessionSerial
open Session (Vars Sat)
open SessionTests

/-- What is in an archive: indices, and keys of each type.  Models the two items written by /repo/include/boost/flyweight/serialize.hpp:58-61. -/
inductive Tok {ι : Type} (K : ι → Type)
  | idx (n : Nat)
  | key (i : ι) (k : K i)

/-- A program that writes an archive: `save i x` is `ar<<x`.  (The user's program, no code of the library.) -/
inductive Saver (ι : Type) (K V : ι → Type) (α : Type)
  | ret (a : α)
  | op (i : ι) (o : Op (K i) (V i)) (k : Out (K i) (V i) → Saver ι K V α)
  | user (i : ι) (k : Bool → Saver ι K V α)
  | save (i : ι) (x : Nat) (k : Saver ι K V α)

/-- A program that reads an archive: `load i f` is `ar>>f`.  (The user's program, no code of the library.) -/
inductive Loader (ι : Type) (K V : ι → Type) (α : Type)
  | ret (a : α)
  | op (i : ι) (o : Op (K i) (V i)) (k : Out (K i) (V i) → Loader ι K V α)
  | user (i : ι) (k : Bool → Loader ι K V α)
  | load (i : ι) (f : Nat) (k : Loader ι K V α)

section
variable {ι : Type} {K V : ι → Type} {α : Type}

/-- Leave by an exception.  (No code of its own.) -/
def throws : Test ι K V α := Session.ret .threw

/-- `save_helper::find`, /repo/include/boost/flyweight/detail/serialization_helper.hpp:61-65: the index of the exemplar with the
address `a`, the number of exemplars if there is none.  The exemplars are the flyweights `h`, `h + 1`, …; `j` is the next index to
look at and `m` the number of exemplars left.  Simplification: the hashed index is a linear search. -/
def find (i : ι) (h a : Nat) : Nat → Nat → Test ι K V Nat
  | j, 0 => pure j
  | j, m + 1 => do
    let p ← get i (h + j)
    if p.1 = a then pure j else find i h a (j + 1) m

/-- `f=hlp[n]`, /repo/include/boost/flyweight/serialize.hpp:90: `operator[]` of the helper returns a copy
(/repo/include/boost/flyweight/detail/serialization_helper.hpp:84). -/
def fetch (i : ι) (h tmp n f : Nat) : Test ι K V Unit :=
  block i tmp (perform i (.copy tmp (h + n))) (perform i (.assign f tmp))

variable [DecidableEq ι]

/-- A program with an open archive, `m i` flyweights of each type being in the helper of that type (the variables `h`, `h + 1`, …).  For `save`: /repo/include/boost/flyweight/serialize.hpp:43-63.
The helpers are destroyed with the archive, at the end or by an exception. -/
def Saver.archive (h : Nat) (m : ι → Nat) : Saver ι K V α → Test ι K V (List (Tok K) × α)
  | .ret a => pure ([], a)
  | .op i o k => (Session.op i o fun r => (k r).archive h m : Session ι K V (End (List (Tok K) × α)))
  | .user i k => (Session.user i fun r => (k r).archive h m : Session ι K V (End (List (Tok K) × α)))
  | .save i x k => do
    let p ← get i x
    let n ← find i h p.1 0 (m i)
    code i
    if n = m i then do
      let key ← getKey i x
      code i
      block i (h + m i) (do code i; perform i (.copy (h + m i) x)) (do
        let r ← k.archive h (put m i (m i + 1))
        pure (.idx n :: .key i key :: r.1, r.2))
    else do
      let r ← k.archive h m
      pure (.idx n :: r.1, r.2)

/-- A program with an open archive whose rest is `ts`, `m i` flyweights of each type being in the helper of that type (the variables `h`, `h + 1`, …; `tmp` is a variable for temporaries).
For `load`: /repo/include/boost/flyweight/serialize.hpp:65-91.  `src i k` is what a flyweight is constructed from given an lvalue of type `key_type`.  Reading anything else than what is asked for
throws. -/
def Loader.archive (src : (i : ι) → K i → Src (K i) (V i)) (h tmp : Nat) (m : ι → Nat) (ts : List (Tok K)) : Loader ι K V α → Test ι K V α
  | .ret a => pure a
  | .op i o k => (Session.op i o fun r => (k r).archive src h tmp m ts : Session ι K V (End α))
  | .user i k => (Session.user i fun r => (k r).archive src h tmp m ts : Session ι K V (End α))
  | .load i f k => do
    code i
    match ts with
    | .idx n :: ts =>
      if n > m i then throws
      else if n = m i then
        match ts with
        | .key j key :: ts =>
          if e : j = i then
            block i (h + m i) (do
              code i
              block i tmp (perform i (.make tmp (src i (e ▸ key)))) (do
                code i
                perform i (.copy (h + m i) tmp))) (do
              fetch i h tmp n f
              k.archive src h tmp (put m i (m i + 1)) ts)
          else throws
        | _ => throws
      else do
        fetch i h tmp n f
        k.archive src h tmp m ts
    | _ => throws

/-! ## What the programs mean -/

/-- The program without the archive: it notes the keys of the flyweights it would save.  (No code of its own: used in statements and proofs.) -/
def Saver.plain : Saver ι K V α → Test ι K V (List (Σ i, K i) × α)
  | .ret a => pure ([], a)
  | .op i o k => (Session.op i o fun r => (k r).plain : Session ι K V (End (List (Σ i, K i) × α)))
  | .user i k => (Session.user i fun r => (k r).plain : Session ι K V (End (List (Σ i, K i) × α)))
  | .save i x k => do
    let key ← getKey i x
    code i
    let r ← k.plain
    pure (⟨i, key⟩ :: r.1, r.2)

/-- The next key of type `i` in an archive, if `tab` are the keys read already.  (No code of its own: used in statements and proofs.) -/
def next (tab : (i : ι) → List (K i)) (i : ι) : List (Tok K) → Option (K i × ((i : ι) → List (K i)) × List (Tok K))
  | .idx n :: ts =>
    match (tab i)[n]? with
    | some k => some (k, tab, ts)
    | none =>
      if n = (tab i).length then
        match ts with
        | .key j k :: ts => if e : j = i then some (e ▸ k, put tab i (tab i ++ [e ▸ k]), ts) else none
        | _ => none
      else none
  | _ => none

/-- The program without helpers: what it would load it makes of the keys in the archive.  (No code of its own: used in statements and proofs.) -/
def Loader.plain (src : (i : ι) → K i → Src (K i) (V i)) (tab : (i : ι) → List (K i)) (ts : List (Tok K)) : Loader ι K V α → Test ι K V α
  | .ret a => pure a
  | .op i o k => (Session.op i o fun r => (k r).plain src tab ts : Session ι K V (End α))
  | .user i k => (Session.user i fun r => (k r).plain src tab ts : Session ι K V (End α))
  | .load i f k => do
    code i
    match next tab i ts with
    | some (key, tab, ts) => do
      perform i (.assignVal f (src i key))
      k.plain src tab ts
    | none => throws

/-- The program without archive: what it would load it makes of the keys `ks`.  (No code of its own: used in statements and proofs.) -/
def Loader.given (src : (i : ι) → K i → Src (K i) (V i)) (ks : List (Σ i, K i)) : Loader ι K V α → Test ι K V α
  | .ret a => pure a
  | .op i o k => (Session.op i o fun r => (k r).given src ks : Session ι K V (End α))
  | .user i k => (Session.user i fun r => (k r).given src ks : Session ι K V (End α))
  | .load i f k => do
    code i
    match ks with
    | ⟨j, key⟩ :: ks => do
      perform j (.assignVal f (src j key))
      k.given src ks
    | [] => throws

/-- `ts` stands for the keys `ks`, if `tab` are those read already.  (No code of its own: used in statements and proofs.) -/
inductive Stands : ((i : ι) → List (K i)) → List (Tok K) → List (Σ i, K i) → Prop
  | nil (tab) : Stands tab [] []
  | old (tab i n k ts ks) : (tab i)[n]? = some k → Stands tab ts ks → Stands tab (.idx n :: ts) (⟨i, k⟩ :: ks)
  | new (tab i k ts ks) : Stands (put tab i (tab i ++ [k])) ts ks → Stands tab (.idx (tab i).length :: .key i k :: ts) (⟨i, k⟩ :: ks)

/-- The keys of type `i` in an archive.  (No code of its own: used in statements and proofs.) -/
def keysIn (i : ι) : List (Tok K) → List (K i)
  | [] => []
  | .idx _ :: ts => keysIn i ts
  | .key j k :: ts => if e : j = i then (e ▸ k) :: keysIn i ts else keysIn i ts

/-- How a program with an archive ends, and how without: the archive stands for the keys noted, and no two keys of the same type in it are equivalent.  (No code of its own:
used in statements and proofs.) -/
def Written (C : (i : ι) → Cfg (K i) (V i)) (tab : (i : ι) → List (K i)) : End (List (Tok K) × α) → End (List (Σ i, K i) × α) → Prop
  | .ok r, .ok r' => r.2 = r'.2 ∧ Stands tab r.1 r'.1 ∧ ∀ i, (tab i ++ keysIn i r.1).Pairwise fun k l => (C i).keq k l = false
  | .threw, .threw => True
  | .stuck, .stuck => True
  | _, _ => False

/-- Variables below `h`.  (No code of its own: used in statements and proofs.) -/
def OpBelow {K V : Type} (h : Nat) : Op K V → Prop
  | .init => True
  | .make x _ | .assignVal x _ | .destroy x | .get x | .getKey x | .hash x => x < h
  | .copy x y | .move x y | .assign x y | .swap x y | .eq x y => x < h ∧ y < h

omit [DecidableEq ι] in
/-- The program uses variables below `h`.  (No code of its own: used in statements and proofs.) -/
def Saver.Below (h : Nat) : Saver ι K V α → Prop
  | .ret _ => True
  | .op _ o k => OpBelow h o ∧ ∀ r, (k r).Below h
  | .user _ k => ∀ r, (k r).Below h
  | .save _ x k => x < h ∧ k.Below h

/-- The program uses variables below `h`.  (No code of its own: used in statements and proofs.) -/
def Loader.Below (h : Nat) : Loader ι K V α → Prop
  | .ret _ => True
  | .op _ o k => OpBelow h o ∧ ∀ r, (k r).Below h
  | .user _ k => ∀ r, (k r).Below h
  | .load _ x k => x < h ∧ k.Below h

/-- The program loads flyweights of these types, in this order.  (No code of its own: used in statements and proofs.) -/
def Loader.Asks : List ι → Loader ι K V α → Prop
  | _, .ret _ => True
  | l, .op _ _ k => ∀ r, (k r).Asks l
  | l, .user _ k => ∀ r, (k r).Asks l
  | l, .load i _ k => ∃ l', l = i :: l' ∧ k.Asks l'


/-! ## The test -/

/-- Save these flyweights, as `ar<<v` does with the elements of a vector.  (The user's program, no code of the library.) -/
def saves : List (ι × Nat) → Saver ι K V Unit
  | [] => .ret ()
  | p :: l => .save p.1 p.2 (saves l)

/-- Load these flyweights, as `ar>>v` does with the elements of a vector.  (The user's program, no code of the library.) -/
def loads : List (ι × Nat) → Loader ι K V Unit
  | [] => .ret ()
  | p :: l => .load p.1 p.2 (loads l)

/-- Flyweights with these names, made from these sources, in the rest of the block.  (The user's program, no code of the library.) -/
def withVars : List ((i : ι) × Nat × Src (K i) (V i)) → Test ι K V α → Test ι K V α
  | [], rest => rest
  | p :: l, rest => block p.1 p.2.1 (perform p.1 (.make p.2.1 p.2.2)) (withVars l rest)

/-- `v1==v2` for vectors of the same size, /repo/test/test_serialization_template.hpp:94. -/
def same : List (ι × Nat) → List (ι × Nat) → Test ι K V (List Bool)
  | x :: xs, y :: ys => do
    let b ← eq x.1 x.2 y.2
    let bs ← same xs ys
    pure (b :: bs)
  | _, _ => pure []

/-- The names `n`, `n + 1`, … for sources.  (No code of its own.) -/
def named : Nat → List ((i : ι) × Src (K i) (V i)) → List ((i : ι) × Nat × Src (K i) (V i))
  | _, [] => []
  | n, p :: l => ⟨p.1, n, p.2⟩ :: named (n + 1) l

/-- (No code of its own.) -/
def names (l : List ((i : ι) × Nat × Src (K i) (V i))) : List (ι × Nat) := l.map fun p => (p.1, p.2.1)

/-- `test_serialization_template` after the elements of `v1`, the flyweights `xs`, have been made, /repo/test/test_serialization_template.hpp:80-94, with elements of any types.
The elements of `v2` are made from `dflt` before they are loaded. -/
def test (src : (i : ι) → K i → Src (K i) (V i)) (dflt : (i : ι) → Src (K i) (V i)) (n : Nat) (xs : List (ι × Nat)) : Test ι K V (List Bool) := do
  let r ← (saves xs).archive n fun _ => 0
  let v2 := named n (xs.map fun p => (⟨p.1, dflt p.1⟩ : (i : ι) × Src (K i) (V i)))
  withVars v2 (do
    (loads (names v2)).archive src (n + xs.length + 1) (n + xs.length) (fun _ => 0) r.1
    same xs (names v2))

/-- `test_serialization_template`, /repo/test/test_serialization_template.hpp:73-95, for elements of any types made from `its`. -/
def testAll (src : (i : ι) → K i → Src (K i) (V i)) (dflt : (i : ι) → Src (K i) (V i)) (n : Nat) (its : List ((i : ι) × Src (K i) (V i))) : Test ι K V (List Bool) :=
  withVars (named n its) (test src dflt (n + its.length) (names (named n its)))

end
end Verif.SessionSerial

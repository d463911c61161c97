import Verif.SessionLib

/-!
# The library's test templates, with any factories

Models /repo/test/test_basic_template.hpp as programs of `Verif.Session`, which may be run with any factory and with several flyweight types.
The result is the list of the outcomes of the checks `BOOST_TEST(...)`.
-/

set_option autoImplicit false

namespace Verif.SessionTests
open Client (Store Made)
open Operators (Cmp UserCmp Extract)
open Session (Vars Sat)

/-- How a program ends: with a result, with an exception, or by doing something that is not allowed.  (No code of its own: used in statements and proofs.) -/
inductive End (α : Type)
  | ok (a : α)
  | threw
  | stuck

section
variable {ι : Type} {K V : ι → Type} {α β : Type}

/-- A program that is left by exceptions.  (The user's program, no code of the library.) -/
def Test (ι : Type) (K V : ι → Type) (α : Type) := Session ι K V (End α)

/-- (The user's program, no code of the library.) -/
def Test.bind (p : Test ι K V α) (f : α → Test ι K V β) : Test ι K V β := Session.bind p fun
  | .ok a => f a
  | .threw => .ret .threw
  | .stuck => .ret .stuck

instance : Monad (Test ι K V) where
  pure a := Session.ret (.ok a)
  bind := Test.bind

/-- An operation without result.  (The user's program, no code of the library.) -/
def perform (i : ι) (o : Op (K i) (V i)) : Test ι K V Unit := .op i o fun
  | .done => .ret (.ok ())
  | .threw => .ret .threw
  | _ => .ret .stuck

/-- `x.get()`: address and value, /repo/include/boost/flyweight/flyweight.hpp:249. -/
def get (i : ι) (x : Nat) : Test ι K V (Nat × V i) := .op i (.get x) fun
  | .val a v => .ret (.ok (a, v))
  | _ => .ret .stuck

/-- `x.get_key()`, /repo/include/boost/flyweight/flyweight.hpp:243-247. -/
def getKey (i : ι) (x : Nat) : Test ι K V (K i) := .op i (.getKey x) fun
  | .key k => .ret (.ok k)
  | _ => .ret .stuck

/-- `x==y`, /repo/include/boost/flyweight/flyweight.hpp:257-269. -/
def eq (i : ι) (x y : Nat) : Test ι K V Bool := .op i (.eq x y) fun
  | .bool b => .ret (.ok b)
  | _ => .ret .stuck

/-- `boost::hash`, /repo/include/boost/flyweight/flyweight.hpp:496-506. -/
def hash (i : ι) (x : Nat) : Test ι K V Nat := .op i (.hash x) fun
  | .num n => .ret (.ok n)
  | _ => .ret .stuck

/-- `std::hash`, the hash `hs` of the address of `x.get()`, /repo/include/boost/flyweight/flyweight.hpp:470-486. -/
def stdHash (i : ι) (hs : Nat → Nat) (x : Nat) : Test ι K V Nat := do
  let r ← get i x
  pure (hs r.1)

/-- Code of the user that may throw.  (The user's program, no code of the library.) -/
def code (i : ι) : Test ι K V Unit := .user i fun b => if b then .ret .threw else .ret (.ok ())

/-- A variable of a block: initialized by `init`, destroyed at the end of the block, also by an exception.  (The user's program, no code of the library.) -/
def block (i : ι) (x : Nat) (init : Test ι K V Unit) (rest : Test ι K V α) : Test ι K V α := Session.bind init fun
  | .ok _ => Session.bind rest fun r => .op i (.destroy x) fun
    | .done => .ret r
    | _ => .ret .stuck
  | .threw => .ret .threw
  | .stuck => .ret .stuck

/-- `try{...}catch(...){}`.  (The user's program, no code of the library.) -/
def catching (p : Test ι K V Unit) : Test ι K V Unit := Session.bind p fun
  | .stuck => .ret .stuck
  | _ => .ret (.ok ())

/-- The loop of a test: the passes for all elements of a sequence, /repo/test/test_basic_template.hpp:50, 147, 205. -/
def loop {γ : Type} (body : γ → Test ι K V (List Bool)) : List γ → Test ι K V (List Bool)
  | [] => pure []
  | it :: rest => do
    let bs ← body it
    let bs' ← loop body rest
    pure (bs ++ bs')

/-- `in>>x`: `value_type t(x.get()); in>>t; x=t;`, /repo/include/boost/flyweight/flyweight.hpp:439-457, `str` being the state of the stream.  Copying may throw. -/
def extract {Str : Type} (i : ι) (ext : Str → V i → Extract Str (V i)) (str : Str) (x : Nat) : Test ι K V Unit := do
  let r ← get i x
  code i
  match (ext str r.2).val with
  | some v => perform i (.assignVal x (.copy v))
  | none => (Session.ret .threw : Session ι K V (End Unit))

end

section
variable {ι : Type} {K V : ι → Type} {Str : Type}

/-- One pass of the loop of `test_basic_template`, /repo/test/test_basic_template.hpp:50-133, for `*it`.  `n` is the first of
the names of its variables; `hb` and `hs` are `boost::hash` and `std::hash` of pointers.  Simplifications: `*f1` and
`f1.operator->()` are `f1.get()`, so that their checks are those of `get()` (`c2` is constant, hence `cr2` is a copy); insertion into a stream does not throw. -/
def basic (i : ι) [DecidableEq (K i)] [DecidableEq (V i)] [DecidableEq Str] (u : Tests.Kit (K i) (V i) Str) (hb hs : Nat → Nat) (n : Nat) (it : K i) :
    Test ι K V (List Bool) :=
  let f1 := n
  let f2 := n + 1
  let c1 := n + 2
  let c2 := n + 3
  let cr1 := n + 4
  let cr2 := n + 5
  let f3 := n + 6
  block i f1 (perform i (.make f1 (.key it))) <|
  block i f2 (perform i (.make f2 (.key u.key0))) <|
  block i c1 (perform i (.copy c1 f1)) <|
  block i c2 (perform i (.copy c2 f2)) (do
    let k ← getKey i f1
    let t1 := k == it
    let b ← eq i f1 f2
    let r ← get i f1
    let t2 := b == (r.2 == u.val0)
    let t3 ← eq i f1 c1
    let t4 ← eq i f2 c2
    let ts ← block i cr1 (perform i (.move cr1 c1)) <|
      block i cr2 (perform i (.copy cr2 c2)) (do
        let t5 ← eq i f1 cr1
        let t6 ← eq i f2 cr2
        block i f3 (perform i (.make f3 (.key u.key0))) (do
          let t7 ← eq i f3 f2
          perform i (.assign f1 f1)
          let t8 ← eq i f1 f1
          perform i (.assign c1 f2)
          let t9 ← eq i c1 f2
          perform i (.assign c1 f1)
          let t10 ← eq i c1 f1
          let r ← get i f1
          let t11 := r.2 == u.make it
          let p ← get i c1
          let t12 := r.1 == p.1
          perform i (.swap f1 f1)
          let t13 ← eq i f1 c1
          perform i (.swap f1 f2)
          let t14 ← eq i f1 c2
          let t15 ← eq i f2 c1
          perform i (.swap f1 f2)
          let t16 ← eq i f1 c1
          let t17 ← eq i f2 c2
          let o ← get i f1
          let r ← get i f1
          let t18 := u.ins u.empty o.2 == u.ins u.empty r.2
          let h1 ← hash i f1
          let h2 ← hash i c1
          let g1 ← stdHash i hs f1
          let g2 ← stdHash i hs c1
          pure [t5, t6, t7, t8, t9, t10, t11, t12, t13, t14, t15, t16, t17, t18, h1 == h2, h1 == hb r.1, g1 == g2,
            g1 == hs r.1]))
    pure (t1 :: t2 :: t3 :: t4 :: ts))

/-- One pass of the loop of `test_basic_with_assign_template`, /repo/test/test_basic_template.hpp:147-189. -/
def withAssign (i : ι) [DecidableEq (V i)] (u : Tests.Kit (K i) (V i) Str) (n : Nat) (it : K i) : Test ι K V (List Bool) :=
  let f1 := n
  let f2 := n + 1
  let fr1 := n + 2
  let fr2 := n + 3
  let f3 := n + 4
  let f4 := n + 5
  let fr3 := n + 6
  let f5 := n + 7
  let v := u.make it
  block i f1 (perform i (.make f1 (.copy v))) <|
  block i f2 (do
    let r ← get i f1
    perform i (.make f2 (.copy r.2))) (do
    let r1 ← get i f1
    let r2 ← get i f2
    let t3 ← eq i f1 f2
    let ts ← block i fr1 (perform i (.make fr1 (.move v))) <|
      block i fr2 (perform i (.make fr2 (.copy v))) (do
        let q1 ← get i fr1
        let q2 ← get i fr2
        let ts ← block i f3 (perform i (.make f3 (.key u.key0))) <|
          block i f4 (perform i (.make f4 (.key u.key0))) (do
            perform i (.assignVal f3 (.copy v))
            let r ← get i f1
            perform i (.assignVal f4 (.copy r.2))
            let p2 ← get i f2
            let p3 ← get i f3
            let t8 ← eq i f2 f3
            let ts ← block i fr3 (perform i (.make fr3 (.key u.key0))) (do
              perform i (.assignVal fr3 (.move (u.make it)))
              let q3 ← get i fr3
              let o ← get i f1
              block i f5 (perform i (.make f5 (.key u.key0))) (do
                extract i u.ext (u.ins u.empty o.2) f5
                let t10 ← eq i f5 f1
                pure [q3.2 == u.make it, t10]))
            pure ((p2.2 == v) :: (p3.2 == v) :: t8 :: ts))
        pure ((q1.2 == v) :: (q2.2 == v) :: ts))
    pure ((r1.2 == v) :: (r2.2 == v) :: t3 :: ts))

/-- `test_basic_with_assign_template`, /repo/test/test_basic_template.hpp:136-190. -/
def basicWithAssign (i : ι) [DecidableEq (K i)] [DecidableEq (V i)] [DecidableEq Str] (u : Tests.Kit (K i) (V i) Str) (hb hs : Nat → Nat) (n : Nat)
    (its : List (K i)) : Test ι K V (List Bool) := do
  let bs ← loop (basic i u hb hs n) its
  let bs' ← loop (withAssign i u n) its
  pure (bs ++ bs')

/-- The checks of one group: each comparison against that of the values, /repo/test/test_basic_template.hpp:211-231. -/
def checks (f : Cmp → Test ι K V Bool) (g : Cmp → Bool) : List Cmp → Test ι K V (List Bool)
  | [] => pure []
  | op :: rest => do
    let b ← f op
    let ts ← checks f g rest
    pure ((b == g op) :: ts)

/-- The comparison operators applied to two values, as after `x.get()`, /repo/include/boost/flyweight/flyweight.hpp:294-413. -/
def compareValues {W W' : Type} (c : UserCmp W W') (op : Cmp) (v : W) (v' : W') : Bool :=
  match op with
  | .eq => c.eq v v'
  | .ne => !c.eq v v'
  | .lt => c.lt v v'
  | .gt => c.gt v' v
  | .ge => !c.lt v v'
  | .le => !c.gt v' v

/-- Comparisons of two flyweights of the same type, `==` and `!=` by address, /repo/include/boost/flyweight/flyweight.hpp:257-274. -/
def compareSame (i : ι) (c : UserCmp (V i) (V i)) (x y : Nat) : Cmp → Test ι K V Bool
  | .eq => eq i x y
  | .ne => do
    let b ← eq i x y
    pure !b
  | op => do
    let r ← get i x
    let r' ← get i y
    pure (compareValues c op r.2 r'.2)

/-- Comparisons of two flyweights of different types, /repo/include/boost/flyweight/flyweight.hpp:294-315. -/
def compareTwo (i j : ι) (c : UserCmp (V i) (V j)) (x y : Nat) (op : Cmp) : Test ι K V Bool := do
  let r ← get i x
  let r' ← get j y
  pure (compareValues c op r.2 r'.2)

/-- A flyweight and a value, /repo/include/boost/flyweight/flyweight.hpp:317-357. -/
def compareLeft {W : Type} (i : ι) (c : UserCmp (V i) W) (x : Nat) (w : W) (op : Cmp) : Test ι K V Bool := do
  let r ← get i x
  pure (compareValues c op r.2 w)

/-- A value and a flyweight, same lines.  /repo/include/boost/flyweight/flyweight.hpp:317-357. -/
def compareRight {W : Type} (j : ι) (c : UserCmp W (V j)) (w : W) (y : Nat) (op : Cmp) : Test ι K V Bool := do
  let r ← get j y
  pure (compareValues c op w r.2)

/-- One pass of the loop of `test_basic_comparison_template`, /repo/test/test_basic_template.hpp:205-234, for two flyweights of
the same type.  `c` are the comparisons of the values that the library uses, `cmp` all six of them. -/
def comparison (i : ι) (mk : K i → V i) (c : UserCmp (V i) (V i)) (cmp : Cmp → V i → V i → Bool) (n : Nat) (i1 i2 : K i) : Test ι K V (List Bool) :=
  let f1 := n
  let f2 := n + 1
  let v1 := mk i1
  let v2 := mk i2
  block i f1 (perform i (.make f1 (.copy v1))) <|
  block i f2 (perform i (.make f2 (.copy v2))) (do
    let r ← get i f1
    let t1 ← checks (compareSame i c f1 f2) (fun op => cmp op r.2 v2) Tests.ops
    let t2 ← checks (compareLeft i c f1 v2) (fun op => cmp op r.2 v2) Tests.ops
    let t3 ← checks (compareRight i c v1 f2) (fun op => cmp op r.2 v2) Tests.ops
    pure (t1 ++ t2 ++ t3))

/-- The same for flyweights of different types, /repo/test/test_basic_template.hpp:205-234, as in the test with `int_flyweight` and `char_flyweight`,
/repo/test/test_basic_template.hpp:278-280. -/
def comparisonTwo (i j : ι) (mk : K i → V i) (mk' : K j → V j) (c : UserCmp (V i) (V j)) (cmp : Cmp → V i → V j → Bool) (n : Nat) (i1 : K i) (i2 : K j) :
    Test ι K V (List Bool) :=
  let f1 := n
  let f2 := n + 1
  let v1 := mk i1
  let v2 := mk' i2
  block i f1 (perform i (.make f1 (.copy v1))) <|
  block j f2 (perform j (.make f2 (.copy v2))) (do
    let r ← get i f1
    let t1 ← checks (compareTwo i j c f1 f2) (fun op => cmp op r.2 v2) Tests.ops
    let t2 ← checks (compareLeft i c f1 v2) (fun op => cmp op r.2 v2) Tests.ops
    let t3 ← checks (compareRight j c v1 f2) (fun op => cmp op r.2 v2) Tests.ops
    pure (t1 ++ t2 ++ t3))

/-- The test with `throwing_value`, /repo/test/test_basic_template.hpp:288-304: a flyweight made from a key, one made from a value whose construction is code of the user, and
one whose value is read; the exceptions of the first two are caught.  Simplification: whether construction throws is not decided here. -/
def throwing (i : ι) (n : Nat) (k : K i) (v v' : V i) : Test ι K V (List Bool) := do
  catching (block i n (perform i (.make n (.key k))) (pure ()))
  catching (do
    code i
    block i n (perform i (.make n (.move v))) (pure ()))
  code i
  block i n (perform i (.make n (.move v'))) (do
    let _ ← get i n
    pure [])

end

/-! ## The whole test -/

/-- The flyweight types of the test, /repo/test/test_basic_template.hpp:240-260, 289-292. -/
inductive Kind
  | int | string | char | texture | factorization | throwing
  deriving DecidableEq

/-- What the test uses: the types of /repo/test/test_basic_template.hpp:240-260, 289-292, with their operations, and the sequences of
/repo/test/test_basic_template.hpp:262-278, which here are arbitrary.  (The user's.) -/
structure Suite (K V : Kind → Type) (Str : Type) where
  int : Tests.Kit (K .int) (V .int) Str
  string : Tests.Kit (K .string) (V .string) Str
  char : K .char → V .char
  texture : Tests.Kit (K .texture) (V .texture) Str
  factorization : Tests.Kit (K .factorization) (V .factorization) Str
  cInt : UserCmp (V .int) (V .char)
  cmpInt : Cmp → V .int → V .char → Bool
  cString : UserCmp (V .string) (V .string)
  cmpString : Cmp → V .string → V .string → Bool
  cTexture : UserCmp (V .texture) (V .texture)
  cmpTexture : Cmp → V .texture → V .texture → Bool
  ints : List (K .int)
  words : List (K .string)
  textures : List (K .texture)
  factorizations : List (K .factorization)
  chars : List (K .char)
  bad : K .throwing
  bad' : V .throwing
  good : V .throwing

/-- One test after the other.  (The user's program, no code of the library.) -/
def thenTest {ι : Type} {K V : ι → Type} (p q : Test ι K V (List Bool)) : Test ι K V (List Bool) := do
  let bs ← p
  let bs' ← q
  pure (bs ++ bs')

/-- `test_basic_template<FlyweightSpecifier>()`, /repo/test/test_basic_template.hpp:237-306: each type may have its own factory. -/
def suite {K V : Kind → Type} {Str : Type} [∀ i, DecidableEq (K i)] [∀ i, DecidableEq (V i)] [DecidableEq Str] (S : Suite K V Str) (hb : Kind → Nat → Nat)
    (hs : Nat → Nat) (n : Nat) : Test Kind K V (List Bool) :=
  thenTest (basicWithAssign .int S.int (hb .int) hs n S.ints) <|
  thenTest (basicWithAssign .string S.string (hb .string) hs n S.words) <|
  thenTest (basicWithAssign .texture S.texture (hb .texture) hs n S.textures) <|
  thenTest (loop (basic .factorization S.factorization (hb .factorization) hs n) S.factorizations) <|
  thenTest (loop (fun p => comparisonTwo .int .char S.int.make S.char S.cInt S.cmpInt n p.1 p.2) (S.ints.zip S.chars)) <|
  thenTest (loop (fun p => comparison .string S.string.make S.cString S.cmpString n p.1 p.2) (S.words.zip S.words.tail)) <|
  thenTest (loop (fun p => comparison .texture S.texture.make S.cTexture S.cmpTexture n p.1 p.2) (S.textures.zip S.textures.tail)) <|
  throwing .throwing n S.bad S.bad' S.good

end Verif.SessionTests

import Verif.NestedInv
import Verif.Instances

/-!
# The memoized Fibonacci numbers of example/fibonacci.cpp
-/

set_option autoImplicit false

namespace Verif.Fibonacci

/-- `compute_fibonacci(int n)`, /repo/example/fibonacci.cpp:41-43.  The order in
which the operands of `+` are evaluated is not specified (`left`: `n-2` first).
The sum is undefined if it does not fit in an `int`, of which `lim` is the
largest.  Simplification: `n-2` and `n-1` are exact. -/
def body (lim : Int) (left : Bool) (n : Int) : Body Int Int :=
  if n = 0 then .ret 0
  else if n = 1 then .ret 1
  else if left then
    .ask (n - 2) fun a => .ask (n - 1) fun b => if a + b ≤ lim then .ret (a + b) else .ub
  else
    .ask (n - 1) fun b => .ask (n - 2) fun a => if a + b ≤ lim then .ret (a + b) else .ub

/-- Unused: the constructor is given by `body`; a moved-from `int` is unchanged.
(/repo/example/fibonacci.cpp:31: no key extractor.) -/
def user : UserFns Int Int := ⟨id, id, id, id⟩

/-- `fibonacci` = `flyweight<key_value<int,compute_fibonacci>,no_tracking>`,
/repo/example/fibonacci.cpp:31, with the default factory `hashed_factory`
(/repo/include/boost/flyweight/flyweight.hpp:126-149).  `hash` is that of `int`. -/
def factory (hash : Int → Nat) (grow : Nat → Nat) :
    Factory (Hashed (Ent (PRep Int Int))) (Ent (PRep Int Int)) :=
  Hashed.factory (liftHash (PRep.policy user) hash) (liftPred (PRep.policy user) (· == ·)) grow

theorem hashOk (hash : Int → Nat) : HashOk hash (· == · : Int → Int → Bool) where
  refl a := by simp
  symm a b h := by simp_all
  trans a b c h h' := by simp_all
  compat a b h := by simp_all

/-- It satisfies the laws of factories.  (No code of its own: used in statements and proofs.) -/
def lawful (hash : Int → Nat) (grow : Nat → Nat) :
    (factory hash grow).Lawful
      (fun e e' => liftPred (PRep.policy user) (· == ·) e e' = true) :=
  Hashed.lawful grow (liftHash_ok _ (hashOk hash))

theorem same_key (e e' : Ent (PRep Int Int)) :
    liftPred (PRep.policy user) (· == ·) e e' = true ↔ e.rep.key = e'.rep.key := by
  have h := liftPred_key (PRep.policy user) (· == ·) e e' e.rep.key e'.rep.key rfl rfl
  refine h.trans ?_
  simp

/-- Fibonacci numbers.  (Specification.) -/
def fib : Nat → Nat
  | 0 => 0
  | 1 => 1
  | n + 2 => fib n + fib (n + 1)

/-- The indices whose values are computed for `n`.  (Specification.) -/
def Needed (n x : Int) : Prop := x = n ∨ (2 ≤ n ∧ 0 ≤ x ∧ x ≤ n)

theorem fib_step {n : Int} (h : 2 ≤ n) :
    (fib n.toNat : Int) = fib (n - 2).toNat + fib (n - 1).toNat := by
  obtain ⟨m, hm⟩ : ∃ m : Nat, n = m + 2 := ⟨(n - 2).toNat, by omega⟩
  subst hm
  have h1 : ((m : Int) + 2).toNat = m + 2 := by omega
  have h2 : ((m : Int) + 2 - 2).toNat = m := by omega
  have h3 : ((m : Int) + 2 - 1).toNat = m + 1 := by omega
  rw [h1, h2, h3]
  simp [fib]

theorem fib_zero : fib 0 = 0 := rfl
theorem fib_one : fib 1 = 1 := rfl

/-- The value meant for index `n`.  (No code of its own: used in statements and proofs.) -/
def val (n : Int) : Int := fib n.toNat

theorem asks_eq (lim : Int) (left : Bool) (n : Int) (h0 : n ≠ 0) (h1 : n ≠ 1) :
    (body lim left n).asks val = if left then [n - 2, n - 1] else [n - 1, n - 2] := by
  unfold body
  rw [if_neg h0, if_neg h1]
  cases left
  · simp only [Bool.false_eq_true, if_false, Body.asks]
    split <;> rfl
  · simp only [if_true, Body.asks]
    split <;> rfl

theorem mem_asks (lim : Int) (left : Bool) (n k : Int) :
    k ∈ (body lim left n).asks val ↔ n ≠ 0 ∧ n ≠ 1 ∧ (k = n - 2 ∨ k = n - 1) := by
  by_cases h0 : n = 0
  · subst h0; simp [body, Body.asks]
  · by_cases h1 : n = 1
    · subst h1; simp [body, Body.asks]
    · rw [asks_eq lim left n h0 h1]
      cases left <;> simp [h0, h1, or_comm]

/-- The indices whose Fibonacci number fits in an `int`.  (No code of its own: used in
statements and proofs.) -/
def Fits (lim n : Int) : Prop := 0 ≤ n ∧ (fib n.toNat : Int) ≤ lim

theorem sound (lim : Int) (left : Bool) :
    Nested.Sound (body lim left) val (Fits lim) Int.toNat where
  value n := by
    rintro ⟨h0, hl⟩
    unfold body
    by_cases hz : n = 0
    · subst hz; rfl
    · by_cases ho : n = 1
      · subst ho; rfl
      · rw [if_neg hz, if_neg ho]
        have hs := fib_step (n := n) (by omega)
        have hl' : val n ≤ lim := hl
        have hv : val (n - 2) + val (n - 1) = val n := by unfold val; omega
        cases left <;> simp only [Bool.false_eq_true, if_true, if_false, Body.value, hv, if_pos hl']
  asks n := by
    rintro ⟨h0, hl⟩ k hk
    rw [mem_asks] at hk
    obtain ⟨hz, ho, hk⟩ := hk
    have hs := fib_step (n := n) (by omega)
    unfold Fits
    rcases hk with rfl | rfl <;> omega

theorem needs_iff {lim : Int} {left : Bool} {n x : Int} (hn : 0 ≤ n) :
    Needs (body lim left) val n x ↔ Needed n x := by
  constructor
  · intro h
    induction h with
    | self k => exact .inl rfl
    | step hm _ ih =>
      rw [mem_asks] at hm
      have := ih (by omega)
      unfold Needed at this ⊢
      omega
  · intro h
    unfold Needed at h
    rcases h with rfl | ⟨h2, h0, hx⟩
    · exact .self _
    · obtain ⟨d, hd⟩ : ∃ d : Nat, n = x + d := ⟨(n - x).toNat, by omega⟩
      induction d using Nat.strongRecOn generalizing n with
      | _ d ih =>
        by_cases hd0 : d = 0
        · subst hd0
          have : x = n := by omega
          subst this
          exact .self _
        · by_cases hx1 : n - 1 = x
          · subst hx1
            refine .step (k' := n - 1) ?_ (.self _)
            rw [mem_asks]; omega
          · by_cases hx2 : n - 2 = x
            · subst hx2
              refine .step (k' := n - 2) ?_ (.self _)
              rw [mem_asks]; omega
            · refine .step (k' := n - 1) ?_ (ih (d - 1) (by omega) (by omega) (by omega)
                (by omega) (by omega))
              rw [mem_asks]; omega

end Verif.Fibonacci

import Verif.Props.Nested
import Verif.NestedCount

/-!
# C74: reference-counted flyweights whose constructors create flyweights of their own type

As in C46, `val k` is the value meant for `k`, the keys a constructor asks for have smaller `rank`, and `D` says for which
keys this holds.
-/

set_option autoImplicit false

namespace Verif.Props

open Verif.Nested

variable {K V F : Type} {Fa : Factory F (Ent (PRep K V))} {eqv : Ent (PRep K V) → Ent (PRep K V) → Prop}

/-- Any program that constructs, copies, destroys and reads flyweights, with any exceptions, is free of undefined behaviour
and does what it would do if a flyweight were just its key: reads give the value meant for the key, and a statement throws
only if it constructs and something can throw.  At its end the mutex is free, two flyweights refer to the same value exactly
if they have the same key, there is a value for exactly the keys of the flyweights the program holds -- none for those asked
for by constructors only -- and there is one for each. -/
theorem C74_counted (u : UserFns K V) (LF : Fa.Lawful eqv)
    (heq : ∀ e e', eqv e e' ↔ e.rep.key = e'.rep.key)
    (body : K → Body K V) (val : K → V) (D : K → Prop) (rank : K → Nat)
    (hval : ∀ k, D k → (body k).value val = some (val k))
    (hask : ∀ k, D k → ∀ k' ∈ (body k).asks val, D k' ∧ rank k' < rank k)
    (fuel : Nat) (faults : Nat → Bool) (alloc : Nat → List Nat → Nat) (ops : List (VOp K))
    (hk : ∀ k, VOp.make k ∈ ops → D k ∧ rank k < fuel) :
    ∃ outs hs s ks, vrun (PRep.policy u) Fa .refcounted body fuel ops [] (Core.start Fa faults alloc) = some (outs, hs, s) ∧
      VRun val (∃ t, faults t = true) [] ops outs ks ∧
      s.depth = 0 ∧ hs.length = ks.length ∧
      (∀ (i j : Nat), i < ks.length → j < ks.length → (hs[i]? = hs[j]? ↔ ks[i]? = ks[j]?)) ∧
      (∀ k, Stored Fa s k ↔ k ∈ ks) ∧
      ∃ all : List K, all.Nodup ∧ (∀ k, k ∈ all ↔ k ∈ ks) ∧ s.env.vals = all.length := by
  obtain ⟨outs, hs, ks, s, h1, h2, h3, h4, h5⟩ := vrun_count (u := u) (n := fuel) (LF := LF) heq ⟨hval, hask⟩ ops [] []
    (Core.start Fa faults alloc) hk (start_counted faults alloc) ⟨rfl, by simp⟩ (.inr rfl)
  obtain ⟨g1, g2, g3⟩ := h3.final h4
  exact ⟨outs, hs, s, ks, h1, h2, h5.depth, h4.1, g2, g1, g3⟩

/-- Two flyweights of key 5 and one of key 3; the copy is destroyed; then one is left of each.  While the constructor of 5
runs it needs 2, 4, 3 and 1, of which only 3 is left. -/
example : (vrun (PRep.policy Fibonacci.user) (Fibonacci.factory Int.toNat (fun n => 2 * n)) .refcounted collatz 20
      [.make 5, .copy 0, .make 3, .drop 1, .read 1, .read 0, .read 7] []
      (Core.start (Fibonacci.factory Int.toNat (fun n => 2 * n)) Sample.calm Sample.alloc)).map
      (fun p => (p.1.map (fun o => match o with | .value v => v | .done => -1 | .threw => -2 | .skipped => -3), p.2.2.env.vals,
        p.2.2.env.made, p.2.2.depth)) = some ([-1, -1, -1, -1, 3, 7, -3], 2, 9, 0) := by
  decide +kernel

/-- The hypotheses hold for all keys, with any exceptions; once all flyweights are gone, so are all values. -/
example (faults : Nat → Bool) : ∃ outs hs s,
    vrun (PRep.policy Fibonacci.user) (Fibonacci.factory Int.toNat (fun n => 2 * n)) .refcounted collatz 20
      [.make 5, .copy 0, .drop 0, .drop 0] []
      (Core.start (Fibonacci.factory Int.toNat (fun n => 2 * n)) faults Sample.alloc) = some (outs, hs, s) ∧ s.env.vals = 0 := by
  obtain ⟨outs, hs, s, ks, h1, h2, _, _, _, _, all, h3, h4, h5⟩ := C74_counted Fibonacci.user
    (Fibonacci.lawful Int.toNat (fun n => 2 * n)) Fibonacci.same_key
    collatz collatzValue (fun _ => True) Int.toNat (fun k _ => collatz_value k) (fun k _ k' h => ⟨trivial, collatz_asks k k' h⟩)
    20 faults Sample.alloc [.make 5, .copy 0, .drop 0, .drop 0] (by simp)
  refine ⟨outs, hs, s, h1, ?_⟩
  have hks : ks = [] := by
    clear h1 h3 h4 h5
    cases h2 with
    | make k h2 =>
      cases h2 with
      | copy i k' hk h2 =>
        cases h2 with
        | drop i hi h2 => cases h2 with
          | drop i hi h2 => cases h2; rfl
          | skip i op hi ho h2 => simp at hi ho; omega
        | skip i op hi ho h2 => simp at hi ho; omega
      | skip i op hi ho h2 => simp at hi ho; omega
    | threw k hf h2 =>
      cases h2 with
      | copy i k' hk h2 => simp at hk
      | skip i op hi ho h2 =>
        cases h2 with
        | drop i hi h2 => simp at hi
        | skip i op hi ho h2 =>
          cases h2 with
          | drop i hi h2 => simp at hi
          | skip i op hi ho h2 => cases h2; rfl
    | skip i op hi ho h2 => simp at ho
  subst hks
  have : all = [] := List.eq_nil_iff_forall_not_mem.2 fun k hk => by simpa using (h4 k).1 hk
  rw [h5, this]
  rfl

end Verif.Props

import Mathlib.Logic.Relation
import Mathlib.Data.Fintype.Card
import Mathlib.Data.Fintype.EquivFin
import Mathlib.Order.WellFounded

/-!
# Cycles of relations on finitely many types
-/

set_option autoImplicit false

namespace Verif
open Relation

/-- A path as a function of its position. -/
theorem walk_of {r : Nat → Nat → Prop} {a b : Nat} (h : TransGen r a b) :
    ∃ (n : Nat) (f : Nat → Nat), 0 < n ∧ f 0 = a ∧ f n = b ∧ ∀ i, i < n → r (f i) (f (i + 1)) := by
  induction h with
  | single h => exact ⟨1, fun i => if i = 0 then a else _, by omega, rfl, rfl, fun i hi => by
      obtain rfl : i = 0 := by omega
      exact h⟩
  | @tail b c _ h ih =>
    obtain ⟨n, f, h0, h1, h2, h3⟩ := ih
    refine ⟨n + 1, fun i => if i ≤ n then f i else c, by omega, by simp [h1], by simp, fun i hi => ?_⟩
    by_cases hin : i < n
    · simp only [show i ≤ n by omega, show i + 1 ≤ n by omega, if_true]
      exact h3 i hin
    · obtain rfl : i = n := by omega
      simp only [Nat.le_refl, if_true, show ¬ (i + 1 ≤ i) by omega, if_false, h2]
      exact h

/-- Whatever can be reached from itself is on a cycle without repetitions. -/
theorem ring_of {r : Nat → Nat → Prop} {c : Nat} (h : TransGen r c c) :
    ∃ (n : Nat) (ty : Nat → Nat), 1 ≤ n ∧ (∀ i j, i < n → j < n → ty i = ty j → i = j) ∧ ∀ i, i < n → r (ty i) (ty ((i + 1) % n)) := by
  obtain ⟨n, f, h0, h1, h2, h3⟩ := walk_of h
  have h4 : f n = f 0 := h2.trans h1.symm
  clear h1 h2 h
  induction n using Nat.strongRecOn generalizing f with
  | _ n ih =>
    by_cases hinj : ∀ i j, i < n → j < n → f i = f j → i = j
    · refine ⟨n, f, h0, hinj, fun i hi => ?_⟩
      by_cases hin : i + 1 = n
      · rw [hin, Nat.mod_self, ← h4, ← hin]
        exact h3 i hi
      · rw [Nat.mod_eq_of_lt (by omega)]
        exact h3 i hi
    · have : ∃ i j, i < j ∧ j < n ∧ f i = f j := by
        simp only [Classical.not_forall] at hinj
        obtain ⟨i, j, hi, hj, he, hne⟩ := hinj
        by_cases hij : i < j
        · exact ⟨i, j, hij, hj, he⟩
        · exact ⟨j, i, by omega, hi, he.symm⟩
      obtain ⟨i, j, hij, hj, he⟩ := this
      refine ih (j - i) (by omega) (fun x => f (i + x)) (by omega) (fun x hx => h3 (i + x) (by omega)) ?_
      show f (i + (j - i)) = f (i + 0)
      rw [show i + (j - i) = j by omega]
      exact he.symm

/-- Without cycles there are no infinite paths either, between finitely many types. -/
theorem wf_of_acyclic {r : Nat → Nat → Prop} {N : Nat} (hN : ∀ a b, r a b → a < N ∧ b < N) (h : ∀ c, ¬TransGen r c c) :
    WellFounded fun a b => r b a := by
  let r' : Fin N → Fin N → Prop := fun a b => TransGen r b.1 a.1
  have wf : WellFounded r' := by
    have : IsTrans (Fin N) r' := ⟨fun a b c h1 h2 => TransGen.trans h2 h1⟩
    have : Std.Irrefl r' := ⟨fun a => h a.1⟩
    exact Finite.wellFounded_of_trans_of_irrefl r'
  have acc : ∀ x : Fin N, Acc (fun a b => r b a) x.1 := by
    intro x
    induction x using wf.induction with
    | _ x ih => exact ⟨_, fun b hb => ih ⟨b, (hN _ _ hb).2⟩ (TransGen.single hb)⟩
  exact ⟨fun a => ⟨_, fun b hb => acc ⟨b, (hN _ _ hb).2⟩⟩⟩

end Verif

import Verif.Examples.Fibonacci
import Verif.Sample

/-!
# C42: memoized recursion

`env.made` counts the values ever constructed; a value for index `x` exists if
the factory has an entry for it (`Stored`).
-/

set_option autoImplicit false

namespace Verif.Props

open Verif.Nested

section C42
open Verif.Fibonacci

/-- States of the program after any requests, some of which may have thrown.  (No code of its
own: used to state a property or an example.) -/
def FibState (lim : Int) (left : Bool) (fuel : Nat) (hash : Int → Nat) (grow : Nat → Nat)
    (faults : Nat → Bool) (alloc : Nat → List Nat → Nat)
    (s : St (PRep Int Int) (Hashed (Ent (PRep Int Int)))) : Prop :=
  ∃ ks outs, (∀ k ∈ ks, Fits lim k ∧ k.toNat < fuel) ∧
    requests (PRep.policy user) (factory hash grow) .noTracking (body lim left) fuel ks
      (Core.start (factory hash grow) faults alloc) = some (outs, s)

theorem FibState.good {lim : Int} {left : Bool} {fuel : Nat} {hash : Int → Nat} {grow : Nat → Nat}
    {faults : Nat → Bool} {alloc : Nat → List Nat → Nat}
    {s : St (PRep Int Int) (Hashed (Ent (PRep Int Int)))}
    (h : FibState lim left fuel hash grow faults alloc s) :
    Good (lawful hash grow) (body lim left) val [] s ∧ s.env.faults = faults ∧
      s.env.made = ((factory hash grow).ids s.fac).length := by
  obtain ⟨ks, outs, hk, hr⟩ := h
  obtain ⟨outs', s', h1, h2, h3, _⟩ := requests_spec (u := user) (LF := lawful hash grow)
    (n := fuel) same_key (sound lim left) ks _ hk (start_good faults alloc)
  rw [hr] at h1
  cases h1
  refine ⟨h2, h3.faults, ?_⟩
  have := h3.count
  simp only [Core.start] at this
  have he : ((factory hash grow).ids (factory hash grow).empty).length = 0 := rfl
  omega

/-- Any sequence of requests is free of undefined behaviour; each one yields
the Fibonacci number of its index, or throws.  (Partial: as long as the numbers fit in `int`.) -/
theorem C42_values_partial (lim : Int) (left : Bool) (fuel : Nat) (hash : Int → Nat) (grow : Nat → Nat)
    (faults : Nat → Bool) (alloc : Nat → List Nat → Nat) (ks : List Int)
    (hk : ∀ k ∈ ks, Fits lim k ∧ k.toNat < fuel) :
    ∃ outs s, requests (PRep.policy user) (factory hash grow) .noTracking (body lim left) fuel ks
        (Core.start (factory hash grow) faults alloc) = some (outs, s) ∧
      outs.length = ks.length ∧
      (∀ (i : Nat) (k v : Int), ks[i]? = some k → outs[i]? = some (some v) → v = fib k.toNat) ∧
      ((∀ t, faults t = false) → outs = ks.map fun k => some (fib k.toNat : Int)) := by
  obtain ⟨outs, s, h1, _, _, h4, h5⟩ := requests_spec (u := user) (LF := lawful hash grow)
    (n := fuel) same_key (sound lim left) ks _ hk (start_good faults alloc)
  refine ⟨outs, s, h1, h4, ?_, ?_⟩
  · intro i k v hi ho
    rcases h5 i k hi with ⟨h, _⟩ | ⟨h, _⟩
    · rw [ho] at h
      cases h
      rfl
    · rw [ho] at h; cases h
  · intro hf
    apply List.ext_getElem?
    intro i
    by_cases hi : i < ks.length
    · rcases h5 i ks[i] (List.getElem?_eq_getElem hi) with ⟨h, _⟩ | ⟨_, n, hn⟩
      · rw [h, List.getElem?_map, List.getElem?_eq_getElem hi]
        rfl
      · have : faults n = true := hn
        rw [hf n] at this
        cases this
    · rw [List.getElem?_eq_none (by omega), List.getElem?_eq_none (by simp; omega)]

/-- In whatever state the table is, a request for `n` that does not throw yields
the `n`-th Fibonacci number, and constructs exactly one value for each needed
index (`n` itself, and all of `0..n` if `n` is not 0 or 1) that had none.
(Partial: for indices whose numbers fit in `int`, and except that 1 does not need 0.) -/
theorem C42_once_partial (lim : Int) (left : Bool) (fuel : Nat) (hash : Int → Nat) (grow : Nat → Nat)
    (faults : Nat → Bool) (alloc : Nat → List Nat → Nat)
    (s s' : St (PRep Int Int) (Hashed (Ent (PRep Int Int))))
    (h : FibState lim left fuel hash grow faults alloc s) (n v : Int) (hn : Fits lim n)
    (hfuel : n.toNat < fuel)
    (hr : requests (PRep.policy user) (factory hash grow) .noTracking (body lim left) fuel [n] s =
      some ([some v], s')) :
    v = fib n.toNat ∧
    (∀ x, Stored (factory hash grow) s' x ↔ Stored (factory hash grow) s x ∨ Needed n x) ∧
    ∃ new : List Int, new.Nodup ∧
      (∀ x, x ∈ new ↔ Needed n x ∧ ¬ Stored (factory hash grow) s x) ∧
      s'.env.made = s.env.made + new.length := by
  obtain ⟨hG, _, _⟩ := h.good
  obtain ⟨outs, s₁, h1, h2, h3, h4, h5⟩ := requests_spec (u := user) (n := fuel) same_key
    (sound lim left) [n] s (by simp [hn, hfuel]) hG
  rw [hr] at h1
  cases h1
  rcases h5 0 n rfl with ⟨hv, hs⟩ | ⟨hv, _⟩
  · simp only [List.getElem?_cons_zero, Option.some.injEq] at hv
    have hneed : ∀ x, (∃ k ∈ [n], Needs (body lim left) val k x) ↔ Needed n x := by
      intro x; simp [needs_iff hn.1]
    have hst : ∀ x, Stored (factory hash grow) s' x ↔
        Stored (factory hash grow) s x ∨ Needed n x := by
      intro x
      constructor
      · intro hx
        rcases h3.stored_iff hx with h | h
        · exact .inl h
        · exact .inr ((hneed x).1 h)
      · rintro (hx | hx)
        · exact h3.stored hx
        · exact stored_needs h2 ((needs_iff hn.1).2 hx) hs
    refine ⟨hv, hst, ?_⟩
    obtain ⟨new, g1, g2, g3⟩ := h3.constructed hG h2
    refine ⟨new, g1, fun x => ?_, g3⟩
    rw [g2, hst]
    constructor
    · rintro ⟨h | h, h'⟩
      · exact absurd h h'
      · exact ⟨h, h'⟩
    · rintro ⟨h, h'⟩; exact ⟨.inr h, h'⟩
  · cases hv

/-- Once `n` has been requested, requests for needed indices (any `x` from 0
to `n`, if `n` is not 0 or 1) construct nothing.  (Partial: as `C42_once_partial`.) -/
theorem C42_later_partial (lim : Int) (left : Bool) (fuel : Nat) (hash : Int → Nat) (grow : Nat → Nat)
    (faults : Nat → Bool) (alloc : Nat → List Nat → Nat)
    (s s' : St (PRep Int Int) (Hashed (Ent (PRep Int Int))))
    (h : FibState lim left fuel hash grow faults alloc s) (n : Int) (hn : Fits lim n)
    (hs : Stored (factory hash grow) s n) (ks : List Int)
    (hk : ∀ k ∈ ks, Fits lim k ∧ k.toNat < fuel ∧ Needed n k) (outs : List (Option Int))
    (hr : requests (PRep.policy user) (factory hash grow) .noTracking (body lim left) fuel ks s =
      some (outs, s')) :
    s'.env.made = s.env.made := by
  obtain ⟨hG, _, _⟩ := h.good
  obtain ⟨outs', s₁, h1, h2, h3, h4, h5⟩ := requests_spec (u := user) (n := fuel) same_key
    (sound lim left) ks s (fun k hk' => ⟨(hk k hk').1, (hk k hk').2.1⟩) hG
  rw [hr] at h1
  cases h1
  obtain ⟨new, g1, g2, g3⟩ := h3.constructed hG h2
  have : new = [] := by
    rw [List.eq_nil_iff_forall_not_mem]
    intro x hx
    obtain ⟨hx1, hx2⟩ := (g2 x).1 hx
    rcases h3.stored_iff hx1 with h | ⟨k, hk', hx⟩
    · exact hx2 h
    · obtain ⟨a1, _, a3⟩ := hk k hk'
      exact hx2 (stored_needs hG hx (stored_needs hG ((needs_iff hn.1).2 a3) hs))
  rw [g3, this]; rfl

/-- Over the whole life of the program, with any requests and any exceptions,
exactly one value is constructed per index that has one. -/
theorem C42_total (lim : Int) (left : Bool) (fuel : Nat) (hash : Int → Nat) (grow : Nat → Nat)
    (faults : Nat → Bool) (alloc : Nat → List Nat → Nat)
    (s : St (PRep Int Int) (Hashed (Ent (PRep Int Int))))
    (h : FibState lim left fuel hash grow faults alloc s) :
    ∃ all : List Int, all.Nodup ∧ (∀ x, x ∈ all ↔ Stored (factory hash grow) s x) ∧
      s.env.made = all.length := by
  obtain ⟨ks, outs, hk, hr⟩ := h
  obtain ⟨outs', s', h1, h2, h3, _⟩ := requests_spec (u := user) (LF := lawful hash grow)
    (n := fuel) same_key (sound lim left) ks _ hk (start_good faults alloc)
  rw [hr] at h1
  cases h1
  obtain ⟨new, g1, g2, g3⟩ := h3.constructed (start_good (LF := lawful hash grow)
    (body := body lim left) (val := val) faults alloc) h2
  refine ⟨new, g1, fun x => ?_, by rw [g3]; simp [Core.start]⟩
  rw [g2]
  refine ⟨fun h => h.1, fun h => ⟨h, ?_⟩⟩
  rintro ⟨i, e, he, _⟩
  cases he

/-- The example's own type and limit: `int` of 32 bits.  (No code of its own: used to state a
property or an example.) -/
def fibRun (ks : List Int) :=
  requests (PRep.policy user) (factory Int.toNat (fun n => 2 * n)) .noTracking
    (body (2 ^ 31 - 1) true) 100 ks
    (Core.start (factory Int.toNat (fun n => 2 * n)) Sample.calm Sample.alloc)

/-- Seven values for index 6, then nothing more for 4. -/
example : (fibRun [6, 4]).map (fun p => (p.1, p.2.env.made)) = some ([some 8, some 3], 7) := by
  decide +kernel

/-- The hypotheses of `C42_once_partial` with a table that already has 0..6. -/
example : Fits (2 ^ 31 - 1) 6 ∧ Needed 6 3 ∧ (6 : Int).toNat < 100 := by
  refine ⟨⟨by decide, by decide⟩, .inr (by decide), by decide⟩

/-- The value of index 46 fits in an `int`. -/
example : (fibRun [46]).map (fun p => p.1) = some [some 1836311903] := by decide +kernel

/-- The property does not hold literally: index 1 is requested without constructing the value of
index 0, which a later request then does; and the value of index 47 does not fit in an `int` (undefined
behaviour). -/
theorem C42_violated :
    (fibRun [1]).map (fun p => (p.1, p.2.env.made)) = some ([some 1], 1) ∧
    (fibRun [1, 0]).map (fun p => (p.1, p.2.env.made)) = some ([some 1, some 0], 2) ∧
    (fibRun [47]).isNone = true := by
  refine ⟨?_, ?_, ?_⟩ <;> decide +kernel

/-- The constructor of index 3 throws in its last step: the three values it asked
for stay, and the next request constructs only its own. -/
example : (requests (PRep.policy user) (factory Int.toNat (fun n => 2 * n)) .noTracking
      (body 1000 true) 100 [3]
      (Core.start (factory Int.toNat (fun n => 2 * n)) (Sample.failAt 26) Sample.alloc)).map
        (fun p => (p.1, p.2.env.made)) = some ([none], 3) ∧
    (requests (PRep.policy user) (factory Int.toNat (fun n => 2 * n)) .noTracking
      (body 1000 true) 100 [3, 3]
      (Core.start (factory Int.toNat (fun n => 2 * n)) (Sample.failAt 26) Sample.alloc)).map
        (fun p => (p.1, p.2.env.made)) = some ([none, some 2], 4) := by decide +kernel

end C42

end Verif.Props

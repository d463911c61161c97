import Verif.Examples.Fibonacci
import Verif.NestedOwn
import Verif.Sample

/-!
# C46: value constructors that create flyweights of their own type

`val k` is the value meant for `k`: the one the constructor computes when the
flyweights it asks for have their meant values.  `rank` says that the keys
asked for are "smaller"; `D` says for which keys this holds.
-/

set_option autoImplicit false

namespace Verif.Props

open Verif.Nested

variable {K V F : Type} {Fa : Factory F (Ent (PRep K V))} {eqv : Ent (PRep K V) → Ent (PRep K V) → Prop}

/-- If constructors ask, directly or not, only for other keys, then any sequence
of requests with any exceptions is free of undefined behaviour, every request
yields the meant value or throws, the mutex is left as it was found, and
exactly one value has been constructed for each key that has one, and none destroyed. -/
theorem C46_reentrant (u : UserFns K V) (LF : Fa.Lawful eqv)
    (heq : ∀ e e', eqv e e' ↔ e.rep.key = e'.rep.key)
    (body : K → Body K V) (val : K → V) (D : K → Prop) (rank : K → Nat)
    (hval : ∀ k, D k → (body k).value val = some (val k))
    (hask : ∀ k, D k → ∀ k' ∈ (body k).asks val, D k' ∧ rank k' < rank k)
    (fuel : Nat) (faults : Nat → Bool) (alloc : Nat → List Nat → Nat) (ks : List K)
    (hk : ∀ k ∈ ks, D k ∧ rank k < fuel) :
    ∃ outs s, requests (PRep.policy u) Fa .noTracking body fuel ks
        (Core.start Fa faults alloc) = some (outs, s) ∧
      outs.length = ks.length ∧
      (∀ (i : Nat) (k : K), ks[i]? = some k →
        outs[i]? = some (some (val k)) ∨ (outs[i]? = some none ∧ ∃ t, faults t = true)) ∧
      s.depth = 0 ∧
      ∃ all : List K, all.Nodup ∧ (∀ k, k ∈ all ↔ Stored Fa s k) ∧ s.env.made = all.length ∧
        s.env.vals = all.length := by
  have hG := start_good (LF := LF) (body := body) (val := val) faults alloc
  obtain ⟨outs, s, h1, h2, h3, h4, h5⟩ := requests_spec (u := u) (n := fuel) heq
    ⟨hval, hask⟩ ks _ hk hG
  refine ⟨outs, s, h1, h4, fun i k hi => ?_, h3.depth, ?_⟩
  · rcases h5 i k hi with ⟨h, _⟩ | h
    · exact .inl h
    · exact .inr h
  · obtain ⟨new, g1, g2, g3⟩ := h3.constructed hG h2
    have g4 := h3.alive
    simp only [Core.start] at g3 g4
    refine ⟨new, g1, fun x => ?_, by omega, by omega⟩
    rw [g2]
    refine ⟨fun h => h.1, fun h => ⟨h, ?_⟩⟩
    rintro ⟨i, e, he, _⟩
    simp [Core.start, LF.entry_empty] at he

/-- Collatz-like constructors with keys of different depths, some sharing what they ask for.  (The user's program, no code of
the library.) -/
def collatz (k : Int) : Body Int Int :=
  if k ≤ 1 then .ret 1 else .ask (k / 2) fun a => .ask (k - 1) fun b => .ret (a + b)

/-- What they compute.  (The user's program, no code of the library.) -/
def collatzValue (k : Int) : Int :=
  if k ≤ 1 then 1 else collatzValue (k / 2) + collatzValue (k - 1)
termination_by k.toNat

theorem collatz_value (k : Int) : (collatz k).value collatzValue = some (collatzValue k) := by
  unfold collatz
  rw [collatzValue]
  split <;> rfl

theorem collatz_asks (k k' : Int) (h : k' ∈ (collatz k).asks collatzValue) : k'.toNat < k.toNat := by
  unfold collatz at h
  split at h
  · cases h
  · simp only [Body.asks, List.mem_cons, List.not_mem_nil, or_false] at h
    omega

/-- The hypotheses hold for all keys, with any exceptions. -/
example (faults : Nat → Bool) : ∃ outs s,
    requests (PRep.policy Fibonacci.user) (Fibonacci.factory Int.toNat (fun n => 2 * n)) .noTracking collatz 20 [5, 3, 6]
      (Core.start (Fibonacci.factory Int.toNat (fun n => 2 * n)) faults Sample.alloc) = some (outs, s) ∧ s.depth = 0 := by
  obtain ⟨outs, s, h, _, _, hd, _⟩ := C46_reentrant Fibonacci.user (Fibonacci.lawful Int.toNat (fun n => 2 * n)) Fibonacci.same_key
    collatz collatzValue (fun _ => True) Int.toNat (fun k _ => collatz_value k) (fun k _ k' h => ⟨trivial, collatz_asks k k' h⟩)
    20 faults Sample.alloc [5, 3, 6] (by simp)
  exact ⟨outs, s, h, hd⟩

/-- A constructor that begins by asking for its own key finds the entry being
constructed, still without its value, and starts over: however deep the stack
and whatever it would do afterwards, no such request ever succeeds, in any
state of the table in which the key has no value yet, with either tracking policy. -/
theorem C46_own_key (u : UserFns K V) (trk : Tracking) (LF : Fa.Lawful eqv)
    (heq : ∀ e e', eqv e e' ↔ e.rep.key = e'.rep.key) (body : K → Body K V) (k : K)
    (hb : ∃ f, body k = .ask k f) (fuel : Nat) (s : St (PRep K V) F) (hs : LF.Inv s.fac)
    (hk : ∀ i e, Fa.entry s.fac i = some e → e.rep.key = k → e.rep.cted = false)
    (hlt : ∀ i, (Fa.entry s.fac i).isSome → i < s.nextId) (h : Nat)
    (s' : St (PRep K V) F) :
    request (PRep.policy u) Fa trk body fuel k s ≠ .ok h s' :=
  own_key u trk heq hb fuel s ⟨hs, hk, hlt⟩ h s'

/-- The hypotheses of `C46_own_key` in the initial state; undefined behaviour. -/
example : (requests (PRep.policy Fibonacci.user) (Fibonacci.factory Int.toNat (fun n => 2 * n))
      .noTracking (fun k => Body.ask k fun v => .ret v) 50 [7]
      (Core.start (Fibonacci.factory Int.toNat (fun n => 2 * n)) Sample.calm Sample.alloc)).isNone =
    true := by
  decide +kernel

/-- Non-trivial instance: Collatz-like constructors with keys of different
depths, some sharing what they ask for. -/
example : let body : Int → Body Int Int := fun k =>
      if k ≤ 1 then .ret 1
      else .ask (k / 2) fun a => .ask (k - 1) fun b => .ret (a + b)
    (requests (PRep.policy Fibonacci.user) (Fibonacci.factory Int.toNat (fun n => 2 * n)) .noTracking
      body 20 [5, 3, 6]
      (Core.start (Fibonacci.factory Int.toNat (fun n => 2 * n)) Sample.calm Sample.alloc)).map
        (fun p => (p.1, p.2.env.made, p.2.depth)) = some ([some 7, some 3, some 10], 6, 0) := by
  decide +kernel

end Verif.Props

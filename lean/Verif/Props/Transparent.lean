import Verif.Transparent
import Verif.Props.Tests

/-!
# Flyweights behave as plain values: C64
-/

set_option autoImplicit false

namespace Verif.Props
open Setup Client
variable {K V Rep F : Type}

/-- The keys of the flyweights are given by `w`.  (No code of its own: used to state a property or an example.) -/
def Holds (S : Setup K V Rep F) (s : St Rep F) (w : Nat → Option K) : Prop :=
  ∀ x k, w x = some k ↔ ∃ a v, S.Sees s x a k v

theorem holds_of_view {S : Setup K V Rep F} {fl : Nat → Bool} {w : Store K V} {s : St Rep F} (h : View S fl w s) :
    Holds S s (keysOf w) := by
  intro x k
  constructor
  · intro hx
    obtain ⟨b, hb, rfl⟩ := Option.map_eq_some_iff.1 hx
    exact ⟨b.addr, b.val, (h.sees _ _ _ _).2 hb⟩
  · rintro ⟨a, v, hs⟩
    simp [keysOf, (h.sees _ _ _ _).1 hs]

theorem Holds.unique {S : Setup K V Rep F} {s : St Rep F} {w w' : Nat → Option K} (h : Holds S s w) (h' : Holds S s w') :
    w = w' := by
  funext x
  cases hx : w x with
  | some k => exact ((h' x k).2 ((h x k).1 hx)).symm
  | none =>
    cases hx' : w' x with
    | none => rfl
    | some k =>
      rw [(h x k).2 ((h' x k).1 hx')] at hx
      cases hx

/-- **C64.**  A program, continuing from any state, does with flyweights what it does with variables that hold keys and the values
made of them, if it does not look at addresses and hashes; making a value throws only if an operation of the user may. -/
theorem C64_transparent [DecidableEq K] {α : Type} (S : Setup K V Rep F) (mk : K → V) (R : Regular S mk) (hp : Nat → Nat)
    (s : St Rep F) (hr : S.Reach s) (w : Nat → Option K) (hw : Holds S s w) (p : Prog K V α) :
    ∃ a s' w', p.fly S hp s = some (a, s') ∧ Prog.Plain S.sp mk (∃ n, s.env.faults n = true) p w a w' ∧ Holds S s' w' ∧
      ∀ x b k v, S.Sees s' x b k v → v = mk k := by
  obtain ⟨fl, w0, hv⟩ := View.of_reach hr
  have : w = keysOf w0 := hw.unique (holds_of_view hv)
  subst this
  obtain ⟨a, s', w', h1, h2, h3⟩ := fly_plain R hp p hv
  rw [← Tests.View.flags hv] at h3
  exact ⟨a, s', keysOf w', h1, h3, holds_of_view h2, fun x b k v hs => R.val h2 ((h2.sees _ _ _ _).1 hs)⟩

/-- **C64.**  If nothing throws, the result is that of the program with plain variables. -/
theorem C64_calm [DecidableEq K] {α : Type} (S : Setup K V Rep F) (mk : K → V) (R : Regular S mk) (hp : Nat → Nat)
    (alloc : Nat → List Nat → Nat) (hal : ∀ n l, alloc n l ∉ l) (p : Prog K V α) :
    ∃ s', p.fly S hp (Core.start S.Fa (fun _ => false) alloc) = some ((p.plain S.sp mk fun _ => Option.none).1, s') ∧
      Holds S s' (p.plain S.sp mk fun _ => Option.none).2 := by
  have hr : S.Reach (Core.start S.Fa (fun _ => false) alloc) := ⟨hp, _, alloc, [], [], hal, rfl⟩
  have hw : Holds S (Core.start S.Fa (fun _ => false) alloc) fun _ => Option.none := by
    intro x k
    refine ⟨fun h => (nomatch h), ?_⟩
    rintro ⟨a, v, h, _⟩
    cases h
  obtain ⟨a, s', w', h1, h2, h3, _⟩ := C64_transparent S mk R hp _ hr _ hw p
  have := h2.calm (by rintro ⟨n, hn⟩; cases hn)
  rw [this]
  exact ⟨s', h1, h3⟩

/-- **C64.**  The factory, the tracking policy, the allocator and the hash do not matter: two types of flyweights of the same keys
and values give the same results. -/
theorem C64_configurations [DecidableEq K] {α Rep' F' : Type} (S : Setup K V Rep F) (S' : Setup K V Rep' F') (mk : K → V)
    (R : Regular S mk) (R' : Regular S' mk) (hsp : S.sp = S'.sp) (hp hp' : Nat → Nat) (alloc alloc' : Nat → List Nat → Nat)
    (hal : ∀ n l, alloc n l ∉ l) (hal' : ∀ n l, alloc' n l ∉ l) (p : Prog K V α) :
    ∃ a s s', p.fly S hp (Core.start S.Fa (fun _ => false) alloc) = some (a, s) ∧
      p.fly S' hp' (Core.start S'.Fa (fun _ => false) alloc') = some (a, s') := by
  obtain ⟨s, h, _⟩ := C64_calm S mk R hp alloc hal p
  obtain ⟨s', h', _⟩ := C64_calm S' mk R' hp' alloc' hal' p
  rw [hsp] at h
  exact ⟨_, s, s', h, h'⟩

/-- **C64** for `flyweight<T>` with equality of values: any factory and tracking policy of the library. -/
theorem C64_plain [DecidableEq V] {α : Type} {Fa : Factory F (Ent (DRep V))} {keq : V → V → Bool} (u : UserFns V V)
    (hF : LibFactory (DRep.policy u) Fa keq) (trk : Tracking) (heq : ∀ v w, keq v w = true ↔ v = w) :
    ∃ S : Setup V V (DRep V) F, S.Is (DRep.policy u) Fa trk (SrcSpec.default V) keq ∧
      ∀ (hp : Nat → Nat) (alloc : Nat → List Nat → Nat), (∀ n l, alloc n l ∉ l) → ∀ p : Prog V V α,
        ∃ s', p.fly S hp (Core.start S.Fa (fun _ => false) alloc) =
          some ((p.plain (SrcSpec.default V) id fun _ => Option.none).1, s') := by
  obtain ⟨S, ⟨h1, h2, h3, h4, h5⟩, _⟩ := (LibPolicy.plain u keq).setup hF trk
  refine ⟨S, ⟨h1, h2, h3, h4, h5⟩, fun hp alloc hal p => ?_⟩
  obtain ⟨s', h, _⟩ := C64_calm S id (regular_plain h4 h5 heq) hp alloc hal p
  rw [h4] at h
  exact ⟨s', h⟩

/-- Doubles the numbers of a list in a loop until a flyweight equals another, reading them back.  (No code of its own: used to
state a property or an example.) -/
def doubling : Nat → Prog Nat Nat Nat
  | 0 => .op (.get 0) fun r => match r with
    | .val v => .ret v
    | _ => .ret 0
  | n + 1 => .op (.get 0) fun r => match r with
    | .val v => .op (.assignVal 0 (.copy (2 * v))) fun _ => .op (.eq 0 1) fun b => match b with
      | .bool true => .ret 7
      | _ => doubling n
    | _ => .ret 0

/-- (No code of its own: used to state a property or an example.) -/
def doubler (k n : Nat) : Prog Nat Nat Nat :=
  .op (.make 0 (.key 1)) fun _ => .op (.make 1 (.key k)) fun _ => doubling n

/-- The result depends on what is seen: 32 after five passes, or another way if 8 is reached. -/
example : (((doubler 9 5).fly (numbers .refcounted) id (Core.start (numbers .refcounted).Fa Sample.calm Sample.alloc)).map
      Prod.fst = some 32 ∧ ((doubler 9 5).plain (numbers .refcounted).sp id fun _ => Option.none).1 = 32) ∧
    (((doubler 8 5).fly (numbers .noTracking) id (Core.start (numbers .noTracking).Fa Sample.calm Sample.alloc)).map
      Prod.fst = some 7 ∧ ((doubler 8 5).plain (numbers .noTracking).sp id fun _ => Option.none).1 = 7) ∧
    Regular (numbers .refcounted) id :=
  ⟨by decide +kernel, by decide +kernel, regular_plain (keq := fun k l : Nat => k == l) rfl rfl fun v w => by simp⟩

/-- With keys compared modulo 10 flyweights are not transparent: 13 becomes 3. -/
example : ((Prog.op (.make 0 (.key 3)) fun _ => .op (.make 1 (.key 13)) fun _ => .op (.get 1) fun r => match r with
      | .val v => .ret v
      | _ => .ret 0 : Prog Nat Nat Nat).fly (Sample.dflt .refcounted) id
        (Core.start (Sample.dflt .refcounted).Fa Sample.calm Sample.alloc)).map Prod.fst = some 3 := by decide +kernel

end Verif.Props

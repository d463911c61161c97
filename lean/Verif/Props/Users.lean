import Verif.Examples.Users
import Verif.Props.Transparent

/-!
# The basic example: C65
-/

set_option autoImplicit false

namespace Verif.Props
open Setup Client
variable {T F : Type}

/-- **C65.**  The program prints the users with the first one renamed and those named like `anna` replaced by it, for any text, names
and configuration of the library; at the end there are no flyweights.  Otherwise an operation of the user has thrown. -/
theorem C65_prints [DecidableEq T] {Fa : Factory F (Ent (DRep T))} {keq : T → T → Bool} (u : UserFns T T)
    (hF : LibFactory (DRep.policy u) Fa keq) (trk : Tracking) (heq : ∀ v w, keq v w = true ↔ v = w) :
    ∃ S : Setup T T (DRep T) F, S.Is (DRep.policy u) Fa trk (SrcSpec.default T) keq ∧
      ∀ (hp : Nat → Nat) (faults : Nat → Bool) (alloc : Nat → List Nat → Nat), (∀ n l, alloc n l ∉ l) →
      ∀ (empty : T) (e : Users.Entry T) (es : List (Users.Entry T)) (newFirst newLast : T) (anna : Users.Entry T),
        ∃ r s', (Users.main empty e es newFirst newLast anna).fly S hp (Core.start S.Fa faults alloc) = some (r, s') ∧
          (r = Option.none ∧ (∃ n, faults n = true) ∨
            r = some (((newFirst, newLast, e.2.2) :: es).map fun e =>
              if e.1 = anna.1 ∧ e.2.1 = anna.2.1 then anna else e) ∧
            (∀ x a k v, ¬ S.Sees s' x a k v) ∧ (trk = .refcounted → s'.env.vals = 0 ∧ s'.env.keys = 0)) := by
  obtain ⟨S, ⟨h1, h2, h3, h4, h5⟩, _⟩ := (LibPolicy.plain u keq).setup hF trk
  refine ⟨S, ⟨h1, h2, h3, h4, h5⟩, fun hp faults alloc hal empty e es newFirst newLast anna => ?_⟩
  have hr : S.Reach (Core.start S.Fa faults alloc) := ⟨hp, faults, alloc, [], [], hal, rfl⟩
  obtain ⟨fl, w, hv⟩ := View.of_reach hr
  have hw : w = fun _ => Option.none := by
    funext x
    cases hx : w x with
    | none => rfl
    | some b =>
      obtain ⟨h, _⟩ := (hv.sees x b.addr b.key b.val).2 hx
      cases h
  subst hw
  obtain ⟨r, s', w', g1, g2, g3⟩ := fly_plain (regular_plain h4 h5 heq) hp
    (Users.main empty e es newFirst newLast anna) hv
  rw [← Tests.View.flags hv, h4] at g3
  refine ⟨r, s', g1, ?_⟩
  rcases Users.run_main g3 with h | ⟨h, hn⟩
  · exact .inl h
  · have hw : w' = fun _ => Option.none := by
      funext x
      simpa [keysOf] using hn x
    subst hw
    obtain ⟨r1, r2⟩ := restored_of_view hv g2
    refine .inr ⟨h, fun x a k v hs => ?_, fun ht => r2 (h3.trans ht)⟩
    have := (g2.sees x a k v).1 hs
    cases this

/-- (No code of its own: used to state a property or an example.) -/
def people : List (Users.Entry Nat) := [(1, 2, 31), (3, 4, 28), (5, 6, 45), (5, 4, 19), (5, 6, 70)]

/-- The program run with flyweights: the first user is renamed, two of five replaced; an exception ends the program. -/
example : ((Users.main 0 (7, 2, 31) people.tail 1 2 (5, 6, 20)).fly (numbers .refcounted) id
      (Core.start (numbers .refcounted).Fa Sample.calm Sample.alloc)).map (fun p => (p.1, p.2.env.vals)) =
    some (some [(1, 2, 31), (3, 4, 28), (5, 6, 20), (5, 4, 19), (5, 6, 20)], 0) ∧
    ((Users.main 0 (7, 2, 31) people.tail 1 2 (5, 6, 20)).fly (numbers .noTracking) id
      (Core.start (numbers .noTracking).Fa (Sample.failAt 9) Sample.alloc)).map Prod.fst = some Option.none :=
  ⟨by decide +kernel, by decide +kernel⟩

/-- The text of the example and what is printed for it. -/
example : Users.printed ("olegh", "smith", 31) [("john", "brown", 28), ("anna", "jones", 45), ("maria", "garcia", 30),
      ("john", "fox", 56), ("anna", "brown", 19), ("thomas", "smith", 46), ("andrew", "martin", 28)] "oleg" "smith"
      ("anna", "jones", 20) =
    [("oleg", "smith", 31), ("john", "brown", 28), ("anna", "jones", 20), ("maria", "garcia", 30), ("john", "fox", 56),
      ("anna", "brown", 19), ("thomas", "smith", 46), ("andrew", "martin", 28)] := by decide

end Verif.Props

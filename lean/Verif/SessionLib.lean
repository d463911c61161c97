import Verif.SessionRun
import Verif.Transparent
import Verif.Examples.Tests

/-!
# Flyweight types, with any factory of the library
-/

set_option autoImplicit false

namespace Verif
open Client (Store Made Obs erase keysOf Prog)

/-- A flyweight type of the library in a program of one thread: with `hashed_factory`, `set_factory` or a user's factory that obeys the same laws (`Setup`), or
with `concurrent_factory`, whose garbage collector looks at the elements `gc n` before the `n`-th operation.  `fl` says which operations of the user throw.
(No code of its own: used in statements and proofs.) -/
inductive FlyType (K V : Type) : Type 1
  | usual {Rep F : Type} (S : Setup K V Rep F) (hp : Nat → Nat) (fl : Nat → Bool)
  | concurrent {Rep : Type} {P : Policy K V Rep} {sp : SrcSpec K V} {keq : K → K → Bool} {kd : Bool} (lib : LibPolicy P sp keq kd) (he : EquivOk keq)
      (trk : Tracking) (hp : Nat → Nat) (gc : Nat → List Nat) (fl : Nat → Bool)

namespace FlyType
variable {K V : Type}

/-- What a program sees of the type.  (No code of its own: used in statements and proofs.) -/
def cfg : FlyType K V → Cfg K V
  | usual S hp fl => ⟨S.keq, S.sp, hp, ∃ n, fl n = true⟩
  | concurrent (keq := keq) (sp := sp) _ _ _ hp _ fl => ⟨keq, sp, hp, ∃ n, fl n = true⟩

/-- How operations are performed, /repo/include/boost/flyweight/flyweight.hpp:181-278. -/
def engine : FlyType K V → Engine K V
  | usual S hp _ => Engine.fly S hp
  | concurrent (P := P) (keq := keq) (sp := sp) _ _ trk hp gc _ => Engine.cf P keq trk sp hp gc

/-- A state that some program has reached.  (No code of its own: used in statements and proofs.) -/
def Reach : (T : FlyType K V) → T.engine.σ → Prop
  | usual S _ fl, s => S.Reach s ∧ s.env.faults = fl
  | concurrent (P := P) (keq := keq) (sp := sp) _ _ trk _ _ fl, s => CFSeq.Reach P keq trk sp s.1 ∧ s.1.env.faults = fl

/-- Variable `x` is a flyweight with this address, key and value.  (No code of its own: used in statements and proofs.) -/
def Sees : (T : FlyType K V) → T.engine.σ → Nat → Bind K V → Prop
  | usual S _ _, s, x, b => S.Sees s x b.addr b.key b.val
  | concurrent (P := P) _ _ _ _ _ _, s, x, b => CFSeq.Sees P s.1 x b

/-- State at program start, /repo/include/boost/flyweight/detail/flyweight_core.hpp:314-351. -/
def start (alloc : Nat → List Nat → Nat) : (T : FlyType K V) → T.engine.σ
  | usual S _ fl => Core.start S.Fa fl alloc
  | concurrent _ _ _ _ _ fl => (CFSeq.start fl alloc, 0)

theorem start_reach {alloc : Nat → List Nat → Nat} (hal : ∀ n l, alloc n l ∉ l) (T : FlyType K V) : T.Reach (T.start alloc) := by
  cases T with
  | usual S hp fl => exact ⟨⟨hp, fl, alloc, [], [], hal, rfl⟩, rfl⟩
  | concurrent lib he trk hp gc fl => exact ⟨⟨hp, fl, alloc, [], [], hal, rfl⟩, rfl⟩

theorem start_sees (alloc : Nat → List Nat → Nat) (T : FlyType K V) (x : Nat) (b : Bind K V) : ¬ T.Sees (T.start alloc) x b := by
  cases T with
  | usual S hp fl => rintro ⟨h, _⟩; cases h
  | concurrent lib he trk hp gc fl => rintro ⟨n, h, _⟩

/-- Every type does what `Verif.Session` says. -/
theorem sound (T : FlyType K V) : ∃ R : T.engine.σ → Store K V → Prop, T.engine.Sound T.cfg R ∧ (∀ s, T.Reach s → ∃ w, R s w) ∧
    ∀ s w, R s w → (∀ x b, T.Sees s x b ↔ w x = some b) ∧ ∀ x b, w x = some b → Made T.cfg.sp b := by
  cases T with
  | usual S hp fl =>
    refine ⟨fun (s : St _ _) w => Client.View S fl w s, Engine.fly_sound S hp fl, ?_, ?_⟩
    · rintro (s : St _ _) ⟨hr, rfl⟩
      obtain ⟨fl, w, h⟩ := Client.View.of_reach hr
      exact ⟨w, by rw [Tests.View.flags h]; exact h⟩
    · intro (s : St _ _) w h
      exact ⟨fun x b => h.sees x _ _ _, fun x b hx => h.made hx⟩
  | concurrent lib he trk hp gc fl =>
    obtain ⟨LS, L, ⟨X⟩, _⟩ := lib.leaves he
    refine ⟨_, Engine.cf_sound LS X trk hp gc fl, ?_, ?_⟩
    · rintro (s : CFSeq.St _ × Nat) ⟨hr, rfl⟩
      exact CFSeq.View.of_reach X LS hr
    · intro (s : CFSeq.St _ × Nat) w h
      refine ⟨fun x b => h.sees x b, fun x b hx => ?_⟩
      obtain ⟨t, _, h2, _, h4⟩ := h
      exact h2.made b (h2.bound x b ((h4 x b).2 hx))

end FlyType

/-! ## Programs that do not look at addresses -/

namespace Session
variable {ι : Type} [DecidableEq ι] {K V : ι → Type} {α : Type}

/-- The program does not depend on addresses and hashes.  (No code of its own: used in statements and proofs.) -/
def Blind : Session ι K V α → Prop
  | .ret _ => True
  | .op _ _ k => (∀ o o', erase o = erase o' → k o = k o') ∧ ∀ o, (k o).Blind
  | .user _ k => ∀ r, (k r).Blind

/-- An outcome with plain variables, which have no address.  (No code of its own: used in statements and proofs.) -/
def plainOut {K V : Type} : Obs K V → Out K V
  | .done => .done
  | .threw => .threw
  | .val v => .val 0 v
  | .key k => .key k
  | .bool b => .bool b
  | .skipped => .skipped

theorem erase_plainOut {K V : Type} (o : Obs K V) : erase (plainOut o) = o := by cases o <;> rfl

variable [∀ i, DecidableEq (K i)]

/-- Plain variables of all types: each holds a key.  (No code of its own: used in statements and proofs.) -/
abbrev Keys (K : ι → Type) := (i : ι) → Nat → Option (K i)

/-- A run with plain variables; `thr` says whether operations of the user may throw.  (No code of its own: used in statements and proofs.) -/
inductive Plain (sp : (i : ι) → SrcSpec (K i) (V i)) (mk : (i : ι) → K i → V i) (thr : ι → Prop) : Session ι K V α → Keys K → α → Keys K → Prop
  | ret (a w) : Plain sp mk thr (.ret a) w a w
  | op (i o k w fail a w') : (fail = true → thr i) →
      Plain sp mk thr (k (plainOut (Prog.plainStep (sp i) (mk i) fail (w i) o).1)) (put w i (Prog.plainStep (sp i) (mk i) fail (w i) o).2) a w' →
      Plain sp mk thr (.op i o k) w a w'
  | user (i k w fail a w') : (fail = true → thr i) → Plain sp mk thr (k fail) w a w' → Plain sp mk thr (.user i k) w a w'

/-- The run with plain variables if nothing throws.  (No code of its own: used in statements and proofs.) -/
def plain (sp : (i : ι) → SrcSpec (K i) (V i)) (mk : (i : ι) → K i → V i) : Session ι K V α → Keys K → α × Keys K
  | .ret a, w => (a, w)
  | .op i o k, w => (k (plainOut (Prog.plainStep (sp i) (mk i) false (w i) o).1)).plain sp mk (put w i (Prog.plainStep (sp i) (mk i) false (w i) o).2)
  | .user _ k, w => (k false).plain sp mk w

theorem Plain.calm {sp : (i : ι) → SrcSpec (K i) (V i)} {mk : (i : ι) → K i → V i} {thr : ι → Prop} (ht : ∀ i, ¬ thr i) {p : Session ι K V α}
    {w w' : Keys K} {a : α} (h : Plain sp mk thr p w a w') : p.plain sp mk w = (a, w') := by
  induction h with
  | ret => rfl
  | op i o k w fail a w' hf _ ih =>
    cases fail with
    | false => exact ih
    | true => exact absurd (hf rfl) (ht i)
  | user i k w fail a w' hf _ ih =>
    cases fail with
    | false => exact ih
    | true => exact absurd (hf rfl) (ht i)

end Session

/-- Keys are compared by equality and determine the values.  (No code of its own: used in statements and proofs.) -/
structure Cfg.Regular {K V : Type} (C : Cfg K V) (mk : K → V) : Prop where
  keys : ∀ k l, C.keq k l = true ↔ k = l
  vals : ∀ src, C.sp.supports src = true → C.sp.key1 src = C.sp.key0 src ∧ C.sp.val src = mk (C.sp.key0 src)

section
variable {K V : Type} {C : Cfg K V} {mk : K → V}

theorem Cfg.Regular.made (R : C.Regular mk) {b : Bind K V} (h : Made C.sp b) : b.val = mk b.key := by
  obtain ⟨src, h1, h2, h3⟩ := h
  obtain ⟨g1, g2⟩ := R.vals src h1
  rw [h3, h2, g1, g2]

/-- One operation does the same on flyweights as on plain variables. -/
theorem act_plain [DecidableEq K] (R : C.Regular mk) {w : Store K V} {o : Op K V} {b : Option (Bind K V)} {fail : Bool}
    (hw : ∀ x b, w x = some b → Made C.sp b) (h : Allowed C w o b fail) :
    ∃ fail', (fail' = true → C.thr) ∧
      (Prog.plainStep C.sp mk fail' (keysOf w) o) = (erase (act C b fail w o).1, keysOf (act C b fail w o).2) ∧
      ∀ x b', (act C b fail w o).2 x = some b' → Made C.sp b' := by
  have upd_made : ∀ {w : Store K V} {x : Nat} {c : Option (Bind K V)}, (∀ x b, w x = some b → Made C.sp b) → (∀ b, c = some b → Made C.sp b) →
      ∀ y b', upd w x c y = some b' → Made C.sp b' := by
    intro w x c hw hc y b' hy
    by_cases hyx : y = x
    · subst hyx
      rw [upd_self] at hy
      exact hc _ hy
    · rw [upd_ne _ _ hyx] at hy
      exact hw _ _ hy
  have key : ∀ {x c}, w x = some c → keysOf w x = some c.key := fun h => by simp [keysOf, h]
  have nokey : ∀ {x}, w x = none → keysOf w x = none := fun h => by simp [keysOf, h]
  have kx : ∀ x, keysOf w x = (w x).map Bind.key := fun _ => rfl
  cases o with
  | init => exact ⟨false, nofun, rfl, hw⟩
  | make x src =>
    have hT := h.throws
    have hF := h.fits
    simp only [act] at hT hF ⊢
    simp only [Prog.plainStep]
    cases hx : w x with
    | some c => exact ⟨false, nofun, by simp [key hx, erase], hw⟩
    | none =>
      cases hs : C.sp.supports src with
      | false => exact ⟨false, nofun, by simp [nokey hx, erase], hw⟩
      | true =>
        simp only [hx, hs] at hT hF
        cases fail with
        | true => exact ⟨true, fun _ => hT rfl, by simp [nokey hx, erase], hw⟩
        | false =>
          obtain ⟨c, rfl, hc⟩ := hF rfl src rfl
          refine ⟨false, nofun, ?_, upd_made hw fun b e => by cases e; exact hc.made⟩
          simp [nokey hx, erase, Client.keysOf_upd, (R.keys _ _).1 hc.key]
  | assignVal x src =>
    have hT := h.throws
    have hF := h.fits
    simp only [act] at hT hF ⊢
    simp only [Prog.plainStep]
    cases hx : w x with
    | none => exact ⟨false, nofun, by simp [nokey hx, erase], hw⟩
    | some d =>
      cases hs : C.sp.supports src with
      | false => exact ⟨false, nofun, by simp [key hx, erase], hw⟩
      | true =>
        simp only [hx, hs] at hT hF
        cases fail with
        | true => exact ⟨true, fun _ => hT rfl, by simp [key hx, erase], hw⟩
        | false =>
          obtain ⟨c, rfl, hc⟩ := hF rfl src rfl
          refine ⟨false, nofun, ?_, upd_made hw fun b e => by cases e; exact hc.made⟩
          simp [key hx, erase, Client.keysOf_upd, (R.keys _ _).1 hc.key]
  | copy x y =>
    refine ⟨false, nofun, ?_⟩
    simp only [act, Prog.plainStep]
    cases hx : w x <;> cases hy : w y <;> simp only [kx, Option.map, hx, hy, erase, Client.keysOf_upd, true_and]
    case none.some c => exact upd_made hw fun b e => by cases e; exact hw _ _ hy
    all_goals exact hw
  | move x y =>
    refine ⟨false, nofun, ?_⟩
    simp only [act, Prog.plainStep]
    cases hx : w x <;> cases hy : w y <;> simp only [kx, Option.map, hx, hy, erase, Client.keysOf_upd, true_and]
    case none.some c => exact upd_made hw fun b e => by cases e; exact hw _ _ hy
    all_goals exact hw
  | assign x y =>
    refine ⟨false, nofun, ?_⟩
    simp only [act, Prog.plainStep]
    cases hx : w x <;> cases hy : w y <;> simp only [kx, Option.map, hx, hy, erase, Client.keysOf_upd, true_and]
    case some.some c => exact upd_made hw fun b e => by cases e; exact hw _ _ hy
    all_goals exact hw
  | swap x y =>
    refine ⟨false, nofun, ?_⟩
    simp only [act, Prog.plainStep]
    cases hx : w x <;> cases hy : w y <;> simp only [kx, Option.map, hx, hy, erase, Client.keysOf_upd, true_and]
    case some.some c => exact upd_made (upd_made hw fun b e => by cases e; exact hw _ _ hy) fun b e => by cases e; exact hw _ _ hx
    all_goals exact hw
  | destroy x =>
    refine ⟨false, nofun, ?_⟩
    simp only [act, Prog.plainStep]
    cases hx : w x <;> simp only [kx, Option.map, hx, erase, Client.keysOf_upd, true_and]
    case some c => exact upd_made hw fun b e => by cases e
    all_goals exact hw
  | get x =>
    refine ⟨false, nofun, ?_⟩
    simp only [act, Prog.plainStep]
    cases hx : w x <;> simp only [kx, Option.map, hx, erase, true_and]
    case some c => exact ⟨by rw [R.made (hw _ _ hx)], hw⟩
    all_goals exact hw
  | getKey x =>
    refine ⟨false, nofun, ?_⟩
    simp only [act, Prog.plainStep]
    cases hx : w x <;> simp only [kx, Option.map, hx, erase, true_and] <;> exact hw
  | eq x y =>
    refine ⟨false, nofun, ?_⟩
    simp only [act, Prog.plainStep]
    cases hx : w x <;> cases hy : w y <;> simp only [kx, Option.map, hx, hy, erase, true_and]
    case some.some c d =>
      refine ⟨?_, hw⟩
      have : (c.key == d.key) = C.keq c.key d.key := by
        rw [Bool.eq_iff_iff, beq_iff_eq]
        exact (R.keys _ _).symm
      rw [this]
    all_goals exact hw
  | hash x =>
    refine ⟨false, nofun, ?_⟩
    simp only [act, Prog.plainStep]
    cases hx : w x <;> simp only [kx, Option.map, hx, erase, true_and] <;> exact hw

end

namespace Session
variable {ι : Type} [DecidableEq ι] {K V : ι → Type} [∀ i, DecidableEq (K i)] {α : Type} {C : (i : ι) → Cfg (K i) (V i)} {mk : (i : ι) → K i → V i}

omit [∀ i, DecidableEq (K i)] in
theorem keysOf_put (w : Vars K V) (i : ι) (v : Store (K i) (V i)) : (fun j => keysOf (put w i v j)) = put (fun j => keysOf (w j)) i (keysOf v) := by
  funext j
  by_cases h : j = i
  · subst h; simp
  · rw [put_ne _ _ h, put_ne _ _ h]

/-- A program that does not look at addresses does with flyweights what it does with plain variables. -/
theorem Runs.plain (R : ∀ i, (C i).Regular (mk i)) {p : Session ι K V α} {w w' : Vars K V} {a : α} (hp : p.Blind)
    (hw : ∀ i x b, w i x = some b → Made (C i).sp b) (h : Runs C p w a w') :
    Plain (fun i => (C i).sp) mk (fun i => (C i).thr) p (fun i => keysOf (w i)) a fun i => keysOf (w' i) := by
  induction h with
  | ret a w => exact .ret _ _
  | op i o k w b fail a w' ha _ ih =>
    obtain ⟨fail', h1, h2, h3⟩ := act_plain (R i) (hw i) ha
    have hw' : ∀ j x c, put w i (act (C i) b fail (w i) o).2 j x = some c → Made (C j).sp c := by
      intro j
      by_cases hj : j = i
      · subst hj; rw [put_same]; exact h3
      · rw [put_ne _ _ hj]; exact hw j
    have := ih (hp.2 _) hw'
    rw [keysOf_put] at this
    refine .op i o k _ fail' _ _ h1 ?_
    rw [h2, hp.1 (plainOut (erase (act (C i) b fail (w i) o).1)) _ (erase_plainOut _)]
    exact this
  | user i k w fail a w' hf _ ih => exact .user i k _ fail _ _ hf (ih (hp _) hw)

end Session
end Verif

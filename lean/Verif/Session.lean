import Verif.History
import Verif.Client

/-!
# What a program may rely on, whatever the factory

An interactive program uses variables of several flyweight types and decides by the outcomes of its operations, addresses included, how to go on.
This file says what the outcomes may be, without referring to the model of any factory.
-/

set_option autoImplicit false

namespace Verif
open Client (Store)

/-- A program that ends with a result of type `α`, with flyweight types `ι`.  `user`: code of the user that works on values of a type and may throw, in which
case the program learns of it.  (The user's program, no code of the library.) -/
inductive Session (ι : Type) (K V : ι → Type) (α : Type) where
  | ret (a : α)
  | op (i : ι) (o : Op (K i) (V i)) (k : Out (K i) (V i) → Session ι K V α)
  | user (i : ι) (k : Bool → Session ι K V α)

namespace Session
variable {ι : Type} {K V : ι → Type} {α β : Type}

/-- Sequencing.  (No code of its own.) -/
def bind : Session ι K V α → (α → Session ι K V β) → Session ι K V β
  | .ret a, f => f a
  | .op i o k, f => .op i o fun r => (k r).bind f
  | .user i k, f => .user i fun r => (k r).bind f

instance : Monad (Session ι K V) where
  pure := .ret
  bind := Session.bind

end Session

/-- A flyweight type as a program sees it: when keys are equivalent, which sources there are, the hash of addresses, and whether operations of the user
may throw.  (No code of its own: used in statements and proofs.) -/
structure Cfg (K V : Type) where
  keq : K → K → Bool
  sp : SrcSpec K V
  hp : Nat → Nat
  thr : Prop

section
variable {K V : Type}

/-- A flyweight with triple `b` may be the result of a creation from `src` if the variables are those of `w`: its key is equivalent to the one asked for, it is made
from some source, and it has the address of those flyweights whose key is equivalent, which are the same in all respects.  (No code of its own: used
in statements and proofs.) -/
structure Fits (C : Cfg K V) (w : Store K V) (src : Src K V) (b : Bind K V) : Prop where
  key : C.keq b.key (C.sp.key0 src) = true
  made : Client.Made C.sp b
  addr : ∀ y c, w y = some c → (c.addr = b.addr ↔ C.keq c.key b.key = true)
  same : ∀ y c, w y = some c → c.addr = b.addr → c = b

/-- Outcome of an operation, and the variables afterwards.  `fail`: an operation of the user throws; `b`: the triple of the new flyweight.  Invalid operations
are skipped.  (No code of its own: used in statements and proofs.) -/
def act (C : Cfg K V) (b : Option (Bind K V)) (fail : Bool) (w : Store K V) : Op K V → Out K V × Store K V
  | .init => (.done, w)
  | .make x src => match w x, C.sp.supports src with
    | none, true => if fail then (.threw, w) else (.done, upd w x b)
    | _, _ => (.skipped, w)
  | .assignVal x src => match w x, C.sp.supports src with
    | some _, true => if fail then (.threw, w) else (.done, upd w x b)
    | _, _ => (.skipped, w)
  | .copy x y | .move x y => match w x, w y with
    | none, some c => (.done, upd w x (some c))
    | _, _ => (.skipped, w)
  | .assign x y => match w x, w y with
    | some _, some c => (.done, upd w x (some c))
    | _, _ => (.skipped, w)
  | .swap x y => match w x, w y with
    | some c, some d => (.done, upd (upd w x (some d)) y (some c))
    | _, _ => (.skipped, w)
  | .destroy x => match w x with
    | some _ => (.done, upd w x none)
    | none => (.skipped, w)
  | .get x => match w x with
    | some c => (.val c.addr c.val, w)
    | none => (.skipped, w)
  | .getKey x => match w x with
    | some c => (.key c.key, w)
    | none => (.skipped, w)
  | .eq x y => match w x, w y with
    | some c, some d => (.bool (C.keq c.key d.key), w)
    | _, _ => (.skipped, w)
  | .hash x => match w x with
    | some c => (.num (C.hp c.addr), w)
    | none => (.skipped, w)

/-- What `act` may be given: an operation throws only if an operation of the user may, and what is created fits.  (No code of its own: used in statements and proofs.) -/
structure Allowed (C : Cfg K V) (w : Store K V) (o : Op K V) (b : Option (Bind K V)) (fail : Bool) : Prop where
  throws : (act C b fail w o).1 = .threw → C.thr
  fits : (act C b fail w o).1 = .done → ∀ src, o.creates = some src → ∃ c, b = some c ∧ Fits C w src c

end

/-- Replace one element of a family.  (No code of its own.) -/
def put {ι : Type} [DecidableEq ι] {β : ι → Type} (f : (i : ι) → β i) (i : ι) (b : β i) : (j : ι) → β j := fun j =>
  if h : j = i then h ▸ b else f j

section
variable {ι : Type} [DecidableEq ι] {β : ι → Type}

@[simp] theorem put_same (f : (i : ι) → β i) (i : ι) (b : β i) : put f i b i = b := by simp [put]

theorem put_ne (f : (i : ι) → β i) {i j : ι} (b : β i) (h : j ≠ i) : put f i b j = f j := by simp [put, h]

theorem put_self (f : (i : ι) → β i) (i : ι) : put f i (f i) = f := by
  funext j
  by_cases h : j = i
  · subst h; simp
  · exact put_ne f _ h

theorem put_put (f : (i : ι) → β i) (i : ι) (a b : β i) : put (put f i a) i b = put f i b := by
  funext j
  by_cases h : j = i
  · subst h; simp
  · simp [put_ne _ _ h]

end

namespace Session
variable {ι : Type} [DecidableEq ι] {K V : ι → Type} {α β : Type}

/-- Variables of all types.  (No code of its own: used in statements and proofs.) -/
abbrev Vars (K V : ι → Type) := (i : ι) → Store (K i) (V i)

/-- A possible run of a program.  (No code of its own: used in statements and proofs.) -/
inductive Runs (C : (i : ι) → Cfg (K i) (V i)) : Session ι K V α → Vars K V → α → Vars K V → Prop
  | ret (a w) : Runs C (.ret a) w a w
  | op (i o k w b fail a w') : Allowed (C i) (w i) o b fail →
      Runs C (k (act (C i) b fail (w i) o).1) (put w i (act (C i) b fail (w i) o).2) a w' → Runs C (.op i o k) w a w'
  | user (i k w fail a w') : (fail = true → (C i).thr) → Runs C (k fail) w a w' → Runs C (.user i k) w a w'

/-- All possible runs of a program end well.  (No code of its own: used in statements and proofs.) -/
def Sat (C : (i : ι) → Cfg (K i) (V i)) : Session ι K V α → Vars K V → (α → Vars K V → Prop) → Prop
  | .ret a, w, Q => Q a w
  | .op i o k, w, Q => ∀ b fail, Allowed (C i) (w i) o b fail →
      Sat C (k (act (C i) b fail (w i) o).1) (put w i (act (C i) b fail (w i) o).2) Q
  | .user i k, w, Q => ∀ fail, (fail = true → (C i).thr) → Sat C (k fail) w Q

variable {C : (i : ι) → Cfg (K i) (V i)}

theorem Runs.sat {p : Session ι K V α} {w w' : Vars K V} {a : α} (h : Runs C p w a w') {Q : α → Vars K V → Prop} (hQ : Sat C p w Q) :
    Q a w' := by
  induction h with
  | ret => exact hQ
  | op i o k w b fail a w' ha _ ih => exact ih (hQ b fail ha)
  | user i k w fail a w' hf _ ih => exact ih (hQ fail hf)

theorem Sat.bind {p : Session ι K V α} {f : α → Session ι K V β} {w : Vars K V} {Q : β → Vars K V → Prop}
    (h : Sat C p w fun a w' => Sat C (f a) w' Q) : Sat C (p.bind f) w Q := by
  induction p generalizing w with
  | ret a => exact h
  | op i o k ih => exact fun b fail ha => ih _ (h b fail ha)
  | user i k ih => exact fun fail hf => ih _ (h fail hf)

theorem Sat.mono {p : Session ι K V α} {w : Vars K V} {Q Q' : α → Vars K V → Prop} (h : Sat C p w Q) (hQ : ∀ a w, Q a w → Q' a w) :
    Sat C p w Q' := by
  induction p generalizing w with
  | ret a => exact hQ _ _ h
  | op i o k ih => exact fun b fail ha => ih _ (h b fail ha)
  | user i k ih => exact fun fail hf => ih _ (h fail hf)

end Session

/-! ## Implementations -/

/-- Something that performs the operations of one flyweight type: `none` is undefined behaviour; invalid operations are skipped, exceptions are outcomes.
(No code of its own: used in statements and proofs.) -/
structure Engine (K V : Type) where
  σ : Type
  step : Op K V → σ → Option (Out K V × σ)
  user : σ → Bool × σ

/-- An engine whose states in relation `R` to variables do what `act` allows.  (No code of its own: used in statements and proofs.) -/
structure Engine.Sound {K V : Type} (E : Engine K V) (C : Cfg K V) (R : E.σ → Store K V → Prop) : Prop where
  step : ∀ o s w, R s w → ∃ out s' b fail, E.step o s = some (out, s') ∧ Allowed C w o b fail ∧ (act C b fail w o).1 = out ∧
    R s' (act C b fail w o).2
  user : ∀ s w, R s w → ((E.user s).1 = true → C.thr) ∧ R (E.user s).2 w

namespace Session
variable {ι : Type} [DecidableEq ι] {K V : ι → Type} {α : Type}

/-- Run a program.  (No code of its own: used in statements and proofs.) -/
def run (E : (i : ι) → Engine (K i) (V i)) : Session ι K V α → ((i : ι) → (E i).σ) → Option (α × ((i : ι) → (E i).σ))
  | .ret a, s => some (a, s)
  | .op i o k, s => match (E i).step o (s i) with
    | some (out, s') => (k out).run E (put s i s')
    | none => none
  | .user i k, s => (k ((E i).user (s i)).1).run E (put s i ((E i).user (s i)).2)

/-- A sound engine for each type: every program has a possible run. -/
theorem run_sound {E : (i : ι) → Engine (K i) (V i)} {C : (i : ι) → Cfg (K i) (V i)} {R : (i : ι) → (E i).σ → Store (K i) (V i) → Prop}
    (hE : ∀ i, (E i).Sound (C i) (R i)) (p : Session ι K V α) {s : (i : ι) → (E i).σ} {w : Vars K V} (h : ∀ i, R i (s i) (w i)) :
    ∃ a s' w', p.run E s = some (a, s') ∧ Runs C p w a w' ∧ ∀ i, R i (s' i) (w' i) := by
  induction p generalizing s w with
  | ret a => exact ⟨a, s, w, rfl, .ret a w, h⟩
  | op i o k ih =>
    obtain ⟨out, t, b, fail, e, ha, h1, h2⟩ := (hE i).step o (s i) (w i) (h i)
    have h' : ∀ j, R j (put s i t j) (put w i (act (C i) b fail (w i) o).2 j) := by
      intro j
      by_cases hj : j = i
      · subst hj; simpa using h2
      · rw [put_ne _ _ hj, put_ne _ _ hj]; exact h j
    obtain ⟨a, s', w', g1, g2, g3⟩ := ih out h'
    refine ⟨a, s', w', ?_, .op i o k w b fail a w' ha (h1.symm ▸ g2), g3⟩
    simp only [run, e]
    exact g1
  | user i k ih =>
    obtain ⟨h1, h2⟩ := (hE i).user (s i) (w i) (h i)
    have h' : ∀ j, R j (put s i ((E i).user (s i)).2 j) (w j) := by
      intro j
      by_cases hj : j = i
      · subst hj; simpa using h2
      · rw [put_ne _ _ hj]; exact h j
    obtain ⟨a, s', w', g1, g2, g3⟩ := ih _ h'
    exact ⟨a, s', w', g1, .user i k w _ a w' h1 g2, g3⟩

end Session
end Verif

import Verif.Transparent

/-!
# Programs that end at the first exception

Statements of programs in the sense of `Transparent`, and what they do with plain
variables.
-/

set_option autoImplicit false

namespace Verif.Client
variable {T : Type}

/-- A program that ends with a result, or without one because of an exception, which nobody catches.  (The user's program, no code of
the library.) -/
abbrev End (T α : Type) := Prog T T (Option α)

/-- A statement followed by the rest of the program; an exception ends the program (the programs modelled have no handler). -/
def stmt {α : Type} (o : Op T T) (k : End T α) : End T α := .op o fun r => match r with
  | .threw => .ret none
  | _ => k

/-- `get()`, followed by the rest of the program.  (The user's program, no code of the library.) -/
def reading {α : Type} (x : Nat) (k : T → End T α) : End T α := .op (.get x) fun r => match r with
  | .val v => k v
  | _ => .ret none

/-- `==` of two flyweights.  (The user's program, no code of the library.) -/
def equal {α : Type} (x y : Nat) (k : Bool → End T α) : End T α := .op (.eq x y) fun r => match r with
  | .bool b => k b
  | _ => .ret none

section
variable {α : Type} [DecidableEq T] {thr : Prop} {w w' : Nat → Option T} {r : Option α}

/-- Runs with plain variables.  (No code of its own: used in statements and proofs.) -/
abbrev Runs {α : Type} (thr : Prop) (p : End T α) (w : Nat → Option T) (r : Option α) (w' : Nat → Option T) : Prop :=
  Prog.Plain (SrcSpec.default T) id thr p w r w'

/-- The program has ended with an exception.  (No code of its own: used in statements and proofs.) -/
def Died {α : Type} (thr : Prop) (r : Option α) : Prop := r = none ∧ thr

theorem run_make {x : Nat} {v : T} {src : Src T T} {k : End T α} (h : Runs thr (stmt (.make x src) k) w r w')
    (hx : w x = none) (hv : (SrcSpec.default T).key0 src = v) : Died thr r ∨ Runs thr k (upd w x (some v)) r w' := by
  subst hv
  cases h with
  | op _ _ _ fail _ _ hf h =>
    cases fail with
    | true =>
      simp only [Prog.plainStep, hx, SrcSpec.default, if_true] at h
      cases h
      exact .inl ⟨rfl, hf rfl⟩
    | false =>
      have e : Prog.plainStep (SrcSpec.default T) id false w (.make x src) =
          (.done, upd w x (some ((SrcSpec.default T).key0 src))) := by
        simp [Prog.plainStep, hx, SrcSpec.default]
      rw [e] at h
      exact .inr h

theorem run_assignVal {x : Nat} {v d : T} {k : End T α} (h : Runs thr (stmt (.assignVal x (.copy v)) k) w r w')
    (hx : w x = some d) : Died thr r ∨ Runs thr k (upd w x (some v)) r w' := by
  cases h with
  | op _ _ _ fail _ _ hf h =>
    cases fail with
    | true =>
      simp only [Prog.plainStep, hx, SrcSpec.default, if_true] at h
      cases h
      exact .inl ⟨rfl, hf rfl⟩
    | false =>
      have e : Prog.plainStep (SrcSpec.default T) id false w (.assignVal x (.copy v)) = (.done, upd w x (some v)) := by
        simp [Prog.plainStep, hx, SrcSpec.default]
      rw [e] at h
      exact .inr h

theorem run_copy {x y : Nat} {v : T} {k : End T α} (h : Runs thr (stmt (.copy x y) k) w r w')
    (hx : w x = none) (hy : w y = some v) : Runs thr k (upd w x (some v)) r w' := by
  cases h with
  | op _ _ _ fail _ _ hf h => simpa only [Prog.plainStep, hx, hy] using h

theorem run_assign {x y : Nat} {v d : T} {k : End T α} (h : Runs thr (stmt (.assign x y) k) w r w')
    (hx : w x = some d) (hy : w y = some v) : Runs thr k (upd w x (some v)) r w' := by
  cases h with
  | op _ _ _ fail _ _ hf h => simpa only [Prog.plainStep, hx, hy] using h

theorem run_destroy {x : Nat} {d : T} {k : End T α} (h : Runs thr (stmt (.destroy x) k) w r w')
    (hx : w x = some d) : Runs thr k (upd w x none) r w' := by
  cases h with
  | op _ _ _ fail _ _ hf h => simpa only [Prog.plainStep, hx] using h

theorem run_reading {x : Nat} {v : T} {k : T → End T α} (h : Runs thr (reading x k) w r w') (hx : w x = some v) :
    Runs thr (k v) w r w' := by
  cases h with
  | op _ _ _ fail _ _ hf h => simpa only [Prog.plainStep, hx, id] using h

theorem run_equal {x y : Nat} {v d : T} {k : Bool → End T α} (h : Runs thr (equal x y k) w r w') (hx : w x = some v)
    (hy : w y = some d) : Runs thr (k (v == d)) w r w' := by
  cases h with
  | op _ _ _ fail _ _ hf h => simpa only [Prog.plainStep, hx, hy] using h

theorem upd_get {α : Type} (g : Nat → α) (x : Nat) (a : α) (y : Nat) : upd g x a y = if y = x then a else g y := rfl

end
end Verif.Client

import Verif.Cpp

/-!
# Temporary keys made while loading

Models /repo/include/boost/flyweight/detail/archive_constructed.hpp and its use in
/repo/include/boost/flyweight/serialize.hpp:82-86.
-/

set_option autoImplicit false

namespace Verif.Temp

/-- The storage of an `archive_constructed`,
/repo/include/boost/flyweight/detail/archive_constructed.hpp:64-69: whether there is an object, and how many
times one has been constructed and destroyed there. -/
structure Slot where
  alive : Bool
  made : Nat
  dest : Nat
  deriving DecidableEq

/-- Storage of all the `archive_constructed` objects there have been, and the rest of
the state.  Models the local variables of /repo/include/boost/flyweight/serialize.hpp:80-90 and
their storage, /repo/include/boost/flyweight/detail/archive_constructed.hpp:31-71. -/
structure St (σ : Type) where
  slots : List Slot
  usr : σ

variable {σ : Type}

/-- Code that does not access the storage: the user's serialization functions, the archive, the
constructor of the flyweight.  (The user's.)  Called from
/repo/include/boost/flyweight/serialize.hpp:80-90. -/
def lift (m : M σ Unit) : M (St σ) Unit := fun s => match m s.usr with
  | .ok a u => .ok a { s with usr := u }
  | .exc u => .exc { s with usr := u }
  | .ub => .ub

/-- An object has been constructed in the storage, by `load_construct_data_adl`,
/repo/include/boost/flyweight/detail/archive_constructed.hpp:34, 48; if there is one already, this is undefined
behaviour. -/
def made (i : Nat) : M (St σ) Unit := fun s => match s.slots[i]? with
  | some ⟨false, m, d⟩ => .ok () { s with slots := s.slots.set i ⟨true, m + 1, d⟩ }
  | _ => .ub

/-- `(&get())->~T()`, /repo/include/boost/flyweight/detail/archive_constructed.hpp:39, 53, 61; undefined behaviour if
there is no object. -/
def destroy (i : Nat) : M (St σ) Unit := fun s => match s.slots[i]? with
  | some ⟨true, m, d⟩ => .ok () { s with slots := s.slots.set i ⟨false, m, d + 1⟩ }
  | _ => .ub

/-- `get()` used as an object, /repo/include/boost/flyweight/detail/archive_constructed.hpp:36, 50 and
/repo/include/boost/flyweight/serialize.hpp:85; undefined behaviour if there is none. -/
def touch (i : Nat) : M (St σ) Unit := fun s => match s.slots[i]? with
  | some ⟨true, _, _⟩ => .ok () s
  | _ => .ub

/-- New storage: the declaration in /repo/include/boost/flyweight/serialize.hpp:83-84. -/
def fresh : M (St σ) Nat := fun s => .ok s.slots.length { s with slots := s.slots ++ [⟨false, 0, 0⟩] }

/-- The constructors, /repo/include/boost/flyweight/detail/archive_constructed.hpp:31-57: `c` is what
`load_construct_data_adl` does, `r` what reading from the archive does. -/
def ctor (i : Nat) (c r : M (St σ) Unit) : M (St σ) Unit := do
  c
  made i
  M.onExc (do touch i; r) (destroy i)

/-- The destructor, /repo/include/boost/flyweight/detail/archive_constructed.hpp:59-62. -/
def dtor (i : Nat) : M (St σ) Unit := destroy i

/-- The block in `load`, /repo/include/boost/flyweight/serialize.hpp:82-86: `u` is
`hlp.push_back(flyweight(k.get()))`. -/
def block (c r u : M (St σ) Unit) : M (St σ) Unit := do
  let i ← fresh
  ctor i c r
  M.scope (do touch i; u) (dtor i)

/-- Programs that load: other code, sequences, and blocks of `load`, nested in the user's
functions called in them.  Calls of /repo/include/boost/flyweight/serialize.hpp:65-91 by the
user's code. -/
inductive Prog (σ : Type) where
  | act (m : M σ Unit)
  | seq (p q : Prog σ)
  | load (c r u : Prog σ)

/-- Execution.  (The user's code calling `load`.) -/
def exec : Prog σ → M (St σ) Unit
  | .act m => lift m
  | .seq p q => do exec p; exec q
  | .load c r u => block (exec c) (exec r) (exec u)

/-! ## Lemmas -/

/-- The user's code has no undefined behaviour of its own.  (No code of its own: used in
statements and proofs.) -/
def Prog.Safe : Prog σ → Prop
  | .act m => ∀ s, m s ≠ .ub
  | .seq p q => p.Safe ∧ q.Safe
  | .load c r u => c.Safe ∧ r.Safe ∧ u.Safe

/-- No object is left: there was one, which has been destroyed once, or none.  (No code of its
own: used in statements and proofs.) -/
def Slot.Fin (x : Slot) : Prop := x = ⟨false, 1, 1⟩ ∨ x = ⟨false, 0, 0⟩

/-- The storage there was is as it was, and that made since is done with.  (No code of its own:
used in statements and proofs.) -/
def Since (l : List Slot) (s : St σ) : Prop := ∃ m, s.slots = l ++ m ∧ ∀ x ∈ m, x.Fin

/-- As above, the first of them being in state `x`.  (No code of its own: used in statements and
proofs.) -/
def With (l : List Slot) (x : Slot) (s : St σ) : Prop := ∃ m, s.slots = l ++ x :: m ∧ ∀ x ∈ m, x.Fin

theorem With.get {l : List Slot} {x : Slot} {s : St σ} (h : With l x s) : s.slots[l.length]? = some x := by
  obtain ⟨m, h1, _⟩ := h
  rw [h1]
  simp

theorem With.set {l : List Slot} {x : Slot} {s : St σ} (h : With l x s) (y : Slot) :
    With l y { s with slots := s.slots.set l.length y } := by
  obtain ⟨m, h1, h2⟩ := h
  refine ⟨m, ?_, h2⟩
  rw [h1]
  simp

theorem With.fin {l : List Slot} {x : Slot} {s : St σ} (h : With l x s) (hx : x.Fin) : Since l s := by
  obtain ⟨m, h1, h2⟩ := h
  refine ⟨x :: m, h1, fun y hy => ?_⟩
  rcases List.mem_cons.1 hy with rfl | hy
  · exact hx
  · exact h2 y hy

/-- Code that leaves the storage there was alone does so with one more in it. -/
theorem with_of_since {p : M (St σ) Unit} (h : ∀ l, Triple (fun s => s.slots = l) p (fun _ => Since l) (Since l))
    (l : List Slot) (x : Slot) : Triple (With l x) p (fun _ => With l x) (With l x) := by
  rintro s ⟨m, h1, h2⟩
  have := h s.slots s rfl
  have key : ∀ s' : St σ, Since s.slots s' → With l x s' := by
    rintro s' ⟨m', h3, h4⟩
    refine ⟨m ++ m', by rw [h3, h1]; simp, fun y hy => ?_⟩
    rcases List.mem_append.1 hy with hy | hy
    · exact h2 y hy
    · exact h4 y hy
  cases hp : p s <;> rw [hp] at this <;> simp only at this ⊢
  · exact key _ this
  · exact key _ this

theorem since_of_since {p : M (St σ) Unit} (h : ∀ l, Triple (fun s => s.slots = l) p (fun _ => Since l) (Since l))
    (l : List Slot) : Triple (Since l) p (fun _ => Since l) (Since l) := by
  rintro s ⟨m, h1, h2⟩
  have := h s.slots s rfl
  have key : ∀ s' : St σ, Since s.slots s' → Since l s' := by
    rintro s' ⟨m', h3, h4⟩
    refine ⟨m ++ m', by rw [h3, h1]; simp, fun y hy => ?_⟩
    rcases List.mem_append.1 hy with hy | hy
    · exact h2 y hy
    · exact h4 y hy
  cases hp : p s <;> rw [hp] at this <;> simp only at this ⊢
  · exact key _ this
  · exact key _ this

theorem exec_since (p : Prog σ) (hp : p.Safe) : ∀ l, Triple (fun s => s.slots = l) (exec p) (fun _ => Since l) (Since l) := by
  induction p with
  | act m =>
    intro l s hs
    have := hp s.usr
    simp only [exec, lift]
    cases hm : m s.usr with
    | ok a u => exact ⟨[], by simp [hs], fun x hx => (by cases hx)⟩
    | exc u => exact ⟨[], by simp [hs], fun x hx => (by cases hx)⟩
    | ub => exact absurd hm this
  | seq p q ih1 ih2 =>
    intro l
    exact Triple.bind (ih1 hp.1 l) fun _ => since_of_since (ih2 hp.2) l
  | load c r u ih1 ih2 ih3 =>
    intro l s hs
    subst hs
    have h0 : With s.slots ⟨false, 0, 0⟩ { s with slots := s.slots ++ [⟨false, 0, 0⟩] } :=
      ⟨[], rfl, fun x hx => (by cases hx)⟩
    simp only [exec, block, ctor, bind, M.bind, fresh]
    have h1 := with_of_since (ih1 hp.1) s.slots ⟨false, 0, 0⟩ _ h0
    cases hc : exec c { s with slots := s.slots ++ [⟨false, 0, 0⟩] } with
    | ub => rw [hc] at h1; exact h1
    | exc s1 => rw [hc] at h1; exact h1.fin (.inr rfl)
    | ok a s1 =>
      rw [hc] at h1
      dsimp only at h1 ⊢
      have h2 := h1.set ⟨true, 1, 0⟩
      generalize hs2 : ({ s1 with slots := s1.slots.set s.slots.length ⟨true, 1, 0⟩ } : St σ) = s2 at h2
      have hm : made s.slots.length s1 = .ok () s2 := by
        simp only [made, h1.get, hs2, Nat.zero_add]
      rw [hm]
      have hdes : ∀ {s' : St σ}, With s.slots ⟨true, 1, 0⟩ s' →
          ∃ s'', destroy s.slots.length s' = .ok () s'' ∧ Since s.slots s'' := by
        intro s' h
        exact ⟨_, by simp only [destroy, h.get], (h.set ⟨false, 1, 0 + 1⟩).fin (.inl rfl)⟩
      have htouch : ∀ {s' : St σ}, With s.slots ⟨true, 1, 0⟩ s' → touch s.slots.length s' = .ok () s' := by
        intro s' h
        simp only [touch, h.get]
      simp only [M.onExc, M.bind, htouch h2]
      have h3 := with_of_since (ih2 hp.2.1) s.slots ⟨true, 1, 0⟩ _ h2
      cases hr : exec r s2 with
      | ub => rw [hr] at h3; exact h3
      | exc s3 =>
        rw [hr] at h3
        obtain ⟨s4, h4, h5⟩ := hdes h3
        dsimp only
        rw [h4]
        exact h5
      | ok a s3 =>
        rw [hr] at h3
        dsimp only at h3 ⊢
        simp only [M.scope, M.bind, htouch h3, dtor]
        have h6 := with_of_since (ih3 hp.2.2) s.slots ⟨true, 1, 0⟩ _ h3
        cases hu : exec u s3 with
        | ub => rw [hu] at h6; exact h6
        | exc s4 =>
          rw [hu] at h6
          obtain ⟨s5, h7, h8⟩ := hdes h6
          dsimp only
          rw [h7]
          exact h8
        | ok a s4 =>
          rw [hu] at h6
          obtain ⟨s5, h7, h8⟩ := hdes h6
          dsimp only
          rw [h7]
          exact h8

end Verif.Temp

/-!
# C++ effects

A computation over a state `σ` either returns normally, leaves by an exception,
or has undefined behaviour.  Undefined behaviour is an outcome of its own: a
theorem that a computation is not `ub` is a theorem about the code.
-/

set_option autoImplicit false

namespace Verif

/-- Outcome of a C++ statement.  Models the two ways control leaves a C++
block (normal exit, exception, cf. the `BOOST_TRY`/`BOOST_CATCH` blocks in
/repo/include/boost/flyweight/detail/flyweight_core.hpp:105-115) plus
undefined behaviour.  Simplification: the exception object itself is not
represented, as the library only rethrows. -/
inductive Res (σ α : Type) where
  | ok (a : α) (s : σ)
  | exc (s : σ)
  | ub

/-- A C++ computation that may read and write the state `σ`.
(Notation for the function bodies modelled elsewhere; no code of its own.)  (No code of its
own.) -/
def M (σ α : Type) := σ → Res σ α

namespace M

variable {σ α β : Type}

/-- `return a`. (No code of its own.) -/
def ret (a : α) : M σ α := fun s => .ok a s

/-- Statement sequencing; exceptions and undefined behaviour skip the rest.
(No code of its own.) -/
def bind (m : M σ α) (f : α → M σ β) : M σ β := fun s =>
  match m s with
  | .ok a s' => f a s'
  | .exc s' => .exc s'
  | .ub => .ub

instance : Monad (M σ) where
  pure := ret
  bind := bind

/-- Undefined behaviour. (No code of its own.) -/
def undef : M σ α := fun _ => .ub

/-- Read the state. (No code of its own.) -/
def read : M σ σ := fun s => .ok s s

/-- Modify the state. (No code of its own.) -/
def update (f : σ → σ) : M σ Unit := fun s => .ok () (f s)

/-- A scope with a destructor `c` (RAII): `c` runs on normal exit and during
unwinding.  An exception leaving a destructor during unwinding would call
`std::terminate`; here it is `ub`.  Models e.g. the scope of
`lock_type lock(mutex())`,
/repo/include/boost/flyweight/detail/flyweight_core.hpp:265. -/
def scope (m : M σ α) (c : M σ Unit) : M σ α := fun s =>
  match m s with
  | .ok a s' => match c s' with
    | .ok _ s'' => .ok a s''
    | .exc s'' => .exc s''
    | .ub => .ub
  | .exc s' => match c s' with
    | .ok _ s'' => .exc s''
    | .exc _ => .ub
    | .ub => .ub
  | .ub => .ub

/-- `try{m}catch(...){c; throw;}`,
/repo/include/boost/flyweight/detail/flyweight_core.hpp:107-115. -/
def onExc (m : M σ α) (c : M σ Unit) : M σ α := fun s =>
  match m s with
  | .ok a s' => .ok a s'
  | .exc s' => match c s' with
    | .ok _ s'' => .exc s''
    | .exc s'' => .exc s''
    | .ub => .ub
  | .ub => .ub

end M

/-! ## Hoare triples -/

section Triple
variable {σ α β : Type}

/-- From any state satisfying `P`, `m` has no undefined behaviour, and ends in
`Q` (normal exit) or `E` (exception).  (No code of its own: used in statements and proofs.) -/
def Triple (P : σ → Prop) (m : M σ α) (Q : α → σ → Prop) (E : σ → Prop) : Prop :=
  ∀ s, P s → match m s with
    | .ok a s' => Q a s'
    | .exc s' => E s'
    | .ub => False

theorem Triple.conseq {P P' : σ → Prop} {m : M σ α} {Q Q' : α → σ → Prop} {E E' : σ → Prop}
    (h : Triple P m Q E) (hP : ∀ s, P' s → P s) (hQ : ∀ a s, Q a s → Q' a s)
    (hE : ∀ s, E s → E' s) : Triple P' m Q' E' := by
  intro s hs
  have := h s (hP s hs)
  cases hm : m s <;> rw [hm] at this <;> simp only at this ⊢
  · exact hQ _ _ this
  · exact hE _ this

theorem Triple.bind {P : σ → Prop} {m : M σ α} {f : α → M σ β} {R : α → σ → Prop}
    {Q : β → σ → Prop} {E : σ → Prop}
    (h₁ : Triple P m R E) (h₂ : ∀ a, Triple (R a) (f a) Q E) :
    Triple P (m >>= f) Q E := by
  intro s hs
  show match M.bind m f s with | .ok a s' => Q a s' | .exc s' => E s' | .ub => False
  have h := h₁ s hs
  unfold M.bind
  cases hm : m s <;> rw [hm] at h <;> simp only at h ⊢
  · exact h₂ _ _ h
  · exact h

theorem Triple.ret {P : σ → Prop} {a : α} {Q : α → σ → Prop} {E : σ → Prop}
    (h : ∀ s, P s → Q a s) : Triple P (pure a) Q E := fun s hs => h s hs

theorem Triple.read {P : σ → Prop} {Q : σ → σ → Prop} {E : σ → Prop}
    (h : ∀ s, P s → Q s s) : Triple P M.read Q E := fun s hs => h s hs

theorem Triple.update {P : σ → Prop} {f : σ → σ} {Q : Unit → σ → Prop} {E : σ → Prop}
    (h : ∀ s, P s → Q () (f s)) : Triple P (M.update f) Q E := fun s hs => h s hs

theorem Triple.scope {P : σ → Prop} {m : M σ α} {c : M σ Unit} {R : α → σ → Prop}
    {RE : σ → Prop} {Q : α → σ → Prop} {E : σ → Prop}
    (h₁ : Triple P m R RE) (h₂ : ∀ a, Triple (R a) c (fun _ => Q a) (fun _ => False))
    (h₃ : Triple RE c (fun _ => E) (fun _ => False)) :
    Triple P (M.scope m c) Q E := by
  intro s hs
  have h := h₁ s hs
  unfold M.scope
  cases hm : m s with
  | ok a s' =>
    rw [hm] at h
    have h' := h₂ a s' h
    cases hc : c s' <;> rw [hc] at h' <;> simp_all
  | exc s' =>
    rw [hm] at h
    have h' := h₃ s' h
    cases hc : c s' <;> rw [hc] at h' <;> simp_all
  | ub => rw [hm] at h; exact h

theorem Triple.onExc {P : σ → Prop} {m : M σ α} {c : M σ Unit}
    {RE : σ → Prop} {Q : α → σ → Prop} {E : σ → Prop}
    (h₁ : Triple P m Q RE) (h₃ : Triple RE c (fun _ => E) E) :
    Triple P (M.onExc m c) Q E := by
  intro s hs
  have h := h₁ s hs
  unfold M.onExc
  cases hm : m s with
  | ok a s' => rw [hm] at h; exact h
  | exc s' =>
    rw [hm] at h
    have h' := h₃ s' h
    cases hc : c s' <;> rw [hc] at h' <;> simp_all
  | ub => rw [hm] at h; exact h

/-- Fix the initial state of a triple. -/
theorem Triple.at {P : σ → Prop} {m : M σ α} {Q : α → σ → Prop} {E : σ → Prop}
    (h : ∀ s, P s → Triple (fun s' => s' = s) m Q E) : Triple P m Q E :=
  fun s hs => h s hs s rfl

theorem Triple.pull {p : Prop} {P : σ → Prop} {m : M σ α} {Q : α → σ → Prop} {E : σ → Prop}
    (h : p → Triple P m Q E) : Triple (fun s => p ∧ P s) m Q E :=
  fun s hs => h hs.1 s hs.2

end Triple

end Verif

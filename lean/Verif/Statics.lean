import Verif.Api

/-!
# Static initialization and destruction

Models `init` and `static_initializer` in
/repo/include/boost/flyweight/detail/flyweight_core.hpp:153-163, 314-351, the holder of
/repo/include/boost/flyweight/static_holder.hpp:28-39 and the lifetime of objects with static storage
duration: destroyed in the reverse order of the completion of their construction (a rule of
C++).  Any number of flyweight types, numbered, and of the program's static objects.
-/

set_option autoImplicit false

namespace Verif.Statics

/-- Objects with static storage duration: the factory (and mutex) of a type,
/repo/include/boost/flyweight/static_holder.hpp:33, and objects of the program. -/
inductive Obj where
  | holder (c : Nat)
  | user (x : Nat)
  deriving DecidableEq

/-- What a program does that matters here, in order:
* `init c`: calls `init()`, /repo/include/boost/flyweight/flyweight.hpp:181, constructs an `initializer`
  (183-189), or executes the dynamic initialization of `static_initializer`
  (/repo/include/boost/flyweight/detail/flyweight_core.hpp:323-329), which is at an unspecified place;
* `insert c x pre ds`: object `x` gets a new flyweight of type `c`, whose key or value contains flyweights (those contained
  in these included) of types `pre`, made before the call of `init()`, and `ds`, made after it;
* `use c x`: uses a flyweight of type `c` that `x` has;
* `built x`: the construction of static object `x` is complete (what its constructor does comes before). -/
inductive Ev where
  | init (c : Nat)
  | insert (c x : Nat) (pre ds : List Nat)
  | use (c x : Nat)
  | built (x : Nat)
  deriving DecidableEq

/-- State: for each type `static_initializer`, `static_factory_ptr` (set or not; `static_mutex_ptr` is set with
it) and how many factories have been constructed; static objects constructed, the last one
first; the types of the flyweights that each object of the program has; the types of the
flyweights contained in values that stay in the factory until its destruction.  (No code of its
own: used in statements and proofs.) -/
structure St where
  flag : Nat → Bool
  ptr : Nat → Bool
  built : Nat → Nat
  up : List Obj
  holds : Nat → List Nat
  inner : Nat → List Nat

/-- Replace a value of a function. (Helper, no code of its own.) -/
def set {α : Type} (f : Nat → α) (c : Nat) (a : α) : Nat → α := fun i => if i = c then a else f i

/-- Before dynamic initialization: /repo/include/boost/flyweight/detail/flyweight_core.hpp:333-351 (zero and
constant initialization). -/
def start : St := ⟨fun _ => false, fun _ => false, fun _ => 0, [], fun _ => [], fun _ => []⟩

/-- `holder_type::get()`, /repo/include/boost/flyweight/static_holder.hpp:31-35: the object is constructed
when control first passes through its declaration. -/
def get (c : Nat) (s : St) : St :=
  if s.built c = 0 then { s with built := set s.built c (s.built c + 1), up := .holder c :: s.up } else s

/-- `init()`, /repo/include/boost/flyweight/detail/flyweight_core.hpp:153-163. -/
def init (c : Nat) (s : St) : St :=
  if s.flag c then s
  else
    let s := get c s
    { s with ptr := set s.ptr c true, flag := set s.flag c true }

/-- `init()` of several types. (Helper, no code of its own.) -/
def inits (ds : List Nat) (s : St) : St := ds.foldl (fun s d => init d s) s

/-- One event; `none`: undefined behaviour (null pointer). `insert` constructs the key, or the value if it is
its own key (/repo/include/boost/flyweight/detail/flyweight_core.hpp:167-170), then calls `init()` and uses the
pointers (291-300), then may construct the value from the key (226-232).  With `no_tracking`
(/repo/include/boost/flyweight/no_tracking.hpp:27-40) the value stays in the factory; with
`refcounted` it is destroyed with the last flyweight.  Simplification: `x` is taken to be the one that
destroys the value, and flyweights are not taken away from objects. -/
def step (trk : Nat → Tracking) : Ev → St → Option St
  | .init c, s => some (init c s)
  | .insert c x pre ds, s =>
    let s := init c (inits pre s)
    if s.ptr c then
      let s := inits ds s
      some (match trk c with
        | .refcounted => { s with holds := set s.holds x (c :: pre ++ ds ++ s.holds x) }
        | .noTracking =>
          { s with holds := set s.holds x (c :: s.holds x), inner := set s.inner c (pre ++ ds ++ s.inner c) })
    else none
  | .use c x, s => if c ∈ s.holds x then if s.ptr c then some s else none else some s
  | .built x, s => some { s with up := .user x :: s.up }

/-- A program. (The user's, no code of the library.) -/
def exec (trk : Nat → Tracking) : List Ev → St → Option St
  | [], s => some s
  | e :: p, s => match step trk e s with
    | some s => exec trk p s
    | none => none

/-- Destroying a flyweight of type `c`: needs the factory with `refcounted`,
/repo/include/boost/flyweight/refcounted.hpp:130-135, but not with `no_tracking`. -/
def canDrop (trk : Nat → Tracking) (alive : Nat → Bool) (c : Nat) : Bool :=
  match trk c with
  | .refcounted => alive c
  | .noTracking => true

/-- Destruction of the static objects at program end; `none`: a flyweight was destroyed after its
factory.  (No code of its own: used in statements and proofs.) -/
def exit (trk : Nat → Tracking) (s : St) : List Obj → (Nat → Bool) → Option Unit
  | [], _ => some ()
  | .user x :: l, alive => if (s.holds x).all (canDrop trk alive) then exit trk s l alive else none
  | .holder c :: l, alive =>
    if (s.inner c).all (canDrop trk alive) then exit trk s l (set alive c false) else none

/-- End of the program.  (No code of its own: used in statements and proofs.) -/
def finish (trk : Nat → Tracking) (s : St) : Option Unit := exit trk s s.up s.flag

/-! ## Several threads calling `init()` -/

/-- Position of a thread in `init()`, /repo/include/boost/flyweight/detail/flyweight_core.hpp:153-163. -/
inductive Pc where
  | begin
  | got
  | fptr
  | mptr
  | passed
  deriving DecidableEq

/-- Shared state and positions; `built`: number of factories; the pointers refer to a
factory by its number.  (No code of its own: used in statements and proofs.) -/
structure TSt where
  flag : Bool
  fac : Option Nat
  mtx : Option Nat
  built : Nat
  pcs : List Pc

/-- One step of thread `t`.  The construction of the local static in
/repo/include/boost/flyweight/static_holder.hpp:33 is synchronised by the language (C++11).
Simplification: memory is sequentially consistent (the pointers are not atomic in the code, so that calls
of `init()` by several threads before static initialization ends are data races). -/
def tstep (t : Nat) (s : TSt) : Option TSt :=
  match s.pcs[t]? with
  | some .begin =>
    if s.flag then some { s with pcs := s.pcs.set t .passed }
    else some { s with built := if s.built = 0 then 1 else s.built, pcs := s.pcs.set t .got }
  | some .got => some { s with fac := some (s.built - 1), pcs := s.pcs.set t .fptr }
  | some .fptr => some { s with mtx := some (s.built - 1), pcs := s.pcs.set t .mptr }
  | some .mptr => some { s with flag := s.fac.isSome, pcs := s.pcs.set t .passed }
  | some .passed => none
  | none => none

/-- A schedule.  (No code of its own: used in statements and proofs.) -/
def trun : List Nat → TSt → TSt
  | [], s => s
  | t :: ts, s => trun ts ((tstep t s).getD s)

/-- `n` threads before the first call.  (No code of its own: used in statements and proofs.) -/
def tstart (n : Nat) : TSt := ⟨false, none, none, 0, List.replicate n .begin⟩

/-! ## Lemmas -/

theorem set_self {α : Type} (f : Nat → α) (c : Nat) (a : α) : set f c a c = a := by simp [set]

theorem set_ne {α : Type} (f : Nat → α) {c i : Nat} (a : α) (h : i ≠ c) : set f c a i = f i := by simp [set, h]

/-- There is a factory, once, iff initialized, and then the pointers are set.  (No code of its
own: used in statements and proofs.) -/
structure Inv (s : St) : Prop where
  ptr : ∀ c, s.ptr c = s.flag c
  built : ∀ c, s.built c = if s.flag c then 1 else 0
  up : ∀ c, s.up.count (.holder c) = s.built c
  holds : ∀ x c, c ∈ s.holds x → s.flag c = true
  inner : ∀ c d, d ∈ s.inner c → s.flag d = true

theorem inv_start : Inv start := by
  constructor <;> simp [start]

theorem inv_init {s : St} (h : Inv s) (c : Nat) : Inv (init c s) := by
  unfold init
  split
  · exact h
  · rename_i hf
    have hb : s.built c = 0 := by rw [h.built]; simp [hf]
    simp only [get, if_pos hb]
    constructor
    · intro i
      by_cases hi : i = c
      · subst hi; simp only [set_self]
      · simp only [set_ne _ _ hi]; exact h.ptr i
    · intro i
      by_cases hi : i = c
      · subst hi; simp [set_self, hb]
      · simp only [set_ne _ _ hi]; exact h.built i
    · intro i
      simp only [List.count_cons]
      by_cases hi : i = c
      · subst hi; simp [set_self, h.up]
      · have : ¬ (c = i) := fun h => hi h.symm
        simp only [set_ne _ _ hi, beq_iff_eq, Obj.holder.injEq, this, if_false, Nat.add_zero]
        exact h.up i
    · intro x i hi
      have := h.holds x i hi
      by_cases hi' : i = c
      · subst hi'; simp [set_self]
      · simp only [set_ne _ _ hi']; exact this
    · intro d i hi
      have := h.inner d i hi
      by_cases hi' : i = c
      · subst hi'; simp [set_self]
      · simp only [set_ne _ _ hi']; exact this

theorem init_flag (c : Nat) (s : St) : (init c s).flag c = true := by
  unfold init
  split
  · assumption
  · simp [set_self]

/-- What has been initialized and constructed remains so.  (No code of its own: used in
statements and proofs.) -/
structure Later (s s' : St) : Prop where
  flag : ∀ c, s.flag c = true → s'.flag c = true
  up : s.up <:+ s'.up

theorem Later.refl (s : St) : Later s s := ⟨fun _ h => h, List.suffix_refl _⟩

theorem Later.trans {s s' s'' : St} (h : Later s s') (h' : Later s' s'') : Later s s'' :=
  ⟨fun c hc => h'.flag c (h.flag c hc), h.up.trans h'.up⟩

theorem later_init (c : Nat) (s : St) : Later s (init c s) := by
  unfold init
  split
  · exact .refl s
  · constructor
    · intro i hi
      by_cases hc : i = c
      · subst hc; simp [set_self]
      · simp only [set_ne _ _ hc, get]
        split <;> exact hi
    · simp only [get]
      split
      · exact List.suffix_cons _ _
      · exact List.suffix_refl _

theorem init_holds (c : Nat) (s : St) : (init c s).holds = s.holds ∧ (init c s).inner = s.inner := by
  unfold init get
  split
  · exact ⟨rfl, rfl⟩
  · dsimp only
    split <;> exact ⟨rfl, rfl⟩

theorem inits_inv (ds : List Nat) : ∀ {s : St}, Inv s → Inv (inits ds s) ∧
    Later s (inits ds s) ∧ (∀ d ∈ ds, (inits ds s).flag d = true) := by
  induction ds with
  | nil => intro s h; exact ⟨h, .refl s, fun d hd => by cases hd⟩
  | cons d ds ih =>
    intro s h
    obtain ⟨h1, h2, h3⟩ := ih (inv_init h d)
    refine ⟨h1, (later_init d s).trans h2, fun e he => ?_⟩
    rcases List.mem_cons.1 he with rfl | he
    · exact h2.flag _ (init_flag _ s)
    · exact h3 e he

/-- The types an event initializes.  (No code of its own: used in statements and proofs.) -/
def Ev.inits : Ev → List Nat
  | .init c => [c]
  | .insert c _ pre ds => c :: pre ++ ds
  | .use _ _ => []
  | .built _ => []

theorem init_flag_iff (c d : Nat) (s : St) : (init c s).flag d = true ↔ s.flag d = true ∨ d = c := by
  unfold init get
  split
  · rename_i h
    constructor
    · exact .inl
    · rintro (h' | rfl)
      · exact h'
      · exact h
  · have : ∀ (f : Nat → Bool), set f c true d = true ↔ f d = true ∨ d = c := by
      intro f
      by_cases hd : d = c
      · subst hd; simp [set_self]
      · simp [set_ne _ _ hd, hd]
    dsimp only
    split <;> exact this _

theorem inits_flag_iff (ds : List Nat) : ∀ (d : Nat) (s : St), (inits ds s).flag d = true ↔ s.flag d = true ∨ d ∈ ds := by
  induction ds with
  | nil => intro d s; simp [inits]
  | cons e ds ih =>
    intro d s
    show (inits ds (init e s)).flag d = true ↔ _
    rw [ih, init_flag_iff, List.mem_cons, or_assoc]

theorem inits_holds (ds : List Nat) : ∀ (s : St), (inits ds s).holds = s.holds ∧ (inits ds s).inner = s.inner := by
  induction ds with
  | nil => intro s; exact ⟨rfl, rfl⟩
  | cons e ds ih =>
    intro s
    show (inits ds (init e s)).holds = _ ∧ (inits ds (init e s)).inner = _
    rw [(ih _).1, (ih _).2]
    exact init_holds e s

/-- What an event does.  (No code of its own: used in statements and proofs.) -/
structure Does (trk : Nat → Tracking) (e : Ev) (s s' : St) : Prop where
  inv : Inv s'
  flag : ∀ c, s'.flag c = true ↔ s.flag c = true ∨ c ∈ e.inits
  holds : ∀ x c, c ∈ s'.holds x ↔ c ∈ s.holds x ∨ ∃ d pre ds, e = .insert d x pre ds ∧
    (c = d ∨ trk d = .refcounted ∧ c ∈ pre ++ ds)
  inner : ∀ d c, c ∈ s'.inner d ↔ c ∈ s.inner d ∨ ∃ x pre ds, e = .insert d x pre ds ∧ trk d = .noTracking ∧ c ∈ pre ++ ds

theorem step_does (trk : Nat → Tracking) (e : Ev) {s : St} (h : Inv s) : ∃ s', step trk e s = some s' ∧ Does trk e s s' := by
  cases e with
  | init c =>
    refine ⟨_, rfl, inv_init h c, fun d => ?_, fun x d => ?_, fun x d => ?_⟩
    · rw [init_flag_iff]; simp [Ev.inits]
    · rw [(init_holds c s).1]; simp
    · rw [(init_holds c s).2]; simp
  | use c x =>
    have hd : Does trk (.use c x) s s :=
      ⟨h, fun d => by simp [Ev.inits], fun y d => by simp, fun y d => by simp⟩
    refine ⟨s, ?_, hd⟩
    simp only [step]
    by_cases hc : c ∈ s.holds x
    · rw [if_pos hc, if_pos (by rw [h.ptr]; exact h.holds x c hc)]
    · rw [if_neg hc]
  | built x =>
    refine ⟨_, rfl, ⟨h.ptr, h.built, fun c => ?_, h.holds, h.inner⟩, fun d => by simp [Ev.inits],
      fun y d => by simp, fun y d => by simp⟩
    simp only [List.count_cons]; simpa using h.up c
  | insert c x pre ds =>
    obtain ⟨g1, g2, g3⟩ := inits_inv pre h
    have h1 := inv_init g1 c
    have hp : (init c (inits pre s)).ptr c = true := by rw [h1.ptr]; exact init_flag c _
    obtain ⟨h2, h3, h4⟩ := inits_inv ds h1
    have hfl := h3.flag c (init_flag c _)
    have hpre : ∀ d ∈ pre, (inits ds (init c (inits pre s))).flag d = true :=
      fun d hd => h3.flag d ((later_init c _).flag d (g3 d hd))
    have hflag : ∀ d, (inits ds (init c (inits pre s))).flag d = true ↔ s.flag d = true ∨ d ∈ (Ev.insert c x pre ds).inits := by
      intro d
      rw [inits_flag_iff, init_flag_iff, inits_flag_iff]
      simp only [Ev.inits, List.cons_append, List.mem_cons, List.mem_append]
      constructor
      · rintro (((h | h) | h) | h)
        · exact .inl h
        · exact .inr (.inr (.inl h))
        · exact .inr (.inl h)
        · exact .inr (.inr (.inr h))
      · rintro (h | h | h | h)
        · exact .inl (.inl (.inl h))
        · exact .inl (.inr h)
        · exact .inl (.inl (.inr h))
        · exact .inr h
    have hh : (inits ds (init c (inits pre s))).holds = s.holds := by
      rw [(inits_holds ds _).1, (init_holds c _).1, (inits_holds pre _).1]
    have hin : (inits ds (init c (inits pre s))).inner = s.inner := by
      rw [(inits_holds ds _).2, (init_holds c _).2, (inits_holds pre _).2]
    simp only [step]
    rw [if_pos hp]
    generalize inits ds (init c (inits pre s)) = s2 at *
    cases ht : trk c with
    | refcounted =>
      refine ⟨_, rfl, ⟨h2.ptr, h2.built, h2.up, fun y d hd => ?_, h2.inner⟩, hflag, fun y d => ?_,
        fun y d => ?_⟩
      · by_cases hy : y = x
        · subst hy
          simp only [set_self, List.cons_append, List.mem_cons, List.mem_append] at hd
          rcases hd with rfl | (hd | hd) | hd
          · exact hfl
          · exact hpre d hd
          · exact h4 d hd
          · exact h2.holds _ d hd
        · simp only [set_ne _ _ hy] at hd
          exact h2.holds y d hd
      · by_cases hy : y = x
        · subst hy
          simp only [set_self, hh, List.cons_append, List.mem_cons, List.mem_append]
          constructor
          · rintro (rfl | (hd | hd) | hd)
            · exact .inr ⟨_, pre, ds, rfl, .inl rfl⟩
            · exact .inr ⟨c, pre, ds, rfl, .inr ⟨ht, .inl hd⟩⟩
            · exact .inr ⟨c, pre, ds, rfl, .inr ⟨ht, .inr hd⟩⟩
            · exact .inl hd
          · rintro (hd | ⟨d', pre', ds', he, hd⟩)
            · exact .inr (.inr hd)
            · cases he
              rcases hd with hd | ⟨_, hd⟩
              · exact .inl hd
              · exact .inr (.inl hd)
        · simp only [set_ne _ _ hy, hh]
          constructor
          · exact .inl
          · rintro (hd | ⟨d', pre', ds', he, hd⟩)
            · exact hd
            · cases he
              exact absurd rfl hy
      · simp only [hin]
        constructor
        · exact .inl
        · rintro (hd | ⟨d', pre', ds', he, hd⟩)
          · exact hd
          · cases he
            rw [ht] at hd
            cases hd.1
    | noTracking =>
      refine ⟨_, rfl, ⟨h2.ptr, h2.built, h2.up, fun y d hd => ?_, fun e d hd => ?_⟩, hflag, fun y d => ?_,
        fun y d => ?_⟩
      · by_cases hy : y = x
        · subst hy
          simp only [set_self] at hd
          rcases List.mem_cons.1 hd with rfl | hd
          · exact hfl
          · exact h2.holds _ d hd
        · simp only [set_ne _ _ hy] at hd
          exact h2.holds y d hd
      · by_cases he : e = c
        · subst he
          simp only [set_self, List.mem_append] at hd
          rcases hd with (hd | hd) | hd
          · exact hpre d hd
          · exact h4 d hd
          · exact h2.inner _ d hd
        · simp only [set_ne _ _ he] at hd
          exact h2.inner e d hd
      · by_cases hy : y = x
        · subst hy
          simp only [set_self, hh, List.mem_cons]
          constructor
          · rintro (rfl | hd)
            · exact .inr ⟨_, pre, ds, rfl, .inl rfl⟩
            · exact .inl hd
          · rintro (hd | ⟨d', pre', ds', he, hd⟩)
            · exact .inr hd
            · cases he
              rcases hd with hd | ⟨hd, _⟩
              · exact .inl hd
              · rw [ht] at hd; cases hd
        · simp only [set_ne _ _ hy, hh]
          constructor
          · exact .inl
          · rintro (hd | ⟨d', pre', ds', he, hd⟩)
            · exact hd
            · cases he
              exact absurd rfl hy
      · by_cases hy : y = c
        · subst hy
          simp only [set_self, hin, List.mem_append]
          constructor
          · rintro (hd | hd)
            · exact .inr ⟨x, pre, ds, rfl, ht, hd⟩
            · exact .inl hd
          · rintro (hd | ⟨d', pre', ds', he, hd⟩)
            · exact .inr hd
            · cases he
              exact .inl hd.2
        · simp only [set_ne _ _ hy, hin]
          constructor
          · exact .inl
          · rintro (hd | ⟨d', pre', ds', he, hd⟩)
            · exact hd
            · cases he
              exact absurd rfl hy

theorem exec_append (trk : Nat → Tracking) (p q : List Ev) : ∀ (s : St), exec trk (p ++ q) s = (exec trk p s).bind (exec trk q) := by
  induction p with
  | nil => intro s; rfl
  | cons e p ih =>
    intro s
    simp only [List.cons_append, exec]
    cases step trk e s with
    | none => rfl
    | some s' => exact ih s'

/-- What a program does. -/
theorem exec_does (trk : Nat → Tracking) (p : List Ev) : ∀ {s : St}, Inv s → ∃ s', exec trk p s = some s' ∧ Inv s' ∧
    (∀ c, s'.flag c = true ↔ s.flag c = true ∨ ∃ e ∈ p, c ∈ e.inits) ∧
    (∀ x c, c ∈ s'.holds x ↔ c ∈ s.holds x ∨ ∃ d pre ds, .insert d x pre ds ∈ p ∧
      (c = d ∨ trk d = .refcounted ∧ c ∈ pre ++ ds)) ∧
    (∀ d c, c ∈ s'.inner d ↔ c ∈ s.inner d ∨ ∃ x pre ds, .insert d x pre ds ∈ p ∧ trk d = .noTracking ∧ c ∈ pre ++ ds) := by
  induction p with
  | nil => intro s h; exact ⟨s, rfl, h, by simp, by simp, by simp⟩
  | cons e p ih =>
    intro s h
    obtain ⟨s1, h1, h2⟩ := step_does trk e h
    obtain ⟨s2, a1, a2, a3, a4, a5⟩ := ih h2.inv
    refine ⟨s2, by simp only [exec, h1]; exact a1, a2, fun c => ?_, fun x c => ?_, fun d c => ?_⟩
    · rw [a3, h2.flag]; simp [or_assoc]
    · rw [a4, h2.holds]
      constructor
      · rintro ((h | ⟨d, pre, ds, he, hc⟩) | ⟨d, pre, ds, he, hc⟩)
        · exact .inl h
        · exact .inr ⟨d, pre, ds, by simp [he], hc⟩
        · exact .inr ⟨d, pre, ds, by simp [he], hc⟩
      · rintro (h | ⟨d, pre, ds, he, hc⟩)
        · exact .inl (.inl h)
        · rcases List.mem_cons.1 he with he | he
          · exact .inl (.inr ⟨d, pre, ds, he.symm, hc⟩)
          · exact .inr ⟨d, pre, ds, he, hc⟩
    · rw [a5, h2.inner]
      constructor
      · rintro ((h | ⟨x, pre, ds, he, hc⟩) | ⟨x, pre, ds, he, hc⟩)
        · exact .inl h
        · exact .inr ⟨x, pre, ds, by simp [he], hc⟩
        · exact .inr ⟨x, pre, ds, by simp [he], hc⟩
      · rintro (h | ⟨x, pre, ds, he, hc⟩)
        · exact .inl (.inl h)
        · rcases List.mem_cons.1 he with he | he
          · exact .inl (.inr ⟨x, pre, ds, he.symm, hc⟩)
          · exact .inr ⟨x, pre, ds, he, hc⟩

theorem mem_up_iff {s : St} (h : Inv s) (c : Nat) : .holder c ∈ s.up ↔ s.flag c = true := by
  rw [← List.count_pos_iff, h.up, h.built]
  split <;> simp_all

/-- The static objects an event completes the construction of, or makes sure have been constructed, in order.
(No code of its own: used in statements and proofs.) -/
def Ev.order : Ev → List Obj
  | .init c => [.holder c]
  | .insert c _ pre ds => pre.map .holder ++ .holder c :: ds.map .holder
  | .use _ _ => []
  | .built x => [.user x]

/-- A factory is constructed only once.  (No code of its own: used in statements and proofs.) -/
def push (l : List Obj) : Obj → List Obj
  | .holder c => if .holder c ∈ l then l else .holder c :: l
  | .user x => .user x :: l

theorem init_up {s : St} (h : Inv s) (c : Nat) : (init c s).up = push s.up (.holder c) := by
  unfold init
  show _ = if .holder c ∈ s.up then s.up else .holder c :: s.up
  by_cases hf : s.flag c = true
  · rw [if_pos hf, if_pos ((mem_up_iff h c).2 hf)]
  · have hb : s.built c = 0 := by rw [h.built]; simp [hf]
    rw [if_neg hf, if_neg (fun hm => hf ((mem_up_iff h c).1 hm))]
    simp [get, hb]

theorem inits_up (ds : List Nat) : ∀ {s : St}, Inv s → (inits ds s).up = (ds.map Obj.holder).foldl push s.up := by
  induction ds with
  | nil => intro s h; rfl
  | cons d ds ih =>
    intro s h
    show (inits ds (init d s)).up = _
    rw [ih (inv_init h d), init_up h]
    rfl

theorem step_up (trk : Nat → Tracking) (e : Ev) {s s' : St} (h : Inv s) (he : step trk e s = some s') :
    s'.up = e.order.foldl push s.up := by
  cases e with
  | init c => cases he; exact init_up h c
  | use c x =>
    simp only [step] at he
    split at he
    · split at he
      · cases he; rfl
      · cases he
    · cases he; rfl
  | built x => cases he; rfl
  | insert c x pre ds =>
    obtain ⟨g1, _, _⟩ := inits_inv pre h
    have h1 := inv_init g1 c
    have hu : (inits ds (init c (inits pre s))).up = (Ev.insert c x pre ds).order.foldl push s.up := by
      rw [inits_up ds h1, init_up g1, inits_up pre h]
      simp [Ev.order]
    simp only [step] at he
    split at he
    · cases he
      cases trk c <;> exact hu
    · cases he

theorem exec_up (trk : Nat → Tracking) (p : List Ev) : ∀ {s s' : St}, Inv s → exec trk p s = some s' →
    s'.up = (p.flatMap Ev.order).foldl push s.up := by
  induction p with
  | nil => intro s s' h he; cases he; rfl
  | cons e p ih =>
    intro s s' h he
    obtain ⟨s1, h1, h2⟩ := step_does trk e h
    simp only [exec, h1] at he
    rw [ih h2.inv he, step_up trk e h h1]
    simp

theorem mem_push (os : List Obj) : ∀ (l : List Obj) (o : Obj), o ∈ os.foldl push l ↔ o ∈ l ∨ o ∈ os := by
  induction os with
  | nil => simp
  | cons a os ih =>
    intro l o
    have : o ∈ push l a ↔ o ∈ l ∨ o = a := by
      cases a with
      | user x => simp [push, or_comm]
      | holder c =>
        simp only [push]
        split
        · rename_i hm
          constructor
          · exact .inl
          · rintro (h | rfl)
            · exact h
            · exact hm
        · simp [or_comm]
    rw [List.foldl_cons, ih, this, List.mem_cons, or_assoc]

/-- Object `o'` was constructed before each construction of `o`.  (No code of its own: used in
statements and proofs.) -/
def Before (os : List Obj) (o' o : Obj) : Prop :=
  ∀ a b, os = a ++ o :: b → (∀ c, o = .holder c → o ∉ a) → o' ∈ a

theorem push_split (os : List Obj) (o' o : Obj) :
    (∀ l m, os.foldl push [] = l ++ o :: m → o' ∈ m) ↔ Before os o' o := by
  have key : ∀ n : Nat, ∀ os : List Obj, os.length = n →
      ((∀ l m, os.foldl push [] = l ++ o :: m → o' ∈ m) ↔ Before os o' o) := by
    intro n
    induction n with
    | zero =>
      intro os hn
      have : os = [] := List.length_eq_zero_iff.1 hn
      subst this
      simp [Before]
    | succ n ih =>
      intro os hn
      obtain ⟨q, e, rfl⟩ : ∃ q e, os = q ++ [e] := by
        rcases List.eq_nil_or_concat os with rfl | ⟨q, e, rfl⟩
        · simp at hn
        · exact ⟨q, e, by simp⟩
      have hi := ih q (by simpa using hn)
      -- splitting the longer sequence
      have hB : Before (q ++ [e]) o' o ↔ Before q o' o ∧ (o = e → (∀ c, o = .holder c → o ∉ q) → o' ∈ q) := by
        constructor
        · intro h
          refine ⟨fun a b hq ha => h a (b ++ [e]) (by rw [hq]; simp) ha, fun heq ha => h q [] (by rw [heq]) ha⟩
        · rintro ⟨h1, h2⟩ a b hq ha
          rcases List.eq_nil_or_concat b with rfl | ⟨b, f, rfl⟩
          · obtain ⟨hqa, he⟩ := List.append_inj' (s₁ := q) (t₁ := [e]) (s₂ := a) (t₂ := [o]) hq rfl
            cases he
            subst hqa
            exact h2 rfl ha
          · have hq' : q ++ [e] = (a ++ o :: b) ++ [f] := by rw [hq]; simp
            obtain ⟨hqa, _⟩ := List.append_inj' hq' rfl
            exact h1 a b hqa ha
      rw [hB, ← hi, List.foldl_append]
      simp only [List.foldl_cons, List.foldl_nil]
      have cons : (∀ l m, e :: q.foldl push [] = l ++ o :: m → o' ∈ m) ↔
          (∀ l m, q.foldl push [] = l ++ o :: m → o' ∈ m) ∧ (o = e → o' ∈ q.foldl push []) := by
        constructor
        · intro h
          exact ⟨fun l m hl => h (e :: l) m (by rw [hl]; rfl), fun he => h [] _ (by rw [he]; rfl)⟩
        · rintro ⟨h1, h2⟩ l m hl
          cases l with
          | nil => simp only [List.nil_append, List.cons.injEq] at hl; rw [← hl.2]; exact h2 hl.1.symm
          | cons f l => simp only [List.cons_append, List.cons.injEq] at hl; exact h1 l m hl.2
      have hm : ∀ o, o ∈ q.foldl push [] ↔ o ∈ q := fun o => by rw [mem_push]; simp
      cases e with
      | user x =>
        simp only [push]
        rw [cons, hm]
        refine and_congr_right fun _ => ⟨fun h he _ => h he, fun h he => h he fun c hc => ?_⟩
        rw [he] at hc
        cases hc
      | holder c =>
        simp only [push, hm]
        split
        · rename_i hc
          constructor
          · intro h
            refine ⟨h, fun he ha => absurd (he ▸ hc) (ha c he)⟩
          · exact fun h => h.1
        · rename_i hc
          rw [cons, hm]
          refine and_congr_right fun _ => ⟨fun h he _ => h he, fun h he => h he fun d hd => ?_⟩
          rw [he]; exact hc
  exact key os.length os rfl

/-- Object `x` has, in the course of the program, a flyweight of type `c`, itself or in the value of one that is destroyed
with it.  (No code of its own: used in statements and proofs.) -/
def Has (trk : Nat → Tracking) (p : List Ev) (x c : Nat) : Prop :=
  ∃ d pre ds, .insert d x pre ds ∈ p ∧ (c = d ∨ trk d = .refcounted ∧ c ∈ pre ++ ds)

/-- A value of type `c` that stays until the destruction of the factory contains a flyweight of type `d`.
(No code of its own: used in statements and proofs.) -/
def Retains (trk : Nat → Tracking) (p : List Ev) (c d : Nat) : Prop :=
  ∃ x pre ds, .insert c x pre ds ∈ p ∧ trk c = .noTracking ∧ d ∈ pre ++ ds

/-- Flyweights are destroyed before their factories iff these were constructed before what holds the
flyweights. -/
theorem exit_iff (trk : Nat → Tracking) (s : St) (l : List Obj) (hn : ∀ c, l.count (.holder c) ≤ 1) : ∀ (alive : Nat → Bool),
    (∀ c, alive c = true → .holder c ∈ l) → (∀ c, .holder c ∈ l → alive c = true) →
    (exit trk s l alive = some () ↔
      (∀ x c, c ∈ s.holds x → trk c = .refcounted → ∀ l1 m, l = l1 ++ .user x :: m → .holder c ∈ m) ∧
      (∀ c d, d ∈ s.inner c → trk d = .refcounted → d ≠ c → ∀ l1 m, l = l1 ++ .holder c :: m → .holder d ∈ m)) := by
  induction l with
  | nil =>
    intro alive _ _
    simp [exit]
  | cons o l ih =>
    intro alive h1 h2
    have hn' : ∀ c, l.count (.holder c) ≤ 1 := fun c => by
      have := hn c
      rw [List.count_cons] at this
      omega
    have split : ∀ (o' b : Obj) (P : List Obj → Prop), (∀ l1 m, o' :: l = l1 ++ b :: m → P m) ↔
        (o' = b → P l) ∧ ∀ l1 m, l = l1 ++ b :: m → P m := by
      intro o' b P
      constructor
      · intro h
        refine ⟨fun e => h [] l (by rw [e]; rfl), fun l1 m e => h (o' :: l1) m (by rw [e]; rfl)⟩
      · rintro ⟨ha, hb⟩ l1 m e
        cases l1 with
        | nil => simp only [List.nil_append, List.cons.injEq] at e; rw [← e.2]; exact ha e.1
        | cons a l1 => simp only [List.cons_append, List.cons.injEq] at e; exact hb l1 m e.2
    cases o with
    | user x =>
      have a1 : ∀ c, alive c = true → .holder c ∈ l := fun c h => by simpa using h1 c h
      have a2 : ∀ c, .holder c ∈ l → alive c = true := fun c h => h2 c (by simp [h])
      have hi := ih hn' alive a1 a2
      simp only [exit]
      by_cases ha : (s.holds x).all (canDrop trk alive) = true
      · rw [if_pos ha, hi]
        rw [List.all_eq_true] at ha
        constructor
        · rintro ⟨b1, b2⟩
          refine ⟨fun y c hc ht => (split _ _ _).2 ⟨fun e => ?_, b1 y c hc ht⟩,
            fun c d hd ht hne => (split _ _ _).2 ⟨fun e => (by cases e), b2 c d hd ht hne⟩⟩
          cases e
          have := ha c hc
          simp only [canDrop, ht] at this
          exact a1 c this
        · rintro ⟨b1, b2⟩
          exact ⟨fun y c hc ht => ((split _ _ _).1 (b1 y c hc ht)).2,
            fun c d hd ht hne => ((split _ _ _).1 (b2 c d hd ht hne)).2⟩
      · rw [if_neg ha]
        simp only [reduceCtorEq, false_iff]
        rintro ⟨b1, _⟩
        apply ha
        rw [List.all_eq_true]
        intro c hc
        unfold canDrop
        split
        · rename_i ht
          exact a2 c (((split _ _ _).1 (b1 x c hc ht)).1 rfl)
        · rfl
    | holder c =>
      have hcl : .holder c ∉ l := by
        intro hm
        have := hn c
        rw [List.count_cons] at this
        have hpos := List.count_pos_iff.2 hm
        simp at this
        omega
      have a1 : ∀ d, set alive c false d = true → .holder d ∈ l := fun d h => by
        by_cases hd : d = c
        · subst hd; simp [set_self] at h
        · rw [set_ne _ _ hd] at h
          have := h1 d h
          simp only [List.mem_cons, Obj.holder.injEq] at this
          exact this.resolve_left hd
      have a2 : ∀ d, .holder d ∈ l → set alive c false d = true := fun d h => by
        by_cases hd : d = c
        · subst hd; exact absurd h hcl
        · rw [set_ne _ _ hd]; exact h2 d (by simp [h])
      have hi := ih hn' (set alive c false) a1 a2
      have halive : ∀ d, d ≠ c → (alive d = true ↔ .holder d ∈ l) := fun d hd =>
        ⟨fun h => a1 d (by rw [set_ne _ _ hd]; exact h), fun h => by have := a2 d h; rwa [set_ne _ _ hd] at this⟩
      simp only [exit]
      by_cases ha : (s.inner c).all (canDrop trk alive) = true
      · rw [if_pos ha, hi]
        rw [List.all_eq_true] at ha
        constructor
        · rintro ⟨b1, b2⟩
          refine ⟨fun y c hc ht => (split _ _ _).2 ⟨fun e => (by cases e), b1 y c hc ht⟩,
            fun e d hd ht hne => (split _ _ _).2 ⟨fun he => ?_, b2 e d hd ht hne⟩⟩
          cases he
          have := ha d hd
          simp only [canDrop, ht] at this
          exact (halive d hne).1 this
        · rintro ⟨b1, b2⟩
          exact ⟨fun y c hc ht => ((split _ _ _).1 (b1 y c hc ht)).2,
            fun c d hd ht hne => ((split _ _ _).1 (b2 c d hd ht hne)).2⟩
      · rw [if_neg ha]
        simp only [reduceCtorEq, false_iff]
        rintro ⟨_, b2⟩
        apply ha
        rw [List.all_eq_true]
        intro d hd
        unfold canDrop
        split
        · rename_i ht
          by_cases hdc : d = c
          · subst hdc
            exact h2 _ (by simp)
          · exact (halive d hdc).2 (((split _ _ _).1 (b2 c d hd ht hdc)).1 rfl)
        · rfl

/-- Invariant of the threads.  (No code of its own: used in statements and proofs.) -/
structure TInv (s : TSt) : Prop where
  built : s.built ≤ 1
  flag : s.flag = true → s.fac = some 0 ∧ s.mtx = some 0
  fac : s.fac = none ∨ s.fac = some 0
  mtx : s.mtx = none ∨ s.mtx = some 0
  pc : ∀ p ∈ s.pcs, (p ≠ .begin → s.built = 1) ∧ (p ≠ .begin → p ≠ .got → s.fac = some 0) ∧
    (p = .mptr ∨ p = .passed → s.mtx = some 0)
  one : s.flag = true → s.built = 1

theorem tinv_step {s s' : TSt} (h : TInv s) {t : Nat} (hs : tstep t s = some s') : TInv s' := by
  unfold tstep at hs
  have hset : ∀ {q : Pc} {P : Pc → Prop}, (∀ p ∈ s.pcs, P p) → P q → ∀ p ∈ s.pcs.set t q, P p := by
    intro q P h1 h2 p hp
    rcases List.mem_or_eq_of_mem_set hp with hp | rfl
    · exact h1 p hp
    · exact h2
  split at hs
  · rename_i hpc
    split at hs
    · rename_i hf
      cases hs
      exact ⟨h.built, h.flag, h.fac, h.mtx, hset h.pc ⟨fun _ => h.one hf, fun _ _ => (h.flag hf).1, fun _ => (h.flag hf).2⟩, h.one⟩
    · rename_i hf
      cases hs
      have hb : (if s.built = 0 then 1 else s.built) = 1 := by
        have := h.built
        split <;> omega
      exact ⟨by dsimp only; omega, h.flag, h.fac, h.mtx,
        hset (fun p hp => ⟨fun _ => hb, (h.pc p hp).2.1, (h.pc p hp).2.2⟩)
          ⟨fun _ => hb, fun _ h => absurd rfl h, fun h => by rcases h with h | h <;> cases h⟩, fun _ => hb⟩
  · rename_i hpc
    cases hs
    have hm := List.mem_of_getElem? hpc
    have hb : s.built = 1 := (h.pc _ hm).1 (by decide)
    have h0 : some (s.built - 1) = some 0 := by rw [hb]
    refine ⟨h.built, fun hf => ⟨h0, (h.flag hf).2⟩, .inr h0, h.mtx,
      hset (fun p hp => ⟨(h.pc p hp).1, fun _ _ => h0, (h.pc p hp).2.2⟩)
        ⟨fun _ => hb, fun _ _ => h0, fun h => by rcases h with h | h <;> cases h⟩, h.one⟩
  · rename_i hpc
    cases hs
    have hm := List.mem_of_getElem? hpc
    have hb : s.built = 1 := (h.pc _ hm).1 (by decide)
    have h0 : some (s.built - 1) = some 0 := by rw [hb]
    refine ⟨h.built, fun hf => ⟨(h.flag hf).1, h0⟩, h.fac, .inr h0,
      hset (fun p hp => ⟨(h.pc p hp).1, (h.pc p hp).2.1, fun _ => h0⟩)
        ⟨fun _ => hb, fun _ _ => (h.pc _ hm).2.1 (by decide) (by decide), fun _ => h0⟩, h.one⟩
  · rename_i hpc
    cases hs
    have hm := List.mem_of_getElem? hpc
    have hb : s.built = 1 := (h.pc _ hm).1 (by decide)
    have hf := (h.pc _ hm).2.1 (by decide) (by decide)
    have hx := (h.pc _ hm).2.2 (.inl rfl)
    exact ⟨h.built, fun _ => ⟨hf, hx⟩, h.fac, h.mtx, hset h.pc ⟨fun _ => hb, fun _ _ => hf, fun _ => hx⟩, fun _ => hb⟩
  · cases hs
  · cases hs

theorem tinv_run (ts : List Nat) : ∀ {s : TSt}, TInv s → TInv (trun ts s) := by
  induction ts with
  | nil => intro s h; exact h
  | cons t ts ih =>
    intro s h
    simp only [trun]
    cases hs : tstep t s with
    | none => exact ih h
    | some s' => exact ih (tinv_step h hs)

theorem tinv_start (n : Nat) : TInv (tstart n) := by
  refine ⟨by simp [tstart], by simp [tstart], .inl rfl, .inl rfl, fun p hp => ?_, by simp [tstart]⟩
  have := (List.mem_replicate.1 hp).2
  subst this
  simp

end Verif.Statics

import Verif.Sample
import Verif.Family
import Verif.Modules
import Verif.ModulesExact

/-!
# Properties of programs with several flyweight types or modules: C31, C33
-/

set_option autoImplicit false

namespace Verif.Props
open Setup

/-! ## C33 -/

section
variable {I : Type} [DecidableEq I] {K V Rep F : I → Type}

/-- `flyweight<T,refcounted,tag1>`, `flyweight<T,no_tracking>` and `flyweight<T,refcounted,tag2>`.
(No code of its own: used to state a property or an example.) -/
def typesC33 (i : Fin 3) :=
  Sample.var (if i = 1 then .noTracking else .refcounted)

/-- The allocator of the examples.  (No code of its own: used to state a property or an
example.) -/
def allocC33 (_ : Fin 3) (n : Nat) (l : List Nat) : Nat := Sample.alloc n l

/-- Operations on the three types.  (No code of its own: used to state a property or an
example.) -/
def progC33 : List (Σ _ : Fin 3, Op Nat (Nat × Nat)) :=
  [⟨0, .make 0 (.key 3)⟩, ⟨1, .make 0 (.key 3)⟩, ⟨1, .destroy 0⟩, ⟨2, .make 0 (.key 3)⟩, ⟨0, .make 1 (.key 13)⟩,
    ⟨2, .destroy 0⟩, ⟨0, .eq 0 1⟩, ⟨0, .get 1⟩, ⟨1, .make 1 (.key 13)⟩, ⟨1, .get 1⟩, ⟨2, .make 0 (.key 3)⟩, ⟨2, .get 0⟩]

/-- **C33.**  In a program using any number of flyweight types, with operations on them in any order, and allocating
from a common heap, each type fares as if the operations on it were the whole program: outcomes (except for addresses,
chosen by the allocator), contents of the factory with its counts, live objects and flyweights are the same. -/
theorem C33_isolated (S : (i : I) → Setup (K i) (V i) (Rep i) (F i)) (A : I → Nat → List Nat → Nat) (hA : ∀ i n l, A i n l ∉ l)
    (hp : Nat → Nat) (fl : I → Nat → Bool) (all : List I) (ops : List (Σ i, Op (K i) (V i))) :
    ∃ outs st, Family.exec S A hp all ops (Family.start S fl) = some (outs, st) ∧
      ∀ i (alloc : Nat → List Nat → Nat), (∀ n l, alloc n l ∉ l) →
        ∃ outs' s', (S i).run hp (fl i) alloc (Family.pick i ops) = some (outs', s') ∧
          outs'.map Out.erase = (Family.pick i outs).map Out.erase ∧
          s'.fac = (st i).fac ∧ s'.env = (st i).env ∧ s'.objs = (st i).objs := by
  obtain ⟨outs, st, h1, _, h3⟩ := Family.exec_pick (S := S) hA hp ops (Family.start_ok fl all)
  refine ⟨outs, st, h1, fun i alloc hal => ?_⟩
  obtain ⟨outs', s', g1, g2, g3⟩ := h3 i (Core.start (S i).Fa (fl i) alloc) SSt.start (sim_start (S i) (fl i) hal)
    ⟨rfl, rfl, rfl, rfl, rfl, rfl, rfl⟩
  exact ⟨outs', s', g1, g2, g3.fac, g3.env, g3.objs⟩

example := C33_isolated (I := Fin 3) typesC33 allocC33 (fun _ => Sample.alloc_ok) id (fun _ => Sample.calm) [0, 1, 2] progC33
example : Family.pick (0 : Fin 3) progC33 = [.make 0 (.key 3), .make 1 (.key 13), .eq 0 1, .get 1] := rfl

/-- **C33.**  Whatever a program does with other types makes no difference to a type. -/
theorem C33_noninterference (S : (i : I) → Setup (K i) (V i) (Rep i) (F i)) (A : I → Nat → List Nat → Nat)
    (hA : ∀ i n l, A i n l ∉ l) (hp : Nat → Nat) (fl : I → Nat → Bool) (all : List I)
    (ops ops' : List (Σ i, Op (K i) (V i))) (i : I) (heq : Family.pick i ops = Family.pick i ops')
    (outs outs' : List (Σ i, Out (K i) (V i))) (st st' : Family.FSt Rep F)
    (h : Family.exec S A hp all ops (Family.start S fl) = some (outs, st))
    (h' : Family.exec S A hp all ops' (Family.start S fl) = some (outs', st')) :
    (Family.pick i outs).map Out.erase = (Family.pick i outs').map Out.erase ∧ (st i).fac = (st' i).fac ∧
      (st i).env = (st' i).env ∧ (st i).objs = (st' i).objs := by
  obtain ⟨_, _, h1, h2⟩ := C33_isolated S A hA hp fl all ops
  obtain ⟨_, _, g1, g2⟩ := C33_isolated S A hA hp fl all ops'
  rw [h] at h1; cases h1
  rw [h'] at g1; cases g1
  obtain ⟨o1, s1, a1, a2, a3, a4, a5⟩ := h2 i (A i) (hA i)
  obtain ⟨o2, s2, b1, b2, b3, b4, b5⟩ := g2 i (A i) (hA i)
  rw [heq, b1] at a1
  cases a1
  exact ⟨a2.symm.trans b2, a3.symm.trans b3, a4.symm.trans b4, a5.symm.trans b5⟩

/-- The same operations on type 0, others on type 2. -/
example : ∃ outs outs' st st',
    Family.exec (I := Fin 3) typesC33 allocC33 id [0, 1, 2] progC33 (Family.start typesC33 fun _ => Sample.calm) = some (outs, st) ∧
    Family.exec (I := Fin 3) typesC33 allocC33 id [0, 1, 2]
      [⟨2, .make 0 (.key 5)⟩, ⟨0, .make 0 (.key 3)⟩, ⟨0, .make 1 (.key 13)⟩, ⟨0, .eq 0 1⟩, ⟨2, .make 1 (.key 6)⟩, ⟨0, .get 1⟩]
      (Family.start typesC33 fun _ => Sample.calm) = some (outs', st') ∧ (st 0).fac = (st' 0).fac :=
  ⟨_, _, _, _, rfl, rfl, (C33_noninterference (I := Fin 3) typesC33 allocC33 (fun _ => Sample.alloc_ok) id (fun _ => Sample.calm)
    [0, 1, 2] progC33 [⟨2, .make 0 (.key 5)⟩, ⟨0, .make 0 (.key 3)⟩, ⟨0, .make 1 (.key 13)⟩, ⟨0, .eq 0 1⟩, ⟨2, .make 1 (.key 6)⟩,
      ⟨0, .get 1⟩] 0 rfl _ _ _ _ rfl rfl).2.1⟩

/-- **C33.**  Values of flyweights of different types are never at the same address: nothing is shared. -/
theorem C33_separate (S : (i : I) → Setup (K i) (V i) (Rep i) (F i)) (A : I → Nat → List Nat → Nat) (hA : ∀ i n l, A i n l ∉ l)
    (hp : Nat → Nat) (fl : I → Nat → Bool) (all : List I) (ops : List (Σ i, Op (K i) (V i)))
    (outs : List (Σ i, Out (K i) (V i))) (st : Family.FSt Rep F)
    (h : Family.exec S A hp all ops (Family.start S fl) = some (outs, st)) (i j : I) (hi : i ∈ all) (hj : j ∈ all) (hij : i ≠ j)
    (x y a b : Nat) (k : K i) (v : V i) (l : K j) (w : V j) (hx : (S i).Sees (st i) x a k v) (hy : (S j).Sees (st j) y b l w) :
    a ≠ b := by
  obtain ⟨_, _, h1, h2, _⟩ := Family.exec_pick (S := S) hA hp ops (Family.start_ok fl all)
  rw [h] at h1
  cases h1
  rintro rfl
  have mem : ∀ (i : I) (x : Nat) (k : K i) (v : V i), (S i).Sees (st i) x a k v → a ∈ Family.live S st i := by
    intro i x k v hx
    obtain ⟨t, hS, hok⟩ := h2.sim i
    exact ((pool_addrs hS).2 a).2 ⟨_, hok.sub _ ((sees_iff hS).1 hx), rfl⟩
  exact h2.apart i hi j hj hij a (mem i x k v hx) (mem j y l w hy)

/-- Equivalent keys share an entry within a type (type 0, flyweights 0 and 1) and not between types; the entry of the
third type is destroyed although those of the others remain. -/
example : ∃ st, Family.exec (I := Fin 3) typesC33 allocC33 id [0, 1, 2] progC33
    (Family.start typesC33 fun _ => Sample.calm) =
    some ([⟨0, .done⟩, ⟨1, .done⟩, ⟨1, .done⟩, ⟨2, .done⟩, ⟨0, .done⟩, ⟨2, .done⟩, ⟨0, .bool true⟩, ⟨0, .val 1 (3, 9)⟩,
      ⟨1, .done⟩, ⟨1, .val 2 (3, 9)⟩, ⟨2, .done⟩, ⟨2, .val 4 (3, 9)⟩], st) := ⟨_, rfl⟩

example : ∀ i n l, allocC33 i n l ∉ l := fun _ => Sample.alloc_ok

end

/-! ## C31 -/

section
variable {K V Rep F : Type}

/-- **C31**, `static_holder`.  Flyweights of one type created in different modules never share, whatever their keys. -/
theorem C31_static (S : Setup K V Rep F) (A : Nat → Nat → List Nat → Nat) (hA : ∀ m n l, A m n l ∉ l) (hp : Nat → Nat)
    (fl : Nat → Nat → Bool) (modules : List Nat) (ops : List (Σ _ : Nat, Op K V))
    (outs : List (Σ _ : Nat, Out K V)) (st : Nat → St Rep F)
    (h : Family.exec (I := Nat) (fun _ => S) A hp modules ops (Family.start (fun _ => S) fl) = some (outs, st))
    (m m' : Nat) (hm : m ∈ modules) (hm' : m' ∈ modules) (hne : m ≠ m')
    (x y a b : Nat) (k l : K) (v w : V) (hx : S.Sees (st m) x a k v) (hy : S.Sees (st m') y b l w) : a ≠ b :=
  C33_separate (I := Nat) (fun _ => S) A hA hp fl modules ops outs st h m m' hm hm' hne x y a b k v l w hx hy

/-- Two modules, equivalent keys, different addresses. -/
example : ∃ st : Nat → _, Family.exec (I := Nat) (fun _ => Sample.var .refcounted) (fun _ => Sample.alloc) id [0, 1]
    [⟨0, .make 0 (.key 3)⟩, ⟨1, .make 0 (.key 13)⟩, ⟨0, .get 0⟩, ⟨1, .get 0⟩]
    (Family.start (fun _ => Sample.var .refcounted) fun _ => Sample.calm) =
    some ([⟨0, .done⟩, ⟨1, .done⟩, ⟨0, .val 1 (3, 9)⟩, ⟨1, .val 2 (13, 169)⟩], st) ∧
    (Sample.var .refcounted).Sees (st 0) 0 1 3 (3, 9) ∧ (Sample.var .refcounted).Sees (st 1) 0 2 13 (13, 169) :=
  ⟨_, rfl, ⟨rfl, rfl⟩, ⟨rfl, rfl⟩⟩

/-- **C31**, `intermodule_holder`.  However many modules there are and however their operations are interleaved, the
program has no undefined behaviour and does what the specification says a program with a single module does; the modules
that have initialised see the same values. -/
theorem C31_shared (S : Setup K V Rep F) (hp : Nat → Nat) (fl : Nat → Bool) (alloc : Nat → List Nat → Nat)
    (hal : ∀ n l, alloc n l ∉ l) (ops : List (Nat × Op K V)) (hr : Modules.Ready [] ops) :
    ∃ outs st t, Modules.exec S hp ops (Modules.start S fl alloc) = some (outs, st) ∧
      SRun S.trk S.keq S.sp hp SSt.start (ops.map Prod.snd) outs t ∧
      ∀ m, (m, .init) ∈ ops → ∀ x a k v, S.Sees (st.view m) x a k v ↔ (x, ⟨a, k, v⟩) ∈ t.vars := by
  obtain ⟨outs, st, t, h1, h2, h3, _, h5⟩ := Modules.exec_ok (S := S) hp ops (up := []) (Modules.start_ok S fl hal)
    (fun m h => by cases h) hr
  refine ⟨outs, st, t, h1, h2, fun m hm x a k v => ?_⟩
  have : st.view m = Modules.on st.core := by unfold Modules.MSt.view Modules.on; rw [h5 m hm]
  rw [this]
  exact sees_iff h3.sim

/-- **C31**, `intermodule_holder`.  Two flyweights compare equal, and refer to the same value, exactly when the keys
they were last given are equivalent, in whatever modules they were created and in whatever module they are compared. -/
theorem C31_equality (S : Setup K V Rep F) (hp : Nat → Nat) (fl : Nat → Bool) (alloc : Nat → List Nat → Nat)
    (hal : ∀ n l, alloc n l ∉ l) (ops : List (Nat × Op K V)) (hr : Modules.Ready [] ops)
    (outs : List (Out K V)) (st : Modules.MSt Rep F) (hrun : Modules.exec S hp ops (Modules.start S fl alloc) = some (outs, st))
    (x y : Nat) (k l : K) (hx : given S.sp (fun _ => none) (ops.map Prod.snd) outs x = some k)
    (hy : given S.sp (fun _ => none) (ops.map Prod.snd) outs y = some l) (m m' : Nat) (hm : (m, .init) ∈ ops)
    (hm' : (m', .init) ∈ ops) :
    S.perform hp (.eq x y) (st.view m) = .ok (.bool (S.keq k l)) (st.view m) ∧
    ∃ a k' v b l' w, S.Sees (st.view m) x a k' v ∧ S.Sees (st.view m') y b l' w ∧ S.keq k' k = true ∧ S.keq l' l = true ∧
      (a = b ↔ S.keq k l = true) := by
  obtain ⟨outs', st', t, h1, h2, h3, _, h5⟩ := Modules.exec_ok (S := S) hp ops (up := []) (Modules.start_ok S fl hal)
    (fun m h => by cases h) hr
  rw [hrun] at h1
  cases h1
  have view : ∀ m, (m, .init) ∈ ops → st.view m = Modules.on st.core := by
    intro m hm
    unfold Modules.MSt.view Modules.on; rw [h5 m hm]
  rw [view m hm, view m' hm']
  have hok := h2.ok S.LS (SOk.start _ _)
  have hg : GivenOk S.keq (fun _ => Option.none) (SSt.start : SSt K V) :=
    ⟨fun x b hx => (by cases hx), fun _ _ => rfl⟩
  have hg := h2.given S.LS (SOk.start _ _) hg
  have hb : ∀ x k, given S.sp (fun _ => none) (ops.map Prod.snd) outs x = some k →
      ∃ b, (x, b) ∈ t.vars ∧ S.keq b.key k = true := by
    intro x k hx
    by_cases hn : x ∈ t.names
    · obtain ⟨⟨x', b⟩, hb, rfl⟩ := List.mem_map.1 hn
      obtain ⟨k', h1, h2⟩ := hg.1 _ b hb
      rw [h1] at hx
      cases hx
      exact ⟨b, hb, h2⟩
    · have h1 := hg.2 x hn
      rw [h1] at hx
      cases hx
  obtain ⟨b, hb1, hb2⟩ := hb x k hx
  obtain ⟨c, hc1, hc2⟩ := hb y l hy
  have hiff : b.addr = c.addr ↔ S.keq k l = true := by
    constructor
    · intro h
      have := hok.addr b (hok.bound hb1) c (hok.bound hc1) h
      subst this
      exact S.LS.trans _ _ _ (S.LS.symm _ _ hb2) hc2
    · intro h
      have : S.keq b.key c.key = true :=
        S.LS.trans _ _ _ hb2 (S.LS.trans _ _ _ h (S.LS.symm _ _ hc2))
      rw [hok.key b (hok.bound hb1) c (hok.bound hc1) this]
  refine ⟨?_, b.addr, b.key, b.val, c.addr, c.key, c.val, (sees_iff h3.sim).2 hb1, (sees_iff h3.sim).2 hc1,
    hb2, hc2, hiff⟩
  rw [eq_ok h3.sim hp hb1 hc1]
  by_cases h : S.keq k l = true
  · rw [h, hiff.2 h]; simp
  · have : ¬ b.addr = c.addr := fun h' => h (hiff.1 h')
    simp [this, h]

/-- Module 2 creates a flyweight before its initialisation; a flyweight created in module 0 is destroyed in module 1.
(No code of its own: used to state a property or an example.) -/
def progC31 : List (Nat × Op Nat (Nat × Nat)) :=
  [(0, .init), (2, .make 2 (.key 13)), (0, .make 0 (.key 3)), (2, .init), (1, .init), (1, .make 1 (.key 23)), (1, .eq 0 1),
    (1, .destroy 2), (1, .destroy 0), (2, .get 1)]

example : Modules.Ready [] progC31 ∧
    ∃ st, Modules.exec (Sample.var .refcounted) id progC31 (Modules.start (Sample.var .refcounted) Sample.calm Sample.alloc) =
      some ([.done, .done, .done, .done, .done, .done, .bool true, .done, .done, .val 1 (13, 169)], st) ∧
      given (Sample.var .refcounted).sp (fun _ => none) (progC31.map Prod.snd)
        [.done, .done, .done, .done, .done, .done, .bool true, .done, .done, .val 1 (13, 169)] 1 = some 23 :=
  ⟨by simp [Modules.Ready, progC31, Op.creates], _, rfl, rfl⟩

/-- **C31.**  The condition on initialisation is needed: `get()` from a module that has not yet initialised uses a null
pointer, although the flyweight is alive. -/
theorem C31_uninitialised (S : Setup K V Rep F) (hp : Nat → Nat) (st : Modules.MSt Rep F) (m x h : Nat) (hm : st.up m = false)
    (hx : st.core.objs.lookup x = some h) : Modules.step S hp m (.get x) st = .none := by
  have hv : Op.valid S.sp (st.core.objs.map Prod.fst) (.get x : Op K V) = true := by
    have : x ∈ st.core.objs.map Prod.fst := List.mem_map.2 ⟨_, Assoc.lookup_mem hx, rfl⟩
    simpa [Op.valid] using this
  unfold Modules.step
  rw [if_pos hv]
  have e1 : Core.handleOf x (st.view m) = .ok h (st.view m) := by
    show (match st.core.objs.lookup x with | .none => M.undef | some h => pure h : M (St Rep F) Nat) (st.view m) = _
    rw [hx]; rfl
  have e2 : Core.entry S.Fa h (st.view m) = .ub := by
    simp [Core.entry, Core.deref, bind, M.bind, M.read, Modules.MSt.view, hm, M.undef]
  have e3 : Core.get S.P S.Fa x (st.view m) = .ub := by
    simp only [Core.get, bind, M.bind, e1, e2]
  simp only [Setup.perform, Core.step, bind, M.bind, e3]

/-- **C29, violation.**  With several modules not every use of the factory is preceded by initialisation: a flyweight made by
one module and passed to another, whose static objects are still to be initialised, makes that one use a null pointer when
it reads, copies or destroys it. -/
theorem C29_violated :
    Modules.exec (Sample.var .refcounted) id [(0, .init), (0, .make 0 (.key 3)), (1, .get 0)]
      (Modules.start (Sample.var .refcounted) Sample.calm Sample.alloc) = .none ∧
    Modules.exec (Sample.var .refcounted) id [(0, .init), (0, .make 0 (.key 3)), (1, .copy 1 0)]
      (Modules.start (Sample.var .refcounted) Sample.calm Sample.alloc) = .none ∧
    Modules.exec (Sample.var .refcounted) id [(0, .init), (0, .make 0 (.key 3)), (1, .destroy 0)]
      (Modules.start (Sample.var .refcounted) Sample.calm Sample.alloc) = .none := ⟨rfl, rfl, rfl⟩

/-- **C29, exactly, with several modules.**  Without any assumption on the order of initialisation: a program uses a null
pointer if and only if, at some point, a module reads (or, with `refcounted`, copies, assigns from or destroys) a live flyweight
while its own static pointers are not set.  These are set from the first `init()` of the module, or the first value a
flyweight is given by it, without an exception, and are not set while the module has done neither. -/
theorem C29_modules_iff (S : Setup K V Rep F) (fl : Nat → Bool) (alloc : Nat → List Nat → Nat) (hal : ∀ n l, alloc n l ∉ l) (hp : Nat → Nat) (ops : List (Nat × Op K V)) :
    (Modules.exec S hp ops (Modules.start S fl alloc) = .none ↔
      ∃ ops1 m op ops2 outs st, ops = ops1 ++ (m, op) :: ops2 ∧ Modules.exec S hp ops1 (Modules.start S fl alloc) = some (outs, st) ∧
        op.valid S.sp (st.core.objs.map Prod.fst) = true ∧ st.up m = false ∧
        ((∃ x, op = .get x ∨ op = .getKey x ∨ op = .hash x) ∨ (∃ x y, op = .eq x y) ∨
          (S.trk = .refcounted ∧ ∃ x y, op = .copy x y ∨ op = .move x y ∨ op = .assign x y ∨ op = .destroy x))) ∧
    ∀ ops1 outs st, Modules.exec S hp ops1 (Modules.start S fl alloc) = some (outs, st) → ∀ m,
      (∀ (i : Nat) op out, ops1[i]? = some (m, op) → outs[i]? = some out → (op = .init ∨ op.creates.isSome) → out ≠ .threw → out ≠ .skipped →
        st.up m = true) ∧
      ((∀ op, (m, op) ∈ ops1 → op ≠ .init ∧ op.creates = .none) → st.up m = false) := by
  have huse : ∀ op : Op K V, Modules.Uses S.trk op = true ↔ ((∃ x, op = .get x ∨ op = .getKey x ∨ op = .hash x) ∨ (∃ x y, op = .eq x y) ∨
      (S.trk = .refcounted ∧ ∃ x y, op = .copy x y ∨ op = .move x y ∨ op = .assign x y ∨ op = .destroy x)) := by
    intro op
    cases op <;> cases S.trk <;> simp [Modules.Uses]
  refine ⟨?_, fun ops1 outs st he m => ?_⟩
  · rw [Modules.exec_exact hp ops (Modules.start_ok S fl hal)]
    simp only [huse]
  · obtain ⟨_, _, _, _, h⟩ := Modules.exec_follows hp ops1 (Modules.start_ok S fl hal) he
    refine ⟨(h m).2.1, fun hn => (h m).2.2 (fun op ho hc => ?_) rfl⟩
    obtain ⟨h1, h2⟩ := hn op ho
    rw [h2] at hc
    rcases hc with hc | hc
    · exact h1 hc
    · cases hc

/-- Module 2 never calls `init()`: the flyweight it makes sets its pointers; module 1 then reads without them. -/
example : ∃ outs st, Modules.exec (Sample.var .refcounted) id [(2, .make 2 (.key 13)), (2, .get 2), (1, .swap 2 2)]
      (Modules.start (Sample.var .refcounted) Sample.calm Sample.alloc) = some (outs, st) ∧ st.up 2 = true ∧ st.up 1 = false ∧
    Modules.exec (Sample.var .refcounted) id [(2, .make 2 (.key 13)), (2, .get 2), (1, .swap 2 2), (1, .get 2), (1, .init)]
      (Modules.start (Sample.var .refcounted) Sample.calm Sample.alloc) = .none := ⟨_, _, rfl, rfl, rfl, rfl⟩

/-- **C29, C31.**  A program of several modules that uses no null pointer behaves as the specification says, whatever the
order in which its modules are initialised. -/
theorem C29_modules_follow (S : Setup K V Rep F) (fl : Nat → Bool) (alloc : Nat → List Nat → Nat) (hal : ∀ n l, alloc n l ∉ l) (hp : Nat → Nat) (ops : List (Nat × Op K V))
    (outs : List (Out K V)) (st : Modules.MSt Rep F) (he : Modules.exec S hp ops (Modules.start S fl alloc) = some (outs, st)) :
    ∃ t, SRun S.trk S.keq S.sp hp SSt.start (ops.map Prod.snd) outs t ∧ outs.length = ops.length := by
  obtain ⟨t, h1, _, h2, _⟩ := Modules.exec_follows hp ops (Modules.start_ok S fl hal) he
  exact ⟨t, h1, h2⟩

example : ∃ st, Modules.exec (Sample.var .refcounted) id [(2, .make 2 (.key 13)), (2, .get 2), (1, .make 1 (.key 23)), (1, .eq 1 2)]
      (Modules.start (Sample.var .refcounted) Sample.calm Sample.alloc) = some ([.done, .val 1 (13, 169), .done, .bool true], st) :=
  ⟨_, rfl⟩

end

end Verif.Props

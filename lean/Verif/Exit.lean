import Verif.ConcReach

/-!
# Termination of the program with flyweights alive

`std::exit` destroys objects with static storage duration and no others: flyweights of automatic or
dynamic storage duration are not destroyed, so that the values they refer to are still in their
factories when these are destroyed (see the comment in
/repo/include/boost/flyweight/refcounted.hpp:41-43).  This models what happens then, from any state of
`Verif/Conc.lean` in which no thread is inside the library: the destructor of a flyweight, that of a
factory together with its mutex, and the destruction of the static objects one after another.
-/

set_option autoImplicit false

namespace Verif.Exit
open Verif.Conc
variable {K : Type}

/-- State during termination: the entries that exist, the types whose holder is being or has been
destroyed, and the entries whose value has been destroyed, in order.  (No code of its own: used in
statements and proofs.) -/
structure XSt (K : Type) where
  ents : Nat → Option (Ent K)
  down : Nat → Bool
  log : List Nat

/-- Outcome: a state, undefined behaviour (use of an entry that has been destroyed, of a mutex or a factory that has been or
is being destroyed), or not enough fuel (`drop` below; never, see `C77_fuel`).  (No code of its own: used
in statements and proofs.) -/
inductive Out (K : Type) where
  | ok (s : XSt K)
  | ub
  | deep

/-- Sequencing.  (No code of its own: C++ language.) -/
def Out.bind (o : Out K) (f : XSt K → Out K) : Out K :=
  match o with
  | .ok s => f s
  | .ub => .ub
  | .deep => .deep

/-- Destroys flyweights one after another.  (No code of its own: C++ language, destruction of the members
of a value or of an object.) -/
def each (f : Fw K → XSt K → Out K) : List (Fw K) → XSt K → Out K
  | [], s => .ok s
  | w :: l, s => (f w s).bind (each f l)

/-- The entry and the value in it are destroyed: `~refcounted_value`,
/repo/include/boost/flyweight/refcounted.hpp:53-106 (implicit), and that of the value, which destroys
the flyweights inside it with `f`. -/
def destroy (f : Fw K → XSt K → Out K) (e : Nat) (x : Ent K) (s : XSt K) : Out K :=
  each f x.kids
    { s with
      ents := setEnt s.ents e none
      log := s.log ++ [e] }

/-- The destructor of a flyweight: `~refcounted_handle`, /repo/include/boost/flyweight/refcounted.hpp:130-135:
`release()` (96) on the entry, which has to exist; when the count gets to 0,
`flyweight_core_tracking_helper::erase`, /repo/include/boost/flyweight/detail/flyweight_core.hpp:67-74: the mutex of the type is
locked, which has to exist, `release_deleter()` (refcounted.hpp:99), and the entry is erased from the factory,
which has to exist.  The argument is fuel for the destruction of values inside values. -/
def drop : Nat → Fw K → XSt K → Out K
  | 0, _, _ => .deep
  | n + 1, w, s =>
    match s.ents w.h with
    | none => .ub
    | some x =>
      if x.ref - 1 = 0 then
        if s.down w.c then .ub
        else if x.del - 1 = 0 then destroy (drop n) w.h x s
        else .ok { s with ents := setEnt s.ents w.h (some { x with ref := x.ref - 1, del := x.del - 1 }) }
      else .ok { s with ents := setEnt s.ents w.h (some { x with ref := x.ref - 1 }) }

/-- The destructor of a factory destroys the entries of its container, whose order is unspecified:
/repo/include/boost/flyweight/hashed_factory.hpp:98, /repo/include/boost/flyweight/set_factory.hpp:79
(member `cont`, implicit destructor). -/
def clear (n : Nat) : List Nat → XSt K → Out K
  | [], s => .ok s
  | e :: l, s =>
    match s.ents e with
    | none => clear n l s
    | some x => (destroy (drop n) e x s).bind (clear n l)

/-- What `std::exit` destroys: the holder of a type, with the entries of its factory in the order in which
they are destroyed, and objects of the program, with the flyweights in them.
/repo/include/boost/flyweight/static_holder.hpp:31-35 for holders. -/
inductive Item (K : Type) where
  | holder (c : Nat) (ord : List Nat)
  | user (l : List (Fw K))

/-- Destruction of a static object.  For `holder_arg`,
/repo/include/boost/flyweight/detail/flyweight_core.hpp:214-218, the mutex first and then the factory. -/
def Item.destroy (n : Nat) : Item K → XSt K → Out K
  | .holder c ord, s => clear n ord { s with down := fun d => if d = c then true else s.down d }
  | .user l, s => each (drop n) l s

/-- Destruction of the static objects in the order given.  (No code of its own: C++ language.) -/
def exit (n : Nat) : List (Item K) → XSt K → Out K
  | [], s => .ok s
  | i :: l, s => (i.destroy n s).bind (exit n l)

/-- The state when `std::exit` is called.  (No code of its own: used in statements and proofs.) -/
def begin (s : St K) : XSt K := ⟨s.ents, fun _ => false, []⟩

/-- Types whose holder is destroyed.  (No code of its own: used in statements and proofs.) -/
def types : List (Item K) → List Nat
  | [] => []
  | .holder c _ :: l => c :: types l
  | .user _ :: l => types l

/-- Flyweights inside static objects of the program.  (No code of its own: used in statements and
proofs.) -/
def inUsers : List (Item K) → List (Fw K)
  | [] => []
  | .holder _ _ :: l => inUsers l
  | .user l' :: l => l' ++ inUsers l

/-- The static objects of a program that calls `std::exit` in state `s`, in the order of their destruction:
the holder of every type with values, once, with the entries of its factory in any order; the flyweights that exist
are those inside static objects and the ones in `leaked`, which are never destroyed.  (No code of its
own: used in statements and proofs.) -/
structure Exits (s : St K) (items : List (Item K)) (leaked : List (Fw K)) : Prop where
  objs : s.objs.Perm (leaked ++ inUsers items)
  once : (types items).Nodup
  all : ∀ e x, s.ents e = some x → x.core ∈ types items
  ords : ∀ c ord, .holder c ord ∈ items → ord.Nodup ∧ ∀ e, e ∈ ord ↔ ∃ x, s.ents e = some x ∧ x.core = c

/-- Every static object with flyweights is destroyed before the holders of their types, and so is the holder of
a type whose values contain flyweights: what initialization in the order required by
/repo/include/boost/flyweight/detail/flyweight_core.hpp:314-351 leads to (see `Verif/Statics.lean`).  (No code
of its own: used in statements and proofs.) -/
def Ordered (ents : Nat → Option (Ent K)) : List (Item K) → Prop
  | [] => True
  | .holder c _ :: l =>
    (∀ e x, ents e = some x → x.core = c → ∀ w ∈ x.kids, w.c ∈ types l) ∧ Ordered ents l
  | .user l' :: l => (∀ w ∈ l', w.c ∈ types l) ∧ Ordered ents l

/-! ## Safety when types are destroyed before the types they use -/

/-- Number of entries.  (No code of its own: used in statements and proofs.) -/
def live (ents : Nat → Option (Ent K)) (next : Nat) : Nat := nsum (fun i => if (ents i).isSome then 1 else 0) next

theorem live_remove {ents : Nat → Option (Ent K)} {next e : Nat} {x : Ent K} (he : e < next)
    (hx : ents e = some x) : live (setEnt ents e none) next + 1 = live ents next := by
  have := nsum_change (f := fun i => if (setEnt ents e none i).isSome then 1 else 0)
    (g := fun i => if (ents i).isSome then 1 else 0) he (fun j hj => by simp [setEnt, hj])
  simp only [setEnt, hx, if_true, Option.isSome_none, Option.isSome_some] at this
  simpa [live, setEnt] using this

theorem live_keep {ents : Nat → Option (Ent K)} {next e : Nat} {x y : Ent K}
    (hx : ents e = some x) : live (setEnt ents e (some y)) next = live ents next := by
  refine nsum_congr fun i _ => ?_
  by_cases h : i = e
  · simp [setEnt, h, hx]
  · simp [setEnt, h]

/-- What holds during termination: `base` are the entries when it began, `U` the types whose holder is not
touched yet, `cur` the one being destroyed, `fix` the flyweights that are never destroyed, `pend`
those inside program objects or values being destroyed.  (No code of its own: used in statements and
proofs.) -/
structure Inv (base : Nat → Option (Ent K)) (next : Nat) (U : List Nat) (cur : Option Nat)
    (fix pend : List (Fw K)) (s : XSt K) : Prop where
  sub : ∀ e x, s.ents e = some x → e < next ∧ ∃ y, base e = some y ∧ x.core = y.core ∧ x.kids = y.kids
  refs : ∀ e x, s.ents e = some x →
    x.ref = fwCount e fix + fwCount e pend + kidsTo s.ents next e ∧ x.del = 1
  pends : ∀ w ∈ pend, w.c ∈ U ∧ ∃ y, s.ents w.h = some y ∧ y.core = w.c
  kids : ∀ e x, s.ents e = some x → ∀ w ∈ x.kids, w.c ∈ U ∧ ∃ y, s.ents w.h = some y ∧ y.core = w.c
  up : ∀ c ∈ U, s.down c = false
  cores : ∀ e x, s.ents e = some x → x.core ∈ U ∨ some x.core = cur
  cur_U : ∀ c, cur = some c → c ∉ U
  nodup : s.log.Nodup
  log : ∀ e, e ∈ s.log ↔ (∃ y, base e = some y) ∧ s.ents e = none

theorem kidsTo_pos {ents : Nat → Option (Ent K)} {next i : Nat} {x : Ent K} {w : Fw K} (hi : i < next)
    (hx : ents i = some x) (hw : w ∈ x.kids) : 0 < kidsTo ents next w.h :=
  nsum_pos hi (by simp only [kidsOf, hx]; exact fwCount_pos hw rfl)

variable {base : Nat → Option (Ent K)} {next : Nat} {U : List Nat} {cur : Option Nat}
  {fix pend : List (Fw K)} {s : XSt K}

/-- An entry that no flyweight to be destroyed refers to is removed. -/
theorem Inv.remove (h : Inv base next U cur fix pend s) {e : Nat} {x : Ent K} (hx : s.ents e = some x)
    (hp : ∀ w ∈ pend, w.h ≠ e)
    (hk : ∀ i y, s.ents i = some y → ∀ w ∈ y.kids, w.h ≠ e) :
    Inv base next U cur fix (x.kids ++ pend)
      { s with
        ents := setEnt s.ents e none
        log := s.log ++ [e] } := by
  obtain ⟨hlt, y, hy, hc, hky⟩ := h.sub e x hx
  have old : ∀ i z, setEnt s.ents e none i = some z → i ≠ e ∧ s.ents i = some z := by
    intro i z hz
    by_cases hi : i = e
    · simp [setEnt, hi] at hz
    · exact ⟨hi, by simpa [setEnt, hi] using hz⟩
  have keep : ∀ i z, s.ents i = some z → i ≠ e → setEnt s.ents e none i = some z := by
    intro i z hz hi
    simpa [setEnt, hi] using hz
  constructor
  · intro i z hz
    exact h.sub i z (old i z hz).2
  · intro i z hz
    obtain ⟨hi, hz'⟩ := old i z hz
    obtain ⟨h1, h2⟩ := h.refs i z hz'
    have h3 := kidsTo_set (ents := s.ents) hlt none i
    simp only [hx, kidsOf] at h3
    refine ⟨?_, h2⟩
    rw [h1, fwCount_append]
    simp only
    omega
  · intro w hw
    rcases List.mem_append.1 hw with hw | hw
    · obtain ⟨h1, z, hz, hz'⟩ := h.kids e x hx w hw
      exact ⟨h1, z, keep _ _ hz (hk e x hx w hw), hz'⟩
    · obtain ⟨h1, z, hz, hz'⟩ := h.pends w hw
      exact ⟨h1, z, keep _ _ hz (hp w hw), hz'⟩
  · intro i z hz w hw
    obtain ⟨_, hz'⟩ := old i z hz
    obtain ⟨h1, v, hv, hv'⟩ := h.kids i z hz' w hw
    exact ⟨h1, v, keep _ _ hv (hk i z hz' w hw), hv'⟩
  · exact h.up
  · intro i z hz
    exact h.cores i z (old i z hz).2
  · exact h.cur_U
  · refine List.nodup_append.2 ⟨h.nodup, by simp, ?_⟩
    intro a ha b hb hab
    simp only [List.mem_singleton] at hb
    have := (h.log a).1 ha
    rw [hab, hb, hx] at this
    exact absurd this.2 (by simp)
  · intro i
    simp only [List.mem_append, List.mem_singleton, h.log i]
    by_cases hi : i = e
    · simp [setEnt, hi, hy]
    · simp [setEnt, hi]

/-- A reference is released and others remain. -/
theorem Inv.release {w : Fw K} (h : Inv base next U cur fix (w :: pend) s) {x : Ent K}
    (hx : s.ents w.h = some x) :
    Inv base next U cur fix pend { s with ents := setEnt s.ents w.h (some { x with ref := x.ref - 1 }) } := by
  have old : ∀ i z, setEnt s.ents w.h (some { x with ref := x.ref - 1 }) i = some z →
      ∃ z', s.ents i = some z' ∧ z.core = z'.core ∧ z.kids = z'.kids ∧ z.del = z'.del ∧
        z.ref = z'.ref - if w.h = i then 1 else 0 := by
    intro i z hz
    by_cases hi : i = w.h
    · subst hi
      simp only [setEnt, if_true, Option.some.injEq] at hz
      subst hz
      exact ⟨x, hx, rfl, rfl, rfl, by simp⟩
    · simp only [setEnt, if_neg hi] at hz
      exact ⟨z, hz, rfl, rfl, rfl, by simp [Ne.symm hi]⟩
  have keep : ∀ i z, s.ents i = some z →
      ∃ z', setEnt s.ents w.h (some { x with ref := x.ref - 1 }) i = some z' ∧ z'.core = z.core := by
    intro i z hz
    by_cases hi : i = w.h
    · subst hi
      rw [hx, Option.some.injEq] at hz
      subst hz
      exact ⟨{ x with ref := x.ref - 1 }, by simp [setEnt], rfl⟩
    · exact ⟨z, by simpa [setEnt, hi] using hz, rfl⟩
  have hks : ∀ i, kidsTo (setEnt s.ents w.h (some { x with ref := x.ref - 1 })) next i = kidsTo s.ents next i := by
    intro i
    have := kidsTo_set (ents := s.ents) (h.sub _ _ hx).1 (some { x with ref := x.ref - 1 }) i
    simp only [hx, kidsOf] at this
    omega
  constructor
  · intro i z hz
    obtain ⟨z', hz', h1, h2, _⟩ := old i z hz
    rw [h1, h2]
    exact h.sub i z' hz'
  · intro i z hz
    obtain ⟨z', hz', _, _, h3, h4⟩ := old i z hz
    obtain ⟨h5, h6⟩ := h.refs i z' hz'
    refine ⟨?_, by rw [h3, h6]⟩
    rw [h4, h5, fwCount_cons]
    simp only [hks]
    split <;> simp only [Int.natCast_add] <;> omega
  · intro v hv
    obtain ⟨h1, y, hy, hy'⟩ := h.pends v (List.mem_cons_of_mem _ hv)
    obtain ⟨y', h2, h3⟩ := keep _ _ hy
    exact ⟨h1, y', h2, h3.trans hy'⟩
  · intro i z hz v hv
    obtain ⟨z', hz', _, h2, _⟩ := old i z hz
    rw [h2] at hv
    obtain ⟨h1, y, hy, hy'⟩ := h.kids i z' hz' v hv
    obtain ⟨y', h2, h3⟩ := keep _ _ hy
    exact ⟨h1, y', h2, h3.trans hy'⟩
  · exact h.up
  · intro i z hz
    obtain ⟨z', hz', h1, _⟩ := old i z hz
    rw [h1]
    exact h.cores i z' hz'
  · exact h.cur_U
  · exact h.nodup
  · intro i
    rw [h.log i]
    by_cases hi : i = w.h
    · simp [setEnt, hi, hx]
    · simp [setEnt, hi]

/-- What a destructor leaves: entries only disappear, holders are not touched.  (No code of its own: used in
statements and proofs.) -/
structure Less (next : Nat) (s s' : XSt K) : Prop where
  gone : ∀ e, s.ents e = none → s'.ents e = none
  live : live s'.ents next ≤ live s.ents next
  down : s'.down = s.down

theorem Less.refl (s : XSt K) : Less next s s := ⟨fun _ h => h, Nat.le_refl _, rfl⟩

theorem Less.trans {a b c : XSt K} (h : Less next a b) (h' : Less next b c) : Less next a c :=
  ⟨fun e he => h'.gone e (h.gone e he), Nat.le_trans h'.live h.live, h'.down.trans h.down⟩

theorem each_ok {f : Fw K → XSt K → Out K} {n : Nat}
    (hf : ∀ w pend s, Inv base next U cur fix (w :: pend) s → live s.ents next < n →
      ∃ s', f w s = .ok s' ∧ Inv base next U cur fix pend s' ∧ Less next s s')
    (l : List (Fw K)) : ∀ s, Inv base next U cur fix (l ++ pend) s → live s.ents next < n →
      ∃ s', each f l s = .ok s' ∧ Inv base next U cur fix pend s' ∧ Less next s s' := by
  induction l with
  | nil => intro s h _; exact ⟨s, rfl, h, Less.refl s⟩
  | cons w l ih =>
    intro s h hn
    obtain ⟨s1, h1, h2, h3⟩ := hf w (l ++ pend) s h hn
    obtain ⟨s2, h4, h5, h6⟩ := ih s1 h2 (Nat.lt_of_le_of_lt h3.live hn)
    exact ⟨s2, by simp only [each, h1, Out.bind, h4], h5, h3.trans h6⟩

theorem Less.remove {e : Nat} {x : Ent K} (hlt : e < next) (hx : s.ents e = some x) :
    Less next s
      { s with
        ents := setEnt s.ents e none
        log := s.log ++ [e] } := by
  refine ⟨fun i hi => ?_, ?_, rfl⟩
  · simp only [setEnt]; split <;> simp [hi]
  · have := live_remove hlt hx
    simp only
    omega

theorem drop_ok (n : Nat) : ∀ (w : Fw K) (pend : List (Fw K)) (s : XSt K),
    Inv base next U cur fix (w :: pend) s → live s.ents next < n →
      ∃ s', drop n w s = .ok s' ∧ Inv base next U cur fix pend s' ∧ Less next s s' := by
  induction n with
  | zero => intro w pend s _ hn; omega
  | succ n ih =>
    intro w pend s h hn
    obtain ⟨hU, x, hx, hxc⟩ := h.pends w (List.mem_cons_self ..)
    obtain ⟨hr, hd⟩ := h.refs _ _ hx
    have hlt := (h.sub _ _ hx).1
    have hrel := h.release hx
    simp only [drop, hx]
    by_cases h0 : x.ref - 1 = 0
    · rw [if_pos h0, h.up _ hU, hd]
      simp only [Bool.false_eq_true, if_false, Int.sub_self, if_true]
      simp only [fwCount_cons, if_true] at hr
      have hz : fwCount w.h pend = 0 ∧ kidsTo s.ents next w.h = 0 := by omega
      have hrm := hrel.remove (e := w.h) (x := { x with ref := x.ref - 1 }) (by simp [setEnt])
        (fun v hv he => by have := fwCount_pos hv he; omega)
        (fun i y hy v hv he => by
          by_cases hi : i = w.h
          · subst hi
            simp only [setEnt, if_true, Option.some.injEq] at hy
            subst hy
            have := kidsTo_pos hlt hx hv
            rw [he] at this
            omega
          · simp only [setEnt, if_neg hi] at hy
            have := kidsTo_pos (h.sub _ _ hy).1 hy hv
            rw [he] at this
            omega)
      have hss : setEnt (setEnt s.ents w.h (some { x with ref := x.ref - 1 })) w.h none = setEnt s.ents w.h none := by
        funext i
        simp only [setEnt]
        split <;> rfl
      simp only [hss] at hrm
      have hl := live_remove hlt hx
      obtain ⟨s', h1, h2, h3⟩ := each_ok ih x.kids _ hrm (by simp only; omega)
      exact ⟨s', h1, h2, (Less.remove hlt hx).trans h3⟩
    · rw [if_neg h0]
      refine ⟨_, rfl, hrel, fun i hi => ?_, ?_, rfl⟩
      · by_cases hi' : i = w.h
        · rw [hi', hx] at hi; cases hi
        · simpa [setEnt, hi'] using hi
      · simp only [live_keep hx]; exact Nat.le_refl _

theorem each_drop_ok {n : Nat} (l : List (Fw K)) (h : Inv base next U cur fix (l ++ pend) s)
    (hn : live s.ents next < n) :
    ∃ s', each (drop n) l s = .ok s' ∧ Inv base next U cur fix pend s' ∧ Less next s s' :=
  each_ok (drop_ok n) l s h hn

theorem clear_ok {n c : Nat} (l : List Nat) : ∀ s, Inv base next U (some c) fix pend s →
    live s.ents next < n → (∀ e ∈ l, ∀ x, s.ents e = some x → x.core = c) →
    ∃ s', clear n l s = .ok s' ∧ Inv base next U (some c) fix pend s' ∧ Less next s s' ∧
      ∀ e ∈ l, s'.ents e = none := by
  induction l with
  | nil => intro s h _ _; exact ⟨s, rfl, h, Less.refl s, by simp⟩
  | cons e l ih =>
    intro s h hn hl
    have core_of : ∀ s1, Inv base next U (some c) fix pend s1 → Less next s s1 →
        ∀ i ∈ l, ∀ x, s1.ents i = some x → x.core = c := by
      intro s1 h1 hle i hi x hx
      obtain ⟨_, y, hy, hc, _⟩ := h1.sub i x hx
      cases hz : s.ents i with
      | none => rw [hle.gone i hz] at hx; cases hx
      | some z =>
        obtain ⟨_, y', hy', hc', _⟩ := h.sub i z hz
        rw [hy, Option.some.injEq] at hy'
        subst hy'
        rw [hc, ← hc']
        exact hl i (List.mem_cons_of_mem _ hi) z hz
    cases hx : s.ents e with
    | none =>
      obtain ⟨s', h1, h2, h3, h4⟩ := ih s h hn (core_of s h (Less.refl s))
      refine ⟨s', by simp only [clear, hx, h1], h2, h3, fun i hi => ?_⟩
      rcases List.mem_cons.1 hi with rfl | hi
      · exact h3.gone _ hx
      · exact h4 i hi
    | some x =>
      have hc := hl e (List.mem_cons_self ..) x hx
      have hcU := h.cur_U c rfl
      have hlt := (h.sub _ _ hx).1
      have other : ∀ (w : Fw K), (w.c ∈ U ∧ ∃ y, s.ents w.h = some y ∧ y.core = w.c) → w.h ≠ e := by
        rintro w ⟨hU, y, hy, hyc⟩ he
        rw [he, hx, Option.some.injEq] at hy
        subst hy
        rw [← hyc, hc] at hU
        exact hcU hU
      have hrm := h.remove hx (fun w hw => other w (h.pends w hw)) (fun i y hy w hw => other w (h.kids i y hy w hw))
      have hless := Less.remove hlt hx
      obtain ⟨s1, h1, h2, h3⟩ := each_drop_ok x.kids hrm (Nat.lt_of_le_of_lt hless.live hn)
      have h13 := hless.trans h3
      obtain ⟨s', h4, h5, h6, h7⟩ := ih s1 h2 (Nat.lt_of_le_of_lt h13.live hn) (core_of s1 h2 h13)
      refine ⟨s', by simp only [clear, hx, destroy, h1, Out.bind, h4], h5, h13.trans h6, fun i hi => ?_⟩
      rcases List.mem_cons.1 hi with rfl | hi
      · exact h6.gone _ (h3.gone _ (by simp [setEnt]))
      · exact h7 i hi

/-- Values contain flyweights of types whose holder is destroyed later. -/
theorem Ordered.kids {items : List (Item K)} (h : Ordered base items) (hn : (types items).Nodup) :
    ∀ e x, base e = some x → x.core ∈ types items → ∀ w ∈ x.kids, w.c ∈ types items := by
  induction items with
  | nil => intro e x _ hc; simp [types] at hc
  | cons i l ih =>
    intro e x hx hc w hw
    cases i with
    | holder c ord =>
      simp only [types, List.nodup_cons] at hn
      simp only [types, List.mem_cons] at hc ⊢
      by_cases h' : x.core = c
      · exact .inr (h.1 e x hx h' w hw)
      · exact .inr (ih h.2 hn.2 e x hx (hc.resolve_left h') w hw)
    | user l' => exact ih h.2 hn e x hx hc w hw

theorem Ordered.users {items : List (Item K)} (h : Ordered base items) :
    ∀ w ∈ inUsers items, w.c ∈ types items := by
  induction items with
  | nil => intro w hw; simp [inUsers] at hw
  | cons i l ih =>
    intro w hw
    cases i with
    | holder c ord => exact List.mem_cons_of_mem _ (ih h.2 w hw)
    | user l' =>
      rcases List.mem_append.1 hw with hw | hw
      · exact h.1 w hw
      · exact ih h.2 w hw

theorem exit_ok {n : Nat} (items : List (Item K)) : ∀ s,
    Inv base next (types items) none fix (inUsers items) s → live s.ents next < n →
    Ordered base items → (types items).Nodup →
    (∀ c ord, .holder c ord ∈ items → ∀ e, e ∈ ord ↔ ∃ x, base e = some x ∧ x.core = c) →
    ∃ s', exit n items s = .ok s' ∧ Inv base next [] none fix [] s' := by
  induction items with
  | nil => intro s h _ _ _ _; exact ⟨s, rfl, h⟩
  | cons i items ih =>
    intro s h hn ho hnd hord
    cases i with
    | user l =>
      obtain ⟨s1, h1, h2, h3⟩ := each_drop_ok l (show Inv base next (types items) none fix (l ++ inUsers items) s from h) hn
      obtain ⟨s', h4, h5⟩ := ih s1 h2 (Nat.lt_of_le_of_lt h3.live hn) ho.2 hnd
        (fun c ord hm => hord c ord (List.mem_cons_of_mem _ hm))
      exact ⟨s', by simp only [exit, Item.destroy, h1, Out.bind, h4], h5⟩
    | holder c ord =>
      simp only [types, List.nodup_cons] at hnd
      have hordc := hord c ord (List.mem_cons_self ..)
      have hk := Ordered.kids ho.2 hnd.2
      have hpre : Inv base next (types items) (some c) fix (inUsers items)
          { s with down := fun d => if d = c then true else s.down d } := by
        refine ⟨h.sub, h.refs, fun w hw => ⟨ho.2.users w hw, (h.pends w hw).2⟩, ?_, ?_, ?_, ?_, h.nodup, h.log⟩
        · intro e x hx w hw
          refine ⟨?_, (h.kids e x hx w hw).2⟩
          obtain ⟨_, y, hy, hyc, hyk⟩ := h.sub e x hx
          rw [hyk] at hw
          by_cases hc : y.core = c
          · exact ho.1 e y hy hc w hw
          · have := h.cores e x hx
            simp only [types, List.mem_cons, reduceCtorEq, or_false, hyc] at this
            exact hk e y hy (this.resolve_left hc) w hw
        · intro d hd
          have : d ≠ c := fun h' => hnd.1 (h' ▸ hd)
          simp only [if_neg this]
          exact h.up d (List.mem_cons_of_mem _ hd)
        · intro e x hx
          have := h.cores e x hx
          simp only [types, List.mem_cons, reduceCtorEq, or_false] at this
          rcases this with h1 | h1
          · exact .inr (by rw [h1])
          · exact .inl h1
        · intro d hd
          cases hd
          exact hnd.1
      obtain ⟨s1, h1, h2, h3, h4⟩ := clear_ok (n := n) ord _ hpre hn (fun e he x hx => by
        obtain ⟨y, hy, hyc⟩ := (hordc e).1 he
        obtain ⟨_, y', hy', hc', _⟩ := h.sub e x hx
        rw [hy, Option.some.injEq] at hy'
        subst hy'
        rw [hc', hyc])
      have hpost : Inv base next (types items) none fix (inUsers items) s1 := by
        refine ⟨h2.sub, h2.refs, h2.pends, h2.kids, h2.up, ?_, by simp, h2.nodup, h2.log⟩
        intro e x hx
        rcases h2.cores e x hx with h' | h'
        · exact .inl h'
        · obtain ⟨_, y, hy, hyc, _⟩ := h2.sub e x hx
          have := h4 e ((hordc e).2 ⟨y, hy, by simpa [hyc] using h'⟩)
          rw [this] at hx
          cases hx
      obtain ⟨s', h5, h6⟩ := ih s1 hpost (Nat.lt_of_le_of_lt h3.live hn) ho.2 hnd.2
        (fun c ord hm => hord c ord (List.mem_cons_of_mem _ hm))
      exact ⟨s', by simp only [exit, Item.destroy, h1, Out.bind, h5], h6⟩

/-! ## Recursive values: the exact condition -/

/-- Destroying flyweights of a type whose holder is being destroyed: defined if and only if the entries
exist and keep a reference. -/
theorem each_down_iff {n c : Nat} (l : List (Fw K)) : ∀ s : XSt K, s.down c = true → (∀ w ∈ l, w.c = c) →
    (∀ w ∈ l, ∀ x, s.ents w.h = some x → (fwCount w.h l : Int) ≤ x.ref) →
    ((∃ s', each (drop (n + 1)) l s = .ok s') ↔
      ∀ w ∈ l, ∃ x, s.ents w.h = some x ∧ (fwCount w.h l : Int) < x.ref) ∧
    ∀ s', each (drop (n + 1)) l s = .ok s' → s'.down = s.down ∧ s'.log = s.log ∧
      ∀ e, s'.ents e = (s.ents e).map fun x => { x with ref := x.ref - fwCount e l } := by
  induction l with
  | nil =>
    intro s _ _ _
    refine ⟨⟨fun _ w hw => (List.not_mem_nil hw).elim, fun _ => ⟨s, rfl⟩⟩, fun s' h => ?_⟩
    simp only [each, Out.ok.injEq] at h
    subst h
    refine ⟨rfl, rfl, fun e => ?_⟩
    cases s.ents e <;> simp
  | cons w l ih =>
    intro s hd hc hle
    have hwc := hc w (List.mem_cons_self ..)
    cases hx : s.ents w.h with
    | none =>
      have hu : drop (n + 1) w s = .ub := by simp only [drop, hx]
      refine ⟨⟨fun ⟨s', h⟩ => ?_, fun h => ?_⟩, fun s' h => ?_⟩
      · simp only [each, hu, Out.bind] at h; cases h
      · obtain ⟨x, h', _⟩ := h w (List.mem_cons_self ..)
        rw [hx] at h'; cases h'
      · simp only [each, hu, Out.bind] at h; cases h
    | some x =>
      have hlex := hle w (List.mem_cons_self ..) x hx
      simp only [fwCount_cons, if_true] at hlex
      by_cases h0 : x.ref - 1 = 0
      · have hu : drop (n + 1) w s = .ub := by simp only [drop, hx, if_pos h0, hwc, hd, if_true]
        refine ⟨⟨fun ⟨s', h⟩ => ?_, fun h => ?_⟩, fun s' h => ?_⟩
        · simp only [each, hu, Out.bind] at h; cases h
        · obtain ⟨y, h', h''⟩ := h w (List.mem_cons_self ..)
          rw [hx, Option.some.injEq] at h'
          subst h'
          simp only [fwCount_cons, if_true] at h''
          omega
        · simp only [each, hu, Out.bind] at h; cases h
      · have hu : drop (n + 1) w s = .ok { s with ents := setEnt s.ents w.h (some { x with ref := x.ref - 1 }) } := by
          simp only [drop, hx, if_neg h0]
        have hset : ∀ e, setEnt s.ents w.h (some { x with ref := x.ref - 1 }) e =
            (s.ents e).map fun y => { y with ref := y.ref - if w.h = e then 1 else 0 } := by
          intro e
          by_cases he : e = w.h
          · subst he; simp [setEnt, hx]
          · simp only [setEnt, if_neg he, if_neg (Ne.symm he)]
            cases s.ents e <;> simp
        obtain ⟨h1, h2⟩ := ih { s with ents := setEnt s.ents w.h (some { x with ref := x.ref - 1 }) } hd
          (fun v hv => hc v (List.mem_cons_of_mem _ hv)) (fun v hv y hy => by
            simp only [hset] at hy
            cases hz : s.ents v.h with
            | none => rw [hz] at hy; cases hy
            | some z =>
              rw [hz] at hy
              simp only [Option.map_some, Option.some.injEq] at hy
              subst hy
              have := hle v (List.mem_cons_of_mem _ hv) z hz
              simp only [fwCount_cons] at this
              simp only
              split at this <;> rename_i he <;> simp only [he, if_true, if_false] <;> omega)
        simp only [each, hu, Out.bind]
        refine ⟨h1.trans ⟨fun h v hv => ?_, fun h v hv => ?_⟩, fun s' h => ?_⟩
        · rcases List.mem_cons.1 hv with rfl | hv
          · refine ⟨x, hx, ?_⟩
            simp only [fwCount_cons, if_true]
            rcases Nat.eq_zero_or_pos (fwCount v.h l) with hz | hz
            · omega
            · obtain ⟨u, hu', he⟩ := exists_of_fwCount hz
              obtain ⟨y, hy, hy'⟩ := h u hu'
              simp only [hset, he, hx, Option.map_some, Option.some.injEq, if_true] at hy hy'
              subst hy
              simp only at hy'
              omega
          · obtain ⟨y, hy, hy'⟩ := h v hv
            simp only [hset] at hy
            cases hz : s.ents v.h with
            | none => rw [hz] at hy; cases hy
            | some z =>
              rw [hz] at hy
              simp only [Option.map_some, Option.some.injEq] at hy
              subst hy
              refine ⟨z, rfl, ?_⟩
              simp only [fwCount_cons]
              simp only at hy'
              split at hy' <;> rename_i he <;> simp only [he, if_true, if_false] <;> omega
        · obtain ⟨z, hz, hz'⟩ := h v (List.mem_cons_of_mem _ hv)
          simp only [fwCount_cons] at hz'
          refine ⟨{ z with ref := z.ref - if w.h = v.h then 1 else 0 }, by simp only [hset, hz, Option.map_some], ?_⟩
          simp only
          split at hz' <;> rename_i he <;> simp only [he, if_true, if_false] <;> omega
        · obtain ⟨h3, h4, h5⟩ := h2 s' h
          refine ⟨h3, h4, fun e => ?_⟩
          rw [h5 e]
          simp only [hset, fwCount_cons, Option.map_map]
          congr 1
          funext y
          simp only [Function.comp, Ent.mk.injEq, true_and, and_true]
          split <;> simp only [Int.natCast_add] <;> omega

/-- `e` comes before `f` in the list.  (No code of its own: used in statements and proofs.) -/
def Before (e f : Nat) (l : List Nat) : Prop := ∃ a b, l = a ++ e :: b ∧ f ∈ b

theorem Before.cons {e f g : Nat} {l : List Nat} (h : Before e f l) : Before e f (g :: l) := by
  obtain ⟨a, b, rfl, h⟩ := h
  exact ⟨g :: a, b, rfl, h⟩

theorem Before.head {e f : Nat} {l : List Nat} (hn : (e :: l).Nodup) (h : Before e f (e :: l)) : f ∈ l := by
  obtain ⟨a, b, h, hf⟩ := h
  cases a with
  | nil => simp only [List.nil_append, List.cons.injEq, true_and] at h; rw [h]; exact hf
  | cons a' a =>
    simp only [List.cons_append, List.cons.injEq] at h
    have : e ∈ l := by rw [h.2]; simp
    exact absurd this (List.nodup_cons.1 hn).1

theorem Before.tail {e f g : Nat} {l : List Nat} (hne : e ≠ g) (h : Before e f (g :: l)) : Before e f l := by
  obtain ⟨a, b, h, hf⟩ := h
  cases a with
  | nil => simp only [List.nil_append, List.cons.injEq] at h; exact absurd h.1.symm hne
  | cons a' a =>
    simp only [List.cons_append, List.cons.injEq] at h
    exact ⟨a, b, h.2, hf⟩

theorem clear_iff {n c next : Nat} {objs : List (Fw K)} (l : List Nat) : ∀ s : XSt K, s.down c = true → l.Nodup →
    (∀ e, (∃ x, s.ents e = some x) ↔ e ∈ l) →
    (∀ e x, s.ents e = some x → e < next ∧ (∀ w ∈ x.kids, w.c = c) ∧
      x.ref = fwCount e objs + kidsTo s.ents next e) →
    ((∃ s', clear (n + 1) l s = .ok s') ↔
      ∀ e x, s.ents e = some x → ∀ w ∈ x.kids, Before e w.h l ∧ ∃ o ∈ objs, o.h = w.h) := by
  induction l with
  | nil =>
    intro s _ _ hl _
    refine ⟨fun _ e x hx => absurd ((hl e).1 ⟨x, hx⟩) (by simp), fun _ => ⟨s, rfl⟩⟩
  | cons e l ih =>
    intro s hd hn hl hs
    obtain ⟨x, hx⟩ := (hl e).2 (List.mem_cons_self ..)
    obtain ⟨hlt, hkc, hxr⟩ := hs e x hx
    have hel := (List.nodup_cons.1 hn).1
    have hne : ∀ i, i ∈ l → i ≠ e := fun i hi h => hel (h ▸ hi)
    have hk1 : ∀ i, kidsTo (setEnt s.ents e none) next i + fwCount i x.kids = kidsTo s.ents next i := by
      intro i
      have := kidsTo_set (ents := s.ents) hlt none i
      simpa [hx, kidsOf] using this
    have h1l : ∀ i, (∃ y, setEnt s.ents e none i = some y) ↔ i ∈ l := by
      intro i
      by_cases hi : i = e
      · subst hi; simp [setEnt, hel]
      · have := hl i
        simp only [List.mem_cons, hi, false_or] at this
        simpa [setEnt, hi] using this
    have h1o : ∀ i y, setEnt s.ents e none i = some y → i ≠ e ∧ s.ents i = some y := by
      intro i y hy
      by_cases hi : i = e
      · simp [setEnt, hi] at hy
      · exact ⟨hi, by simpa [setEnt, hi] using hy⟩
    obtain ⟨hA, hB⟩ := each_down_iff (n := n) (c := c) x.kids
      { s with
        ents := setEnt s.ents e none
        log := s.log ++ [e] } hd hkc (fun w hw y hy => by
          obtain ⟨_, hy'⟩ := h1o _ _ hy
          have := (hs _ _ hy').2.2
          have := hk1 w.h
          omega)
    have hcl : clear (n + 1) (e :: l) s = (each (drop (n + 1)) x.kids
      { s with
        ents := setEnt s.ents e none
        log := s.log ++ [e] }).bind (clear (n + 1) l) := by simp only [clear, hx, destroy]
    -- the rest, once the flyweights in the first value have been destroyed
    have hC : ∀ s2, each (drop (n + 1)) x.kids
        { s with
          ents := setEnt s.ents e none
          log := s.log ++ [e] } = .ok s2 →
        ((∃ s', clear (n + 1) l s2 = .ok s') ↔
          ∀ i y, setEnt s.ents e none i = some y → ∀ w ∈ y.kids, Before i w.h l ∧ ∃ o ∈ objs, o.h = w.h) := by
      intro s2 h2
      obtain ⟨hdown, _, hents⟩ := hB s2 h2
      simp only at hents hdown
      have hk2 : ∀ i, kidsTo s2.ents next i = kidsTo (setEnt s.ents e none) next i := by
        intro i
        refine nsum_congr fun j _ => ?_
        simp only [hents]
        cases setEnt s.ents e none j <;> rfl
      refine (ih s2 (by rw [hdown]; exact hd) (List.nodup_cons.1 hn).2 (fun i => ?_) (fun i y hy => ?_)).trans ?_
      · rw [← h1l i, hents]
        cases setEnt s.ents e none i <;> simp
      · rw [hents] at hy
        cases hz : setEnt s.ents e none i with
        | none => rw [hz] at hy; cases hy
        | some z =>
          rw [hz, Option.map_some, Option.some.injEq] at hy
          subst hy
          obtain ⟨h3, h4, h5⟩ := hs i z (h1o i z hz).2
          refine ⟨h3, h4, ?_⟩
          have := hk1 i
          have := hk2 i
          simp only
          omega
      · constructor
        · intro h i y hy
          exact h i { y with ref := y.ref - fwCount i x.kids } (by rw [hents, hy, Option.map_some])
        · intro h i y hy
          rw [hents] at hy
          cases hz : setEnt s.ents e none i with
          | none => rw [hz] at hy; cases hy
          | some z =>
            rw [hz, Option.map_some, Option.some.injEq] at hy
            subst hy
            exact h i z hz
    constructor
    · rintro ⟨s', h'⟩
      rw [hcl] at h'
      cases h2 : each (drop (n + 1)) x.kids
        { s with
          ents := setEnt s.ents e none
          log := s.log ++ [e] } with
      | ub => rw [h2] at h'; cases h'
      | deep => rw [h2] at h'; cases h'
      | ok s2 =>
        rw [h2] at h'
        have h3 := (hC s2 h2).1 ⟨s', h'⟩
        have h4 := hA.1 ⟨s2, h2⟩
        intro i y hy w hw
        by_cases hi : i = e
        · subst hi
          rw [hx, Option.some.injEq] at hy
          subst hy
          obtain ⟨z, hz, hz'⟩ := h4 w hw
          simp only at hz
          refine ⟨⟨[], l, rfl, (h1l _).1 ⟨z, hz⟩⟩, ?_⟩
          have h5 := (hs _ _ (h1o _ _ hz).2).2.2
          have h6 := hk1 w.h
          rcases Nat.eq_zero_or_pos (fwCount w.h objs) with h0 | h0
          · obtain ⟨j, hj, hj'⟩ := exists_of_nsum (show 0 < kidsTo (setEnt s.ents i none) next w.h by omega)
            cases hu : setEnt s.ents i none j with
            | none => simp [hu, kidsOf] at hj'
            | some u =>
              simp only [hu, kidsOf] at hj'
              obtain ⟨v, hv, hvw⟩ := exists_of_fwCount hj'
              have := (h3 j u hu v hv).2
              rwa [hvw] at this
          · exact exists_of_fwCount h0
        · obtain ⟨h5, h6⟩ := h3 i y (by simpa [setEnt, hi] using hy) w hw
          exact ⟨h5.cons, h6⟩
    · intro h
      obtain ⟨s2, h2⟩ := hA.2 (fun w hw => by
        obtain ⟨h3, o, ho, how⟩ := h e x hx w hw
        obtain ⟨z, hz⟩ := (h1l w.h).2 (h3.head hn)
        refine ⟨z, hz, ?_⟩
        have h5 := (hs _ _ (h1o _ _ hz).2).2.2
        have h6 := hk1 w.h
        have h7 := fwCount_pos ho how
        omega)
      obtain ⟨s', h3⟩ := (hC s2 h2).2 (fun i y hy w hw => by
        obtain ⟨hi, hy'⟩ := h1o i y hy
        obtain ⟨h3, h4⟩ := h i y hy' w hw
        exact ⟨h3.tail hi, h4⟩)
      exact ⟨s', by rw [hcl, h2]; exact h3⟩

/-! ## Fuel -/

/-- Not out of fuel, and entries only disappear.  (No code of its own: used in statements and proofs.) -/
def Fine (next : Nat) (s : XSt K) (o : Out K) : Prop :=
  match o with
  | .ok s' => (∀ e x, s'.ents e = some x → e < next) ∧ live s'.ents next ≤ live s.ents next
  | .ub => True
  | .deep => False

theorem Fine.bind {s : XSt K} {o : Out K} {f : XSt K → Out K} {next n : Nat} (h : Fine next s o)
    (hn : live s.ents next < n)
    (hf : ∀ s', (∀ e x, s'.ents e = some x → e < next) → live s'.ents next < n → Fine next s' (f s')) :
    Fine next s (o.bind f) := by
  cases o with
  | ub => trivial
  | deep => exact h
  | ok s' =>
    have := hf s' h.1 (Nat.lt_of_le_of_lt h.2 hn)
    simp only [Out.bind]
    cases ho : f s' with
    | ub => trivial
    | deep => rw [ho] at this; exact this
    | ok s2 => rw [ho] at this; exact ⟨this.1, Nat.le_trans this.2 h.2⟩

theorem each_fine {f : Fw K → XSt K → Out K} {next n : Nat}
    (hf : ∀ w s, (∀ e x, s.ents e = some x → e < next) → live s.ents next < n → Fine next s (f w s))
    (l : List (Fw K)) : ∀ s, (∀ e x, s.ents e = some x → e < next) → live s.ents next < n →
      Fine next s (each f l s) := by
  induction l with
  | nil => intro s hb _; exact ⟨hb, Nat.le_refl _⟩
  | cons w l ih => intro s hb hn; exact (hf w s hb hn).bind hn ih

theorem destroy_fine {f : Fw K → XSt K → Out K} {next n : Nat}
    (hf : ∀ w s, (∀ e x, s.ents e = some x → e < next) → live s.ents next < n → Fine next s (f w s))
    {e : Nat} {x : Ent K} {s : XSt K} (hb : ∀ e x, s.ents e = some x → e < next) (hx : s.ents e = some x)
    (hn : live s.ents next < n + 1) : Fine next s (destroy f e x s) := by
  have hl := live_remove (hb e x hx) hx
  have := each_fine hf x.kids
    { s with
      ents := setEnt s.ents e none
      log := s.log ++ [e] }
    (fun i y hy => by
      by_cases hi : i = e
      · rw [hi]; exact hb e x hx
      · simp only [setEnt, if_neg hi] at hy; exact hb i y hy) (by simp only; omega)
  unfold destroy
  cases ho : each f x.kids
    { s with
      ents := setEnt s.ents e none
      log := s.log ++ [e] } with
  | ub => trivial
  | deep => rw [ho] at this; exact this
  | ok s2 =>
    rw [ho] at this
    refine ⟨this.1, Nat.le_trans this.2 ?_⟩
    simp only
    omega

theorem drop_fine {next : Nat} (n : Nat) : ∀ (w : Fw K) (s : XSt K), (∀ e x, s.ents e = some x → e < next) →
    live s.ents next < n → Fine next s (drop n w s) := by
  induction n with
  | zero => intro w s _ hn; omega
  | succ n ih =>
    intro w s hb hn
    simp only [drop]
    cases hx : s.ents w.h with
    | none => trivial
    | some x =>
      have hset : ∀ y : Ent K, Fine next s (.ok { s with ents := setEnt s.ents w.h (some y) }) := by
        intro y
        refine ⟨fun i z hz => ?_, by simp only [live_keep hx]; exact Nat.le_refl _⟩
        by_cases hi : i = w.h
        · rw [hi]; exact hb _ x hx
        · simp only [setEnt, if_neg hi] at hz; exact hb i z hz
      simp only
      split
      · split
        · trivial
        · split
          · exact destroy_fine ih hb hx hn
          · exact hset _
      · exact hset _

theorem clear_fine {next n : Nat} (l : List Nat) : ∀ s : XSt K, (∀ e x, s.ents e = some x → e < next) →
    live s.ents next < n → Fine next s (clear n l s) := by
  induction l with
  | nil => intro s hb _; exact ⟨hb, Nat.le_refl _⟩
  | cons e l ih =>
    intro s hb hn
    simp only [clear]
    cases hx : s.ents e with
    | none => exact ih s hb hn
    | some x => exact (destroy_fine (drop_fine n) hb hx (by omega)).bind hn ih

theorem exit_fine {next n : Nat} (l : List (Item K)) : ∀ s : XSt K, (∀ e x, s.ents e = some x → e < next) →
    live s.ents next < n → Fine next s (exit n l s) := by
  induction l with
  | nil => intro s hb _; exact ⟨hb, Nat.le_refl _⟩
  | cons i l ih =>
    intro s hb hn
    simp only [exit]
    refine Fine.bind ?_ hn ih
    cases i with
    | user l' => exact each_fine (drop_fine n) l' s hb hn
    | holder c ord => exact clear_fine ord _ hb hn

theorem live_le (ents : Nat → Option (Ent K)) (next : Nat) : live ents next ≤ next := by
  unfold live
  induction next with
  | zero => exact Nat.le_refl _
  | succ n ih => simp only [nsum]; split <;> omega

end Verif.Exit

import Verif.CFacTrack

/-!
# Termination of the program with `concurrent_factory`

Values that no flyweight refers to stay in a `concurrent_factory` until the collector comes by, so that factories are in
general not empty when they are destroyed at the end of the program, even if all flyweights have been
destroyed before; after `std::exit` there may be flyweights, too.  This models the destruction of static objects
from any state of `Verif/CFac.lean` in which threads other than collectors are outside the library or in the destructor of a
flyweight; collectors may be anywhere.
-/

set_option autoImplicit false

namespace Verif.CFExit
open Verif.Conc (Fw Cfg CfgOk fwCount nsum nsum_pos nsum_congr exists_of_nsum exists_of_fwCount fwCount_pos
  fwCount_cons fwCount_nil fwCount_append)
open Verif.CFac
variable {K : Type}

/-- State during termination: the entries that exist, the types whose holder is being or has been
destroyed, and the entries that have been destroyed, in order.  (No code of its own: used in
statements and proofs.) -/
structure XSt (K : Type) where
  ents : Nat → Option (Ent K)
  down : Nat → Bool
  log : List Nat

/-- Outcome: a state, or undefined behaviour (use of an entry or mutex that has been destroyed).  (No
code of its own: used in statements and proofs.) -/
inductive Out (K : Type) where
  | ok (s : XSt K)
  | ub

/-- Sequencing.  (No code of its own: C++ language.) -/
def Out.bind (o : Out K) (f : XSt K → Out K) : Out K :=
  match o with
  | .ok s => f s
  | .ub => .ub

/-- Whether destructors of flyweights lock the mutex of the type: with `refcounted` they may do so
(/repo/include/boost/flyweight/refcounted.hpp:130-135, /repo/include/boost/flyweight/detail/flyweight_core.hpp:67-74), with `no_tracking` they don't
(/repo/include/boost/flyweight/no_tracking.hpp:27-40); with `no_locking` there is nothing to lock
(/repo/include/boost/flyweight/no_locking.hpp:26-30). -/
def locks (cfg : Cfg K) : Bool := cfg.locking && cfg.tracks

/-- The destructor of a flyweight.  With `refcounted` and `simple_locking` (`lk`):
/repo/include/boost/flyweight/refcounted.hpp:130-135, 96: the count of the tracking policy; when it gets to 0, the mutex of the type is locked
(/repo/include/boost/flyweight/detail/flyweight_core.hpp:67-74), which has to exist; the factory's
`erase` does nothing.  Then, and otherwise only this (with `refcounted` and `no_locking` the count of the tracking policy decides nothing, and is left
out), the destructor of the factory's handle,
/repo/include/boost/flyweight/concurrent_factory.hpp:60.  The entry has to exist. -/
def drop (lk : Bool) (w : Fw K) (s : XSt K) : Out K :=
  match s.ents w.h with
  | none => .ub
  | some x =>
    if lk then
      if x.tref - 1 = 0 then
        if s.down w.c then .ub
        else .ok { s with ents := setEnt s.ents w.h (some { x with tref := x.tref - 1, ref := x.ref - 1 }) }
      else .ok { s with ents := setEnt s.ents w.h (some { x with tref := x.tref - 1, ref := x.ref - 1 }) }
    else .ok { s with ents := setEnt s.ents w.h (some { x with ref := x.ref - 1 }) }

/-- The flyweight that a thread is destroying.  (No code of its own: used in statements and proofs.) -/
def relOf : Frame K → Option (Fw K)
  | .rel w => some w
  | .relLock w => some w
  | .relCheck w => some w
  | .relUnlock w => some w
  | .relDec w => some w
  | _ => none

/-- Whether the frame is one of a collector or of the destructor of a flyweight, rather than of a creation.  (No code of its own: used in
statements and proofs.) -/
def leaving : Frame K → Bool
  | .rel _ => true
  | .relLock _ => true
  | .relCheck _ => true
  | .relUnlock _ => true
  | .relDec _ => true
  | .gcIdle _ => true
  | .gcPass .. => true
  | .gcTest .. => true
  | .gcErase .. => true
  | .gcUnlink .. => true
  | .gcLeave .. => true
  | _ => false

/-- The destructor of the factory's handle, /repo/include/boost/flyweight/concurrent_factory.hpp:60.  The entry has to exist. -/
def dec (w : Fw K) (s : XSt K) : Out K :=
  match s.ents w.h with
  | none => .ub
  | some x => .ok { s with ents := setEnt s.ents w.h (some { x with ref := x.ref - 1 }) }

/-- A thread that was in the destructor of a flyweight when termination began completes it, see `drop` for the code: if it had not released the
mutex yet (or not locked it), this has to exist.  (The steps left are taken together.) -/
def finish (lk : Bool) (f : Frame K) (s : XSt K) : Out K :=
  match f with
  | .rel w => drop lk w s
  | .relLock w => if lk && s.down w.c then .ub else dec w s
  | .relCheck w => if lk && s.down w.c then .ub else dec w s
  | .relUnlock w => if lk && s.down w.c then .ub else dec w s
  | .relDec w => dec w s
  | _ => .ok s

/-- Destroys flyweights one after another.  (No code of its own: C++ language, destruction of the members
of a value or of an object.) -/
def each (lk : Bool) : List (Fw K) → XSt K → Out K
  | [], s => .ok s
  | w :: l, s => (drop lk w s).bind (each lk l)

/-- An entry is destroyed with the flyweights inside it: `~refcounted_entry`,
/repo/include/boost/flyweight/concurrent_factory.hpp:40-53 (implicit). -/
def destroy (lk : Bool) (e : Nat) (x : Ent K) (s : XSt K) : Out K :=
  each lk x.kids
    { s with
      ents := setEnt s.ents e none
      log := s.log ++ [e] }

/-- The collector of a factory that still exists erases an entry without references,
/repo/include/boost/flyweight/concurrent_factory.hpp:128; otherwise it leaves it.  (The steps of the collector are taken
together.) -/
def collect (lk : Bool) (e : Nat) (s : XSt K) : Out K :=
  match s.ents e with
  | none => .ok s
  | some x => if x.ref = 0 ∧ s.down x.core = false then destroy lk e x s else .ok s

/-- The container of type `c` is destroyed: its entries one after another in an unspecified order,
/repo/include/boost/flyweight/concurrent_factory.hpp:173 (`cont`, destroyed after the other
members, when the collector has been joined, 133-143).  What the collector erases between the destruction of the mutex and its end comes
first in the list.  Entries of other types in the list: their collector visits them meanwhile. -/
def clear (lk : Bool) (c : Nat) : List Nat → XSt K → Out K
  | [], s => .ok s
  | e :: l, s =>
    match s.ents e with
    | none => clear lk c l s
    | some x => (if x.core = c then destroy lk e x s else collect lk e s).bind (clear lk c l)

/-- What happens at the end of the program: the holder of a type is destroyed, with the entries of its factory in the
order in which they are destroyed; an object of the program is destroyed, with the flyweights in it; a collector visits an
entry; a thread completes the destructor that it was in.  /repo/include/boost/flyweight/static_holder.hpp:31-35 for holders. -/
inductive Item (K : Type) where
  | holder (c : Nat) (ord : List Nat)
  | user (l : List (Fw K))
  | collect (e : Nat)
  | rest (f : Frame K)

/-- One of these.  For `holder_arg`, /repo/include/boost/flyweight/detail/flyweight_core.hpp:214-218, the mutex is destroyed first
and then the factory. -/
def Item.run (lk : Bool) : Item K → XSt K → Out K
  | .holder c ord, s => clear lk c ord { s with down := fun d => if d = c then true else s.down d }
  | .user l, s => each lk l s
  | .collect e, s => CFExit.collect lk e s
  | .rest f, s => finish lk f s

/-- All of them in the order given.  (No code of its own: C++ language.) -/
def exit (lk : Bool) : List (Item K) → XSt K → Out K
  | [], s => .ok s
  | i :: l, s => (i.run lk s).bind (exit lk l)

/-- The state when termination begins.  (No code of its own: used in statements and proofs.) -/
def begin (s : St K) : XSt K := ⟨s.ents, fun _ => false, []⟩

/-- Types whose holder is destroyed.  (No code of its own: used in statements and proofs.) -/
def types : List (Item K) → List Nat
  | [] => []
  | .holder c _ :: l => c :: types l
  | .user _ :: l => types l
  | .collect _ :: l => types l
  | .rest _ :: l => types l

/-- Flyweights inside static objects of the program.  (No code of its own: used in statements and
proofs.) -/
def inUsers : List (Item K) → List (Fw K)
  | [] => []
  | .holder _ _ :: l => inUsers l
  | .user l' :: l => l' ++ inUsers l
  | .collect _ :: l => inUsers l
  | .rest _ :: l => inUsers l

/-- Destructors to be completed.  (No code of its own: used in statements and proofs.) -/
def rests : List (Item K) → List (Frame K)
  | [] => []
  | .holder _ _ :: l => rests l
  | .user _ :: l => rests l
  | .collect _ :: l => rests l
  | .rest f :: l => f :: rests l

/-- Flyweights that are destroyed, or whose destructor is completed, outside values.  (No code of its own: used in statements and
proofs.) -/
def toGo : List (Item K) → List (Fw K)
  | [] => []
  | .holder _ _ :: l => toGo l
  | .user l' :: l => l' ++ toGo l
  | .collect _ :: l => toGo l
  | .rest f :: l => (relOf f).toList ++ toGo l

/-- What happens at the end of a program that terminates in state `s`: the holder of every type with entries is destroyed, once, with all
the entries of its factory; the flyweights that exist are those inside static objects and the ones in `leaked`, which are
never destroyed; destructors of flyweights that have begun are completed.  (No code of its own: used in statements and proofs.) -/
structure Exits (s : St K) (items : List (Item K)) (leaked : List (Fw K)) : Prop where
  objs : s.objs.Perm (leaked ++ inUsers items)
  begun : ((frames s).filter fun f => (relOf f).isSome).Perm (rests items)
  once : (types items).Nodup
  all : ∀ e x, s.ents e = some x → x.core ∈ types items
  ords : ∀ c ord, .holder c ord ∈ items → ∀ e x, s.ents e = some x → x.core = c → e ∈ ord

/-- Every static object with flyweights is destroyed before the holders of their types, and so is the holder of
a type whose values contain flyweights.  (No code of its own: used in statements and proofs.) -/
def Ordered (ents : Nat → Option (Ent K)) : List (Item K) → Prop
  | [] => True
  | .holder c _ :: l =>
    (∀ e x, ents e = some x → x.core = c → ∀ w ∈ x.kids, w.c ∈ types l) ∧ Ordered ents l
  | .user l' :: l => (∀ w ∈ l', w.c ∈ types l) ∧ Ordered ents l
  | .collect _ :: l => Ordered ents l
  | .rest f :: l => (∀ w, relOf f = some w → w.c ∈ types l) ∧ Ordered ents l

/-! ## Safety when types are destroyed before the types they use -/

/-- What holds during termination: `base` are the entries when it began, `U` the types whose holder is not
touched yet, `cur` the one being destroyed, `fix` the flyweights that are never destroyed, `pend`
those inside program objects or values being destroyed.  (No code of its own: used in statements and
proofs.) -/
structure Inv (base : Nat → Option (Ent K)) (next : Nat) (U : List Nat) (cur : Option Nat)
    (fix pend : List (Fw K)) (s : XSt K) : Prop where
  sub : ∀ e x, s.ents e = some x → e < next ∧ ∃ y, base e = some y ∧ x.core = y.core ∧ x.kids = y.kids
  refs : ∀ e x, s.ents e = some x → x.ref = fwCount e fix + fwCount e pend + kidsTo s.ents next e
  pends : ∀ w ∈ pend, w.c ∈ U ∧ ∃ y, s.ents w.h = some y ∧ y.core = w.c
  kids : ∀ e x, s.ents e = some x → ∀ w ∈ x.kids, w.c ∈ U ∧ ∃ y, s.ents w.h = some y ∧ y.core = w.c
  up : ∀ c ∈ U, s.down c = false
  cores : ∀ e x, s.ents e = some x → x.core ∈ U ∨ some x.core = cur
  cur_U : ∀ c, cur = some c → c ∉ U
  nodup : s.log.Nodup
  log : ∀ e, e ∈ s.log ↔ (∃ y, base e = some y) ∧ s.ents e = none

theorem kidsTo_pos {ents : Nat → Option (Ent K)} {next i : Nat} {x : Ent K} {w : Fw K} (hi : i < next)
    (hx : ents i = some x) (hw : w ∈ x.kids) : 0 < kidsTo ents next w.h :=
  nsum_pos hi (by simp only [kidsOf, hx]; exact fwCount_pos hw rfl)

variable {lk : Bool} {base : Nat → Option (Ent K)} {next : Nat} {U : List Nat} {cur : Option Nat}
  {fix pend : List (Fw K)} {s : XSt K}

/-- An entry that no flyweight to be destroyed refers to is removed. -/
theorem Inv.remove (h : Inv base next U cur fix pend s) {e : Nat} {x : Ent K} (hx : s.ents e = some x)
    (hp : ∀ w ∈ pend, w.h ≠ e)
    (hk : ∀ i y, s.ents i = some y → ∀ w ∈ y.kids, w.h ≠ e) :
    Inv base next U cur fix (x.kids ++ pend)
      { s with
        ents := setEnt s.ents e none
        log := s.log ++ [e] } := by
  obtain ⟨hlt, y, hy, hc, hky⟩ := h.sub e x hx
  have old : ∀ i z, setEnt s.ents e none i = some z → i ≠ e ∧ s.ents i = some z := by
    intro i z hz
    by_cases hi : i = e
    · simp [setEnt, hi] at hz
    · exact ⟨hi, by simpa [setEnt, hi] using hz⟩
  have keep : ∀ i z, s.ents i = some z → i ≠ e → setEnt s.ents e none i = some z := by
    intro i z hz hi
    simpa [setEnt, hi] using hz
  constructor
  · intro i z hz
    exact h.sub i z (old i z hz).2
  · intro i z hz
    obtain ⟨hi, hz'⟩ := old i z hz
    have h1 := h.refs i z hz'
    have h3 := kidsTo_set (ents := s.ents) hlt none i
    simp only [hx, kidsOf] at h3
    rw [h1, fwCount_append]
    simp only
    omega
  · intro w hw
    rcases List.mem_append.1 hw with hw | hw
    · obtain ⟨h1, z, hz, hz'⟩ := h.kids e x hx w hw
      exact ⟨h1, z, keep _ _ hz (hk e x hx w hw), hz'⟩
    · obtain ⟨h1, z, hz, hz'⟩ := h.pends w hw
      exact ⟨h1, z, keep _ _ hz (hp w hw), hz'⟩
  · intro i z hz w hw
    obtain ⟨_, hz'⟩ := old i z hz
    obtain ⟨h1, v, hv, hv'⟩ := h.kids i z hz' w hw
    exact ⟨h1, v, keep _ _ hv (hk i z hz' w hw), hv'⟩
  · exact h.up
  · intro i z hz
    exact h.cores i z (old i z hz).2
  · exact h.cur_U
  · refine List.nodup_append.2 ⟨h.nodup, by simp, ?_⟩
    intro a ha b hb hab
    simp only [List.mem_singleton] at hb
    have := (h.log a).1 ha
    rw [hab, hb, hx] at this
    exact absurd this.2 (by simp)
  · intro i
    simp only [List.mem_append, List.mem_singleton, h.log i]
    by_cases hi : i = e
    · simp [setEnt, hi, hy]
    · simp [setEnt, hi]

/-- A reference is released. -/
theorem Inv.release {w : Fw K} (h : Inv base next U cur fix (w :: pend) s) {x x' : Ent K}
    (hx : s.ents w.h = some x) (hc' : x'.core = x.core) (hk' : x'.kids = x.kids) (hr' : x'.ref = x.ref - 1) :
    Inv base next U cur fix pend { s with ents := setEnt s.ents w.h (some x') } := by
  have old : ∀ i z, setEnt s.ents w.h (some x') i = some z →
      ∃ z', s.ents i = some z' ∧ z.core = z'.core ∧ z.kids = z'.kids ∧
        z.ref = z'.ref - if w.h = i then 1 else 0 := by
    intro i z hz
    by_cases hi : i = w.h
    · subst hi
      simp only [setEnt, if_true, Option.some.injEq] at hz
      subst hz
      exact ⟨x, hx, hc', hk', by simp [hr']⟩
    · simp only [setEnt, if_neg hi] at hz
      exact ⟨z, hz, rfl, rfl, by simp [Ne.symm hi]⟩
  have keep : ∀ i z, s.ents i = some z →
      ∃ z', setEnt s.ents w.h (some x') i = some z' ∧ z'.core = z.core := by
    intro i z hz
    by_cases hi : i = w.h
    · subst hi
      rw [hx, Option.some.injEq] at hz
      subst hz
      exact ⟨x', by simp [setEnt], hc'⟩
    · exact ⟨z, by simpa [setEnt, hi] using hz, rfl⟩
  have hks : ∀ i, kidsTo (setEnt s.ents w.h (some x')) next i = kidsTo s.ents next i := by
    intro i
    have := kidsTo_set (ents := s.ents) (h.sub _ _ hx).1 (some x') i
    simp only [hx, kidsOf, hk'] at this
    omega
  constructor
  · intro i z hz
    obtain ⟨z', hz', h1, h2, _⟩ := old i z hz
    rw [h1, h2]
    exact h.sub i z' hz'
  · intro i z hz
    obtain ⟨z', hz', _, _, h4⟩ := old i z hz
    have h5 := h.refs i z' hz'
    rw [h4, h5, fwCount_cons]
    simp only [hks]
    split <;> simp only [Int.natCast_add] <;> omega
  · intro v hv
    obtain ⟨h1, y, hy, hy'⟩ := h.pends v (List.mem_cons_of_mem _ hv)
    obtain ⟨y', h2, h3⟩ := keep _ _ hy
    exact ⟨h1, y', h2, h3.trans hy'⟩
  · intro i z hz v hv
    obtain ⟨z', hz', _, h2, _⟩ := old i z hz
    rw [h2] at hv
    obtain ⟨h1, y, hy, hy'⟩ := h.kids i z' hz' v hv
    obtain ⟨y', h2, h3⟩ := keep _ _ hy
    exact ⟨h1, y', h2, h3.trans hy'⟩
  · exact h.up
  · intro i z hz
    obtain ⟨z', hz', h1, _⟩ := old i z hz
    rw [h1]
    exact h.cores i z' hz'
  · exact h.cur_U
  · exact h.nodup
  · intro i
    rw [h.log i]
    by_cases hi : i = w.h
    · simp [setEnt, hi, hx]
    · simp [setEnt, hi]

theorem drop_ok {w : Fw K} (h : Inv base next U cur fix (w :: pend) s) :
    ∃ s', drop lk w s = .ok s' ∧ Inv base next U cur fix pend s' ∧ ∀ e, s.ents e = none → s'.ents e = none := by
  obtain ⟨hU, x, hx, hxc⟩ := h.pends w (List.mem_cons_self ..)
  have gone : ∀ y : Ent K, ∀ e, s.ents e = none → setEnt s.ents w.h (some y) e = none := by
    intro y e he
    by_cases hi' : e = w.h
    · rw [hi', hx] at he; cases he
    · simpa [setEnt, hi'] using he
  simp only [drop, hx, h.up _ hU]
  cases lk with
  | true =>
    simp only [if_true, Bool.false_eq_true, if_false, ite_self]
    exact ⟨_, rfl, h.release hx rfl rfl rfl, gone _⟩
  | false =>
    simp only [Bool.false_eq_true, if_false]
    exact ⟨_, rfl, h.release hx rfl rfl rfl, gone _⟩

theorem dec_ok {w : Fw K} (h : Inv base next U cur fix (w :: pend) s) :
    ∃ s', dec w s = .ok s' ∧ Inv base next U cur fix pend s' ∧ ∀ e, s.ents e = none → s'.ents e = none := by
  obtain ⟨hU, x, hx, hxc⟩ := h.pends w (List.mem_cons_self ..)
  simp only [dec, hx]
  refine ⟨_, rfl, h.release hx rfl rfl rfl, fun e he => ?_⟩
  by_cases hi' : e = w.h
  · rw [hi', hx] at he; cases he
  · simpa [setEnt, hi'] using he

theorem finish_ok (f : Frame K) (h : Inv base next U cur fix ((relOf f).toList ++ pend) s) :
    ∃ s', finish lk f s = .ok s' ∧ Inv base next U cur fix pend s' ∧ ∀ e, s.ents e = none → s'.ents e = none := by
  have up : ∀ w, relOf f = some w → s.down w.c = false := by
    intro w hw
    exact h.up _ (h.pends w (by simp [hw])).1
  cases f with
  | rel w => exact drop_ok h
  | relLock w => simp only [finish, up w rfl, Bool.and_false, Bool.false_eq_true, if_false]; exact dec_ok h
  | relCheck w => simp only [finish, up w rfl, Bool.and_false, Bool.false_eq_true, if_false]; exact dec_ok h
  | relUnlock w => simp only [finish, up w rfl, Bool.and_false, Bool.false_eq_true, if_false]; exact dec_ok h
  | relDec w => exact dec_ok h
  | _ => exact ⟨s, rfl, h, fun _ h => h⟩

theorem each_ok (l : List (Fw K)) : ∀ s, Inv base next U cur fix (l ++ pend) s →
      ∃ s', each lk l s = .ok s' ∧ Inv base next U cur fix pend s' ∧ ∀ e, s.ents e = none → s'.ents e = none := by
  induction l with
  | nil => intro s h; exact ⟨s, rfl, h, fun _ h => h⟩
  | cons w l ih =>
    intro s h
    obtain ⟨s1, h1, h2, h3⟩ := drop_ok (lk := lk) (w := w) (pend := l ++ pend) h
    obtain ⟨s2, h4, h5, h6⟩ := ih s1 h2
    exact ⟨s2, by simp only [each, h1, Out.bind, h4], h5, fun e he => h6 e (h3 e he)⟩

theorem destroy_ok (h : Inv base next U cur fix pend s) {e : Nat} {x : Ent K} (hx : s.ents e = some x)
    (hp : ∀ w ∈ pend, w.h ≠ e) (hk : ∀ i y, s.ents i = some y → ∀ w ∈ y.kids, w.h ≠ e) :
    ∃ s', destroy lk e x s = .ok s' ∧ Inv base next U cur fix pend s' ∧
      (∀ e, s.ents e = none → s'.ents e = none) ∧ s'.ents e = none := by
  obtain ⟨s', h1, h2, h3⟩ := each_ok (lk := lk) x.kids _ (h.remove hx hp hk)
  refine ⟨s', h1, h2, fun i hi => h3 i ?_, h3 e (by simp [setEnt])⟩
  simp only [setEnt]
  split
  · rfl
  · exact hi

theorem collect_ok (e : Nat) (h : Inv base next U cur fix pend s) :
    ∃ s', collect lk e s = .ok s' ∧ Inv base next U cur fix pend s' ∧ ∀ e, s.ents e = none → s'.ents e = none := by
  simp only [collect]
  cases hx : s.ents e with
  | none => exact ⟨s, rfl, h, fun _ h => h⟩
  | some x =>
    simp only
    split
    · rename_i h0
      have hr := h.refs e x hx
      obtain ⟨s', h1, h2, h3, _⟩ := destroy_ok (lk := lk) h hx
        (fun w hw he => by have := fwCount_pos hw he; omega)
        (fun i y hy w hw he => by
          have := kidsTo_pos (h.sub i y hy).1 hy hw
          rw [he] at this
          omega)
      exact ⟨s', h1, h2, h3⟩
    · exact ⟨s, rfl, h, fun _ h => h⟩

theorem clear_ok {c : Nat} (l : List Nat) : ∀ s, Inv base next U (some c) fix pend s →
    ∃ s', clear lk c l s = .ok s' ∧ Inv base next U (some c) fix pend s' ∧
      (∀ e, s.ents e = none → s'.ents e = none) ∧
      ∀ e ∈ l, ∀ y, base e = some y → y.core = c → s'.ents e = none := by
  induction l with
  | nil => intro s h; exact ⟨s, rfl, h, fun _ h => h, by simp⟩
  | cons e l ih =>
    intro s h
    cases hx : s.ents e with
    | none =>
      obtain ⟨s', h1, h2, h3, h4⟩ := ih s h
      refine ⟨s', by simp only [clear, hx, h1], h2, h3, fun i hi => ?_⟩
      rcases List.mem_cons.1 hi with rfl | hi
      · exact fun _ _ _ => h3 _ hx
      · exact h4 i hi
    | some x =>
      by_cases hc : x.core = c
      · have hcU := h.cur_U c rfl
        have other : ∀ (w : Fw K), (w.c ∈ U ∧ ∃ y, s.ents w.h = some y ∧ y.core = w.c) → w.h ≠ e := by
          rintro w ⟨hU, y, hy, hyc⟩ he
          rw [he, hx, Option.some.injEq] at hy
          subst hy
          rw [← hyc, hc] at hU
          exact hcU hU
        obtain ⟨s1, h1, h2, h3, h3'⟩ := destroy_ok (lk := lk) h hx (fun w hw => other w (h.pends w hw))
          (fun i y hy w hw => other w (h.kids i y hy w hw))
        obtain ⟨s', h4, h5, h6, h7⟩ := ih s1 h2
        refine ⟨s', by simp only [clear, hx, if_pos hc, h1, Out.bind, h4], h5, fun i hi => h6 i (h3 i hi), fun i hi => ?_⟩
        rcases List.mem_cons.1 hi with rfl | hi
        · exact fun _ _ _ => h6 _ h3'
        · exact h7 i hi
      · obtain ⟨s1, h1, h2, h3⟩ := collect_ok (lk := lk) e h
        obtain ⟨s', h4, h5, h6, h7⟩ := ih s1 h2
        refine ⟨s', by simp only [clear, hx, if_neg hc, h1, Out.bind, h4], h5, fun i hi => h6 i (h3 i hi), fun i hi => ?_⟩
        rcases List.mem_cons.1 hi with rfl | hi
        · intro y hy hyc
          obtain ⟨_, y', hy', hc', _⟩ := h.sub _ x hx
          rw [hy, Option.some.injEq] at hy'
          subst hy'
          exact absurd (hc'.trans hyc) hc
        · exact h7 i hi

/-- Values contain flyweights of types whose holder is destroyed later. -/
theorem Ordered.kids {items : List (Item K)} (h : Ordered base items) (hn : (types items).Nodup) :
    ∀ e x, base e = some x → x.core ∈ types items → ∀ w ∈ x.kids, w.c ∈ types items := by
  induction items with
  | nil => intro e x _ hc; simp [types] at hc
  | cons i l ih =>
    intro e x hx hc w hw
    cases i with
    | holder c ord =>
      simp only [types, List.nodup_cons] at hn
      simp only [types, List.mem_cons] at hc ⊢
      by_cases h' : x.core = c
      · exact .inr (h.1 e x hx h' w hw)
      · exact .inr (ih h.2 hn.2 e x hx (hc.resolve_left h') w hw)
    | user l' => exact ih h.2 hn e x hx hc w hw
    | collect i => exact ih h hn e x hx hc w hw
    | rest f => exact ih h.2 hn e x hx hc w hw

theorem Ordered.users {items : List (Item K)} (h : Ordered base items) :
    ∀ w ∈ toGo items, w.c ∈ types items := by
  induction items with
  | nil => intro w hw; simp [toGo] at hw
  | cons i l ih =>
    intro w hw
    cases i with
    | holder c ord => exact List.mem_cons_of_mem _ (ih h.2 w hw)
    | user l' =>
      rcases List.mem_append.1 hw with hw | hw
      · exact h.1 w hw
      · exact ih h.2 w hw
    | collect i => exact ih h w hw
    | rest f =>
      rcases List.mem_append.1 hw with hw | hw
      · exact h.1 w (Option.mem_toList.1 hw)
      · exact ih h.2 w hw

/-- Each of these is in an object of the program, or its destructor has begun. -/
theorem mem_toGo {w : Fw K} (items : List (Item K)) :
    w ∈ toGo items ↔ w ∈ inUsers items ∨ ∃ f ∈ rests items, relOf f = some w := by
  induction items with
  | nil => simp [toGo, inUsers, rests]
  | cons i l ih =>
    cases i with
    | holder c ord => exact ih
    | user l' => simp only [toGo, inUsers, rests, List.mem_append, ih, or_assoc]
    | collect e => exact ih
    | rest f =>
      simp only [toGo, inUsers, rests, List.mem_append, ih, List.mem_cons, exists_eq_or_imp, Option.mem_toList]
      exact ⟨fun h => h.elim (fun h => .inr (.inl h)) fun h => h.elim .inl fun h => .inr (.inr h),
        fun h => h.elim (fun h => .inr (.inl h)) fun h => h.elim .inl fun h => .inr (.inr h)⟩

theorem count_toGo (e : Nat) (items : List (Item K)) :
    fwCount e (toGo items) = fwCount e (inUsers items) + Conc.tot (refF e) ((rests items).filter fun f => (relOf f).isSome) := by
  induction items with
  | nil => rfl
  | cons i l ih =>
    cases i with
    | holder c ord => exact ih
    | user l' => simp only [toGo, inUsers, rests, fwCount_append, ih]; omega
    | collect e => exact ih
    | rest f =>
      simp only [toGo, inUsers, rests, fwCount_append, ih]
      cases f <;> simp [relOf, fwCount_cons, fwCount_nil, refF, Conc.tot] <;> omega

theorem exit_ok (items : List (Item K)) : ∀ s,
    Inv base next (types items) none fix (toGo items) s →
    Ordered base items → (types items).Nodup →
    (∀ c ord, .holder c ord ∈ items → ∀ e x, base e = some x → x.core = c → e ∈ ord) →
    ∃ s', exit lk items s = .ok s' ∧ Inv base next [] none fix [] s' := by
  induction items with
  | nil => intro s h _ _ _; exact ⟨s, rfl, h⟩
  | cons i items ih =>
    intro s h ho hnd hord
    cases i with
    | user l =>
      obtain ⟨s1, h1, h2, h3⟩ := each_ok (lk := lk) l s
        (show Inv base next (types items) none fix (l ++ toGo items) s from h)
      obtain ⟨s', h4, h5⟩ := ih s1 h2 ho.2 hnd (fun c ord hm => hord c ord (List.mem_cons_of_mem _ hm))
      exact ⟨s', by simp only [exit, Item.run, h1, Out.bind, h4], h5⟩
    | collect e =>
      obtain ⟨s1, h1, h2, h3⟩ := collect_ok (lk := lk) e
        (show Inv base next (types items) none fix (toGo items) s from h)
      obtain ⟨s', h4, h5⟩ := ih s1 h2 ho hnd (fun c ord hm => hord c ord (List.mem_cons_of_mem _ hm))
      exact ⟨s', by simp only [exit, Item.run, h1, Out.bind, h4], h5⟩
    | rest f =>
      obtain ⟨s1, h1, h2, h3⟩ := finish_ok (lk := lk) f
        (show Inv base next (types items) none fix ((relOf f).toList ++ toGo items) s from h)
      obtain ⟨s', h4, h5⟩ := ih s1 h2 ho.2 hnd (fun c ord hm => hord c ord (List.mem_cons_of_mem _ hm))
      exact ⟨s', by simp only [exit, Item.run, h1, Out.bind, h4], h5⟩
    | holder c ord =>
      simp only [types, List.nodup_cons] at hnd
      have hordc := hord c ord (List.mem_cons_self ..)
      have hk := Ordered.kids ho.2 hnd.2
      have hpre : Inv base next (types items) (some c) fix (toGo items)
          { s with down := fun d => if d = c then true else s.down d } := by
        refine ⟨h.sub, h.refs, fun w hw => ⟨ho.2.users w hw, (h.pends w hw).2⟩, ?_, ?_, ?_, ?_, h.nodup, h.log⟩
        · intro e x hx w hw
          refine ⟨?_, (h.kids e x hx w hw).2⟩
          obtain ⟨_, y, hy, hyc, hyk⟩ := h.sub e x hx
          rw [hyk] at hw
          by_cases hc : y.core = c
          · exact ho.1 e y hy hc w hw
          · have := h.cores e x hx
            simp only [types, List.mem_cons, reduceCtorEq, or_false, hyc] at this
            exact hk e y hy (this.resolve_left hc) w hw
        · intro d hd
          have : d ≠ c := fun h' => hnd.1 (h' ▸ hd)
          simp only [if_neg this]
          exact h.up d (List.mem_cons_of_mem _ hd)
        · intro e x hx
          have := h.cores e x hx
          simp only [types, List.mem_cons, reduceCtorEq, or_false] at this
          rcases this with h1 | h1
          · exact .inr (by rw [h1])
          · exact .inl h1
        · intro d hd
          cases hd
          exact hnd.1
      obtain ⟨s1, h1, h2, h3, h4⟩ := clear_ok (lk := lk) ord _ hpre
      have hpost : Inv base next (types items) none fix (toGo items) s1 := by
        refine ⟨h2.sub, h2.refs, h2.pends, h2.kids, h2.up, ?_, by simp, h2.nodup, h2.log⟩
        intro e x hx
        rcases h2.cores e x hx with h' | h'
        · exact .inl h'
        · obtain ⟨_, y, hy, hyc, _⟩ := h2.sub e x hx
          have hyc' : y.core = c := by simpa [hyc] using h'
          have := h4 e (hordc e y hy hyc') y hy hyc'
          rw [this] at hx
          cases hx
      obtain ⟨s', h5, h6⟩ := ih s1 hpost ho.2 hnd.2 (fun c ord hm => hord c ord (List.mem_cons_of_mem _ hm))
      exact ⟨s', by simp only [exit, Item.run, h1, Out.bind, h5], h6⟩

/-! ## Recursive values: the exact condition -/

/-- Destroying flyweights of a type whose holder is being destroyed: defined if and only if the entries
exist and, if the tracking policy counts, keep a reference. -/
theorem each_down_iff {c : Nat} (l : List (Fw K)) : ∀ s : XSt K, s.down c = true → (∀ w ∈ l, w.c = c) →
    (lk = true → ∀ w ∈ l, ∀ x, s.ents w.h = some x → (fwCount w.h l : Int) ≤ x.tref) →
    ((∃ s', each lk l s = .ok s') ↔
      ∀ w ∈ l, ∃ x, s.ents w.h = some x ∧ (lk = true → (fwCount w.h l : Int) < x.tref)) ∧
    ∀ s', each lk l s = .ok s' → s'.down = s.down ∧ s'.log = s.log ∧
      ∀ e, s'.ents e = (s.ents e).map fun x =>
        { x with ref := x.ref - fwCount e l, tref := if lk then x.tref - fwCount e l else x.tref } := by
  induction l with
  | nil =>
    intro s _ _ _
    refine ⟨⟨fun _ w hw => (List.not_mem_nil hw).elim, fun _ => ⟨s, rfl⟩⟩, fun s' h => ?_⟩
    simp only [each, Out.ok.injEq] at h
    subst h
    refine ⟨rfl, rfl, fun e => ?_⟩
    cases s.ents e <;> simp
  | cons w l ih =>
    intro s hd hc hle
    have hwc := hc w (List.mem_cons_self ..)
    cases hx : s.ents w.h with
    | none =>
      have hu : drop lk w s = .ub := by simp only [drop, hx]
      refine ⟨⟨fun ⟨s', h⟩ => ?_, fun h => ?_⟩, fun s' h => ?_⟩
      · simp only [each, hu, Out.bind] at h; cases h
      · obtain ⟨x, h', _⟩ := h w (List.mem_cons_self ..)
        rw [hx] at h'; cases h'
      · simp only [each, hu, Out.bind] at h; cases h
    | some x =>
      have hlex : lk = true → (fwCount w.h l : Int) + 1 ≤ x.tref := fun hl => by
        have := hle hl w (List.mem_cons_self ..) x hx
        simp only [fwCount_cons, if_true] at this
        omega
      by_cases h0 : lk = true ∧ x.tref - 1 = 0
      · have hu : drop lk w s = .ub := by simp only [drop, hx, if_pos h0.1, if_pos h0.2, hwc, hd, if_true]
        refine ⟨⟨fun ⟨s', h⟩ => ?_, fun h => ?_⟩, fun s' h => ?_⟩
        · simp only [each, hu, Out.bind] at h; cases h
        · obtain ⟨y, h', h''⟩ := h w (List.mem_cons_self ..)
          rw [hx, Option.some.injEq] at h'
          subst h'
          have := h'' h0.1
          simp only [fwCount_cons, if_true] at this
          omega
        · simp only [each, hu, Out.bind] at h; cases h
      · have hu : drop lk w s = .ok { s with ents := setEnt s.ents w.h (some ⟨x.core, x.key, x.cted, x.kids, x.ref - 1, if lk then x.tref - 1 else x.tref⟩) } := by
          simp only [drop, hx]
          cases lk with
          | true =>
            simp only [true_and] at h0
            simp only [if_true, if_neg h0]
          | false => simp only [Bool.false_eq_true, if_false]
        have hset : ∀ e, setEnt s.ents w.h (some ⟨x.core, x.key, x.cted, x.kids, x.ref - 1, if lk then x.tref - 1 else x.tref⟩) e =
            (s.ents e).map fun y => ⟨y.core, y.key, y.cted, y.kids, y.ref - (if w.h = e then 1 else 0),
              if lk then y.tref - (if w.h = e then 1 else 0) else y.tref⟩ := by
          intro e
          by_cases he : e = w.h
          · subst he; simp [setEnt, hx]
          · simp only [setEnt, if_neg he, if_neg (Ne.symm he)]
            cases s.ents e <;> simp
        obtain ⟨h1, h2⟩ := ih { s with ents := setEnt s.ents w.h (some ⟨x.core, x.key, x.cted, x.kids, x.ref - 1, if lk then x.tref - 1 else x.tref⟩) } hd
          (fun v hv => hc v (List.mem_cons_of_mem _ hv)) (fun hl v hv y hy => by
            simp only [hset] at hy
            cases hz : s.ents v.h with
            | none => rw [hz] at hy; cases hy
            | some z =>
              rw [hz] at hy
              simp only [Option.map_some, Option.some.injEq] at hy
              subst hy
              have := hle hl v (List.mem_cons_of_mem _ hv) z hz
              simp only [fwCount_cons] at this
              simp only [hl, if_true]
              split at this <;> rename_i he <;> simp only [he, if_true, if_false] <;> omega)
        simp only [each, hu, Out.bind]
        refine ⟨h1.trans ⟨fun h v hv => ?_, fun h v hv => ?_⟩, fun s' h => ?_⟩
        · rcases List.mem_cons.1 hv with rfl | hv
          · refine ⟨x, hx, fun hl => ?_⟩
            have hl' := hlex hl
            have h0' : x.tref - 1 ≠ 0 := fun h' => h0 ⟨hl, h'⟩
            simp only [fwCount_cons, if_true]
            rcases Nat.eq_zero_or_pos (fwCount v.h l) with hz | hz
            · omega
            · obtain ⟨u, hu', he⟩ := exists_of_fwCount hz
              obtain ⟨y, hy, hy'⟩ := h u hu'
              have hy' := hy' hl
              simp only [he, setEnt, Option.some.injEq, if_true, hl] at hy hy'
              subst hy
              simp only at hy'
              omega
          · obtain ⟨y, hy, hy'⟩ := h v hv
            simp only [hset] at hy
            cases hz : s.ents v.h with
            | none => rw [hz] at hy; cases hy
            | some z =>
              rw [hz] at hy
              simp only [Option.map_some, Option.some.injEq] at hy
              subst hy
              refine ⟨z, rfl, fun hl => ?_⟩
              have hy' := hy' hl
              simp only [fwCount_cons]
              simp only [hl, if_true] at hy'
              split at hy' <;> rename_i he <;> simp only [he, if_true, if_false] <;> omega
        · obtain ⟨z, hz, hz'⟩ := h v (List.mem_cons_of_mem _ hv)
          refine ⟨⟨z.core, z.key, z.cted, z.kids, z.ref - (if w.h = v.h then 1 else 0),
              if lk then z.tref - (if w.h = v.h then 1 else 0) else z.tref⟩,
            by simp only [hset, hz, Option.map_some], fun hl => ?_⟩
          have hz' := hz' hl
          simp only [fwCount_cons] at hz'
          simp only [hl, if_true]
          split at hz' <;> rename_i he <;> simp only [he, if_true, if_false] <;> omega
        · obtain ⟨h3, h4, h5⟩ := h2 s' h
          refine ⟨h3, h4, fun e => ?_⟩
          rw [h5 e]
          simp only [hset, fwCount_cons, Option.map_map]
          congr 1
          funext y
          simp only [Function.comp, Ent.mk.injEq, true_and]
          cases lk <;> split <;> simp <;> omega

/-- `e` comes before `f` in the list.  (No code of its own: used in statements and proofs.) -/
def Before (e f : Nat) (l : List Nat) : Prop := ∃ a b, l = a ++ e :: b ∧ f ∈ b

theorem Before.cons {e f g : Nat} {l : List Nat} (h : Before e f l) : Before e f (g :: l) := by
  obtain ⟨a, b, rfl, h⟩ := h
  exact ⟨g :: a, b, rfl, h⟩

theorem Before.head {e f : Nat} {l : List Nat} (hn : (e :: l).Nodup) (h : Before e f (e :: l)) : f ∈ l := by
  obtain ⟨a, b, h, hf⟩ := h
  cases a with
  | nil => simp only [List.nil_append, List.cons.injEq, true_and] at h; rw [h]; exact hf
  | cons a' a =>
    simp only [List.cons_append, List.cons.injEq] at h
    have : e ∈ l := by rw [h.2]; simp
    exact absurd this (List.nodup_cons.1 hn).1

theorem Before.tail {e f g : Nat} {l : List Nat} (hne : e ≠ g) (h : Before e f (g :: l)) : Before e f l := by
  obtain ⟨a, b, h, hf⟩ := h
  cases a with
  | nil => simp only [List.nil_append, List.cons.injEq] at h; exact absurd h.1.symm hne
  | cons a' a =>
    simp only [List.cons_append, List.cons.injEq] at h
    exact ⟨a, b, h.2, hf⟩

theorem clear_iff {c next : Nat} {objs : List (Fw K)} (l : List Nat) : ∀ s : XSt K, s.down c = true → l.Nodup →
    (∀ e, (∃ x, s.ents e = some x) ↔ e ∈ l) →
    (∀ e x, s.ents e = some x → e < next ∧ x.core = c ∧ (∀ w ∈ x.kids, w.c = c) ∧
      (lk = true → x.tref = fwCount e objs + kidsTo s.ents next e)) →
    ((∃ s', clear lk c l s = .ok s') ↔
      ∀ e x, s.ents e = some x → ∀ w ∈ x.kids, Before e w.h l ∧ (lk = true → ∃ o ∈ objs, o.h = w.h)) := by
  induction l with
  | nil =>
    intro s _ _ hl _
    refine ⟨fun _ e x hx => absurd ((hl e).1 ⟨x, hx⟩) (by simp), fun _ => ⟨s, rfl⟩⟩
  | cons e l ih =>
    intro s hd hn hl hs
    obtain ⟨x, hx⟩ := (hl e).2 (List.mem_cons_self ..)
    obtain ⟨hlt, hxc, hkc, hxr⟩ := hs e x hx
    have hel := (List.nodup_cons.1 hn).1
    have hk1 : ∀ i, kidsTo (setEnt s.ents e none) next i + fwCount i x.kids = kidsTo s.ents next i := by
      intro i
      have := kidsTo_set (ents := s.ents) hlt none i
      simpa [hx, kidsOf] using this
    have h1l : ∀ i, (∃ y, setEnt s.ents e none i = some y) ↔ i ∈ l := by
      intro i
      by_cases hi : i = e
      · subst hi; simp [setEnt, hel]
      · have := hl i
        simp only [List.mem_cons, hi, false_or] at this
        simpa [setEnt, hi] using this
    have h1o : ∀ i y, setEnt s.ents e none i = some y → i ≠ e ∧ s.ents i = some y := by
      intro i y hy
      by_cases hi : i = e
      · simp [setEnt, hi] at hy
      · exact ⟨hi, by simpa [setEnt, hi] using hy⟩
    obtain ⟨hA, hB⟩ := each_down_iff (lk := lk) (c := c) x.kids
      { s with
        ents := setEnt s.ents e none
        log := s.log ++ [e] } hd hkc (fun hlk w hw y hy => by
          obtain ⟨_, hy'⟩ := h1o _ _ hy
          have := (hs _ _ hy').2.2.2 hlk
          have := hk1 w.h
          omega)
    have hcl : clear lk c (e :: l) s = (each lk x.kids
      { s with
        ents := setEnt s.ents e none
        log := s.log ++ [e] }).bind (clear lk c l) := by simp only [clear, hx, hxc, if_true, destroy]
    -- the rest, once the flyweights in the first value have been destroyed
    have hC : ∀ s2, each lk x.kids
        { s with
          ents := setEnt s.ents e none
          log := s.log ++ [e] } = .ok s2 →
        ((∃ s', clear lk c l s2 = .ok s') ↔
          ∀ i y, setEnt s.ents e none i = some y → ∀ w ∈ y.kids, Before i w.h l ∧ (lk = true → ∃ o ∈ objs, o.h = w.h)) := by
      intro s2 h2
      obtain ⟨hdown, _, hents⟩ := hB s2 h2
      simp only at hents hdown
      have hk2 : ∀ i, kidsTo s2.ents next i = kidsTo (setEnt s.ents e none) next i := by
        intro i
        refine nsum_congr fun j _ => ?_
        simp only [hents]
        cases setEnt s.ents e none j <;> rfl
      refine (ih s2 (by rw [hdown]; exact hd) (List.nodup_cons.1 hn).2 (fun i => ?_) (fun i y hy => ?_)).trans ?_
      · rw [← h1l i, hents]
        cases setEnt s.ents e none i <;> simp
      · rw [hents] at hy
        cases hz : setEnt s.ents e none i with
        | none => rw [hz] at hy; cases hy
        | some z =>
          rw [hz, Option.map_some, Option.some.injEq] at hy
          subst hy
          obtain ⟨h3, h3', h4, h5⟩ := hs i z (h1o i z hz).2
          refine ⟨h3, h3', h4, fun hlk => ?_⟩
          have := h5 hlk
          have := hk1 i
          have := hk2 i
          simp only [hlk, if_true]
          omega
      · constructor
        · intro h i y hy
          exact h i ⟨y.core, y.key, y.cted, y.kids, y.ref - fwCount i x.kids,
            if lk then y.tref - fwCount i x.kids else y.tref⟩ (by rw [hents, hy, Option.map_some])
        · intro h i y hy
          rw [hents] at hy
          cases hz : setEnt s.ents e none i with
          | none => rw [hz] at hy; cases hy
          | some z =>
            rw [hz, Option.map_some, Option.some.injEq] at hy
            subst hy
            exact h i z hz
    constructor
    · rintro ⟨s', h'⟩
      rw [hcl] at h'
      cases h2 : each lk x.kids
        { s with
          ents := setEnt s.ents e none
          log := s.log ++ [e] } with
      | ub => rw [h2] at h'; cases h'
      | ok s2 =>
        rw [h2] at h'
        have h3 := (hC s2 h2).1 ⟨s', h'⟩
        have h4 := hA.1 ⟨s2, h2⟩
        intro i y hy w hw
        by_cases hi : i = e
        · subst hi
          rw [hx, Option.some.injEq] at hy
          subst hy
          obtain ⟨z, hz, hz'⟩ := h4 w hw
          simp only at hz
          refine ⟨⟨[], l, rfl, (h1l _).1 ⟨z, hz⟩⟩, fun hlk => ?_⟩
          have hz' := hz' hlk
          have h5 := (hs _ _ (h1o _ _ hz).2).2.2.2 hlk
          have h6 := hk1 w.h
          rcases Nat.eq_zero_or_pos (fwCount w.h objs) with h0 | h0
          · obtain ⟨j, hj, hj'⟩ := exists_of_nsum (show 0 < kidsTo (setEnt s.ents i none) next w.h by omega)
            cases hu : setEnt s.ents i none j with
            | none => simp [hu, kidsOf] at hj'
            | some u =>
              simp only [hu, kidsOf] at hj'
              obtain ⟨v, hv, hvw⟩ := exists_of_fwCount hj'
              have := (h3 j u hu v hv).2 hlk
              rwa [hvw] at this
          · exact exists_of_fwCount h0
        · obtain ⟨h5, h6⟩ := h3 i y (by simpa [setEnt, hi] using hy) w hw
          exact ⟨h5.cons, h6⟩
    · intro h
      obtain ⟨s2, h2⟩ := hA.2 (fun w hw => by
        obtain ⟨h3, h3'⟩ := h e x hx w hw
        obtain ⟨z, hz⟩ := (h1l w.h).2 (h3.head hn)
        refine ⟨z, hz, fun hlk => ?_⟩
        obtain ⟨o, ho, how⟩ := h3' hlk
        have h5 := (hs _ _ (h1o _ _ hz).2).2.2.2 hlk
        have h6 := hk1 w.h
        have h7 := fwCount_pos ho how
        omega)
      obtain ⟨s', h3⟩ := (hC s2 h2).2 (fun i y hy w hw => by
        obtain ⟨hi, hy'⟩ := h1o i y hy
        obtain ⟨h3, h4⟩ := h i y hy' w hw
        exact ⟨h3.tail hi, h4⟩)
      exact ⟨s', by rw [hcl, h2]; exact h3⟩

/-! ## The order of holders is needed -/

theorem drop_shape {w : Fw K} {s' : XSt K} (h : drop lk w s = .ok s') :
    s.ents w.h ≠ none ∧ s'.down = s.down ∧
    ∀ e, (s'.ents e).map (fun x => (x.core, x.kids)) = (s.ents e).map fun x => (x.core, x.kids) := by
  simp only [drop] at h
  cases hx : s.ents w.h with
  | none => rw [hx] at h; cases h
  | some x =>
    simp only [hx] at h
    have key : ∀ y : Ent K, y.core = x.core → y.kids = x.kids →
        ∀ e, (setEnt s.ents w.h (some y) e).map (fun x => (x.core, x.kids)) = (s.ents e).map fun x => (x.core, x.kids) := by
      intro y h1 h2 e
      by_cases he : e = w.h
      · simp [setEnt, he, hx, h1, h2]
      · simp [setEnt, he]
    refine ⟨by simp, ?_⟩
    split at h
    · split at h
      · split at h
        · cases h
        · cases h; exact ⟨rfl, key _ rfl rfl⟩
      · cases h; exact ⟨rfl, key _ rfl rfl⟩
    · cases h; exact ⟨rfl, key _ rfl rfl⟩

theorem each_shape (l : List (Fw K)) : ∀ s s' : XSt K, each lk l s = .ok s' →
    (∀ w ∈ l, s.ents w.h ≠ none) ∧ s'.down = s.down ∧
    ∀ e, (s'.ents e).map (fun x => (x.core, x.kids)) = (s.ents e).map fun x => (x.core, x.kids) := by
  induction l with
  | nil => intro s s' h; cases h; exact ⟨by simp, rfl, fun _ => rfl⟩
  | cons w l ih =>
    intro s s' h
    simp only [each] at h
    cases h1 : drop lk w s with
    | ub => rw [h1] at h; cases h
    | ok s1 =>
      rw [h1] at h
      obtain ⟨h2, h3, h4⟩ := drop_shape h1
      obtain ⟨h5, h6, h7⟩ := ih s1 s' h
      refine ⟨fun v hv => ?_, h6.trans h3, fun e => (h7 e).trans (h4 e)⟩
      rcases List.mem_cons.1 hv with rfl | hv
      · exact h2
      · intro hn
        have := h4 v.h
        rw [hn, Option.map_none, Option.map_eq_none_iff] at this
        exact h5 v hv this

/-- What can be told of an entry without its counts.  (No code of its own: used in statements and proofs.) -/
def shape (o : Option (Ent K)) : Option (Nat × List (Fw K)) := o.map fun x => (x.core, x.kids)

theorem shape_none {o : Option (Ent K)} : shape o = none ↔ o = none := by cases o <;> simp [shape]

theorem destroy_shape {e : Nat} {x : Ent K} {s' : XSt K} (h : destroy lk e x s = .ok s') :
    (∀ w ∈ x.kids, w.h ≠ e ∧ s.ents w.h ≠ none) ∧
    ∀ i, shape (s'.ents i) = if i = e then none else shape (s.ents i) := by
  obtain ⟨h1, _, h3⟩ := each_shape x.kids _ _ h
  refine ⟨fun w hw => ?_, fun i => ?_⟩
  · have := h1 w hw
    simp only [setEnt] at this
    split at this
    · exact absurd rfl this
    · rename_i hne; exact ⟨hne, this⟩
  · refine (h3 i).trans ?_
    simp only [setEnt]
    split <;> rfl

/-- If a container is destroyed without undefined behaviour, no entry in it contained a flyweight to one destroyed
earlier. -/
theorem clear_shape {c : Nat} (l : List Nat) : ∀ s s' : XSt K, clear lk c l s = .ok s' →
    (∀ e ∈ l, ∀ x, s.ents e = some x → x.core = c) →
    (∀ i, shape (s'.ents i) = if i ∈ l then none else shape (s.ents i)) ∧
    ∀ e ∈ l, ∀ x, s.ents e = some x → ∀ w ∈ x.kids, s.ents w.h ≠ none ∧
      ∀ a b, l = a ++ e :: b → e ∉ a → w.h ∉ a := by
  induction l with
  | nil => intro s s' h _; cases h; exact ⟨by simp, by simp⟩
  | cons e l ih =>
    intro s s' h hc
    simp only [clear] at h
    cases hx : s.ents e with
    | none =>
      simp only [hx] at h
      obtain ⟨h1, h2⟩ := ih s s' h (fun i hi => hc i (List.mem_cons_of_mem _ hi))
      refine ⟨fun i => ?_, fun i hi y hy w hw => ?_⟩
      · rw [h1 i]
        by_cases hi : i = e
        · subst hi; simp [shape, hx]
        · simp [hi]
      · rcases List.mem_cons.1 hi with rfl | hi
        · rw [hx] at hy; cases hy
        · obtain ⟨h3, h4⟩ := h2 i hi y hy w hw
          refine ⟨h3, fun a b hab hia => ?_⟩
          cases a with
          | nil => simp
          | cons a0 a =>
            simp only [List.cons_append, List.cons.injEq] at hab
            simp only [List.mem_cons, not_or] at hia ⊢
            refine ⟨?_, h4 a b hab.2 hia.2⟩
            intro h'
            rw [h', ← hab.1] at h3
            exact h3 hx
    | some x =>
      simp only [hx, hc e (List.mem_cons_self ..) x hx, if_true] at h
      cases h1 : destroy lk e x s with
      | ub => rw [h1] at h; cases h
      | ok s1 =>
        rw [h1] at h
        obtain ⟨h2, h3⟩ := destroy_shape h1
        have hshape : ∀ i y, s1.ents i = some y → i ≠ e ∧ ∃ z, s.ents i = some z ∧ y.core = z.core ∧ y.kids = z.kids := by
          intro i y hy
          have := h3 i
          rw [hy] at this
          by_cases hi : i = e
          · simp [shape, hi] at this
          · simp only [if_neg hi] at this
            cases hz : s.ents i with
            | none => rw [hz] at this; simp [shape] at this
            | some z =>
              rw [hz] at this
              simp only [shape, Option.map_some, Option.some.injEq, Prod.mk.injEq] at this
              exact ⟨hi, z, rfl, this⟩
        obtain ⟨h4, h5⟩ := ih s1 s' h (fun i hi y hy => by
          obtain ⟨_, z, hz, hzc, _⟩ := hshape i y hy
          rw [hzc]
          exact hc i (List.mem_cons_of_mem _ hi) z hz)
        refine ⟨fun i => ?_, fun i hi y hy w hw => ?_⟩
        · rw [h4 i, h3 i]
          by_cases hi : i = e
          · subst hi; simp
          · simp [hi]
        · by_cases hie : i = e
          · subst hie
            rw [hx, Option.some.injEq] at hy
            subst hy
            refine ⟨(h2 w hw).2, fun a b hab hia => ?_⟩
            cases a with
            | nil => simp
            | cons a0 a =>
              simp only [List.cons_append, List.cons.injEq] at hab
              rw [hab.1] at hia
              simp at hia
          · have hi := (List.mem_cons.1 hi).resolve_left hie
            have h6 := h3 i
            rw [if_neg hie, hy] at h6
            cases hz : s1.ents i with
            | none => rw [hz] at h6; simp [shape] at h6
            | some z =>
              rw [hz] at h6
              simp only [shape, Option.map_some, Option.some.injEq, Prod.mk.injEq] at h6
              obtain ⟨h7, h8⟩ := h5 i hi z hz w (by rw [h6.2]; exact hw)
              have h9 : ∃ u, s1.ents w.h = some u := Option.ne_none_iff_exists'.1 h7
              obtain ⟨u, hu⟩ := h9
              obtain ⟨hwe, v, hv, _⟩ := hshape _ u hu
              refine ⟨by rw [hv]; simp, fun a b hab hia => ?_⟩
              cases a with
              | nil => simp
              | cons a0 a =>
                simp only [List.cons_append, List.cons.injEq] at hab
                simp only [List.mem_cons, not_or] at hia ⊢
                exact ⟨by rw [← hab.1]; exact hwe, h8 a b hab.2 hia.2⟩

/-- The entries of the factories destroyed, in order.  (No code of its own: used in statements and
proofs.) -/
def orders : List (Item K) → List Nat
  | [] => []
  | .holder _ ord :: l => ord ++ orders l
  | .user _ :: l => orders l
  | .collect _ :: l => orders l
  | .rest _ :: l => orders l

/-- No other thread acts during termination.  (No code of its own: used in statements and proofs.) -/
def Idle (ents : Nat → Option (Ent K)) : List (Item K) → Prop
  | [] => True
  | .holder c ord :: l => (∀ e ∈ ord, ∀ x, ents e = some x → x.core = c) ∧ Idle ents l
  | .user _ :: l => Idle ents l
  | .collect _ :: _ => False
  | .rest _ :: _ => False

theorem exit_shape (A : List (Item K)) : ∀ s s' : XSt K, exit lk A s = .ok s' → Idle s.ents A →
    ∀ i, shape (s'.ents i) = if i ∈ orders A then none else shape (s.ents i) := by
  induction A with
  | nil => intro s s' h _; cases h; simp [orders]
  | cons j A ih =>
    intro s s' h hI
    simp only [exit] at h
    cases h1 : j.run lk s with
    | ub => rw [h1] at h; cases h
    | ok s1 =>
      rw [h1] at h
      have tr : ∀ B : List (Item K), Idle s.ents B →
          (∀ i, s1.ents i = none ∨ shape (s1.ents i) = shape (s.ents i)) → Idle s1.ents B := by
        intro B hB hs
        induction B with
        | nil => trivial
        | cons b B ihB =>
          cases b with
          | holder c ord =>
            refine ⟨fun e he x hx => ?_, ihB hB.2⟩
            rcases hs e with h' | h'
            · rw [hx] at h'; cases h'
            · rw [hx] at h'
              cases hz : s.ents e with
              | none => rw [hz] at h'; simp [shape] at h'
              | some z =>
                rw [hz] at h'
                simp only [shape, Option.map_some, Option.some.injEq, Prod.mk.injEq] at h'
                rw [h'.1]
                exact hB.1 e he z hz
          | user l => exact ihB hB
          | collect e => exact hB
          | rest f => exact hB
      cases j with
      | holder c ord =>
        obtain ⟨h2, _⟩ := clear_shape ord _ s1 h1 hI.1
        have h3 := ih s1 s' h (tr A hI.2 (fun i => by
          have := h2 i
          by_cases hi : i ∈ ord
          · rw [if_pos hi] at this; exact .inl (shape_none.1 this)
          · rw [if_neg hi] at this; exact .inr this))
        intro i
        rw [h3 i, h2 i]
        by_cases hi : i ∈ orders A <;> simp [orders, hi]
      | user l =>
        obtain ⟨_, _, h2⟩ := each_shape l s s1 h1
        have h3 := ih s1 s' h (tr A hI (fun i => .inr (h2 i)))
        intro i
        rw [h3 i]
        by_cases hi : i ∈ orders A
        · simp [orders, hi]
        · simp only [orders, hi, if_false]
          exact h2 i
      | collect e => exact hI.elim
      | rest f => exact hI.elim

theorem exit_append (a b : List (Item K)) (s : XSt K) :
    exit lk (a ++ b) s = (exit lk a s).bind (exit lk b) := by
  induction a generalizing s with
  | nil => rfl
  | cons i a ih =>
    simp only [List.cons_append, exit]
    cases i.run lk s with
    | ub => rfl
    | ok s1 => exact ih s1

/-- A value contains a flyweight whose value goes first: not defined. -/
theorem not_ok {A C : List (Item K)} {c e : Nat} {o₁ o₂ : List Nat} {x : Ent K} {w : Fw K} {s' : XSt K}
    (hI : Idle s.ents (A ++ .holder c (o₁ ++ e :: o₂) :: C))
    (he : s.ents e = some x) (hw : w ∈ x.kids)
    (hnot : e ∉ orders A ++ o₁) (hgone : w.h ∈ orders A ++ o₁)
    (hs : exit lk (A ++ .holder c (o₁ ++ e :: o₂) :: C) s = .ok s') : False := by
  rw [exit_append] at hs
  simp only [List.mem_append, not_or] at hnot hgone
  have hI1 : Idle s.ents A ∧ ∀ i ∈ o₁ ++ e :: o₂, ∀ y, s.ents i = some y → y.core = c := by
    clear hs hnot hgone
    induction A with
    | nil => exact ⟨trivial, hI.1⟩
    | cons j A ih =>
      cases j with
      | holder d ord => exact ⟨⟨hI.1, (ih hI.2).1⟩, (ih hI.2).2⟩
      | user l => exact ih hI
      | collect i => exact hI.elim
      | rest f => exact hI.elim
  cases h1 : exit lk A s with
  | ub => rw [h1] at hs; cases hs
  | ok s1 =>
    rw [h1] at hs
    have h2 := exit_shape A s s1 h1 hI1.1
    simp only [Out.bind, exit, Item.run] at hs
    cases h3 : clear lk c (o₁ ++ e :: o₂) { s1 with down := fun d => if d = c then true else s1.down d } with
    | ub => rw [h3] at hs; cases hs
    | ok s2 =>
      obtain ⟨_, h4⟩ := clear_shape _ _ s2 h3 (fun i hi y hy => by
        have := h2 i
        simp only at hy
        rw [hy] at this
        split at this
        · simp [shape] at this
        · cases hz : s.ents i with
          | none => rw [hz] at this; simp [shape] at this
          | some z =>
            rw [hz] at this
            simp only [shape, Option.map_some, Option.some.injEq, Prod.mk.injEq] at this
            rw [this.1]
            exact hI1.2 i hi z hz)
      have h5 := h2 e
      rw [if_neg hnot.1, he] at h5
      cases hz : s1.ents e with
      | none => rw [hz] at h5; simp [shape] at h5
      | some z =>
        rw [hz] at h5
        simp only [shape, Option.map_some, Option.some.injEq, Prod.mk.injEq] at h5
        obtain ⟨h6, h7⟩ := h4 e (by simp) z hz w (by rw [h5.2]; exact hw)
        rcases hgone with hg | hg
        · have := h2 w.h
          rw [if_pos hg] at this
          exact h6 (shape_none.1 this)
        · exact h7 o₁ o₂ rfl hnot.2 hg

/-! ## Flyweights outside values have to go before their factory -/

/-- No entry is made or changes its type.  (No code of its own: used in statements and proofs.) -/
def Shrinks (s s' : XSt K) : Prop := ∀ e x', s'.ents e = some x' → ∃ x, s.ents e = some x ∧ x.core = x'.core

theorem Shrinks.refl (s : XSt K) : Shrinks s s := fun _ x' h => ⟨x', h, rfl⟩

theorem Shrinks.trans {s s' s'' : XSt K} (h : Shrinks s s') (h' : Shrinks s' s'') : Shrinks s s'' := by
  intro e x'' hx
  obtain ⟨x', hx', hc'⟩ := h' e x'' hx
  obtain ⟨x, hx, hc⟩ := h e x' hx'
  exact ⟨x, hx, hc.trans hc'⟩

theorem Shrinks.gone {s s' : XSt K} (h : Shrinks s s') {e : Nat} (he : s.ents e = none) : s'.ents e = none := by
  cases hx : s'.ents e with
  | none => rfl
  | some x' =>
    obtain ⟨x, hx, _⟩ := h e x' hx
    rw [he] at hx
    cases hx

theorem Shrinks.set {s : XSt K} {e : Nat} {x y : Ent K} (hx : s.ents e = some x) (hc : y.core = x.core) :
    Shrinks s { s with ents := setEnt s.ents e (some y) } := by
  intro i z hz
  by_cases hi : i = e
  · subst hi
    simp only [setEnt, if_true, Option.some.injEq] at hz
    subst hz
    exact ⟨x, hx, hc.symm⟩
  · simp only [setEnt, if_neg hi] at hz
    exact ⟨z, hz, rfl⟩

theorem drop_shrinks {w : Fw K} {s s' : XSt K} (h : drop lk w s = .ok s') : Shrinks s s' ∧ s.ents w.h ≠ none := by
  simp only [drop] at h
  split at h
  · cases h
  · rename_i x hx
    refine ⟨?_, by simp [hx]⟩
    split at h
    · split at h
      · split at h
        · cases h
        · cases h
          exact .set hx rfl
      · cases h
        exact .set hx rfl
    · cases h
      exact .set hx rfl

theorem dec_shrinks {w : Fw K} {s s' : XSt K} (h : dec w s = .ok s') : Shrinks s s' ∧ s.ents w.h ≠ none := by
  simp only [dec] at h
  split at h
  · cases h
  · rename_i x hx
    cases h
    exact ⟨.set hx rfl, by simp [hx]⟩

theorem finish_shrinks {f : Frame K} {s s' : XSt K} (h : finish lk f s = .ok s') :
    Shrinks s s' ∧ ∀ w, relOf f = some w → s.ents w.h ≠ none := by
  have one : ∀ {w : Fw K}, Shrinks s s' ∧ s.ents w.h ≠ none → some w = relOf f →
      Shrinks s s' ∧ ∀ w, relOf f = some w → s.ents w.h ≠ none := by
    intro w h he
    refine ⟨h.1, fun v hv => ?_⟩
    rw [hv] at he
    cases he
    exact h.2
  have held : ∀ {w : Fw K}, (if lk && s.down w.c then Out.ub else dec w s) = .ok s' → dec w s = .ok s' := by
    intro w h
    split at h
    · cases h
    · exact h
  cases f with
  | rel w => exact one (drop_shrinks h) rfl
  | relLock w => exact one (dec_shrinks (held h)) rfl
  | relCheck w => exact one (dec_shrinks (held h)) rfl
  | relUnlock w => exact one (dec_shrinks (held h)) rfl
  | relDec w => exact one (dec_shrinks h) rfl
  | _ =>
    cases h
    exact ⟨.refl _, fun _ h => by cases h⟩

theorem each_shrinks (l : List (Fw K)) : ∀ {s s' : XSt K}, each lk l s = .ok s' →
    Shrinks s s' ∧ ∀ w ∈ l, s.ents w.h ≠ none := by
  induction l with
  | nil =>
    intro s s' h
    cases h
    exact ⟨.refl _, by simp⟩
  | cons w l ih =>
    intro s s' h
    simp only [each] at h
    cases h1 : drop lk w s with
    | ub => rw [h1] at h; cases h
    | ok s1 =>
      rw [h1] at h
      obtain ⟨h2, h3⟩ := drop_shrinks h1
      obtain ⟨h4, h5⟩ := ih h
      refine ⟨h2.trans h4, fun v hv => ?_⟩
      rcases List.mem_cons.1 hv with rfl | hv
      · exact h3
      · exact fun h' => h5 v hv (h2.gone h')

theorem destroy_shrinks {e : Nat} {x : Ent K} {s s' : XSt K} (h : destroy lk e x s = .ok s') :
    Shrinks s s' ∧ s'.ents e = none := by
  have h1 := (each_shrinks _ h).1
  refine ⟨Shrinks.trans (fun i z hz => ?_) h1, h1.gone (by simp [setEnt])⟩
  by_cases hi : i = e
  · simp [setEnt, hi] at hz
  · exact ⟨z, by simpa [setEnt, hi] using hz, rfl⟩

theorem collect_shrinks {e : Nat} {s s' : XSt K} (h : collect lk e s = .ok s') : Shrinks s s' := by
  simp only [collect] at h
  split at h
  · cases h; exact .refl _
  · split at h
    · exact (destroy_shrinks h).1
    · cases h; exact .refl _

theorem clear_shrinks {c : Nat} (l : List Nat) : ∀ {s s' : XSt K}, clear lk c l s = .ok s' →
    Shrinks s s' ∧ ∀ e ∈ l, ∀ x, s.ents e = some x → x.core = c → s'.ents e = none := by
  induction l with
  | nil =>
    intro s s' h
    cases h
    exact ⟨.refl _, by simp⟩
  | cons e l ih =>
    intro s s' h
    simp only [clear] at h
    cases hx : s.ents e with
    | none =>
      rw [hx] at h
      obtain ⟨h1, h2⟩ := ih h
      refine ⟨h1, fun i hi y hy hc => ?_⟩
      rcases List.mem_cons.1 hi with rfl | hi
      · exact h1.gone hx
      · exact h2 i hi y hy hc
    | some x =>
      rw [hx] at h
      simp only at h
      cases h1 : (if x.core = c then destroy lk e x s else collect lk e s) with
      | ub => rw [h1] at h; cases h
      | ok s1 =>
        rw [h1] at h
        obtain ⟨h2, h3⟩ := ih h
        have h4 : Shrinks s s1 := by
          split at h1
          · exact (destroy_shrinks h1).1
          · exact collect_shrinks h1
        refine ⟨h4.trans h2, fun i hi y hy hc => ?_⟩
        rcases List.mem_cons.1 hi with rfl | hi
        · rw [hx] at hy
          cases hy
          rw [if_pos hc] at h1
          exact h2.gone (destroy_shrinks h1).2
        · cases hz : s1.ents i with
          | none => exact h2.gone hz
          | some z =>
            obtain ⟨y', hy', hc'⟩ := h4 i z hz
            rw [hy] at hy'
            cases hy'
            exact h3 i hi z hz (hc'.symm.trans hc)

theorem run_shrinks {i : Item K} {s s' : XSt K} (h : i.run lk s = .ok s') : Shrinks s s' := by
  cases i with
  | holder c ord => exact (clear_shrinks ord h).1
  | user l => exact (each_shrinks l h).1
  | collect e => exact collect_shrinks h
  | rest f => exact (finish_shrinks h).1

theorem exit_shrinks (l : List (Item K)) : ∀ {s s' : XSt K}, exit lk l s = .ok s' →
    Shrinks s s' ∧ ∀ w ∈ toGo l, s.ents w.h ≠ none := by
  induction l with
  | nil =>
    intro s s' h
    cases h
    exact ⟨.refl _, by simp [toGo]⟩
  | cons i l ih =>
    intro s s' h
    simp only [exit] at h
    cases h1 : i.run lk s with
    | ub => rw [h1] at h; cases h
    | ok s1 =>
      rw [h1] at h
      obtain ⟨h2, h3⟩ := ih h
      have h4 := run_shrinks h1
      have late : ∀ w ∈ toGo l, s.ents w.h ≠ none := fun w hw h' => h3 w hw (h4.gone h')
      refine ⟨h4.trans h2, ?_⟩
      cases i with
      | holder c ord => exact late
      | collect e => exact late
      | user l' =>
        intro w hw
        rcases List.mem_append.1 hw with hw | hw
        · exact (each_shrinks l' h1).2 w hw
        · exact late w hw
      | rest f =>
        intro w hw
        rcases List.mem_append.1 hw with hw | hw
        · exact (finish_shrinks h1).2 w (Option.mem_toList.1 hw)
        · exact late w hw

end Verif.CFExit

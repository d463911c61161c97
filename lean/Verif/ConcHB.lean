import Verif.HB
import Verif.ConcStep

/-!
# Synchronization in the concurrent model

Each step of `Verif/Conc.lean` is labelled with the memory it accesses and the
synchronization it takes part in.  The only synchronization that the library
provides is that of the mutex of each type and that of the atomic reference
counts; the program must see to it that flyweight objects themselves are used
like any other object (any number of threads reading it, or one changing it).
-/

set_option autoImplicit false

namespace Verif.Conc
open HB
variable {K : Type}

/-- What synchronization is based on: the mutex of a flyweight type
(/repo/include/boost/flyweight/simple_locking.hpp:27-31), the reference count of an entry
(/repo/include/boost/flyweight/refcounted.hpp:104), and whatever the program uses to order the uses
of a flyweight object of its own: `owned o` stands for the uses that may change object `o`,
`shared o` for those that do not. -/
inductive Sync where
  | mutex (c : Nat)
  | count (e : Nat)
  | owned (o : Nat)
  | shared (o : Nat)
  deriving DecidableEq

/-- Parts of an entry: key and value, `ref`, `del_ref`
(/repo/include/boost/flyweight/refcounted.hpp:103-105). -/
inductive Part where
  | body
  | ref
  | del
  deriving DecidableEq

/-- Memory: the container of a flyweight type (without its elements), and the parts of each
entry.  Identities of entries are not reused; that memory is not given to others
before it has been released is up to the allocator.  Models the static objects of
/repo/include/boost/flyweight/detail/flyweight_core.hpp:341-351. -/
inductive Loc where
  | table (c : Nat)
  | part (e : Nat) (p : Part)
  deriving DecidableEq

/-- Events of the concurrent model.  (No code of its own.) -/
abbrev Event := Ev Sync Loc

/-- Memory order of the operations on the reference count: whether increments are acquire and
release operations, whether decrements are acquire operations, and whether they are release
operations.  `boost::detail::atomic_count`
(/repo/include/boost/flyweight/refcounted.hpp:92-94, 104) is not part of the
library; its operations are at least acquire and release. -/
structure Orders where
  inc : Bool
  decAcq : Bool
  decRel : Bool

/-- Key and value, `ref` and `del_ref` are constructed or destroyed;
/repo/include/boost/flyweight/refcounted.hpp:57-83. -/
def whole (e : Nat) : List (Loc × Kind) :=
  [(.part e .body, .write), (.part e .ref, .write), (.part e .del, .write)]

/-- Entries of type `c`, whose keys a lookup may read; lookup in e.g.
/repo/include/boost/flyweight/hashed_factory.hpp:74-84. -/
def keysOf (s : St K) (c : Nat) : List (Loc × Kind) :=
  ((List.range s.next).filter fun e => match s.ents e with
    | none => false
    | some x => x.core == c).map fun e => (.part e .body, .read)

/-- Locking synchronizes if the thread does not hold the mutex already; the constructor of
`scoped_lock`, /repo/include/boost/flyweight/detail/recursive_lw_mutex.hpp:37-55. -/
def lockAcq (cfg : Cfg K) (s : St K) (c : Nat) : List Sync :=
  if cfg.locking then match s.lock c with
    | none => [.mutex c]
    | some _ => []
  else []

/-- Unlocking synchronizes if the mutex becomes free; the destructor of
`scoped_lock`, /repo/include/boost/flyweight/detail/recursive_lw_mutex.hpp:37-55. -/
def lockRel (cfg : Cfg K) (s : St K) (c : Nat) : List Sync :=
  if cfg.locking then match s.lock c with
    | none => []
    | some (_, d) => if d ≤ 1 then [.mutex c] else []
  else []

/-- A read-modify-write operation on the reference count of entry `e`;
/repo/include/boost/flyweight/refcounted.hpp:92-94. -/
def rmw (order : Bool) (e : Nat) : List Sync := if order then [.count e] else []

/-- Event of the next step of the library (see `lib`); `nid` is the identity of the flyweight
object that is completed, if there is one.  Models
/repo/include/boost/flyweight/detail/flyweight_core.hpp:67-74, 100-117, 261-311 and
/repo/include/boost/flyweight/refcounted.hpp:53-135; line references per frame at `Frame`. -/
def libEv (cfg : Cfg K) (mo : Orders) (s : St K) (nid t : Nat) : Frame K → Event
  | .insLock c .. => ⟨t, lockAcq cfg s c, [], []⟩
  | .insFind c k _ _ => match find cfg s c k with
    | some _ => ⟨t, [], (.table c, .read) :: keysOf s c, []⟩
    | none => ⟨t, [], (.table c, .write) :: whole s.next ++ keysOf s c, []⟩
  | .insVisit _ _ e _ _ => ⟨t, [], [(.part e .body, .read)], []⟩
  | .insUser .. => ⟨t, [], [], []⟩
  | .insDone _ _ e => ⟨t, [], [(.part e .body, .write)], []⟩
  | .insCatch c e => ⟨t, [], (.table c, .write) :: whole e, []⟩
  | .insUnwind c _ => ⟨t, [], [], lockRel cfg s c⟩
  | .insAddRef _ _ e _ => ⟨t, rmw mo.inc e, [(.part e .ref, .atomic)], rmw mo.inc e⟩
  | .insAddDel _ _ e _ => ⟨t, [], [(.part e .del, .write)], []⟩
  | .insUnlock c _ _ _ => ⟨t, [], [], .owned nid :: lockRel cfg s c⟩
  | .relDec w => ⟨t, rmw mo.decAcq w.h, [(.part w.h .ref, .atomic)], rmw mo.decRel w.h⟩
  | .relLock c _ => ⟨t, lockAcq cfg s c, [], []⟩
  | .relCheck _ e => ⟨t, [], if cfg.deleter then [(.part e .del, .write)] else [], []⟩
  | .relErase c e => ⟨t, [], (.table c, .write) :: whole e, []⟩
  | .relUnlock c => ⟨t, [], [], lockRel cfg s c⟩

/-- Exclusive use of objects: all uses so far come before, none is made at the same time.  (No
code of its own: what the program has to guarantee.) -/
def excl (ids : List Nat) : List Sync := ids.map .owned ++ ids.map .shared

/-- State with the identities of the program's flyweight objects (`ids`, in the order of
`St.objs`), the identity for the next one, and the events so far.  (No code of its own: used to
state properties.) -/
structure HSt (K : Type) where
  s : St K
  ids : List Nat
  nid : Nat
  tr : List Event

/-- Entry that object `i` refers to.  (Helper, no code of its own.) -/
def target (s : St K) (i : Nat) : Nat := match s.objs[i]? with
  | none => 0
  | some w => w.h

/-- Entry that the `j`-th flyweight inside the value of object `i` refers to.  (Helper, no code
of its own.) -/
def kidTarget (s : St K) (i j : Nat) : Nat := match s.ents (target s i) with
  | none => 0
  | some x => match x.kids[j]? with
    | none => 0
    | some v => v.h

/-- Event of an action, and the identities of the flyweight objects afterwards.  Objects that
are moved from, destroyed or swapped are used exclusively, those that are copied or read are
shared.  Models the calls of /repo/include/boost/flyweight/flyweight.hpp:193-239, 257-278 by the
program. -/
def label (cfg : Cfg K) (mo : Orders) (h : HSt K) (t : Nat) (st : List (Frame K)) :
    Act K → Event × List Nat × Nat
  | .run => match st with
    | [] => (⟨t, [], [], []⟩, h.ids, h.nid)
    | f :: _ => (libEv cfg mo h.s h.nid t f, match f with
      | .insUnlock .. => (h.nid :: h.ids, h.nid + 1)
      | _ => (h.ids, h.nid))
  | .create _ _ mask _ => (⟨t, excl (pick mask h.ids).1, [], []⟩, (pick mask h.ids).2, h.nid)
  | .destroy mask => (⟨t, excl (pick mask h.ids).1, [], []⟩, (pick mask h.ids).2, h.nid)
  | .copy i =>
    (⟨t, .owned (h.ids.getD i 0) :: rmw mo.inc (target h.s i), [(.part (target h.s i) .ref, .atomic)],
      .shared (h.ids.getD i 0) :: .owned h.nid :: rmw mo.inc (target h.s i)⟩, h.nid :: h.ids, h.nid + 1)
  | .copyKid i j =>
    (⟨t, .owned (h.ids.getD i 0) :: rmw mo.inc (kidTarget h.s i j),
      [(.part (target h.s i) .body, .read), (.part (kidTarget h.s i j) .ref, .atomic)],
      .shared (h.ids.getD i 0) :: .owned h.nid :: rmw mo.inc (kidTarget h.s i j)⟩, h.nid :: h.ids, h.nid + 1)
  | .swap i j =>
    (⟨t, excl [h.ids.getD i 0, h.ids.getD j 0], [], [.owned (h.ids.getD i 0), .owned (h.ids.getD j 0)]⟩,
      h.ids, h.nid)
  | .read i =>
    (⟨t, [.owned (h.ids.getD i 0)], [(.part (target h.s i) .body, .read)], [.shared (h.ids.getD i 0)]⟩,
      h.ids, h.nid)
  | .finish mask _ => match st with
    | .insUser _ _ e :: _ =>
      (⟨t, excl (pick mask h.ids).1, [(.part e .body, .write)], []⟩, (pick mask h.ids).2, h.nid)
    | _ => (⟨t, [], [], []⟩, h.ids, h.nid)
  | .throw_ => match st with
    | .insFind c .. :: _ => (⟨t, [], (.table c, .write) :: keysOf h.s c, []⟩, h.ids, h.nid)
    | _ => (⟨t, [], [], []⟩, h.ids, h.nid)

/-- Execution of a schedule with its events, until the end or until the program leaves the
domain of the library.  (No code of its own: the scheduler.) -/
def hexec (cfg : Cfg K) (mo : Orders) : List (Nat × Act K) → HSt K → HSt K
  | [], h => h
  | (t, a) :: l, h => match h.s.thr[t]? with
    | none => hexec cfg mo l h
    | some st => match act cfg h.s t st a with
      | .ok s' => hexec cfg mo l ⟨s', (label cfg mo h t st a).2.1, (label cfg mo h t st a).2.2,
          h.tr ++ [(label cfg mo h t st a).1]⟩
      | .no => hexec cfg mo l h
      | .ub => h
      | .reentrant => h

/-- At the start nothing has happened.  (No code of its own.) -/
def hstart (n : Nat) : HSt K := ⟨start n, [], 0, []⟩

/-! ## Invariant -/

/-- Event `i` is known to the mutex of type `c` or to the thread that holds it.  (No code of its
own: used in proofs.) -/
def Lk (h : HSt K) (c i : Nat) : Prop :=
  Rel h.tr (.mutex c) i ∨ ∃ t d, h.s.lock c = some (t, d) ∧ Know h.tr t i

/-- What the users of entry `e` know: program objects, operations in progress, flyweights inside
values.  (No code of its own: used in proofs.) -/
inductive User (h : HSt K) (e : Nat) : (Nat → Prop) → Prop
  | obj (w : Fw K) (o : Nat) : (w, o) ∈ h.s.objs.zip h.ids → w.h = e → User h e (Rel h.tr (.owned o))
  | frame (t : Nat) (st : List (Frame K)) (f : Frame K) : h.s.thr[t]? = some st → f ∈ st → 0 < refF e f →
      User h e (Know h.tr t)
  | kid (e' : Nat) (x : Ent K) (v : Fw K) : h.s.ents e' = some x → v ∈ x.kids → v.h = e →
      User h e (Past h.tr (.part e' .body, .write))

/-- What those who may be the next to erase entry `e` know.  (No code of its own: used in proofs.) -/
inductive Holder (h : HSt K) (e : Nat) : (Nat → Prop) → Prop
  | user (P : Nat → Prop) : User h e P → Holder h e P
  | shared (w : Fw K) (o : Nat) : (w, o) ∈ h.s.objs.zip h.ids → w.h = e → Holder h e (Rel h.tr (.shared o))
  | pend (t : Nat) (st : List (Frame K)) (f : Frame K) : h.s.thr[t]? = some st → f ∈ st → 0 < pendF e f →
      Holder h e (Know h.tr t)
  | count (x : Ent K) : h.s.ents e = some x → 0 < x.ref → Holder h e (Rel h.tr (.count e))
  | lock (x : Ent K) : h.s.ents e = some x → Holder h e (Lk h x.core)

/-- Some holder of `e` knows event `i`.  (No code of its own: used in proofs.) -/
def Cov (h : HSt K) (e i : Nat) : Prop := ∃ P, Holder h e P ∧ P i

/-- How the parts of an entry are accessed: `ref` only atomically once it exists, the rest not
atomically.  (No code of its own: used in proofs.) -/
def okKind : Loc × Kind → Bool
  | (.table _, _) => true
  | (.part _ .body, k) => k != .atomic
  | (.part _ .ref, k) => k != .read
  | (.part _ .del, k) => k == .write

/-- The invariant.  (No code of its own: used in proofs.) -/
structure HInv (cfg : Cfg K) (h : HSt K) : Prop where
  inv : Inv cfg h.s
  len : h.ids.length = h.s.objs.length
  kinds : ∀ n a, Acc h.tr n a → okKind a = true
  bound : ∀ n e p k, Acc h.tr n (.part e p, k) → e < h.s.next
  hold : ∀ c t d i, h.s.lock c = some (t, d) → Rel h.tr (.mutex c) i → Know h.tr t i
  table : ∀ n c k, Acc h.tr n (.table c, k) → Lk h c n
  writes : ∀ n e x p, h.s.ents e = some x → Acc h.tr n (.part e p, .write) → Lk h x.core n
  user : ∀ n e x p P, h.s.ents e = some x → User h e P → p ≠ .del → Acc h.tr n (.part e p, .write) → P n
  cov : ∀ n e x p k, h.s.ents e = some x → Acc h.tr n (.part e p, k) → Cov h e n
  race : RaceFree h.tr

/-! ## Preservation -/

section
variable {cfg : Cfg K} {h h' : HSt K} {ev : Event} {st st' : List (Frame K)}

/-- After its step the thread knows what users of `e` have to know.  (No code of its own: used
in proofs.) -/
def Tk (h h' : HSt K) (ev : Event) (e : Nat) : Prop :=
  (∃ P, User h e P ∧ ∀ i, P i → Know h'.tr ev.thr i) ∨
  ∀ x, h'.s.ents e = some x → ∃ d, h'.s.lock x.core = some (ev.thr, d)

/-- After its step, what the thread knows is known to a holder of `e`.  (No code of its own:
used in proofs.) -/
def Tc (h' : HSt K) (ev : Event) (st' : List (Frame K)) (e : Nat) : Prop :=
  (∃ g ∈ st', 0 < refF e g ∨ 0 < pendF e g) ∨
  (∀ x, h'.s.ents e = some x → ∃ d, h'.s.lock x.core = some (ev.thr, d)) ∨
  (∃ w o, (w, o) ∈ h'.s.objs.zip h'.ids ∧ w.h = e ∧ (.owned o ∈ ev.rels ∨ .shared o ∈ ev.rels)) ∨
  (∃ e' x v, h'.s.ents e' = some x ∧ v ∈ x.kids ∧ v.h = e ∧ (.part e' .body, .write) ∈ ev.accs) ∨
  (.count e ∈ ev.rels ∧ ∀ x, h'.s.ents e = some x → 0 < x.ref) ∨
  ∀ x, h'.s.ents e = some x → .mutex x.core ∈ ev.rels

/-- A thread that holds the mutex knows what the mutex knows. -/
theorem HInv.locked (H : HInv cfg h) {c t d i : Nat} (hl : h.s.lock c = some (t, d)) (hi : Lk h c i) :
    Know h.tr t i := by
  rcases hi with hi | ⟨t', d', hl', hi⟩
  · exact H.hold c t d i hl hi
  · rw [hl] at hl'
    cases hl'
    exact hi

/-- No user if the count is zero. -/
theorem no_user (hi : Inv cfg h.s) {e : Nat} {x : Ent K} (hx : h.s.ents e = some x) (h0 : x.ref = 0)
    {P : Nat → Prop} (hu : User h e P) : False := by
  have hr := hi.core.refs e
  simp only [refOf, hx, h0] at hr
  cases hu with
  | obj w o hm he =>
    have := fwCount_pos (List.of_mem_zip hm).1 he
    omega
  | frame t st f ht hf hp =>
    have hm : f ∈ frames h.s := List.mem_flatten.2 ⟨st, List.mem_of_getElem? ht, hf⟩
    have := tot_pos (g := refF e) hm hp
    omega
  | kid e' y v hy hv he =>
    have := nsum_pos (f := fun i => kidsOf e (h.s.ents i)) (hi.core.lt_next hy)
      (by simpa [hy, kidsOf] using fwCount_pos hv he)
    simp only [kidsTo] at hr
    omega

/-- A step of thread `ev.thr`. -/
theorem HInv.next (H : HInv cfg h) (htr : h'.tr = h.tr ++ [ev]) (hinv : Inv cfg h'.s)
    (hlen : h'.ids.length = h'.s.objs.length)
    (hst : h.s.thr[ev.thr]? = some st) (hst' : h'.s.thr = h.s.thr.set ev.thr st')
    (hkind : ∀ a ∈ ev.accs, okKind a = true)
    (hnext : h.s.next ≤ h'.s.next)
    (hbd : ∀ e p k, (.part e p, k) ∈ ev.accs → e < h'.s.next)
    (hlock : ∀ c t d, h'.s.lock c = some (t, d) →
      (∃ d', h.s.lock c = some (t, d')) ∨ t = ev.thr ∧ .mutex c ∈ ev.acqs)
    (hrel : ∀ c t d, h'.s.lock c = some (t, d) → .mutex c ∈ ev.rels → t = ev.thr)
    (hunl : ∀ c t d, h.s.lock c = some (t, d) →
      (∃ d', h'.s.lock c = some (t, d')) ∨ t = ev.thr ∧ .mutex c ∈ ev.rels)
    (hents : ∀ e x', h'.s.ents e = some x' → (∃ x, h.s.ents e = some x ∧ x.core = x'.core) ∨ h.s.next ≤ e)
    (htab : ∀ c k, (.table c, k) ∈ ev.accs → ∃ d, h'.s.lock c = some (ev.thr, d))
    (hwr : ∀ e p x, (.part e p, .write) ∈ ev.accs → h'.s.ents e = some x →
      ∃ d, h'.s.lock x.core = some (ev.thr, d))
    (hno : ∀ e p x, (.part e p, .write) ∈ ev.accs → p ≠ .del → h'.s.ents e = some x → x.ref = 0)
    (hu1 : ∀ w o, (w, o) ∈ h'.s.objs.zip h'.ids →
      (w, o) ∈ h.s.objs.zip h.ids ∨ .owned o ∈ ev.rels ∧ Tk h h' ev w.h)
    (hu2 : ∀ e, ∀ g ∈ st', 0 < refF e g → Tk h h' ev e)
    (hu3 : ∀ e x v, h'.s.ents e = some x → v ∈ x.kids →
      (∃ y, h.s.ents e = some y ∧ v ∈ y.kids) ∨ (.part e .body, .write) ∈ ev.accs ∧ Tk h h' ev v.h)
    (hc1 : ∀ w o, (w, o) ∈ h.s.objs.zip h.ids → (w, o) ∈ h'.s.objs.zip h'.ids ∨
      .owned o ∈ ev.acqs ∧ .shared o ∈ ev.acqs ∧ Tc h' ev st' w.h)
    (hc2 : ∀ e x, h'.s.ents e = some x → ∀ f ∈ st, 0 < refF e f ∨ 0 < pendF e f → Tc h' ev st' e)
    (hc3 : ∀ e x v, h.s.ents e = some x → v ∈ x.kids → (∃ y, h'.s.ents e = some y ∧ v ∈ y.kids) ∨
      (∀ i, Past h.tr (.part e .body, .write) i → Know h'.tr ev.thr i) ∧ Tc h' ev st' v.h)
    (hc4 : ∀ e x x', h.s.ents e = some x → h'.s.ents e = some x' → 0 < x.ref →
      0 < x'.ref ∨ .count e ∈ ev.acqs ∧ Tc h' ev st' e)
    (hacc : ∀ e p k x, (.part e p, k) ∈ ev.accs → h'.s.ents e = some x → Tc h' ev st' e)
    (hrace : ∀ n l k k', (l, k') ∈ ev.accs → Acc h.tr n (l, k) → k.conflict k' = true →
      Know h'.tr ev.thr n) : HInv cfg h' := by
  have hlt : ev.thr < h.s.thr.length := by
    rcases Nat.lt_or_ge ev.thr h.s.thr.length with h1 | h1
    · exact h1
    · rw [List.getElem?_eq_none h1] at hst; cases hst
  have hst1 : h'.s.thr[ev.thr]? = some st' := by rw [hst', List.getElem?_set_self hlt]
  have hother : ∀ t, t ≠ ev.thr → h'.s.thr[t]? = h.s.thr[t]? := fun t ht => by
    rw [hst', List.getElem?_set_ne (Ne.symm ht)]
  have kold : ∀ {t i}, Know h.tr t i → Know h'.tr t i := fun hk => by rw [htr]; exact hk.old
  have rold : ∀ {o i}, Rel h.tr o i → Rel h'.tr o i := fun hk => by rw [htr]; exact hk.old
  have pold : ∀ {a i}, Past h.tr a i → Past h'.tr a i := fun hk => by rw [htr]; exact hk.old
  have kacq : ∀ {o i}, o ∈ ev.acqs → Rel h.tr o i → Know h'.tr ev.thr i := fun h1 h2 => by
    rw [htr]; exact know_acq h1 h2
  have krel : ∀ {o i}, o ∈ ev.rels → Know h'.tr ev.thr i → Rel h'.tr o i := fun h1 h2 => by
    rw [htr] at h2 ⊢; exact rel_new h1 h2
  have kpast : ∀ {a i}, a ∈ ev.accs → Know h'.tr ev.thr i → Past h'.tr a i := fun h1 h2 => by
    rw [htr] at h2 ⊢; exact past_new h1 h2
  have knew : Know h'.tr ev.thr h.tr.length := by rw [htr]; exact know_new
  have lkold : ∀ {c i}, Lk h c i → Lk h' c i := by
    rintro c i (h1 | ⟨t, d, h1, h2⟩)
    · exact .inl (rold h1)
    · rcases hunl c t d h1 with ⟨d', h3⟩ | ⟨h3, h4⟩
      · exact .inr ⟨t, d', h3, kold h2⟩
      · subst h3
        exact .inl (krel h4 (kold h2))
  have lknew : ∀ {c d i}, h'.s.lock c = some (ev.thr, d) → Know h'.tr ev.thr i → Lk h' c i :=
    fun h1 h2 => .inr ⟨_, _, h1, h2⟩
  have hhold : ∀ c t d i, h'.s.lock c = some (t, d) → Rel h'.tr (.mutex c) i → Know h'.tr t i := by
    intro c t d i hl hr
    rw [htr] at hr
    rcases rel_cases hr with hr | ⟨hr, hk⟩
    · rcases hlock c t d hl with ⟨d', h1⟩ | ⟨h1, h2⟩
      · exact kold (H.hold c t d' i h1 hr)
      · subst h1
        exact kacq h2 hr
    · rw [hrel c t d hl hr, htr]
      exact hk
  have tc : ∀ {e x i}, h'.s.ents e = some x → Tc h' ev st' e → Know h'.tr ev.thr i → Cov h' e i := by
    rintro e x i hx (⟨g, hg, h1 | h1⟩ | h1 | ⟨w, o, h1, h2, h3⟩ | ⟨e', y, v, h1, h2, h3, h4⟩ | ⟨h1, h2⟩ | h1) hk
    · exact ⟨_, .user _ (.frame _ _ g hst1 hg h1), hk⟩
    · exact ⟨_, .pend _ _ g hst1 hg h1, hk⟩
    · obtain ⟨d, h1⟩ := h1 x hx
      exact ⟨_, .lock x hx, lknew h1 hk⟩
    · rcases h3 with h3 | h3
      · exact ⟨_, .user _ (.obj w o h1 h2), krel h3 hk⟩
      · exact ⟨_, .shared w o h1 h2, krel h3 hk⟩
    · exact ⟨_, .user _ (.kid e' y v h1 h2 h3), kpast h4 hk⟩
    · exact ⟨_, .count x hx (h2 x hx), krel h1 hk⟩
    · exact ⟨_, .lock x hx, .inl (krel (h1 x hx) hk)⟩
  have tk : ∀ {e x y n p}, h.s.ents e = some y → h'.s.ents e = some x → y.core = x.core → Tk h h' ev e →
      p ≠ .del → Acc h.tr n (.part e p, .write) → Know h'.tr ev.thr n := by
    rintro e x y n p hy hx hc (⟨P, h1, h2⟩ | h1) hp ha
    · exact h2 n (H.user n e y p P hy h1 hp ha)
    · obtain ⟨d, h1⟩ := h1 x hx
      have := lkold (H.writes n e y p hy ha)
      rw [hc] at this
      rcases this with h2 | ⟨t, d', h2, h3⟩
      · exact hhold _ _ _ _ h1 h2
      · rw [h1] at h2
        cases h2
        exact h3
  refine ⟨hinv, hlen, ?_, ?_, hhold, ?_, ?_, ?_, ?_, ?_⟩
  · intro n a ha
    rw [htr] at ha
    rcases acc_cases ha with h1 | ⟨_, h1⟩
    · exact H.kinds n a h1
    · exact hkind a h1
  · intro n e p k ha
    rw [htr] at ha
    rcases acc_cases ha with h1 | ⟨_, h1⟩
    · exact Nat.lt_of_lt_of_le (H.bound n e p k h1) hnext
    · exact hbd e p k h1
  · intro n c k ha
    rw [htr] at ha
    rcases acc_cases ha with h1 | ⟨h0, h1⟩
    · exact lkold (H.table n c k h1)
    · subst h0
      obtain ⟨d, h2⟩ := htab c k h1
      exact lknew h2 knew
  · intro n e x p hx ha
    rw [htr] at ha
    rcases acc_cases ha with h1 | ⟨h0, h1⟩
    · rcases hents e x hx with ⟨y, h2, h3⟩ | h2
      · rw [← h3]
        exact lkold (H.writes n e y p h2 h1)
      · exact absurd (H.bound n e p _ h1) (by omega)
    · subst h0
      obtain ⟨d, h2⟩ := hwr e p x h1 hx
      exact lknew h2 knew
  · intro n e x p P hx hu hp ha
    rw [htr] at ha
    rcases acc_cases ha with h1 | ⟨h0, h1⟩
    · rcases hents e x hx with ⟨y, h2, h3⟩ | h2
      · cases hu with
        | obj w o hm he =>
          rcases hu1 w o hm with h4 | ⟨h4, h5⟩
          · exact rold (H.user n e y p _ h2 (.obj w o h4 he) hp h1)
          · rw [he] at h5
            exact krel h4 (tk h2 hx h3 h5 hp h1)
        | frame t st f ht hf hr =>
          by_cases he : t = ev.thr
          · subst he
            rw [hst1] at ht
            cases ht
            exact tk h2 hx h3 (hu2 e f hf hr) hp h1
          · rw [hother t he] at ht
            exact kold (H.user n e y p _ h2 (.frame t st f ht hf hr) hp h1)
        | kid e' z v hz hv he =>
          rcases hu3 e' z v hz hv with ⟨z', h4, h5⟩ | ⟨h4, h5⟩
          · exact pold (H.user n e y p _ h2 (.kid e' z' v h4 h5 he) hp h1)
          · rw [he] at h5
            exact kpast h4 (tk h2 hx h3 h5 hp h1)
      · exact absurd (H.bound n e p _ h1) (by omega)
    · exact (no_user hinv hx (hno e p x h1 hp hx) hu).elim
  · intro n e x p k hx ha
    rw [htr] at ha
    rcases acc_cases ha with h1 | ⟨h0, h1⟩
    · rcases hents e x hx with ⟨y, h2, h3⟩ | h2
      · obtain ⟨P, hP, hn⟩ := H.cov n e y p k h2 h1
        cases hP with
        | user P hP =>
          cases hP with
          | obj w o hm he =>
            rcases hc1 w o hm with h4 | ⟨h4, h5, h6⟩
            · exact ⟨_, .user _ (.obj w o h4 he), rold hn⟩
            · rw [he] at h6
              exact tc hx h6 (kacq h4 hn)
          | frame t st'' f ht hf hr =>
            by_cases he : t = ev.thr
            · subst he
              rw [hst] at ht
              cases ht
              exact tc hx (hc2 e x hx f hf (.inl hr)) (kold hn)
            · rw [← hother t he] at ht
              exact ⟨_, .user _ (.frame t st'' f ht hf hr), kold hn⟩
          | kid e' z v hz hv he =>
            rcases hc3 e' z v hz hv with ⟨z', h4, h5⟩ | ⟨h4, h5⟩
            · exact ⟨_, .user _ (.kid e' z' v h4 h5 he), pold hn⟩
            · rw [he] at h5
              exact tc hx h5 (h4 n hn)
        | shared w o hm he =>
          rcases hc1 w o hm with h4 | ⟨h4, h5, h6⟩
          · exact ⟨_, .shared w o h4 he, rold hn⟩
          · rw [he] at h6
            exact tc hx h6 (kacq h5 hn)
        | pend t st'' f ht hf hr =>
          by_cases he : t = ev.thr
          · subst he
            rw [hst] at ht
            cases ht
            exact tc hx (hc2 e x hx f hf (.inr hr)) (kold hn)
          · rw [← hother t he] at ht
            exact ⟨_, .pend t st'' f ht hf hr, kold hn⟩
        | count z hz hp =>
          rcases hc4 e z x hz hx hp with h4 | ⟨h4, h5⟩
          · exact ⟨_, .count x hx h4, rold hn⟩
          · exact tc hx h5 (kacq h4 hn)
        | lock z hz =>
          rw [h2] at hz
          cases hz
          rw [h3] at hn
          exact ⟨_, .lock x hx, lkold hn⟩
      · exact absurd (H.bound n e p _ h1) (by omega)
    · subst h0
      exact tc hx (hacc e p k x h1 hx) knew
  · rw [htr]
    refine H.race.snoc fun n l k k' h1 h2 h3 => ?_
    have := hrace n l k k' h1 h2 h3
    rwa [htr] at this

/-- The part of an entry that steps in the middle of an operation leave alone.  (No code of its
own: used in proofs.) -/
def ck (x : Ent K) : Nat × List (Fw K) := (x.core, x.kids)

theorem ck_some {ents ents' : Nat → Option (Ent K)} (h : ∀ e, (ents' e).map ck = (ents e).map ck) {e : Nat} {x : Ent K}
    (hx : ents' e = some x) : ∃ y, ents e = some y ∧ y.core = x.core ∧ y.kids = x.kids := by
  have := h e
  rw [hx] at this
  cases hy : ents e with
  | none => rw [hy] at this; cases this
  | some y =>
    rw [hy] at this
    simp only [Option.map_some, Option.some.injEq, ck, Prod.mk.injEq] at this
    exact ⟨y, rfl, this.1.symm, this.2.symm⟩

theorem ck_set {ents : Nat → Option (Ent K)} {e : Nat} {x x' : Ent K} (hx : ents e = some x) (h : ck x' = ck x) (i : Nat) :
    (setEnt ents e (some x') i).map ck = (ents i).map ck := by
  by_cases hi : i = e
  · subst hi
    rw [setEnt_same, hx]
    simp [h]
  · rw [setEnt_ne _ _ hi]

/-- A step that changes neither the program's objects nor what values contain. -/
theorem HInv.quick (H : HInv cfg h) {f : Frame K} {rest new : List (Frame K)} (htr : h'.tr = h.tr ++ [ev])
    (hinv : Inv cfg h'.s) (hst : h.s.thr[ev.thr]? = some (f :: rest)) (hst' : h'.s.thr = h.s.thr.set ev.thr (new ++ rest))
    (hobjs : h'.s.objs = h.s.objs) (hids : h'.ids = h.ids) (hck : ∀ e, (h'.s.ents e).map ck = (h.s.ents e).map ck)
    (hkind : ∀ a ∈ ev.accs, okKind a = true) (hnext : h.s.next = h'.s.next)
    (hbd : ∀ e p k, (.part e p, k) ∈ ev.accs → ∃ x, h'.s.ents e = some x)
    (hlock : ∀ c t d, h'.s.lock c = some (t, d) →
      (∃ d', h.s.lock c = some (t, d')) ∨ t = ev.thr ∧ .mutex c ∈ ev.acqs)
    (hrel : ∀ c t d, h'.s.lock c = some (t, d) → .mutex c ∈ ev.rels → t = ev.thr)
    (hunl : ∀ c t d, h.s.lock c = some (t, d) →
      (∃ d', h'.s.lock c = some (t, d')) ∨ t = ev.thr ∧ .mutex c ∈ ev.rels)
    (htab : ∀ c k, (.table c, k) ∈ ev.accs → ∃ d, h'.s.lock c = some (ev.thr, d))
    (hwr : ∀ e p x, (.part e p, .write) ∈ ev.accs → h'.s.ents e = some x →
      ∃ d, h'.s.lock x.core = some (ev.thr, d))
    (hno : ∀ e p x, (.part e p, .write) ∈ ev.accs → p ≠ .del → h'.s.ents e = some x → x.ref = 0)
    (hfu : ∀ e, ∀ g ∈ new, 0 < refF e g → 0 < refF e f ∨
      ∀ x, h'.s.ents e = some x → ∃ d, h'.s.lock x.core = some (ev.thr, d))
    (hfh : ∀ e x, h'.s.ents e = some x → 0 < refF e f ∨ 0 < pendF e f → Tc h' ev (new ++ rest) e)
    (hc4 : ∀ e x x', h.s.ents e = some x → h'.s.ents e = some x' → 0 < x.ref →
      0 < x'.ref ∨ .count e ∈ ev.acqs ∧ Tc h' ev (new ++ rest) e)
    (hacc : ∀ e p k x, (.part e p, k) ∈ ev.accs → h'.s.ents e = some x → Tc h' ev (new ++ rest) e)
    (hrace : ∀ n l k k', (l, k') ∈ ev.accs → Acc h.tr n (l, k) → k.conflict k' = true →
      Know h'.tr ev.thr n) : HInv cfg h' := by
  have kold : ∀ {t i}, Know h.tr t i → Know h'.tr t i := fun hk => by rw [htr]; exact hk.old
  refine H.next htr hinv (by rw [hids, hobjs]; exact H.len) hst hst' hkind (Nat.le_of_eq hnext) ?_ hlock hrel hunl ?_ htab
    hwr hno ?_ ?_ ?_ ?_ ?_ ?_ hc4 hacc hrace
  · intro e p k he
    obtain ⟨x, hx⟩ := hbd e p k he
    exact hinv.core.lt_next hx
  · intro e x hx
    obtain ⟨y, hy, hc, _⟩ := ck_some hck hx
    exact .inl ⟨y, hy, hc⟩
  · intro w o hw
    rw [hobjs, hids] at hw
    exact .inl hw
  · intro e g hg hr
    rcases List.mem_append.1 hg with hg | hg
    · rcases hfu e g hg hr with h1 | h1
      · exact .inl ⟨_, .frame _ _ f hst List.mem_cons_self h1, fun i => kold⟩
      · exact .inr h1
    · exact .inl ⟨_, .frame _ _ g hst (List.mem_cons_of_mem _ hg) hr, fun i => kold⟩
  · intro e x v hx hv
    obtain ⟨y, hy, _, hk⟩ := ck_some hck hx
    exact .inl ⟨y, hy, hk ▸ hv⟩
  · intro w o hw
    rw [hobjs, hids]
    exact .inl hw
  · intro e x hx g hg hr
    rcases List.mem_cons.1 hg with rfl | hg
    · exact hfh e x hx hr
    · exact .inl ⟨g, List.mem_append.2 (.inr hg), hr⟩
  · intro e x v hx hv
    obtain ⟨y, hy, _, hk⟩ := ck_some (fun e => (hck e).symm) hx
    exact .inl ⟨y, hy, hk ▸ hv⟩

theorem held {s : St K} (hi : Inv cfg s) {t c : Nat} {f : Frame K} {rest : List (Frame K)} (ht : s.thr[t]? = some (f :: rest))
    (hf : holds f = some c) : ∃ d, s.lock c = some (t, d) := by
  have := hi.locks.depth t _ ht c
  rw [tot_cons, holdF, if_pos hf] at this
  unfold depthOf at this
  cases hl : s.lock c with
  | none => rw [hl] at this; simp at this
  | some p =>
    obtain ⟨o, d⟩ := p
    rw [hl] at this
    by_cases ho : o = t
    · exact ⟨d, by rw [ho]⟩
    · simp only [ho, if_false] at this
      omega

theorem acquire_facts (hc : cfg.locking = true) {s : St K} {t c : Nat} {l : Nat → Option (Nat × Nat)}
    (h : acquire cfg s.lock t c = some l) :
    (∀ c' t' d, l c' = some (t', d) → (∃ d', s.lock c' = some (t', d')) ∨ t' = t ∧ .mutex c' ∈ lockAcq cfg s c) ∧
    (∀ c' t' d, s.lock c' = some (t', d) → ∃ d', l c' = some (t', d')) ∧ ∃ d, l c = some (t, d) := by
  unfold acquire at h
  rw [if_pos hc] at h
  cases hl : s.lock c with
  | none =>
    rw [hl] at h
    cases h
    refine ⟨fun c' t' d h1 => ?_, fun c' t' d h1 => ?_, 1, by simp⟩
    · dsimp only at h1
      by_cases hcc : c' = c
      · subst hcc
        rw [if_pos rfl] at h1
        cases h1
        exact .inr ⟨rfl, by simp [lockAcq, hc, hl]⟩
      · rw [if_neg hcc] at h1
        exact .inl ⟨d, h1⟩
    · by_cases hcc : c' = c
      · subst hcc
        rw [hl] at h1
        cases h1
      · exact ⟨d, by simp [hcc, h1]⟩
  | some p =>
    obtain ⟨o, d⟩ := p
    rw [hl] at h
    by_cases ho : o = t
    · subst ho
      dsimp only at h
      rw [if_pos rfl] at h
      cases h
      refine ⟨fun c' t' d' h1 => ?_, fun c' t' d' h1 => ?_, d + 1, by simp⟩
      · dsimp only at h1
        by_cases hcc : c' = c
        · subst hcc
          rw [if_pos rfl] at h1
          cases h1
          exact .inl ⟨d, hl⟩
        · rw [if_neg hcc] at h1
          exact .inl ⟨d', h1⟩
      · by_cases hcc : c' = c
        · subst hcc
          rw [hl] at h1
          cases h1
          exact ⟨d + 1, by simp⟩
        · exact ⟨d', by simp [hcc, h1]⟩
    · simp [ho] at h

theorem unlock_facts (hc : cfg.locking = true) {s : St K} {t c : Nat} {l : Nat → Option (Nat × Nat)}
    (h : unlock cfg s.lock t c = some l) :
    (∀ c' t' d, l c' = some (t', d) → ∃ d', s.lock c' = some (t', d')) ∧
    (∀ c' t' d, l c' = some (t', d) → .mutex c' ∉ lockRel cfg s c) ∧
    (∀ c' t' d, s.lock c' = some (t', d) → (∃ d', l c' = some (t', d')) ∨ t' = t ∧ .mutex c' ∈ lockRel cfg s c) := by
  unfold unlock at h
  rw [if_pos hc] at h
  cases hl : s.lock c with
  | none => rw [hl] at h; cases h
  | some p =>
    obtain ⟨o, d⟩ := p
    rw [hl] at h
    by_cases ho : o = t
    · subst ho
      dsimp only at h
      rw [if_pos rfl] at h
      cases h
      refine ⟨fun c' t' d' h1 => ?_, fun c' t' d' h1 => ?_, fun c' t' d' h1 => ?_⟩
      · dsimp only at h1
        by_cases hcc : c' = c
        · subst hcc
          rw [if_pos rfl] at h1
          by_cases hd : d ≤ 1
          · rw [if_pos hd] at h1; cases h1
          · rw [if_neg hd] at h1
            cases h1
            exact ⟨d, hl⟩
        · rw [if_neg hcc] at h1
          exact ⟨d', h1⟩
      · dsimp only at h1
        by_cases hcc : c' = c
        · subst hcc
          rw [if_pos rfl] at h1
          by_cases hd : d ≤ 1
          · rw [if_pos hd] at h1; cases h1
          · simp [lockRel, hc, hl, hd]
        · by_cases hd : d ≤ 1 <;> simp [lockRel, hc, hl, hd, hcc]
      · by_cases hcc : c' = c
        · subst hcc
          rw [hl] at h1
          cases h1
          by_cases hd : d ≤ 1
          · exact .inr ⟨rfl, by simp [lockRel, hc, hl, hd]⟩
          · exact .inl ⟨d - 1, by simp [hd]⟩
        · exact .inl ⟨d', by simp [hcc, h1]⟩
    · simp [ho] at h

end

end Verif.Conc

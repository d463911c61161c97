import Verif.HB
import Verif.CFacStep

/-!
# Synchronization in the model of `concurrent_factory`

Each step of `Verif/CFac.lean` is labelled with the memory it accesses and the synchronization it
takes part in.  The library provides the atomic reference count of each entry, for
`simple_locking` the mutex of each type, and for `refcounted` the atomic count of
`refcounted_value`; the deleter count of the latter is not atomic.  The container provides exclusive access to an element for the functions that it
calls, and shared access for the comparison of keys; its own memory is left out, as it is up to the
container to protect it.  As in `Verif/ConcHB.lean` the program must see to it that
flyweight objects themselves are used like any other object.
-/

set_option autoImplicit false

namespace Verif.CFac
open HB
open Verif.Conc (Fw Cfg CfgOk pick acquire unlock fwCount tot nsum fwCount_pos exists_of_fwCount tot_pos
  exists_of_tot tot_eq_zero nsum_pos exists_of_nsum depthOf fwCount_cons fwCount_nil fwCount_append tot_nil tot_cons
  tot_append set_self)
variable {K : Type}

/-- What synchronization is based on: the mutex of a flyweight type
(/repo/include/boost/flyweight/simple_locking.hpp:27-31), exclusive (`elemX`) and shared (`elemS`)
access to an element of the container
(/repo/include/boost/flyweight/concurrent_factory.hpp:128, 161), the count of `refcounted_entry`
(/repo/include/boost/flyweight/concurrent_factory.hpp:52), that of `refcounted_value`
(/repo/include/boost/flyweight/refcounted.hpp:104), and, as in `Verif/ConcHB.lean`, whatever the
program uses to order the uses of a flyweight object of its own. -/
inductive Sync where
  | mutex (c : Nat)
  | elemX (e : Nat)
  | elemS (e : Nat)
  | count (e : Nat)
  | tcount (e : Nat)
  | owned (o : Nat)
  | shared (o : Nat)
  deriving DecidableEq

/-- Parts of an entry: key and value, the count of `refcounted_entry`
(/repo/include/boost/flyweight/concurrent_factory.hpp:52), and both counts of `refcounted_value`
(/repo/include/boost/flyweight/refcounted.hpp:103-105). -/
inductive Part where
  | body
  | ref
  | tref
  | del
  deriving DecidableEq

/-- Memory: the parts of each entry.  Identities of entries are not reused; that memory is not
given to others before it has been released is up to the allocator.  Models the elements of
the container, /repo/include/boost/flyweight/concurrent_factory.hpp:173. -/
inductive Loc where
  | part (e : Nat) (p : Part)
  deriving DecidableEq

/-- Events of the model.  (No code of its own.) -/
abbrev Event := Ev Sync Loc

/-- Memory order of the operations on the counts: whether `++ref` is an acquire and release
operation, whether `--ref` is an acquire operation, whether it is a release operation,
whether the load of `count()` is an acquire operation, and whether operations on the count of
`refcounted_value` are acquire and release operations.  All are in the code:
/repo/include/boost/flyweight/concurrent_factory.hpp:47-49, 52 use the default memory order. -/
structure Orders where
  inc : Bool
  decAcq : Bool
  decRel : Bool
  load : Bool
  trk : Bool

/-- Key, value and counts are constructed or destroyed;
/repo/include/boost/flyweight/concurrent_factory.hpp:43-45, 161. -/
def whole (e : Nat) : List (Loc × Kind) :=
  [(.part e .body, .write), (.part e .ref, .write), (.part e .tref, .write), (.part e .del, .write)]

/-- Elements of the container of type `c` whose keys a lookup may read: those that nobody has
exclusive access to (the others have to be waited for); part of
/repo/include/boost/flyweight/concurrent_factory.hpp:161. -/
def readable (s : St K) (c : Nat) : List Nat :=
  (List.range s.next).filter fun e => match s.ents e with
    | none => false
    | some x => x.core == c && (s.vis e).isNone

/-- The keys are read; part of /repo/include/boost/flyweight/concurrent_factory.hpp:161. -/
def reads (l : List Nat) : List (Loc × Kind) := l.map fun e => (.part e .body, .read)

/-- Locking synchronizes if the thread does not hold the mutex already; the constructor of
`scoped_lock`, /repo/include/boost/flyweight/detail/recursive_lw_mutex.hpp:37-55. -/
def lockAcq (cfg : Cfg K) (s : St K) (c : Nat) : List Sync :=
  if cfg.locking then match s.lock c with
    | none => [.mutex c]
    | some _ => []
  else []

/-- Unlocking synchronizes if the mutex becomes free; the destructor of
`scoped_lock`, /repo/include/boost/flyweight/detail/recursive_lw_mutex.hpp:37-55. -/
def lockRel (cfg : Cfg K) (s : St K) (c : Nat) : List Sync :=
  if cfg.locking then match s.lock c with
    | none => []
    | some (_, d) => if d ≤ 1 then [.mutex c] else []
  else []

/-- An operation on the count of `refcounted_entry`;
/repo/include/boost/flyweight/concurrent_factory.hpp:47-49. -/
def rmw (order : Bool) (e : Nat) : List Sync := if order then [.count e] else []

/-- An operation on the count of `refcounted_value`, if there is one;
/repo/include/boost/flyweight/refcounted.hpp:92-94. -/
def trk (cfg : Cfg K) (order : Bool) (e : Nat) : List Sync := if cfg.tracks && order then [.tcount e] else []

/-- The access made by it; /repo/include/boost/flyweight/refcounted.hpp:92-94, 104. -/
def trkAcc (cfg : Cfg K) (e : Nat) : List (Loc × Kind) := if cfg.tracks then [(.part e .tref, .atomic)] else []

/-- Access to the deleter count, if there is one (it is not always accessed when this says
so); /repo/include/boost/flyweight/refcounted.hpp:96-101, 105. -/
def delAcc (cfg : Cfg K) (e : Nat) : List (Loc × Kind) := if cfg.tracks then [(.part e .del, .write)] else []

/-- Event of the next step of the library (see `lib`); `nid` is the identity of the flyweight
object that is completed, if there is one.  `insTrack` includes the check that the
count is positive, /repo/include/boost/flyweight/concurrent_factory.hpp:80.  Models
/repo/include/boost/flyweight/concurrent_factory.hpp:55-163, 213-223; line references per frame
at `Frame`. -/
def libEv (cfg : Cfg K) (mo : Orders) (s : St K) (nid t : Nat) : Frame K → Event
  | .insLock c .. => ⟨t, lockAcq cfg s c, [], []⟩
  | .insHash .. => ⟨t, [], [], []⟩
  | .insFind c k _ _ => match find cfg s c k with
    | some e => ⟨t, .elemX e :: .elemS e :: (readable s c).map .elemX, reads (readable s c),
        (readable s c).map .elemS⟩
    | none => ⟨t, .elemX s.next :: .elemS s.next :: (readable s c).map .elemX,
        whole s.next ++ reads (readable s c), (readable s c).map .elemS⟩
  | .insVisit _ _ e _ => ⟨t, [], [(.part e .body, .read)], []⟩
  | .insUser .. => ⟨t, [], [], []⟩
  | .insDone _ _ e _ => ⟨t, [], [(.part e .body, .write)], []⟩
  | .insAddRef _ _ e _ => ⟨t, rmw mo.inc e, [(.part e .ref, .atomic)], rmw mo.inc e⟩
  | .insLeave _ _ e _ => ⟨t, [], [], [.elemX e]⟩
  | .insFail _ e _ => ⟨t, [], [], [.elemX e]⟩
  | .insUnwind c => ⟨t, [], [], lockRel cfg s c⟩
  | .insTrack _ _ e => ⟨t, trk cfg mo.trk e, (.part e .ref, .atomic) :: trkAcc cfg e ++ delAcc cfg e, trk cfg mo.trk e⟩
  | .insUnlock c _ _ => ⟨t, [], [], .owned nid :: lockRel cfg s c⟩
  | .rel w => ⟨t, trk cfg mo.trk w.h, trkAcc cfg w.h, trk cfg mo.trk w.h⟩
  | .relLock w => ⟨t, lockAcq cfg s w.c, [], []⟩
  | .relCheck w => ⟨t, [], delAcc cfg w.h, []⟩
  | .relUnlock w => ⟨t, [], [], lockRel cfg s w.c⟩
  | .relDec w => ⟨t, rmw mo.decAcq w.h, [(.part w.h .ref, .atomic)], rmw mo.decRel w.h⟩
  | .gcIdle _ => ⟨t, [], [], []⟩
  | .gcPass .. => ⟨t, [], [], []⟩
  | .gcTest _ e => ⟨t, rmw mo.load e, [(.part e .ref, .atomic)], []⟩
  | .gcErase _ e => ⟨t, [], [(.part e .body, .write)], []⟩
  | .gcUnlink _ e => ⟨t, [], whole e, [.elemX e]⟩
  | .gcLeave _ e => ⟨t, [], [], [.elemX e]⟩

/-- Exclusive use of objects: all uses so far come before, none is made at the same time.  (No
code of its own: what the program has to guarantee.) -/
def excl (ids : List Nat) : List Sync := ids.map .owned ++ ids.map .shared

/-- State with the identities of the program's flyweight objects (`ids`, in the order of
`St.objs`), the identity for the next one, and the events so far.  (No code of its own: used to
state properties.) -/
structure HSt (K : Type) where
  s : St K
  ids : List Nat
  nid : Nat
  tr : List Event

/-- Entry that object `i` refers to.  (Helper, no code of its own.) -/
def target (s : St K) (i : Nat) : Nat := match s.objs[i]? with
  | none => 0
  | some w => w.h

/-- Entry that the `j`-th flyweight inside the value of object `i` refers to.  (Helper, no code
of its own.) -/
def kidTarget (s : St K) (i j : Nat) : Nat := match s.ents (target s i) with
  | none => 0
  | some x => match x.kids[j]? with
    | none => 0
    | some v => v.h

/-- Event of an action, and the identities of the flyweight objects afterwards.  Objects that
are moved from, destroyed or swapped are used exclusively, those that are copied or read are
shared.  Models the calls of /repo/include/boost/flyweight/flyweight.hpp:193-239, 257-278 by the
program, and `erase_if`, /repo/include/boost/flyweight/concurrent_factory.hpp:128. -/
def label (cfg : Cfg K) (mo : Orders) (h : HSt K) (t : Nat) (st : List (Frame K)) :
    Act K → Event × List Nat × Nat
  | .run => match st with
    | [] => (⟨t, [], [], []⟩, h.ids, h.nid)
    | f :: _ => (libEv cfg mo h.s h.nid t f, match f with
      | .insUnlock .. => (h.nid :: h.ids, h.nid + 1)
      | _ => (h.ids, h.nid))
  | .create _ _ mask _ => (⟨t, excl (pick mask h.ids).1, [], []⟩, (pick mask h.ids).2, h.nid)
  | .destroy mask => (⟨t, excl (pick mask h.ids).1, [], []⟩, (pick mask h.ids).2, h.nid)
  | .copy i =>
    (⟨t, .owned (h.ids.getD i 0) :: (rmw mo.inc (target h.s i) ++ trk cfg mo.trk (target h.s i)),
      (.part (target h.s i) .ref, .atomic) :: trkAcc cfg (target h.s i),
      .shared (h.ids.getD i 0) :: .owned h.nid :: (rmw mo.inc (target h.s i) ++ trk cfg mo.trk (target h.s i))⟩,
      h.nid :: h.ids, h.nid + 1)
  | .copyKid i j =>
    (⟨t, .owned (h.ids.getD i 0) :: (rmw mo.inc (kidTarget h.s i j) ++ trk cfg mo.trk (kidTarget h.s i j)),
      (.part (target h.s i) .body, .read) :: (.part (kidTarget h.s i j) .ref, .atomic) ::
        trkAcc cfg (kidTarget h.s i j),
      .shared (h.ids.getD i 0) :: .owned h.nid ::
        (rmw mo.inc (kidTarget h.s i j) ++ trk cfg mo.trk (kidTarget h.s i j))⟩, h.nid :: h.ids, h.nid + 1)
  | .swap i j =>
    (⟨t, excl [h.ids.getD i 0, h.ids.getD j 0], [], [.owned (h.ids.getD i 0), .owned (h.ids.getD j 0)]⟩,
      h.ids, h.nid)
  | .read i =>
    (⟨t, [.owned (h.ids.getD i 0)], [(.part (target h.s i) .body, .read)], [.shared (h.ids.getD i 0)]⟩,
      h.ids, h.nid)
  | .finish mask _ => match st with
    | .insUser _ _ e _ :: _ =>
      (⟨t, excl (pick mask h.ids).1, [(.part e .body, .write)], []⟩, (pick mask h.ids).2, h.nid)
    | _ => (⟨t, [], [], []⟩, h.ids, h.nid)
  | .throw_ => match st with
    | .insFind c .. :: _ => (⟨t, (readable h.s c).map .elemX, reads (readable h.s c), (readable h.s c).map .elemS⟩,
        h.ids, h.nid)
    | _ => (⟨t, [], [], []⟩, h.ids, h.nid)
  | .gcVisit e => (⟨t, [.elemX e, .elemS e], [], []⟩, h.ids, h.nid)

/-- Execution of a schedule with its events, until the end or until the program leaves the
domain of the library.  (No code of its own: the scheduler.) -/
def hexec (cfg : Cfg K) (mo : Orders) : List (Nat × Act K) → HSt K → HSt K
  | [], h => h
  | (t, a) :: l, h => match h.s.thr[t]? with
    | none => hexec cfg mo l h
    | some st => match act cfg h.s t st a with
      | .ok s' => hexec cfg mo l ⟨s', (label cfg mo h t st a).2.1, (label cfg mo h t st a).2.2,
          h.tr ++ [(label cfg mo h t st a).1]⟩
      | .no => hexec cfg mo l h
      | .ub => h
      | .reentrant => h

/-- At the start nothing has happened.  (No code of its own.) -/
def hstart (n : Nat) (gcs : List Nat) : HSt K := ⟨start n gcs, [], 0, []⟩

/-! ## Invariant -/

/-- Event `i` is known to the mutex of type `c` or to the thread that holds it.  (No code of its
own: used in proofs.) -/
def Lk (h : HSt K) (c i : Nat) : Prop :=
  Rel h.tr (.mutex c) i ∨ ∃ t d, h.s.lock c = some (t, d) ∧ Know h.tr t i

/-- Event `i` is known to the element `e` or to the thread that has exclusive access to it.  (No
code of its own: used in proofs.) -/
def Vk (h : HSt K) (e i : Nat) : Prop :=
  Rel h.tr (.elemX e) i ∨ ∃ t, h.s.vis e = some t ∧ Know h.tr t i

/-- What the users of entry `e` know: program objects, operations in progress, flyweights inside
values.  (No code of its own: used in proofs.) -/
inductive User (h : HSt K) (e : Nat) : (Nat → Prop) → Prop
  | obj (w : Fw K) (o : Nat) : (w, o) ∈ h.s.objs.zip h.ids → w.h = e → User h e (Rel h.tr (.owned o))
  | frame (t : Nat) (st : List (Frame K)) (f : Frame K) : h.s.thr[t]? = some st → f ∈ st → 0 < refF e f →
      User h e (Know h.tr t)
  | kid (e' : Nat) (x : Ent K) (v : Fw K) : h.s.ents e' = some x → v ∈ x.kids → v.h = e →
      User h e (Past h.tr (.part e' .body, .write))

/-- The frame is going to destroy entry `e`.  (No code of its own: used in proofs.) -/
def eraF (e : Nat) : Frame K → Bool
  | .gcErase _ i => i == e
  | .gcUnlink _ i => i == e
  | _ => false

/-- Some thread is going to destroy entry `e`.  (No code of its own: used in proofs.) -/
def Era (s : St K) (e : Nat) : Prop := ∃ (t : Nat) (st : List (Frame K)), s.thr[t]? = some st ∧ ∃ f ∈ st, eraF e f = true

/-- What those who may be the next to erase entry `e` know.  (No code of its own: used in proofs.) -/
inductive Holder (h : HSt K) (e : Nat) : (Nat → Prop) → Prop
  | user (P : Nat → Prop) : User h e P → Holder h e P
  | shared (w : Fw K) (o : Nat) : (w, o) ∈ h.s.objs.zip h.ids → w.h = e → Holder h e (Rel h.tr (.shared o))
  | count (x : Ent K) : h.s.ents e = some x → x.cted = true → ¬ Era h.s e → Holder h e (Rel h.tr (.count e))
  | elemX : Holder h e (Vk h e)
  | elemS : Holder h e (Rel h.tr (.elemS e))

/-- Some holder of `e` knows event `i`.  (No code of its own: used in proofs.) -/
def Cov (h : HSt K) (e i : Nat) : Prop := ∃ P, Holder h e P ∧ P i

/-- How the parts of an entry are accessed: counts only atomically once they exist, the rest not
atomically.  (No code of its own: used in proofs.) -/
def okKind : Loc × Kind → Bool
  | (.part _ .body, k) => k != .atomic
  | (.part _ .ref, k) => k != .read
  | (.part _ .tref, k) => k != .read
  | (.part _ .del, k) => k == .write

/-- Two accesses to `l`, by events with the accesses `A` and `B`, are synchronized: always, except for those to the deleter
count with `refcounted` and `no_locking`, and then also if one of the events constructs or destroys the entry.  (No code of
its own: used in statements and proofs.) -/
def Synced (cfg : Cfg K) (l : Loc) (A B : Loc × Kind → Prop) : Prop := match l with
  | .part e .del => (cfg.tracks = true → cfg.locking = true) ∨ A (.part e .body, .write) ∨ B (.part e .body, .write)
  | _ => True

/-- No data race other than those.  (No code of its own: used in statements and proofs.) -/
def Races (cfg : Cfg K) (tr : List Event) : Prop :=
  ∀ i j l k k', i ≠ j → Acc tr i (l, k) → Acc tr j (l, k') → k.conflict k' = true →
    Synced cfg l (Acc tr i) (Acc tr j) → Before tr i j ∨ Before tr j i

theorem Synced.symm {cfg : Cfg K} {l : Loc} {A B : Loc × Kind → Prop} (h : Synced cfg l A B) : Synced cfg l B A := by
  obtain ⟨e, p⟩ := l
  cases p <;> first | trivial | exact Or.elim h .inl fun h => .inr h.symm

theorem Synced.mono {cfg : Cfg K} {l : Loc} {A B A' B' : Loc × Kind → Prop} (h : Synced cfg l A B)
    (hA : ∀ a, A a → A' a) (hB : ∀ a, B a → B' a) : Synced cfg l A' B' := by
  obtain ⟨e, p⟩ := l
  cases p <;> first | trivial | exact Or.elim h .inl fun h => .inr (h.imp (hA _) (hB _))

/-- Extending a trace. -/
theorem Races.snoc {cfg : Cfg K} {tr : List Event} {ev : Event} (h : Races cfg tr)
    (hn : ∀ n l k k', (l, k') ∈ ev.accs → Acc tr n (l, k) → k.conflict k' = true →
      Synced cfg l (Acc tr n) (· ∈ ev.accs) → Know (tr ++ [ev]) ev.thr n) :
    Races cfg (tr ++ [ev]) := by
  intro i j l k k' hne hi hj hc hw
  have old : ∀ {i a}, i < tr.length → Acc (tr ++ [ev]) i a → Acc tr i a := by
    intro i a hi h
    rcases acc_cases h with h | ⟨h, _⟩
    · exact h
    · omega
  have new : ∀ {a}, Acc (tr ++ [ev]) tr.length a → a ∈ ev.accs := by
    intro a h
    rcases acc_cases h with h | ⟨_, h⟩
    · exact absurd h.lt (by omega)
    · exact h
  have key : ∀ i l k k', (l, k') ∈ ev.accs → Acc tr i (l, k) → k.conflict k' = true →
      Synced cfg l (Acc tr i) (· ∈ ev.accs) → Before (tr ++ [ev]) i tr.length := fun i l k k' h1 h2 h3 h4 =>
    (hn i l k k' h1 h2 h3 h4).le_new.before (Nat.ne_of_lt h2.lt)
  rcases acc_cases hi with h1 | ⟨h1, h2⟩ <;> rcases acc_cases hj with h3 | ⟨h3, h4⟩
  · exact (h i j l k k' hne h1 h3 hc (hw.mono (fun a => old h1.lt) fun a => old h3.lt)).imp Before.old Before.old
  · subst h3
    exact .inl (key i l k k' h4 h1 hc (hw.mono (fun a => old h1.lt) fun a => new))
  · subst h1
    exact .inr (key j l k' k h2 h3 (by rw [conflict_symm]; exact hc) (hw.symm.mono (fun a => old h3.lt) fun a => new))
  · exact absurd (h1.trans h3.symm) hne

theorem races_nil {cfg : Cfg K} : Races cfg [] := by
  rintro i j l k k' _ ⟨ev, h, _⟩
  simp at h

/-- The invariant.  (No code of its own: used in proofs.) -/
structure HInv (cfg : Cfg K) (h : HSt K) : Prop where
  inv : Inv cfg h.s
  len : h.ids.length = h.s.objs.length
  kinds : ∀ n a, Acc h.tr n a → okKind a = true
  bound : ∀ n e p k, Acc h.tr n (.part e p, k) → e < h.s.next
  hold : ∀ c t d i, h.s.lock c = some (t, d) → Rel h.tr (.mutex c) i → Know h.tr t i
  vhold : ∀ e t i, h.s.vis e = some t → Rel h.tr (.elemX e) i ∨ Rel h.tr (.elemS e) i → Know h.tr t i
  writes : ∀ n e x p, h.s.ents e = some x → p ≠ .del → Acc h.tr n (.part e p, .write) → Vk h e n
  dels : cfg.locking = true → ∀ n e x k, h.s.ents e = some x → Acc h.tr n (.part e .del, k) → Lk h x.core n
  user : ∀ n e x p P, h.s.ents e = some x → User h e P → p ≠ .del → Acc h.tr n (.part e p, .write) → P n
  cov : ∀ n e x p k, h.s.ents e = some x → Acc h.tr n (.part e p, k) → Cov h e n
  race : Races cfg h.tr

/-! ## Preservation -/

section
variable {cfg : Cfg K} {h h' : HSt K} {ev : Event} {st st' : List (Frame K)}

/-- After its step the thread knows what users of `e` have to know.  (No code of its own: used
in proofs.) -/
def Tk (h h' : HSt K) (ev : Event) (e : Nat) : Prop :=
  (∃ P, User h e P ∧ ∀ i, P i → Know h'.tr ev.thr i) ∨ h'.s.vis e = some ev.thr

/-- After its step, what the thread knows is known to a holder of `e`.  (No code of its own:
used in proofs.) -/
def Tc (h' : HSt K) (ev : Event) (st' : List (Frame K)) (e : Nat) : Prop :=
  (∃ g ∈ st', 0 < refF e g) ∨
  h'.s.vis e = some ev.thr ∨
  (∃ w o, (w, o) ∈ h'.s.objs.zip h'.ids ∧ w.h = e ∧ (.owned o ∈ ev.rels ∨ .shared o ∈ ev.rels)) ∨
  (∃ e' x v, h'.s.ents e' = some x ∧ v ∈ x.kids ∧ v.h = e ∧ (.part e' .body, .write) ∈ ev.accs) ∨
  (.count e ∈ ev.rels ∧ (∀ x, h'.s.ents e = some x → x.cted = true) ∧ ¬ Era h'.s e) ∨
  .elemX e ∈ ev.rels ∨ .elemS e ∈ ev.rels

/-- Changes of mutexes by a step.  (No code of its own: used in proofs.) -/
structure MutexOk (s s' : St K) (ev : Event) : Prop where
  got : ∀ c t d, s'.lock c = some (t, d) → (∃ d', s.lock c = some (t, d')) ∨ t = ev.thr ∧ .mutex c ∈ ev.acqs
  freed : ∀ c t d, s'.lock c = some (t, d) → .mutex c ∈ ev.rels → t = ev.thr
  kept : ∀ c t d, s.lock c = some (t, d) → (∃ d', s'.lock c = some (t, d')) ∨ t = ev.thr ∧ .mutex c ∈ ev.rels

/-- Changes of the access to elements by a step.  (No code of its own: used in proofs.) -/
structure VisOk (s s' : St K) (ev : Event) : Prop where
  got : ∀ e t, s'.vis e = some t → s.vis e = some t ∨ t = ev.thr ∧ .elemX e ∈ ev.acqs ∧ .elemS e ∈ ev.acqs
  freed : ∀ e t, s'.vis e = some t → .elemX e ∈ ev.rels ∨ .elemS e ∈ ev.rels → t = ev.thr
  kept : ∀ e t, s.vis e = some t → s'.vis e = some t ∨ t = ev.thr ∧ .elemX e ∈ ev.rels

theorem MutexOk.same {s s' : St K} {ev : Event} (h : s'.lock = s.lock) (hr : ∀ c, .mutex c ∉ ev.rels) : MutexOk s s' ev := by
  refine ⟨fun c t d h1 => .inl ⟨d, ?_⟩, fun c t d _ h1 => absurd h1 (hr c), fun c t d h1 => .inl ⟨d, ?_⟩⟩
  · rwa [h] at h1
  · rwa [h]

theorem VisOk.same {s s' : St K} {ev : Event} (h : s'.vis = s.vis) (hx : ∀ e, .elemX e ∉ ev.rels)
    (hr : ∀ e, .elemS e ∉ ev.rels) : VisOk s s' ev := by
  refine ⟨fun e t h1 => .inl ?_, fun e t _ h1 => ?_, fun e t h1 => .inl ?_⟩
  · rwa [h] at h1
  · rcases h1 with h1 | h1
    · exact absurd h1 (hx e)
    · exact absurd h1 (hr e)
  · rwa [h]

/-- A thread that holds the mutex knows what the mutex knows. -/
theorem HInv.locked (H : HInv cfg h) {c t d i : Nat} (hl : h.s.lock c = some (t, d)) (hi : Lk h c i) :
    Know h.tr t i := by
  rcases hi with hi | ⟨t', d', hl', hi⟩
  · exact H.hold c t d i hl hi
  · rw [hl] at hl'
    cases hl'
    exact hi

/-- A thread that has exclusive access to an element knows what the element knows. -/
theorem HInv.visited (H : HInv cfg h) {e t i : Nat} (hv : h.s.vis e = some t) (hi : Vk h e i) : Know h.tr t i := by
  rcases hi with hi | ⟨t', hv', hi⟩
  · exact H.vhold e t i hv (.inl hi)
  · rw [hv] at hv'
    cases hv'
    exact hi

/-- No user if the count is zero. -/
theorem no_user (hi : Inv cfg h.s) {e : Nat} {x : Ent K} (hx : h.s.ents e = some x) (h0 : x.ref = 0)
    {P : Nat → Prop} (hu : User h e P) : False := by
  have hr := hi.core.refs e
  simp only [refOf, hx, h0] at hr
  cases hu with
  | obj w o hm he =>
    have := fwCount_pos (List.of_mem_zip hm).1 he
    omega
  | frame t st f ht hf hp =>
    have hm : f ∈ frames h.s := List.mem_flatten.2 ⟨st, List.mem_of_getElem? ht, hf⟩
    have := tot_pos (g := refF e) hm hp
    omega
  | kid e' y v hy hv he =>
    have := nsum_pos (f := fun i => kidsOf e (h.s.ents i)) (hi.core.lt_next hy)
      (by simpa [hy, kidsOf] using fwCount_pos hv he)
    simp only [kidsTo] at hr
    omega

/-- A step of thread `ev.thr`. -/
theorem HInv.next (H : HInv cfg h) (htr : h'.tr = h.tr ++ [ev]) (hinv : Inv cfg h'.s)
    (hlen : h'.ids.length = h'.s.objs.length)
    (hst : h.s.thr[ev.thr]? = some st) (hst' : h'.s.thr = h.s.thr.set ev.thr st')
    (hkind : ∀ a ∈ ev.accs, okKind a = true)
    (hnext : h.s.next ≤ h'.s.next)
    (hbd : ∀ e p k, (.part e p, k) ∈ ev.accs → e < h'.s.next)
    (hmx : MutexOk h.s h'.s ev) (hvs : VisOk h.s h'.s ev)
    (hents : ∀ e x', h'.s.ents e = some x' → (∃ x, h.s.ents e = some x ∧ x.core = x'.core) ∨ h.s.next ≤ e)
    (hwr : ∀ e p x, (.part e p, .write) ∈ ev.accs → p ≠ .del → h'.s.ents e = some x → h'.s.vis e = some ev.thr)
    (hdw : cfg.locking = true → ∀ e k x, (.part e .del, k) ∈ ev.accs → h'.s.ents e = some x →
      ∃ d, h'.s.lock x.core = some (ev.thr, d))
    (hno : ∀ e p x, (.part e p, .write) ∈ ev.accs → p ≠ .del → h'.s.ents e = some x → x.ref = 0)
    (hu1 : ∀ w o, (w, o) ∈ h'.s.objs.zip h'.ids →
      (w, o) ∈ h.s.objs.zip h.ids ∨ .owned o ∈ ev.rels ∧ Tk h h' ev w.h)
    (hu2 : ∀ e, ∀ g ∈ st', 0 < refF e g → Tk h h' ev e)
    (hu3 : ∀ e x v, h'.s.ents e = some x → v ∈ x.kids →
      (∃ y, h.s.ents e = some y ∧ v ∈ y.kids) ∨ (.part e .body, .write) ∈ ev.accs ∧ Tk h h' ev v.h)
    (hc1 : ∀ w o, (w, o) ∈ h.s.objs.zip h.ids → (w, o) ∈ h'.s.objs.zip h'.ids ∨
      .owned o ∈ ev.acqs ∧ .shared o ∈ ev.acqs ∧ Tc h' ev st' w.h)
    (hc2 : ∀ e x, h'.s.ents e = some x → ∀ f ∈ st, 0 < refF e f → Tc h' ev st' e)
    (hc3 : ∀ e x v, h.s.ents e = some x → v ∈ x.kids → (∃ y, h'.s.ents e = some y ∧ v ∈ y.kids) ∨
      (∀ i, Past h.tr (.part e .body, .write) i → Know h'.tr ev.thr i) ∧ Tc h' ev st' v.h)
    (hc4 : ∀ e x x', h.s.ents e = some x → h'.s.ents e = some x' → x.cted = true → (∀ f ∈ st, eraF e f = false) →
      (x'.cted = true ∧ ∀ f ∈ st', eraF e f = false) ∨ .count e ∈ ev.acqs ∧ Tc h' ev st' e)
    (hacc : ∀ e p k x, (.part e p, k) ∈ ev.accs → h'.s.ents e = some x → Tc h' ev st' e)
    (hrace : ∀ n l k k', (l, k') ∈ ev.accs → Acc h.tr n (l, k) → k.conflict k' = true →
      Synced cfg l (Acc h.tr n) (· ∈ ev.accs) → Know h'.tr ev.thr n) : HInv cfg h' := by
  have hlt : ev.thr < h.s.thr.length := by
    rcases Nat.lt_or_ge ev.thr h.s.thr.length with h1 | h1
    · exact h1
    · rw [List.getElem?_eq_none h1] at hst; cases hst
  have hst1 : h'.s.thr[ev.thr]? = some st' := by rw [hst', List.getElem?_set_self hlt]
  have hother : ∀ t, t ≠ ev.thr → h'.s.thr[t]? = h.s.thr[t]? := fun t ht => by
    rw [hst', List.getElem?_set_ne (Ne.symm ht)]
  have kold : ∀ {t i}, Know h.tr t i → Know h'.tr t i := fun hk => by rw [htr]; exact hk.old
  have rold : ∀ {o i}, Rel h.tr o i → Rel h'.tr o i := fun hk => by rw [htr]; exact hk.old
  have pold : ∀ {a i}, Past h.tr a i → Past h'.tr a i := fun hk => by rw [htr]; exact hk.old
  have kacq : ∀ {o i}, o ∈ ev.acqs → Rel h.tr o i → Know h'.tr ev.thr i := fun h1 h2 => by
    rw [htr]; exact know_acq h1 h2
  have krel : ∀ {o i}, o ∈ ev.rels → Know h'.tr ev.thr i → Rel h'.tr o i := fun h1 h2 => by
    rw [htr] at h2 ⊢; exact rel_new h1 h2
  have kpast : ∀ {a i}, a ∈ ev.accs → Know h'.tr ev.thr i → Past h'.tr a i := fun h1 h2 => by
    rw [htr] at h2 ⊢; exact past_new h1 h2
  have knew : Know h'.tr ev.thr h.tr.length := by rw [htr]; exact know_new
  have lkold : ∀ {c i}, Lk h c i → Lk h' c i := by
    rintro c i (h1 | ⟨t, d, h1, h2⟩)
    · exact .inl (rold h1)
    · rcases hmx.kept c t d h1 with ⟨d', h3⟩ | ⟨h3, h4⟩
      · exact .inr ⟨t, d', h3, kold h2⟩
      · subst h3
        exact .inl (krel h4 (kold h2))
  have vkold : ∀ {e i}, Vk h e i → Vk h' e i := by
    rintro e i (h1 | ⟨t, h1, h2⟩)
    · exact .inl (rold h1)
    · rcases hvs.kept e t h1 with h3 | ⟨h3, h4⟩
      · exact .inr ⟨t, h3, kold h2⟩
      · subst h3
        exact .inl (krel h4 (kold h2))
  have hhold : ∀ c t d i, h'.s.lock c = some (t, d) → Rel h'.tr (.mutex c) i → Know h'.tr t i := by
    intro c t d i hl hr
    rw [htr] at hr
    rcases rel_cases hr with hr | ⟨hr, hk⟩
    · rcases hmx.got c t d hl with ⟨d', h1⟩ | ⟨h1, h2⟩
      · exact kold (H.hold c t d' i h1 hr)
      · subst h1
        exact kacq h2 hr
    · rw [hmx.freed c t d hl hr, htr]
      exact hk
  have hvhold : ∀ e t i, h'.s.vis e = some t → Rel h'.tr (.elemX e) i ∨ Rel h'.tr (.elemS e) i → Know h'.tr t i := by
    intro e t i hl hr
    rw [htr] at hr
    have key : (Rel h.tr (.elemX e) i ∨ Rel h.tr (.elemS e) i) ∨
        (.elemX e ∈ ev.rels ∨ .elemS e ∈ ev.rels) ∧ Know (h.tr ++ [ev]) ev.thr i := by
      rcases hr with hr | hr <;> rcases rel_cases hr with hr | ⟨hr, hk⟩
      · exact .inl (.inl hr)
      · exact .inr ⟨.inl hr, hk⟩
      · exact .inl (.inr hr)
      · exact .inr ⟨.inr hr, hk⟩
    rcases key with hr | ⟨hr, hk⟩
    · rcases hvs.got e t hl with h1 | ⟨h1, h2, h3⟩
      · exact kold (H.vhold e t i h1 hr)
      · subst h1
        rcases hr with hr | hr
        · exact kacq h2 hr
        · exact kacq h3 hr
    · rw [hvs.freed e t hl hr, htr]
      exact hk
  have tc : ∀ {e x i}, h'.s.ents e = some x → Tc h' ev st' e → Know h'.tr ev.thr i → Cov h' e i := by
    rintro e x i hx (⟨g, hg, h1⟩ | h1 | ⟨w, o, h1, h2, h3⟩ | ⟨e', y, v, h1, h2, h3, h4⟩ | ⟨h1, h2, h3⟩ | h1 | h1) hk
    · exact ⟨_, .user _ (.frame _ _ g hst1 hg h1), hk⟩
    · exact ⟨_, .elemX, .inr ⟨_, h1, hk⟩⟩
    · rcases h3 with h3 | h3
      · exact ⟨_, .user _ (.obj w o h1 h2), krel h3 hk⟩
      · exact ⟨_, .shared w o h1 h2, krel h3 hk⟩
    · exact ⟨_, .user _ (.kid e' y v h1 h2 h3), kpast h4 hk⟩
    · exact ⟨_, .count x hx (h2 x hx) h3, krel h1 hk⟩
    · exact ⟨_, .elemX, .inl (krel h1 hk)⟩
    · exact ⟨_, .elemS, krel h1 hk⟩
  have tk : ∀ {e y n p}, h.s.ents e = some y → Tk h h' ev e → p ≠ .del →
      Acc h.tr n (.part e p, .write) → Know h'.tr ev.thr n := by
    rintro e y n p hy (⟨P, h1, h2⟩ | h1) hp ha
    · exact h2 n (H.user n e y p P hy h1 hp ha)
    · rcases vkold (H.writes n e y p hy hp ha) with h2 | ⟨t, h2, h3⟩
      · exact hvhold _ _ _ h1 (.inl h2)
      · rw [h1] at h2
        cases h2
        exact h3
  refine ⟨hinv, hlen, ?_, ?_, hhold, hvhold, ?_, ?_, ?_, ?_, ?_⟩
  · intro n a ha
    rw [htr] at ha
    rcases acc_cases ha with h1 | ⟨_, h1⟩
    · exact H.kinds n a h1
    · exact hkind a h1
  · intro n e p k ha
    rw [htr] at ha
    rcases acc_cases ha with h1 | ⟨_, h1⟩
    · exact Nat.lt_of_lt_of_le (H.bound n e p k h1) hnext
    · exact hbd e p k h1
  · intro n e x p hx hp ha
    rw [htr] at ha
    rcases acc_cases ha with h1 | ⟨h0, h1⟩
    · rcases hents e x hx with ⟨y, h2, h3⟩ | h2
      · exact vkold (H.writes n e y p h2 hp h1)
      · exact absurd (H.bound n e p _ h1) (by omega)
    · subst h0
      exact .inr ⟨_, hwr e p x h1 hp hx, knew⟩
  · intro hlk n e x k hx ha
    rw [htr] at ha
    rcases acc_cases ha with h1 | ⟨h0, h1⟩
    · rcases hents e x hx with ⟨y, h2, h3⟩ | h2
      · rw [← h3]
        exact lkold (H.dels hlk n e y k h2 h1)
      · exact absurd (H.bound n e _ _ h1) (by omega)
    · subst h0
      obtain ⟨d, h2⟩ := hdw hlk e k x h1 hx
      exact .inr ⟨_, _, h2, knew⟩
  · intro n e x p P hx hu hp ha
    rw [htr] at ha
    rcases acc_cases ha with h1 | ⟨h0, h1⟩
    · rcases hents e x hx with ⟨y, h2, h3⟩ | h2
      · cases hu with
        | obj w o hm he =>
          rcases hu1 w o hm with h4 | ⟨h4, h5⟩
          · exact rold (H.user n e y p _ h2 (.obj w o h4 he) hp h1)
          · rw [he] at h5
            exact krel h4 (tk h2 h5 hp h1)
        | frame t st f ht hf hr =>
          by_cases he : t = ev.thr
          · subst he
            rw [hst1] at ht
            cases ht
            exact tk h2 (hu2 e f hf hr) hp h1
          · rw [hother t he] at ht
            exact kold (H.user n e y p _ h2 (.frame t st f ht hf hr) hp h1)
        | kid e' z v hz hv he =>
          rcases hu3 e' z v hz hv with ⟨z', h4, h5⟩ | ⟨h4, h5⟩
          · exact pold (H.user n e y p _ h2 (.kid e' z' v h4 h5 he) hp h1)
          · rw [he] at h5
            exact kpast h4 (tk h2 h5 hp h1)
      · exact absurd (H.bound n e p _ h1) (by omega)
    · exact (no_user hinv hx (hno e p x h1 hp hx) hu).elim
  · intro n e x p k hx ha
    rw [htr] at ha
    rcases acc_cases ha with h1 | ⟨h0, h1⟩
    · rcases hents e x hx with ⟨y, h2, h3⟩ | h2
      · obtain ⟨P, hP, hn⟩ := H.cov n e y p k h2 h1
        cases hP with
        | user P hP =>
          cases hP with
          | obj w o hm he =>
            rcases hc1 w o hm with h4 | ⟨h4, h5, h6⟩
            · exact ⟨_, .user _ (.obj w o h4 he), rold hn⟩
            · rw [he] at h6
              exact tc hx h6 (kacq h4 hn)
          | frame t st'' f ht hf hr =>
            by_cases he : t = ev.thr
            · subst he
              rw [hst] at ht
              cases ht
              exact tc hx (hc2 e x hx f hf hr) (kold hn)
            · rw [← hother t he] at ht
              exact ⟨_, .user _ (.frame t st'' f ht hf hr), kold hn⟩
          | kid e' z v hz hv he =>
            rcases hc3 e' z v hz hv with ⟨z', h4, h5⟩ | ⟨h4, h5⟩
            · exact ⟨_, .user _ (.kid e' z' v h4 h5 he), pold hn⟩
            · rw [he] at h5
              exact tc hx h5 (h4 n hn)
        | shared w o hm he =>
          rcases hc1 w o hm with h4 | ⟨h4, h5, h6⟩
          · exact ⟨_, .shared w o h4 he, rold hn⟩
          · rw [he] at h6
            exact tc hx h6 (kacq h5 hn)
        | count z hz hct her =>
          have her' : ∀ f ∈ st, eraF e f = false := by
            intro f hf
            cases hb : eraF e f with
            | false => rfl
            | true => exact absurd ⟨_, _, hst, f, hf, hb⟩ her
          rcases hc4 e z x hz hx hct her' with ⟨h4, h5⟩ | ⟨h4, h5⟩
          · refine ⟨_, .count x hx h4 ?_, rold hn⟩
            rintro ⟨t, st'', ht, f, hf, hb⟩
            by_cases he : t = ev.thr
            · subst he
              rw [hst1] at ht
              cases ht
              rw [h5 f hf] at hb
              cases hb
            · rw [hother t he] at ht
              exact her ⟨t, st'', ht, f, hf, hb⟩
          · exact tc hx h5 (kacq h4 hn)
        | elemX => exact ⟨_, .elemX, vkold hn⟩
        | elemS => exact ⟨_, .elemS, rold hn⟩
      · exact absurd (H.bound n e p _ h1) (by omega)
    · subst h0
      exact tc hx (hacc e p k x h1 hx) knew
  · rw [htr]
    refine H.race.snoc fun n l k k' h1 h2 h3 h4 => ?_
    have := hrace n l k k' h1 h2 h3 h4
    rwa [htr] at this

/-- The part of an entry that steps in the middle of an operation leave alone.  (No code of its
own: used in proofs.) -/
def ck (x : Ent K) : Nat × List (Fw K) := (x.core, x.kids)

theorem ck_some {ents ents' : Nat → Option (Ent K)} (h : ∀ e, (ents' e).map ck = (ents e).map ck) {e : Nat} {x : Ent K}
    (hx : ents' e = some x) : ∃ y, ents e = some y ∧ y.core = x.core ∧ y.kids = x.kids := by
  have := h e
  rw [hx] at this
  cases hy : ents e with
  | none => rw [hy] at this; cases this
  | some y =>
    rw [hy] at this
    simp only [Option.map_some, Option.some.injEq, ck, Prod.mk.injEq] at this
    exact ⟨y, rfl, this.1.symm, this.2.symm⟩

theorem ck_set {ents : Nat → Option (Ent K)} {e : Nat} {x x' : Ent K} (hx : ents e = some x) (h : ck x' = ck x) (i : Nat) :
    (setEnt ents e (some x') i).map ck = (ents i).map ck := by
  by_cases hi : i = e
  · subst hi
    rw [setEnt_same, hx]
    simp [h]
  · rw [setEnt_ne _ _ hi]

/-- A step that changes neither the program's objects nor what values contain. -/
theorem HInv.quick (H : HInv cfg h) {f : Frame K} {rest new : List (Frame K)} (htr : h'.tr = h.tr ++ [ev])
    (hinv : Inv cfg h'.s) (hst : h.s.thr[ev.thr]? = some (f :: rest)) (hst' : h'.s.thr = h.s.thr.set ev.thr (new ++ rest))
    (hobjs : h'.s.objs = h.s.objs) (hids : h'.ids = h.ids) (hck : ∀ e, (h'.s.ents e).map ck = (h.s.ents e).map ck)
    (hct : ∀ e x x', h.s.ents e = some x → h'.s.ents e = some x' → x.cted = true → x'.cted = true)
    (hkind : ∀ a ∈ ev.accs, okKind a = true) (hnext : h.s.next = h'.s.next)
    (hbd : ∀ e p k, (.part e p, k) ∈ ev.accs → ∃ x, h'.s.ents e = some x)
    (hmx : MutexOk h.s h'.s ev) (hvs : VisOk h.s h'.s ev)
    (hwr : ∀ e p x, (.part e p, .write) ∈ ev.accs → p ≠ .del → h'.s.ents e = some x → h'.s.vis e = some ev.thr)
    (hdw : cfg.locking = true → ∀ e k x, (.part e .del, k) ∈ ev.accs → h'.s.ents e = some x →
      ∃ d, h'.s.lock x.core = some (ev.thr, d))
    (hno : ∀ e p x, (.part e p, .write) ∈ ev.accs → p ≠ .del → h'.s.ents e = some x → x.ref = 0)
    (hfu : ∀ e, ∀ g ∈ new, 0 < refF e g → 0 < refF e f ∨ h'.s.vis e = some ev.thr)
    (hfh : ∀ e x, h'.s.ents e = some x → 0 < refF e f → Tc h' ev (new ++ rest) e)
    (her : ∀ e, ∀ g ∈ new, eraF e g = true → eraF e f = true ∨ .count e ∈ ev.acqs ∧ Tc h' ev (new ++ rest) e)
    (hacc : ∀ e p k x, (.part e p, k) ∈ ev.accs → h'.s.ents e = some x → Tc h' ev (new ++ rest) e)
    (hrace : ∀ n l k k', (l, k') ∈ ev.accs → Acc h.tr n (l, k) → k.conflict k' = true →
      Synced cfg l (Acc h.tr n) (· ∈ ev.accs) → Know h'.tr ev.thr n) : HInv cfg h' := by
  have kold : ∀ {t i}, Know h.tr t i → Know h'.tr t i := fun hk => by rw [htr]; exact hk.old
  refine H.next htr hinv (by rw [hids, hobjs]; exact H.len) hst hst' hkind (Nat.le_of_eq hnext) ?_ hmx hvs ?_
    hwr hdw hno ?_ ?_ ?_ ?_ ?_ ?_ ?_ hacc hrace
  · intro e p k he
    obtain ⟨x, hx⟩ := hbd e p k he
    exact hinv.core.lt_next hx
  · intro e x hx
    obtain ⟨y, hy, hc, _⟩ := ck_some hck hx
    exact .inl ⟨y, hy, hc⟩
  · intro w o hw
    rw [hobjs, hids] at hw
    exact .inl hw
  · intro e g hg hr
    rcases List.mem_append.1 hg with hg | hg
    · rcases hfu e g hg hr with h1 | h1
      · exact .inl ⟨_, .frame _ _ f hst List.mem_cons_self h1, fun i => kold⟩
      · exact .inr h1
    · exact .inl ⟨_, .frame _ _ g hst (List.mem_cons_of_mem _ hg) hr, fun i => kold⟩
  · intro e x v hx hv
    obtain ⟨y, hy, _, hk⟩ := ck_some hck hx
    exact .inl ⟨y, hy, hk ▸ hv⟩
  · intro w o hw
    rw [hobjs, hids]
    exact .inl hw
  · intro e x hx g hg hr
    rcases List.mem_cons.1 hg with rfl | hg
    · exact hfh e x hx hr
    · exact .inl ⟨g, List.mem_append.2 (.inr hg), hr⟩
  · intro e x v hx hv
    obtain ⟨y, hy, _, hk⟩ := ck_some (fun e => (hck e).symm) hx
    exact .inl ⟨y, hy, hk ▸ hv⟩
  · intro e x x' hx hx' hc hf
    by_cases hb : ∃ g ∈ new, eraF e g = true
    · obtain ⟨g, hg, hb⟩ := hb
      rcases her e g hg hb with h1 | h1
      · rw [hf f List.mem_cons_self] at h1
        cases h1
      · exact .inr h1
    · refine .inl ⟨hct e x x' hx hx' hc, fun g hg => ?_⟩
      rcases List.mem_append.1 hg with hg | hg
      · cases hb' : eraF e g with
        | false => rfl
        | true => exact absurd ⟨g, hg, hb'⟩ hb
      · exact hf g (List.mem_cons_of_mem _ hg)

theorem held (hlk : cfg.locking = true) {s : St K} (hi : Inv cfg s) {t c : Nat} {f : Frame K} {rest : List (Frame K)}
    (ht : s.thr[t]? = some (f :: rest)) (hf : holds f = some c) : ∃ d, s.lock c = some (t, d) := by
  have := hi.locks.depth hlk t _ ht c
  rw [tot_cons, holdF, if_pos hf] at this
  unfold depthOf at this
  cases hl : s.lock c with
  | none => rw [hl] at this; simp at this
  | some p =>
    obtain ⟨o, d⟩ := p
    rw [hl] at this
    by_cases ho : o = t
    · exact ⟨d, by rw [ho]⟩
    · simp only [ho, if_false] at this
      omega

theorem visits {s : St K} (hi : Inv cfg s) {t e : Nat} {f : Frame K} {rest : List (Frame K)}
    (ht : s.thr[t]? = some (f :: rest)) (hf : elemOf f = some e) : s.vis e = some t := by
  have h1 := hi.locks.elem t _ ht e
  rw [tot_cons, elemF_some hf] at h1
  by_cases h2 : s.vis e = some t
  · exact h2
  · simp [h2] at h1

theorem acquire_facts {s s' : St K} {t c : Nat} {l : Nat → Option (Nat × Nat)}
    (h : acquire cfg s.lock t c = some l) (hs : s'.lock = l) {ev : Event} (hev : ev.thr = t)
    (ha : ev.acqs = lockAcq cfg s c) (hr : ev.rels = []) : MutexOk s s' ev := by
  subst hs hev
  have hfr : ∀ c t d, s'.lock c = some (t, d) → .mutex c ∈ ev.rels → t = ev.thr := by
    intro c t d _ hm
    rw [hr] at hm
    cases hm
  by_cases hc : cfg.locking = true
  · unfold acquire at h
    rw [if_pos hc] at h
    cases hl : s.lock c with
    | none =>
      rw [hl] at h
      have h := (Option.some.inj h).symm
      refine ⟨fun c' t' d h1 => ?_, hfr, fun c' t' d h1 => .inl ?_⟩
      · rw [h] at h1
        dsimp only at h1
        by_cases hcc : c' = c
        · subst hcc
          rw [if_pos rfl] at h1
          cases h1
          exact .inr ⟨rfl, by simp [ha, lockAcq, hc, hl]⟩
        · rw [if_neg hcc] at h1
          exact .inl ⟨d, h1⟩
      · by_cases hcc : c' = c
        · subst hcc
          rw [hl] at h1
          cases h1
        · exact ⟨d, by simp [h, hcc, h1]⟩
    | some p =>
      obtain ⟨o, d⟩ := p
      rw [hl] at h
      by_cases ho : o = ev.thr
      · subst ho
        dsimp only at h
        rw [if_pos rfl] at h
        have h := (Option.some.inj h).symm
        refine ⟨fun c' t' d' h1 => ?_, hfr, fun c' t' d' h1 => .inl ?_⟩
        · rw [h] at h1
          dsimp only at h1
          by_cases hcc : c' = c
          · subst hcc
            rw [if_pos rfl] at h1
            cases h1
            exact .inl ⟨d, hl⟩
          · rw [if_neg hcc] at h1
            exact .inl ⟨d', h1⟩
        · by_cases hcc : c' = c
          · subst hcc
            rw [hl] at h1
            cases h1
            exact ⟨d + 1, by simp [h]⟩
          · exact ⟨d', by simp [h, hcc, h1]⟩
      · simp [ho] at h
  · simp only [acquire, hc] at h
    exact .same (Option.some.inj h).symm (by simp [hr])

theorem unlock_facts {s s' : St K} {t c : Nat} {l : Nat → Option (Nat × Nat)}
    (h : unlock cfg s.lock t c = some l) (hs : s'.lock = l) {ev : Event} (hev : ev.thr = t)
    (hr : ∀ c', .mutex c' ∈ ev.rels ↔ .mutex c' ∈ lockRel cfg s c) : MutexOk s s' ev := by
  subst hs hev
  by_cases hc : cfg.locking = true
  · unfold unlock at h
    rw [if_pos hc] at h
    cases hl : s.lock c with
    | none => rw [hl] at h; cases h
    | some p =>
      obtain ⟨o, d⟩ := p
      rw [hl] at h
      by_cases ho : o = ev.thr
      · subst ho
        dsimp only at h
        rw [if_pos rfl] at h
        have h := (Option.some.inj h).symm
        refine ⟨fun c' t' d' h1 => .inl ?_, fun c' t' d' h1 h2 => ?_, fun c' t' d' h1 => ?_⟩
        · rw [h] at h1
          dsimp only at h1
          by_cases hcc : c' = c
          · subst hcc
            rw [if_pos rfl] at h1
            by_cases hd : d ≤ 1
            · rw [if_pos hd] at h1; cases h1
            · rw [if_neg hd] at h1
              cases h1
              exact ⟨d, hl⟩
          · rw [if_neg hcc] at h1
            exact ⟨d', h1⟩
        · exfalso
          rw [hr] at h2
          revert h2
          rw [h] at h1
          dsimp only at h1
          by_cases hcc : c' = c
          · subst hcc
            rw [if_pos rfl] at h1
            by_cases hd : d ≤ 1
            · rw [if_pos hd] at h1; cases h1
            · simp [lockRel, hc, hl, hd]
          · by_cases hd : d ≤ 1 <;> simp [lockRel, hc, hl, hd, hcc]
        · by_cases hcc : c' = c
          · subst hcc
            rw [hl] at h1
            cases h1
            by_cases hd : d ≤ 1
            · exact .inr ⟨rfl, (hr c').2 (by simp [lockRel, hc, hl, hd])⟩
            · exact .inl ⟨d - 1, by simp [h, hd]⟩
          · exact .inl ⟨d', by simp [h, hcc, h1]⟩
      · simp [ho] at h
  · simp only [unlock, hc] at h
    refine .same (Option.some.inj h).symm fun c' hm => ?_
    rw [hr] at hm
    simp [lockRel, hc] at hm

end

end Verif.CFac

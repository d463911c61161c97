import Verif.PlainRank
import Verif.ConcHB

/-!
# Flyweights without tracking, used by several threads: synchronization

Each step of `Verif/Plain.lean` is labelled with the memory it accesses and the synchronization it takes part in, as in
`Verif/ConcHB.lean`.  There are no reference counts: the only synchronization that the library provides is that of the mutex
of each type.
-/

set_option autoImplicit false

namespace Verif.Plain
open Verif.Conc (Fw Act Cfg CfgOk pick acquire unlock tot tot_cons depthOf Sync excl)
open HB
variable {K : Type}

/-- Memory: the container of a flyweight type (without its elements), and key and value of each entry.  Identities of
entries are not reused.  Models the static objects of
/repo/include/boost/flyweight/detail/flyweight_core.hpp:341-351. -/
inductive Loc where
  | table (c : Nat)
  | body (e : Nat)
  deriving DecidableEq

/-- Events.  (No code of its own.) -/
abbrev Event := Ev Sync Loc

/-- Entries of type `c`, whose keys a lookup may read; lookup in e.g.
/repo/include/boost/flyweight/hashed_factory.hpp:74-84. -/
def keysOf (s : St K) (c : Nat) : List (Loc × Kind) :=
  ((List.range s.next).filter fun e => match s.ents e with
    | none => false
    | some x => x.core == c).map fun e => (.body e, .read)

/-- Locking synchronizes if the thread does not hold the mutex already; the constructor of
`scoped_lock`, /repo/include/boost/flyweight/detail/recursive_lw_mutex.hpp:37-55. -/
def lockAcq (cfg : Cfg K) (lock : Nat → Option (Nat × Nat)) (c : Nat) : List Sync :=
  if cfg.locking then match lock c with
    | none => [.mutex c]
    | some _ => []
  else []

/-- Unlocking synchronizes if the mutex becomes free; the destructor of
`scoped_lock`, /repo/include/boost/flyweight/detail/recursive_lw_mutex.hpp:37-55. -/
def lockRel (cfg : Cfg K) (lock : Nat → Option (Nat × Nat)) (c : Nat) : List Sync :=
  if cfg.locking then match lock c with
    | none => []
    | some (_, d) => if d ≤ 1 then [.mutex c] else []
  else []

/-- Event of the next step of the library (see `lib`); `nid` is the identity of the flyweight object that is completed, if
there is one.  Models /repo/include/boost/flyweight/detail/flyweight_core.hpp:100-117, 261-311; line references per
frame at `Frame`. -/
def libEv (cfg : Cfg K) (s : St K) (nid t : Nat) : Frame K → Event
  | .lock c .. => ⟨t, lockAcq cfg s.lock c, [], []⟩
  | .find c k _ _ => match find cfg s c k with
    | some _ => ⟨t, [], (.table c, .read) :: keysOf s c, []⟩
    | none => ⟨t, [], (.table c, .write) :: (.body s.next, .write) :: keysOf s c, []⟩
  | .visit _ _ e _ _ => ⟨t, [], [(.body e, .read)], []⟩
  | .user .. => ⟨t, [], [], []⟩
  | .done _ _ e => ⟨t, [], [(.body e, .write)], []⟩
  | .catch_ c e => ⟨t, [], [(.table c, .write), (.body e, .write)], []⟩
  | .unwind c => ⟨t, [], [], lockRel cfg s.lock c⟩
  | .unlock c _ _ => ⟨t, [], [], .owned nid :: lockRel cfg s.lock c⟩

/-- State with the identities of the program's flyweight objects (`ids`, in the order of
`St.objs`), the identity for the next one, and the events so far.  (No code of its own: used to
state properties.) -/
structure HSt (K : Type) where
  s : St K
  ids : List Nat
  nid : Nat
  tr : List Event

/-- Entry that object `i` refers to.  (Helper, no code of its own.) -/
def target (s : St K) (i : Nat) : Nat := match s.objs[i]? with
  | none => 0
  | some w => w.h

/-- Event of an action, and the identities of the flyweight objects afterwards.  Objects that are moved from, destroyed or
swapped are used exclusively, those that are copied or read are shared.  Models the calls of
/repo/include/boost/flyweight/flyweight.hpp:193-239, 257-278 by the program; handles do not touch entries,
/repo/include/boost/flyweight/no_tracking.hpp:35-39. -/
def label (cfg : Cfg K) (h : HSt K) (t : Nat) (st : List (Frame K)) : Act K → Event × List Nat × Nat
  | .run => match st with
    | [] => (⟨t, [], [], []⟩, h.ids, h.nid)
    | f :: _ => (libEv cfg h.s h.nid t f, match f with
      | .unlock .. => (h.nid :: h.ids, h.nid + 1)
      | _ => (h.ids, h.nid))
  | .create _ _ mask _ => (⟨t, excl (pick mask h.ids).1, [], []⟩, (pick mask h.ids).2, h.nid)
  | .destroy mask => (⟨t, excl (pick mask h.ids).1, [], []⟩, (pick mask h.ids).2, h.nid)
  | .copy i => (⟨t, [.owned (h.ids.getD i 0)], [], [.shared (h.ids.getD i 0), .owned h.nid]⟩, h.nid :: h.ids, h.nid + 1)
  | .copyKid i _ =>
    (⟨t, [.owned (h.ids.getD i 0)], [(.body (target h.s i), .read)], [.shared (h.ids.getD i 0), .owned h.nid]⟩,
      h.nid :: h.ids, h.nid + 1)
  | .swap i j =>
    (⟨t, excl [h.ids.getD i 0, h.ids.getD j 0], [], [.owned (h.ids.getD i 0), .owned (h.ids.getD j 0)]⟩,
      h.ids, h.nid)
  | .read i =>
    (⟨t, [.owned (h.ids.getD i 0)], [(.body (target h.s i), .read)], [.shared (h.ids.getD i 0)]⟩, h.ids, h.nid)
  | .finish mask _ => match st with
    | .user _ _ e :: _ => (⟨t, excl (pick mask h.ids).1, [(.body e, .write)], []⟩, (pick mask h.ids).2, h.nid)
    | _ => (⟨t, [], [], []⟩, h.ids, h.nid)
  | .throw_ => match st with
    | .find c .. :: _ => (⟨t, [], (.table c, .write) :: keysOf h.s c, []⟩, h.ids, h.nid)
    | _ => (⟨t, [], [], []⟩, h.ids, h.nid)

/-- Execution of a schedule with its events, until the end or until the program leaves the domain of the library.  (No code
of its own: the scheduler.) -/
def hexec (cfg : Cfg K) : List (Nat × Act K) → HSt K → HSt K
  | [], h => h
  | (t, a) :: l, h => match h.s.thr[t]? with
    | none => hexec cfg l h
    | some st => match act cfg h.s t st a with
      | .ok s' => hexec cfg l ⟨s', (label cfg h t st a).2.1, (label cfg h t st a).2.2, h.tr ++ [(label cfg h t st a).1]⟩
      | .no => hexec cfg l h
      | .ub => h
      | .reentrant => h

/-- At the start nothing has happened.  (No code of its own.) -/
def hstart (n : Nat) : HSt K := ⟨start n, [], 0, []⟩

/-! ## Invariant -/

/-- Event `i` is known to the mutex of type `c` or to the thread that holds it.  (No code of its own: used in proofs.) -/
def Lk (h : HSt K) (c i : Nat) : Prop :=
  Rel h.tr (.mutex c) i ∨ ∃ t d, h.s.lock c = some (t, d) ∧ Know h.tr t i

/-- Entries whose value the frame relies on.  (No code of its own: used in proofs.) -/
def relies (e : Nat) : Frame K → Prop
  | .lock _ _ loc _ => ∃ w ∈ loc, w.h = e
  | .find _ _ loc _ => ∃ w ∈ loc, w.h = e
  | .unlock _ _ i => i = e
  | _ => False

/-- What the users of entry `e` know: program objects, operations in progress, flyweights inside values.  (No code of its
own: used in proofs.) -/
inductive User (h : HSt K) (e : Nat) : (Nat → Prop) → Prop
  | obj (w : Fw K) (o : Nat) : (w, o) ∈ h.s.objs.zip h.ids → w.h = e → User h e (Rel h.tr (.owned o))
  | frame (t : Nat) (st : List (Frame K)) (f : Frame K) : h.s.thr[t]? = some st → f ∈ st → relies e f → User h e (Know h.tr t)
  | kid (e' : Nat) (x : Ent K) (v : Fw K) : h.s.ents e' = some x → v ∈ x.kids → v.h = e →
      User h e (Past h.tr (.body e', .write))

/-- The invariant.  (No code of its own: used in proofs.) -/
structure HInv (cfg : Cfg K) (h : HSt K) : Prop where
  inv : Inv cfg h.s
  len : h.ids.length = h.s.objs.length
  kinds : ∀ n a, Acc h.tr n a → a.2 ≠ .atomic
  bound : ∀ n e k, Acc h.tr n (.body e, k) → e < h.s.next
  hold : ∀ c t d i, h.s.lock c = some (t, d) → Rel h.tr (.mutex c) i → Know h.tr t i
  table : ∀ n c k, Acc h.tr n (.table c, k) → Lk h c n
  writes : ∀ n e x, h.s.ents e = some x → Acc h.tr n (.body e, .write) → Lk h x.core n
  half : ∀ n e x k, h.s.ents e = some x → x.cted = false → Acc h.tr n (.body e, k) → Lk h x.core n
  user : ∀ n e P, User h e P → Acc h.tr n (.body e, .write) → P n
  race : RaceFree h.tr

section
variable {cfg : Cfg K} {h h' : HSt K} {ev : Event} {st st' : List (Frame K)}

theorem HInv.locked (H : HInv cfg h) {c t d i : Nat} (hl : h.s.lock c = some (t, d)) (hi : Lk h c i) :
    Know h.tr t i := by
  rcases hi with hi | ⟨t', d', hl', hi⟩
  · exact H.hold c t d i hl hi
  · rw [hl] at hl'
    cases hl'
    exact hi

theorem user_ok (hi : Inv cfg h.s) {e : Nat} {P : Nat → Prop} (hu : User h e P) : ∃ x, h.s.ents e = some x ∧ x.cted = true := by
  cases hu with
  | obj w o hm he =>
    obtain ⟨x, hx, h1, _⟩ := hi.core.objsOk w (List.of_mem_zip hm).1
    exact ⟨x, he ▸ hx, h1⟩
  | frame t st f ht hf hr =>
    have hok := hi.core.frames f (List.mem_flatten.2 ⟨st, List.mem_of_getElem? ht, hf⟩)
    cases f with
    | lock c k loc pre =>
      obtain ⟨w, hw, rfl⟩ := hr
      obtain ⟨x, hx, h1, _⟩ := hok w hw
      exact ⟨x, hx, h1⟩
    | find c k loc pre =>
      obtain ⟨w, hw, rfl⟩ := hr
      obtain ⟨x, hx, h1, _⟩ := hok w hw
      exact ⟨x, hx, h1⟩
    | unlock c k i =>
      cases hr
      obtain ⟨x, hx, h1, _⟩ := hok
      exact ⟨x, hx, h1⟩
    | _ => cases hr
  | kid e' x v hx hv he =>
    obtain ⟨y, hy, h1, _⟩ := hi.core.kids e' x hx v hv
    exact ⟨y, he ▸ hy, h1⟩

theorem user_trans {e i j : Nat} {P : Nat → Prop} (hu : User h e P) (hj : P j) (hle : Le h.tr i j) : P i := by
  cases hu with
  | obj w o hm he => exact Rel.trans hj hle
  | frame t st f ht hf hr => exact Know.trans hj hle
  | kid e' x v hx hv he => exact Past.trans hj hle

/-- After its step the thread knows what users of `e` have to know.  (No code of its own: used in proofs.) -/
def Tk (h h' : HSt K) (ev : Event) (e : Nat) : Prop :=
  (∃ P, User h e P ∧ ∀ i, P i → Know h'.tr ev.thr i) ∨
  ∃ x d, h'.s.ents e = some x ∧ h'.s.lock x.core = some (ev.thr, d)

/-- A step of thread `ev.thr`. -/
theorem HInv.next (H : HInv cfg h) (htr : h'.tr = h.tr ++ [ev]) (hinv : Inv cfg h'.s)
    (hlen : h'.ids.length = h'.s.objs.length)
    (hst : h.s.thr[ev.thr]? = some st) (hst' : h'.s.thr = h.s.thr.set ev.thr st')
    (hkind : ∀ a ∈ ev.accs, a.2 ≠ .atomic)
    (hnext : h.s.next ≤ h'.s.next)
    (hbd : ∀ e k, (.body e, k) ∈ ev.accs → e < h'.s.next)
    (hlock : ∀ c t d, h'.s.lock c = some (t, d) →
      (∃ d', h.s.lock c = some (t, d')) ∨ t = ev.thr ∧ .mutex c ∈ ev.acqs)
    (hrel : ∀ c t d, h'.s.lock c = some (t, d) → .mutex c ∈ ev.rels → t = ev.thr)
    (hunl : ∀ c t d, h.s.lock c = some (t, d) →
      (∃ d', h'.s.lock c = some (t, d')) ∨ t = ev.thr ∧ .mutex c ∈ ev.rels)
    (hents : ∀ e x', h'.s.ents e = some x' →
      (∃ x, h.s.ents e = some x ∧ x.core = x'.core ∧ (x'.cted = false → x.cted = false)) ∨ h.s.next ≤ e)
    (htab : ∀ c k, (.table c, k) ∈ ev.accs → ∃ d, h'.s.lock c = some (ev.thr, d))
    (hwr : ∀ e k x, (.body e, k) ∈ ev.accs → h'.s.ents e = some x → k = .write ∨ x.cted = false →
      ∃ d, h'.s.lock x.core = some (ev.thr, d))
    (hno : ∀ e x, (.body e, .write) ∈ ev.accs → h.s.ents e = some x → x.cted = false)
    (hu1 : ∀ w o, (w, o) ∈ h'.s.objs.zip h'.ids →
      (w, o) ∈ h.s.objs.zip h.ids ∨ .owned o ∈ ev.rels ∧ Tk h h' ev w.h)
    (hu2 : ∀ e, ∀ g ∈ st', relies e g → Tk h h' ev e)
    (hu3 : ∀ e x v, h'.s.ents e = some x → v ∈ x.kids →
      (∃ y, h.s.ents e = some y ∧ v ∈ y.kids) ∨ (.body e, .write) ∈ ev.accs ∧ Tk h h' ev v.h)
    (hrace : ∀ n l k k', (l, k') ∈ ev.accs → Acc h.tr n (l, k) → k.conflict k' = true →
      Know h'.tr ev.thr n) : HInv cfg h' := by
  have hlt : ev.thr < h.s.thr.length := by
    rcases Nat.lt_or_ge ev.thr h.s.thr.length with h1 | h1
    · exact h1
    · rw [List.getElem?_eq_none h1] at hst; cases hst
  have hst1 : h'.s.thr[ev.thr]? = some st' := by rw [hst', List.getElem?_set_self hlt]
  have hother : ∀ t, t ≠ ev.thr → h'.s.thr[t]? = h.s.thr[t]? := fun t ht => by
    rw [hst', List.getElem?_set_ne (Ne.symm ht)]
  have kold : ∀ {t i}, Know h.tr t i → Know h'.tr t i := fun hk => by rw [htr]; exact hk.old
  have rold : ∀ {o i}, Rel h.tr o i → Rel h'.tr o i := fun hk => by rw [htr]; exact hk.old
  have pold : ∀ {a i}, Past h.tr a i → Past h'.tr a i := fun hk => by rw [htr]; exact hk.old
  have kacq : ∀ {o i}, o ∈ ev.acqs → Rel h.tr o i → Know h'.tr ev.thr i := fun h1 h2 => by
    rw [htr]; exact know_acq h1 h2
  have krel : ∀ {o i}, o ∈ ev.rels → Know h'.tr ev.thr i → Rel h'.tr o i := fun h1 h2 => by
    rw [htr] at h2 ⊢; exact rel_new h1 h2
  have kpast : ∀ {a i}, a ∈ ev.accs → Know h'.tr ev.thr i → Past h'.tr a i := fun h1 h2 => by
    rw [htr] at h2 ⊢; exact past_new h1 h2
  have knew : Know h'.tr ev.thr h.tr.length := by rw [htr]; exact know_new
  have lkold : ∀ {c i}, Lk h c i → Lk h' c i := by
    rintro c i (h1 | ⟨t, d, h1, h2⟩)
    · exact .inl (rold h1)
    · rcases hunl c t d h1 with ⟨d', h3⟩ | ⟨h3, h4⟩
      · exact .inr ⟨t, d', h3, kold h2⟩
      · subst h3
        exact .inl (krel h4 (kold h2))
  have lknew : ∀ {c d i}, h'.s.lock c = some (ev.thr, d) → Know h'.tr ev.thr i → Lk h' c i :=
    fun h1 h2 => .inr ⟨_, _, h1, h2⟩
  have hhold : ∀ c t d i, h'.s.lock c = some (t, d) → Rel h'.tr (.mutex c) i → Know h'.tr t i := by
    intro c t d i hl hr
    rw [htr] at hr
    rcases rel_cases hr with hr | ⟨hr, hk⟩
    · rcases hlock c t d hl with ⟨d', h1⟩ | ⟨h1, h2⟩
      · exact kold (H.hold c t d' i h1 hr)
      · subst h1
        exact kacq h2 hr
    · rw [hrel c t d hl hr, htr]
      exact hk
  have hwrites : ∀ n e x, h'.s.ents e = some x → Acc h'.tr n (.body e, .write) → Lk h' x.core n := by
    intro n e x hx ha
    rw [htr] at ha
    rcases acc_cases ha with h1 | ⟨h0, h1⟩
    · rcases hents e x hx with ⟨y, h2, h3, _⟩ | h2
      · rw [← h3]
        exact lkold (H.writes n e y h2 h1)
      · exact absurd (H.bound n e _ h1) (by omega)
    · subst h0
      obtain ⟨d, h2⟩ := hwr e _ x h1 hx (.inl rfl)
      exact lknew h2 knew
  have tk : ∀ {e n}, Tk h h' ev e → Acc h'.tr n (.body e, .write) → Know h'.tr ev.thr n := by
    rintro e n (⟨P, h1, h2⟩ | ⟨x, d, h1, h2⟩) ha
    · have ha' := ha
      rw [htr] at ha'
      rcases acc_cases ha' with h3 | ⟨h0, h3⟩
      · exact h2 n (H.user n e P h1 h3)
      · rw [h0]
        exact knew
    · rcases hwrites n e x h1 ha with h3 | ⟨t, d', h3, h4⟩
      · exact hhold _ _ _ _ h2 h3
      · rw [h2] at h3
        cases h3
        exact h4
  -- an entry with users is not written
  have quiet : ∀ {e P}, User h e P → ∀ n, Acc h'.tr n (.body e, .write) → Acc h.tr n (.body e, .write) := by
    intro e P hu n ha
    rw [htr] at ha
    rcases acc_cases ha with h3 | ⟨_, h3⟩
    · exact h3
    · obtain ⟨x, hx, hc⟩ := user_ok H.inv hu
      rw [hno e x h3 hx] at hc
      cases hc
  refine ⟨hinv, hlen, ?_, ?_, hhold, ?_, hwrites, ?_, ?_, ?_⟩
  · intro n a ha
    rw [htr] at ha
    rcases acc_cases ha with h1 | ⟨_, h1⟩
    · exact H.kinds n a h1
    · exact hkind a h1
  · intro n e k ha
    rw [htr] at ha
    rcases acc_cases ha with h1 | ⟨_, h1⟩
    · exact Nat.lt_of_lt_of_le (H.bound n e k h1) hnext
    · exact hbd e k h1
  · intro n c k ha
    rw [htr] at ha
    rcases acc_cases ha with h1 | ⟨h0, h1⟩
    · exact lkold (H.table n c k h1)
    · subst h0
      obtain ⟨d, h2⟩ := htab c k h1
      exact lknew h2 knew
  · intro n e x k hx hc ha
    rw [htr] at ha
    rcases acc_cases ha with h1 | ⟨h0, h1⟩
    · rcases hents e x hx with ⟨y, h2, h3, h4⟩ | h2
      · rw [← h3]
        exact lkold (H.half n e y k h2 (h4 hc) h1)
      · exact absurd (H.bound n e _ h1) (by omega)
    · subst h0
      obtain ⟨d, h2⟩ := hwr e _ x h1 hx (.inr hc)
      exact lknew h2 knew
  · intro n e P hu ha
    cases hu with
    | obj w o hm he =>
      rcases hu1 w o hm with h4 | ⟨h4, h5⟩
      · have hu : User h e _ := .obj w o h4 he
        exact rold (H.user n e _ hu (quiet hu n ha))
      · rw [he] at h5
        exact krel h4 (tk h5 ha)
    | frame t st f ht hf hr =>
      by_cases he : t = ev.thr
      · subst he
        rw [hst1] at ht
        cases ht
        exact tk (hu2 e f hf hr) ha
      · rw [hother t he] at ht
        have hu : User h e _ := .frame t st f ht hf hr
        exact kold (H.user n e _ hu (quiet hu n ha))
    | kid e' z v hz hv he =>
      rcases hu3 e' z v hz hv with ⟨z', h4, h5⟩ | ⟨h4, h5⟩
      · have hu : User h e _ := .kid e' z' v h4 h5 he
        exact pold (H.user n e _ hu (quiet hu n ha))
      · rw [he] at h5
        exact kpast h4 (tk h5 ha)
  · rw [htr]
    refine H.race.snoc fun n l k k' h1 h2 h3 => ?_
    have := hrace n l k k' h1 h2 h3
    rwa [htr] at this

theorem held {s : St K} (hi : Inv cfg s) {t c : Nat} {f : Frame K} {rest : List (Frame K)} (ht : s.thr[t]? = some (f :: rest))
    (hf : holds f = some c) : ∃ d, s.lock c = some (t, d) := by
  have := top_depth hi ht hf
  unfold depthOf at this
  cases hl : s.lock c with
  | none => rw [hl] at this; cases this
  | some p =>
    obtain ⟨o, d⟩ := p
    rw [hl] at this
    by_cases ho : o = t
    · exact ⟨d, by rw [ho]⟩
    · simp only [ho, if_false] at this
      omega

theorem acquire_facts (hc : cfg.locking = true) {lock : Nat → Option (Nat × Nat)} {t c : Nat} {l : Nat → Option (Nat × Nat)}
    (h : acquire cfg lock t c = some l) :
    (∀ c' t' d, l c' = some (t', d) → (∃ d', lock c' = some (t', d')) ∨ t' = t ∧ .mutex c' ∈ lockAcq cfg lock c) ∧
    (∀ c' t' d, lock c' = some (t', d) → ∃ d', l c' = some (t', d')) ∧ ∃ d, l c = some (t, d) :=
  Conc.acquire_facts (s := ⟨fun _ => none, 0, lock, [], [], 0⟩) hc h

theorem unlock_facts (hc : cfg.locking = true) {lock : Nat → Option (Nat × Nat)} {t c : Nat} {l : Nat → Option (Nat × Nat)}
    (h : unlock cfg lock t c = some l) :
    (∀ c' t' d, l c' = some (t', d) → ∃ d', lock c' = some (t', d')) ∧
    (∀ c' t' d, l c' = some (t', d) → .mutex c' ∉ lockRel cfg lock c) ∧
    (∀ c' t' d, lock c' = some (t', d) → (∃ d', l c' = some (t', d')) ∨ t' = t ∧ .mutex c' ∈ lockRel cfg lock c) :=
  Conc.unlock_facts (s := ⟨fun _ => none, 0, lock, [], [], 0⟩) hc h

end

end Verif.Plain

import Verif.CFacHBLoad
import Verif.Idents
import Verif.Props.ConcFactory

/-!
# Data races with `concurrent_factory`: C50

`hexec cfg mo acts (hstart n gcs)` executes the schedule `acts` of `n` threads and the collectors of
the types `gcs`, and records what each step accesses and synchronizes with; `mo` tells which
operations on reference counts are acquire and release operations.
-/

set_option autoImplicit false

namespace Verif.Props
open Verif.Conc (Fw Cfg CfgOk)
open Verif.CFac Verif.HB
variable {K : Type}

/-- The recorded execution is the execution: the final states agree. -/
theorem C50_same_execution {cfg : Cfg K} {mo : Orders} {n : Nat} {gcs : List Nat} {acts : List (Nat × Act K)} {s : St K}
    (hs : exec cfg acts (start n gcs) = .ok s) : (hexec cfg mo acts (hstart n gcs)).s = s := by
  suffices ∀ (acts : List (Nat × Act K)) (h : HSt K), exec cfg acts h.s = .ok s → (hexec cfg mo acts h).s = s from
    this acts (hstart n gcs) hs
  intro acts
  induction acts with
  | nil => intro h hs; exact Out.ok.inj hs
  | cons p acts ih =>
    obtain ⟨t, a⟩ := p
    intro h hs
    unfold exec step at hs
    unfold hexec
    cases ht : h.s.thr[t]? with
    | none => rw [ht] at hs; exact ih h hs
    | some st =>
      rw [ht] at hs
      dsimp only at hs ⊢
      cases ha : act cfg h.s t st a with
      | ok s' => rw [ha] at hs; exact ih _ hs
      | no => rw [ha] at hs; exact ih h hs
      | ub => rw [ha] at hs; cases hs
      | reentrant => rw [ha] at hs; cases hs

example : ∃ s, exec CF.untracked CF.race (start 2 [0]) = .ok s ∧
    (hexec CF.untracked ⟨true, true, true, true, true⟩ CF.race (hstart 2 [0])).s = s :=
  ⟨_, rfl, C50_same_execution rfl⟩

/-- **C50.**  With `concurrent_factory`, with or without tracking and locking unless `refcounted` is combined with
`no_locking`, no two threads, be
they collectors or not, access the key or value of an entry or its counts at the same time unless both
only read, or both use atomic operations: conflicting accesses are ordered by happens-before.  It
suffices that decrements of the count are release operations and that the collector's load of it is
an acquire operation. -/
theorem C50_race_free {cfg : Cfg K} (h : CfgOk cfg) (hl : cfg.tracks = true → cfg.locking = true) (inc decAcq trk : Bool)
    (n : Nat) (gcs : List Nat) (acts : List (Nat × Act K)) :
    RaceFree (hexec cfg ⟨inc, decAcq, true, true, trk⟩ acts (hstart n gcs)).tr := by
  intro i j l k k' hne hi hj hc
  refine (hexec_h h (mo := ⟨inc, decAcq, true, true, trk⟩) ⟨rfl, rfl⟩ (hstart_h n gcs) acts).race i j l k k' hne hi hj hc ?_
  obtain ⟨e, p⟩ := l
  cases p <;> first | trivial | exact .inl hl

/-- What may synchronize, given the memory orders of the operations on the two counts.  (No code of its own: used to prove a
property.) -/
def Means (cfg : Cfg K) (mo : Orders) (cnt : Prop) : Sync → Prop
  | .mutex _ => cfg.locking = true
  | .tcount _ => cfg.tracks = true ∧ mo.trk = true
  | .count _ => cnt
  | _ => True

theorem label_means (cfg : Cfg K) (mo : Orders) (h : HSt K) (t : Nat) (st : List (Frame K)) (a : Act K) :
    (∀ x ∈ (label cfg mo h t st a).1.acqs, Means cfg mo (mo.inc = true ∨ mo.decAcq = true ∨ mo.load = true) x) ∧
    (∀ x ∈ (label cfg mo h t st a).1.rels, Means cfg mo (mo.inc = true ∨ mo.decRel = true) x) := by
  have hr : ∀ (c : Prop) (o : Bool) (e : Nat), (o = true → c) → ∀ x ∈ rmw o e, Means cfg mo c x := by
    intro c o e hc x hx
    unfold rmw at hx
    split at hx
    · cases List.mem_singleton.1 hx
      exact hc (by assumption)
    · cases hx
  have ht : ∀ (c : Prop) (e : Nat), ∀ x ∈ trk cfg mo.trk e, Means cfg mo c x := by
    intro c e x hx
    unfold trk at hx
    split at hx
    · rename_i h1
      cases List.mem_singleton.1 hx
      exact Bool.and_eq_true_iff.1 h1
    · cases hx
  have hl : ∀ (c : Prop) (i : Nat), ∀ x ∈ lockAcq cfg h.s i, Means cfg mo c x := by
    intro c i x hx
    unfold lockAcq at hx
    split at hx
    · split at hx
      · cases List.mem_singleton.1 hx
        assumption
      · cases hx
    · cases hx
  have hl' : ∀ (c : Prop) (i : Nat), ∀ x ∈ lockRel cfg h.s i, Means cfg mo c x := by
    intro c i x hx
    unfold lockRel at hx
    split at hx
    · split at hx
      · cases hx
      · split at hx
        · cases List.mem_singleton.1 hx
          assumption
        · cases hx
    · cases hx
  have hx : ∀ (c : Prop) (l : List Nat), ∀ x ∈ excl l, Means cfg mo c x := by
    intro c l x hx
    rcases List.mem_append.1 hx with hx | hx
    all_goals
      obtain ⟨j, _, rfl⟩ := List.mem_map.1 hx
      trivial
  have he : ∀ (c : Prop) (l : List Nat), ∀ x ∈ l.map Sync.elemX, Means cfg mo c x := by
    intro c l x hx
    obtain ⟨j, _, rfl⟩ := List.mem_map.1 hx
    trivial
  have he' : ∀ (c : Prop) (l : List Nat), ∀ x ∈ l.map Sync.elemS, Means cfg mo c x := by
    intro c l x hx
    obtain ⟨j, _, rfl⟩ := List.mem_map.1 hx
    trivial
  cases a with
  | run =>
    cases st with
    | nil => exact ⟨fun x hx => (nomatch hx), fun x hx => (nomatch hx)⟩
    | cons f rest =>
      simp only [label]
      cases f with
      | insFind c k loc pre =>
        unfold libEv
        dsimp only
        split <;> refine ⟨?_, he' _ _⟩ <;> intro x hx <;> rcases List.mem_cons.1 hx with rfl | hx <;> try trivial
        all_goals rcases List.mem_cons.1 hx with rfl | hx
        all_goals first | trivial | exact he _ _ x hx
      | insLock c k loc pre => exact ⟨hl _ _, fun x hx => (nomatch hx)⟩
      | insUnwind c => exact ⟨fun x hx => (nomatch hx), hl' _ _⟩
      | insAddRef c k e loc => exact ⟨hr _ _ _ .inl, hr _ _ _ .inl⟩
      | insTrack c k e => exact ⟨ht _ _, ht _ _⟩
      | insUnlock c k e =>
        refine ⟨fun x hx => (nomatch hx), fun x hx => ?_⟩
        rcases List.mem_cons.1 hx with rfl | hx
        · trivial
        · exact hl' _ _ x hx
      | rel w => exact ⟨ht _ _, ht _ _⟩
      | relLock w => exact ⟨hl _ _, fun x hx => (nomatch hx)⟩
      | relUnlock w => exact ⟨fun x hx => (nomatch hx), hl' _ _⟩
      | relDec w => exact ⟨hr _ _ _ fun h => .inr (.inl h), hr _ _ _ .inr⟩
      | gcTest c e => exact ⟨hr _ _ _ fun h => .inr (.inr h), fun x hx => (nomatch hx)⟩
      | _ =>
        refine ⟨?_, ?_⟩ <;> intro x hx
        all_goals first
          | (cases hx; done)
          | (cases List.mem_singleton.1 hx; trivial)
  | create c k mask pre => exact ⟨hx _ _, fun x hx => (nomatch hx)⟩
  | destroy mask => exact ⟨hx _ _, fun x hx => (nomatch hx)⟩
  | copy i =>
    refine ⟨fun x hx => ?_, fun x hx => ?_⟩
    · rcases List.mem_cons.1 hx with rfl | hx
      · trivial
      · rcases List.mem_append.1 hx with hx | hx
        · exact hr _ _ _ .inl x hx
        · exact ht _ _ x hx
    · rcases List.mem_cons.1 hx with rfl | hx
      · trivial
      rcases List.mem_cons.1 hx with rfl | hx
      · trivial
      rcases List.mem_append.1 hx with hx | hx
      · exact hr _ _ _ .inl x hx
      · exact ht _ _ x hx
  | copyKid i j =>
    refine ⟨fun x hx => ?_, fun x hx => ?_⟩
    · rcases List.mem_cons.1 hx with rfl | hx
      · trivial
      · rcases List.mem_append.1 hx with hx | hx
        · exact hr _ _ _ .inl x hx
        · exact ht _ _ x hx
    · rcases List.mem_cons.1 hx with rfl | hx
      · trivial
      rcases List.mem_cons.1 hx with rfl | hx
      · trivial
      rcases List.mem_append.1 hx with hx | hx
      · exact hr _ _ _ .inl x hx
      · exact ht _ _ x hx
  | swap i j =>
    refine ⟨hx _ _, fun x hx => ?_⟩
    simp only [label, List.mem_cons, List.not_mem_nil, or_false] at hx
    rcases hx with rfl | rfl <;> trivial
  | read i =>
    refine ⟨fun x hx => ?_, fun x hx => ?_⟩ <;>
      (cases List.mem_singleton.1 hx; trivial)
  | finish mask drop =>
    unfold label
    dsimp only
    split
    · exact ⟨hx _ _, fun x hx => (nomatch hx)⟩
    · exact ⟨fun x hx => (nomatch hx), fun x hx => (nomatch hx)⟩
  | throw_ =>
    unfold label
    dsimp only
    split
    · exact ⟨he _ _, he' _ _⟩
    · exact ⟨fun x hx => (nomatch hx), fun x hx => (nomatch hx)⟩
  | gcVisit e =>
    refine ⟨fun x hx => ?_, fun x hx => (nomatch hx)⟩
    simp only [label, List.mem_cons, List.not_mem_nil, or_false] at hx
    rcases hx with rfl | rfl <;> trivial

/-- No other synchronization is assumed: operations on counts synchronize as their memory orders say, those on the second count
and on the mutex only if there are any. -/
theorem C50_synchronization {cfg : Cfg K} {mo : Orders} {n : Nat} {gcs : List Nat} {acts : List (Nat × Act K)} {ev : Event}
    (h : ev ∈ (hexec cfg mo acts (hstart n gcs)).tr) (i : Nat) :
    (.mutex i ∈ ev.acqs ++ ev.rels → cfg.locking = true) ∧
    (.tcount i ∈ ev.acqs ++ ev.rels → cfg.tracks = true ∧ mo.trk = true) ∧
    (.count i ∈ ev.acqs → mo.inc = true ∨ mo.decAcq = true ∨ mo.load = true) ∧
    (.count i ∈ ev.rels → mo.inc = true ∨ mo.decRel = true) := by
  have key : (∀ x ∈ ev.acqs, Means cfg mo (mo.inc = true ∨ mo.decAcq = true ∨ mo.load = true) x) ∧
      (∀ x ∈ ev.rels, Means cfg mo (mo.inc = true ∨ mo.decRel = true) x) := by
    suffices ∀ (acts : List (Nat × Act K)) (h : HSt K),
        (∀ ev ∈ h.tr, (∀ x ∈ ev.acqs, Means cfg mo (mo.inc = true ∨ mo.decAcq = true ∨ mo.load = true) x) ∧
          (∀ x ∈ ev.rels, Means cfg mo (mo.inc = true ∨ mo.decRel = true) x)) →
        ∀ ev ∈ (hexec cfg mo acts h).tr, (∀ x ∈ ev.acqs, Means cfg mo (mo.inc = true ∨ mo.decAcq = true ∨ mo.load = true) x) ∧
          (∀ x ∈ ev.rels, Means cfg mo (mo.inc = true ∨ mo.decRel = true) x) from
      this acts (hstart n gcs) (fun ev h => (nomatch h)) ev h
    clear h ev
    intro acts
    induction acts with
    | nil => exact fun h hh => hh
    | cons p acts ih =>
      obtain ⟨t, a⟩ := p
      intro h hh
      unfold hexec
      split
      · exact ih h hh
      · split
        · refine ih _ fun ev hev => ?_
          rcases List.mem_append.1 hev with hev | hev
          · exact hh ev hev
          · rw [List.mem_singleton.1 hev]
            exact label_means cfg mo h t _ a
        · exact ih h hh
        · exact hh
        · exact hh
  refine ⟨fun hm => ?_, fun hm => ?_, fun hm => key.1 _ hm, fun hm => key.2 _ hm⟩
  all_goals
    rcases List.mem_append.1 hm with hm | hm
    · exact key.1 _ hm
    · exact key.2 _ hm

/-- With `no_tracking` and `no_locking` nothing but the count of the factory's entries orders anything. -/
example : ∀ ev ∈ (hexec CF.untracked ⟨true, true, true, true, true⟩ CF.race (hstart 2 [0])).tr, .tcount 0 ∉ ev.acqs := by
  intro ev h hm
  exact absurd ((C50_synchronization h 0).2.1 (List.mem_append_left _ hm)).1 (by decide)

/-- The events tell flyweight objects apart: each has an identity of its own, so that what orders the uses of one object does
not order those of another. -/
theorem C50_identities {cfg : Cfg K} (h : CfgOk cfg) (inc decAcq trk : Bool) (n : Nat) (gcs : List Nat)
    (acts : List (Nat × Act K)) :
    (hexec cfg ⟨inc, decAcq, true, true, trk⟩ acts (hstart n gcs)).ids.Nodup ∧
      (hexec cfg ⟨inc, decAcq, true, true, trk⟩ acts (hstart n gcs)).ids.length =
        (hexec cfg ⟨inc, decAcq, true, true, trk⟩ acts (hstart n gcs)).s.objs.length :=
  ⟨(Idents.cfac_fresh acts Idents.fresh_nil).1, (hexec_h h ⟨rfl, rfl⟩ (hstart_h n gcs) acts).len⟩

/-- The construction of a value happens before each time it is read, with any of the four combinations of policies. -/
theorem C50_published {cfg : Cfg K} (h : CfgOk cfg) (inc decAcq trk : Bool) (n : Nat) (gcs : List Nat)
    (acts : List (Nat × Act K)) {i j e : Nat} (hij : i < j)
    (hi : Acc (hexec cfg ⟨inc, decAcq, true, true, trk⟩ acts (hstart n gcs)).tr i (.part e .body, .write))
    (hj : Acc (hexec cfg ⟨inc, decAcq, true, true, trk⟩ acts (hstart n gcs)).tr j (.part e .body, .read)) :
    Before (hexec cfg ⟨inc, decAcq, true, true, trk⟩ acts (hstart n gcs)).tr i j :=
  Or.elim ((hexec_h h (mo := ⟨inc, decAcq, true, true, trk⟩) ⟨rfl, rfl⟩ (hstart_h n gcs) acts).race i j _ _ _
    (Nat.ne_of_lt hij) hi hj rfl trivial) id fun hb => absurd hb.lt (Nat.lt_asymm hij)

/-- Each time a value is read, and each time its count is changed, happens before its destruction
by the collector. -/
theorem C50_destroyed_last {cfg : Cfg K} (h : CfgOk cfg) (hl : cfg.tracks = true → cfg.locking = true) (inc decAcq trk : Bool) (n : Nat) (gcs : List Nat)
    (acts : List (Nat × Act K)) {i j e : Nat} {p : Part} {k : Kind} (hij : i < j)
    (hi : Acc (hexec cfg ⟨inc, decAcq, true, true, trk⟩ acts (hstart n gcs)).tr i (.part e p, k))
    (hj : Acc (hexec cfg ⟨inc, decAcq, true, true, trk⟩ acts (hstart n gcs)).tr j (.part e p, .write)) :
    Before (hexec cfg ⟨inc, decAcq, true, true, trk⟩ acts (hstart n gcs)).tr i j :=
  (C50_race_free h hl inc decAcq trk n gcs acts).order hij hi hj (by cases k <;> rfl)

/-- The collector never takes a count that is positive for zero, even if loads need not return the
latest value, and whatever the memory orders.  Let the count of `e` be zero in one state and positive in a later one, in which the
collector is about to load it.  Then one of the actions in between has raised the count from
zero to one, and it happens before the load; hence the load does not return the earlier zero. -/
theorem C50_no_stale_zero {cfg : Cfg K} (h : CfgOk cfg) {mo : Orders} (n : Nat) (gcs : List Nat)
    (acts more : List (Nat × Act K)) {g g' : HSt K} (hg : hexec cfg mo acts (hstart n gcs) = g)
    (hg' : hexec cfg mo more g = g') {e c t : Nat} {x y : Ent K} {rest : List (Frame K)}
    (hx : g.s.ents e = some x) (hx0 : x.ref = 0) (hy : g'.s.ents e = some y) (hy0 : y.ref ≠ 0)
    (ht : g'.s.thr[t]? = some (.gcTest c e :: rest)) :
    Acc (hexec cfg mo [(t, .run)] g').tr g'.tr.length (.part e .ref, .atomic) ∧
    ∃ p q, p ++ [q] <+: more ∧
      (∃ z, (hexec cfg mo p g).s.ents e = some z ∧ z.ref = 0) ∧
      (∃ z, (hexec cfg mo (p ++ [q]) g).s.ents e = some z ∧ z.ref = 1) ∧
      Before (hexec cfg mo [(t, .run)] g').tr (hexec cfg mo p g).tr.length g'.tr.length := by
  have H : VHold g ∧ Inv cfg g.s := hg ▸ VHold.exec h acts (start_inv n gcs) (.start n gcs)
  have H' : VHold g' ∧ Inv cfg g'.s := hg' ▸ VHold.exec h more H.2 H.1
  have hr : Raised cfg mo e g more g' := by
    have := Raised.exec h (mo := mo) (h1 := g) (e := e) more (pre := []) (h := g) (fun l => rfl) H.2
      ⟨H.2.core.lt_next hx, fun z hz h0 => by rw [hx] at hz; cases hz; exact absurd hx0 h0⟩
    rwa [List.nil_append, hg'] at this
  obtain ⟨p, q, h1, h2, h3, h4⟩ := hr.2 y hy hy0
  have hev : (hexec cfg mo [(t, .run)] g').tr = g'.tr ++ [⟨t, rmw mo.load e, [(.part e .ref, .atomic)], []⟩] := by
    simp [hexec, ht, act, lib, hy, label, libEv]
  rw [hev]
  have hv := visits H'.2 ht rfl
  have hk : Know g'.tr t (hexec cfg mo p g).tr.length := by
    rcases h4 with h4 | ⟨t', h4, h5⟩
    · exact H'.1 e t _ hv h4
    · rw [hv] at h4
      cases h4
      exact h5
  have hlt : (hexec cfg mo p g).tr.length < g'.tr.length := by
    obtain ⟨j, ev, hj, _, hle⟩ := hk
    have h5 : j < g'.tr.length := by
      rcases Nat.lt_or_ge j g'.tr.length with h5 | h5
      · exact h5
      · rw [List.getElem?_eq_none h5] at hj; cases hj
    exact Nat.lt_of_le_of_lt hle.le h5
  refine ⟨⟨_, HB.get_new, by simp⟩, p, q, h1, h2, h3, ?_⟩
  exact Le.before (Know.le_new (ev := (⟨t, rmw mo.load e, [(.part e .ref, .atomic)], []⟩ : Event)) hk.old) (by omega)

/-- Thread 0 makes a flyweight, thread 1 reads it and destroys it; the collector (thread 2) removes the
entry.  (No code of its own: used to state a property or an example.) -/
def CF.lastUse : List (Nat × Act Nat) :=
  CF.make 0 0 5 [] ++ [(1, .read 0), (1, .destroy [true])] ++ CF.runs 5 1 ++
    [(2, .run), (2, .gcVisit 0)] ++ CF.runs 3 2

/-- Threads and accesses of the events.  (No code of its own: used to state a property or an
example.) -/
def CF.looks (tr : List Event) : List (Nat × List (Loc × Kind)) := tr.map fun ev => (ev.thr, ev.accs)

-- without tracking and locking: the entry is constructed by event 3, read by event 9, destroyed by event 16
example : CF.looks (hexec (CF.untracked) ⟨false, false, true, true, false⟩ CF.lastUse (hstart 2 [0])).tr =
    [(0, []), (0, []), (0, []), (0, whole 0), (0, [(.part 0 .body, .read)]), (0, [(.part 0 .ref, .atomic)]), (0, []),
     (0, [(.part 0 .ref, .atomic)]), (0, []),
     (1, [(.part 0 .body, .read)]), (1, []), (1, []), (1, [(.part 0 .ref, .atomic)]),
     (2, []), (2, []), (2, [(.part 0 .ref, .atomic)]), (2, [(.part 0 .body, .write)]), (2, whole 0)] := by decide +kernel

-- with both: the counts of `refcounted_value` are accessed too
example : CF.looks (hexec (CF.tracked) ⟨false, false, true, true, false⟩ CF.lastUse (hstart 2 [0])).tr =
    [(0, []), (0, []), (0, []), (0, whole 0), (0, [(.part 0 .body, .read)]), (0, [(.part 0 .ref, .atomic)]), (0, []),
     (0, [(.part 0 .ref, .atomic), (.part 0 .tref, .atomic), (.part 0 .del, .write)]), (0, []),
     (1, [(.part 0 .body, .read)]), (1, []), (1, [(.part 0 .tref, .atomic)]), (1, []), (1, [(.part 0 .del, .write)]), (1, []),
     (1, [(.part 0 .ref, .atomic)]),
     (2, []), (2, []), (2, [(.part 0 .ref, .atomic)]), (2, [(.part 0 .body, .write)]), (2, whole 0)] := by decide +kernel

example : Before (hexec (CF.untracked) ⟨false, false, true, true, false⟩ CF.lastUse (hstart 2 [0])).tr 3 9 :=
  C50_published CF.untrackedOk _ _ _ _ _ _ (e := 0) (by decide) ⟨_, rfl, by decide +kernel⟩ ⟨_, rfl, by decide +kernel⟩

example : Before (hexec (CF.untracked) ⟨false, false, true, true, false⟩ CF.lastUse (hstart 2 [0])).tr 9 16 :=
  C50_destroyed_last CF.untrackedOk (by decide) _ _ _ _ _ _ (e := 0) (p := .body) (k := .read) (by decide) ⟨_, rfl, by decide +kernel⟩ ⟨_, rfl, by decide +kernel⟩

example : Before (hexec (CF.tracked) ⟨false, false, true, true, false⟩ CF.lastUse (hstart 2 [0])).tr 13 20 :=
  C50_destroyed_last CF.trackedOk (by decide) _ _ _ _ _ _ (e := 0) (p := .del) (k := .write) (by decide) ⟨_, rfl, by decide +kernel⟩
    ⟨_, rfl, by decide +kernel⟩

example : (hexec CF.tracked ⟨true, true, true, true, true⟩ CF.race (hstart 2 [0])).s.objs.length = 2 ∧
    RaceFree (hexec CF.tracked ⟨true, true, true, true, true⟩ CF.race (hstart 2 [0])).tr :=
  ⟨by decide +kernel, C50_race_free CF.trackedOk (by decide) _ _ _ _ _ _⟩

/-- Thread 0 makes a flyweight and destroys it.  (No code of its own: used to state a property or
an example.) -/
def CF.once : List (Nat × Act Nat) := CF.make 0 0 5 [] ++ (0, .destroy [true]) :: CF.runs 5 0

/-- Thread 1 makes a flyweight of the same key before the collector comes to the entry.  (No code of
its own: used to state a property or an example.) -/
def CF.again : List (Nat × Act Nat) := CF.make 1 0 5 [] ++ [(2, .run), (2, .gcVisit 0)]

/-- The collector is about to load the count of an entry.  (No code of its own: used to state a
property or an example.) -/
def CF.loading : List (Frame Nat) → Option (Nat × Nat)
  | .gcTest c e :: _ => some (c, e)
  | _ => none

-- the hypotheses of `C50_no_stale_zero` are met, with and without tracking and locking: the count is zero after `once`, and
-- one when the collector is about to load it
example : ∀ lk tr : Bool,
    let g := hexec (CF.with_ lk tr) ⟨false, false, false, false, false⟩ CF.once (hstart 2 [0])
    let g' := hexec (CF.with_ lk tr) ⟨false, false, false, false, false⟩ CF.again g
    (g.s.ents 0).map Ent.ref = some 0 ∧ (g'.s.ents 0).map Ent.ref = some 1 ∧ g'.s.thr[2]?.map CF.loading = some (some (0, 0)) := by
  decide +kernel

/-- Events that are not of thread 1.  (No code of its own: used to state a property or an
example.) -/
def CF.notThread1 (tr : List Event) (i : Nat) : Bool := match tr[i]? with
  | some ev => ev.thr != 1
  | none => false

example : (hexec (CF.tracked) ⟨true, true, true, true, true⟩
    (CF.make 0 0 5 [] ++ [(1, .copy 0), (1, .read 0)]) (hstart 2 [0])).ids = [1, 0] := by decide +kernel

/-- Not everything is ordered: the library does not order two threads that read. -/
theorem C50_readers_unordered (lk tr : Bool) :
    ¬ Before (hexec (CF.with_ lk tr) ⟨true, true, true, true, true⟩
      (CF.make 0 0 5 [] ++ [(1, .read 0), (0, .read 0)]) (hstart 2 [0])).tr 9 10 := by
  refine not_before_of (CF.notThread1 (hexec (CF.with_ lk tr) ⟨true, true, true, true, true⟩
      (CF.make 0 0 5 [] ++ [(1, .read 0), (0, .read 0)]) (hstart 2 [0])).tr) ?_ ?_ ?_ <;>
    cases lk <;> cases tr <;> decide +kernel

/-- If the decrement is not a release operation, or the collector's load not an acquire operation, then
with or without tracking and locking and whatever the other orders, thread 1 reads the value while the
collector destroys it. -/
theorem C50_orders_needed (lk tr : Bool) (mo : Orders) (h : mo.decRel = false ∨ mo.load = false) :
    ¬ RaceFree (hexec (CF.with_ lk tr) mo CF.lastUse (hstart 2 [0])).tr := by
  intro hr
  have key : Before (hexec (CF.with_ lk tr) mo CF.lastUse (hstart 2 [0])).tr 9 (if tr then 19 else 16) := by
    refine hr.order (l := .part 0 .body) (k := .read) (k' := .write) (by cases lk <;> cases tr <;> decide) ?_ ?_ rfl
    · obtain ⟨_ | _, _ | _, _ | _, _ | _, _ | _⟩ := mo <;> cases lk <;> cases tr <;> exact ⟨_, rfl, by decide +kernel⟩
    · obtain ⟨_ | _, _ | _, _ | _, _ | _, _ | _⟩ := mo <;> cases lk <;> cases tr <;> exact ⟨_, rfl, by decide +kernel⟩
  refine not_before_of (CF.notThread1 (hexec (CF.with_ lk tr) mo CF.lastUse (hstart 2 [0])).tr) ?_ ?_ ?_ key <;>
    obtain ⟨_ | _, _ | _, _ | _, _ | _, _ | _⟩ := mo <;> cases lk <;> cases tr <;> first
      | decide +kernel
      | (exfalso; revert h; decide)

end Verif.Props

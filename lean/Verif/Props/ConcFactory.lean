import Verif.CFacRank
import Verif.CFacStuck
import Verif.CFacRing
import Verif.Ring
import Verif.CFacStop
import Verif.CFacTrack

/-!
# Properties of `concurrent_factory`: C25-C28, C40

The theorems on C25-C27 are about an arbitrary number `n` of threads, the garbage
collectors of arbitrary factories `gcs`, and an arbitrary schedule `acts`.  `cfg` gives
the equivalence of keys, whether `no_tracking` (`cfg.tracks = false`) or `refcounted` is
used, and whether `no_locking` (`cfg.locking = false`) or `simple_locking` is; all four
combinations are covered unless said otherwise.
-/

set_option autoImplicit false

namespace Verif.Props
open Verif.CFac Relation
open Verif.Conc (Fw Cfg CfgOk pick fwCount tot nsum)
variable {K : Type}

/-- The handles a function call holds: of the flyweights it has been passed, of the one it
is about to return (from `return {p}` in
/repo/include/boost/flyweight/concurrent_factory.hpp:162 on), or of the one being destroyed. -/
def inFlight : Frame K → List Nat
  | .insLock _ _ loc _ => loc.map Fw.h
  | .insHash _ _ loc _ => loc.map Fw.h
  | .insFind _ _ loc _ => loc.map Fw.h
  | .insVisit _ _ _ loc => loc.map Fw.h
  | .insUser _ _ _ loc => loc.map Fw.h
  | .insDone _ _ _ loc => loc.map Fw.h
  | .insAddRef _ _ _ loc => loc.map Fw.h
  | .insLeave _ _ e loc => e :: loc.map Fw.h
  | .insFail _ _ loc => loc.map Fw.h
  | .insTrack _ _ e => [e]
  | .insUnlock _ _ e => [e]
  | .rel w => [w.h]
  | .relLock w => [w.h]
  | .relCheck w => [w.h]
  | .relUnlock w => [w.h]
  | .relDec w => [w.h]
  | _ => []

/-- All handles there are: of flyweight objects, of flyweights inside the keys and values held
by the factories, and in the course of function calls.  (No code of its own: used to state a
property or an example.) -/
def handles (s : St K) : List Nat :=
  s.objs.map Fw.h ++
  (List.range s.next).flatMap (fun e => match s.ents e with | none => [] | some x => x.kids.map Fw.h) ++
  s.thr.flatten.flatMap inFlight

theorem count_map (e : Nat) (l : List (Fw K)) : (l.map Fw.h).count e = fwCount e l := by
  induction l with
  | nil => rfl
  | cons w l ih =>
    rw [List.map_cons, List.count_cons, ih, fwCount, fwCount, List.countP_cons]

theorem count_inFlight (e : Nat) (f : Frame K) : (inFlight f).count e = refF e f := by
  have one : ∀ i : Nat, List.count e [i] = if i = e then 1 else 0 := fun i => by
    by_cases h : i = e <;> simp [h]
  cases f <;> simp only [inFlight, refF, count_map, one, List.count_nil]
  rw [List.count_cons, count_map]
  simp

theorem count_flatMap {α : Type} (e : Nat) (g : α → List Nat) (l : List α) :
    (l.flatMap g).count e = tot (fun a => (g a).count e) l := by
  induction l with
  | nil => rfl
  | cons a l ih => rw [List.flatMap_cons, List.count_append, ih]; rfl

theorem tot_range (f : Nat → Nat) (n : Nat) : tot f (List.range n) = nsum f n := by
  induction n with
  | zero => rfl
  | succ n ih =>
    rw [List.range_succ, Conc.tot_append, ih]
    simp [tot, nsum]

theorem count_handles {s : St K} (e : Nat) :
    (handles s).count e = fwCount e s.objs + kidsTo s.ents s.next e + tot (refF e) (frames s) := by
  have h2 : (fun i => List.count e (match s.ents i with | none => [] | some x => x.kids.map Fw.h)) =
      fun i => kidsOf e (s.ents i) := funext fun i => by
    cases s.ents i with
    | none => rfl
    | some x => exact count_map e x.kids
  simp only [handles, List.count_append, count_map, count_flatMap, count_inFlight]
  rw [tot_range, h2]
  rfl

/-- Reference counts are numbers of handles. -/
theorem refOf_handles {cfg : Cfg K} {s : St K} (hi : Inv cfg s) (e : Nat) : refOf s.ents e = (handles s).count e := by
  rw [hi.core.refs e, count_handles]
  omega

theorem not_handle {cfg : Cfg K} {s : St K} (hi : Inv cfg s) {e : Nat} (h : e ∉ handles s) : refOf s.ents e = 0 := by
  rw [refOf_handles hi, List.count_eq_zero.2 h]
  rfl

theorem exec_inv {cfg : Cfg K} (h : CfgOk cfg) {acts : List (Nat × Act K)} {n : Nat} {gcs : List Nat} {s : St K}
    (hs : exec cfg acts (start n gcs) = .ok s) : Inv cfg s := by
  have := exec_good h (start_inv n gcs) acts
  rwa [hs] at this

namespace CF

/-- Keys are numbers; `refcounted` and `simple_locking`.  (No code of its own: used to state a
property or an example.) -/
def tracked : Cfg Nat := ⟨fun _ a b => a == b, true, true⟩

/-- Keys are numbers; `no_tracking` and `no_locking`.  (No code of its own: used to state a
property or an example.) -/
def untracked : Cfg Nat := ⟨fun _ a b => a == b, false, false⟩

/-- Keys are numbers; `refcounted` (`tr`) or `no_tracking`, `simple_locking` (`lk`) or `no_locking`.  (No code
of its own: used to state a property or an example.) -/
def with_ (lk tr : Bool) : Cfg Nat := ⟨fun _ a b => a == b, lk, tr⟩

theorem with_ok (lk tr : Bool) : CfgOk (with_ lk tr) where
  refl c k := by simp [with_]
  symm c k l := by simp only [with_, beq_iff_eq]; exact Eq.symm
  trans c k l m := by simp only [with_, beq_iff_eq]; exact Eq.trans

theorem trackedOk : CfgOk tracked where
  refl c k := by simp [tracked]
  symm c k l := by simp only [tracked, beq_iff_eq]; exact Eq.symm
  trans c k l m := by simp only [tracked, beq_iff_eq]; exact Eq.trans

theorem untrackedOk : CfgOk untracked where
  refl c k := by simp [untracked]
  symm c k l := by simp only [untracked, beq_iff_eq]; exact Eq.symm
  trans c k l m := by simp only [untracked, beq_iff_eq]; exact Eq.trans

/-- Thread `t` takes `n` steps in the library.  (No code of its own: used to state a property or
an example.) -/
def runs (n t : Nat) : List (Nat × Act Nat) := List.replicate n (t, .run)

/-- Thread `t` makes a flyweight of type `c` from key `k`, containing the objects selected by `m`.
(No code of its own: used to state a property or an example.) -/
def make (t c k : Nat) (m : List Bool) : List (Nat × Act Nat) := (t, .create c k m true) :: runs 8 t

/-- What can be seen of an outcome: handles of the objects; keys of the entries, with their
reference counts and whether there is a value; heights of the stacks.  (No code of its own: used
to state a property or an example.) -/
def seen (o : Out Nat) : Option (List Nat × List (Option (Nat × Int × Bool)) × List Nat) := match o with
  | .ok s => some (s.objs.map Fw.h, (List.range s.next).map fun e => (s.ents e).map fun x => (x.key, x.ref, x.cted),
      s.thr.map List.length)
  | _ => none

/-- A pass of the collector on thread `t` over the entries `l`.  (No code of its own: used to
state a property or an example.) -/
def pass (t : Nat) (l : List Nat) : List (Nat × Act Nat) :=
  (t, .run) :: l.flatMap (fun e => (t, .gcVisit e) :: runs 9 t) ++ runs 1 t

/-- Two threads make flyweights of the same key while the collector (thread 2) is at work.  (No
code of its own: used to state a property or an example.) -/
def race : List (Nat × Act Nat) :=
  (0, .create 0 5 [] true) :: (1, .create 0 5 [] true) :: runs 3 0 ++ runs 3 1 ++ (2, .run) :: (2, .gcVisit 0) ::
    runs 9 0 ++ (2, .gcVisit 0) :: runs 9 1 ++ runs 3 2 ++ runs 9 1

end CF

/-! ## C25 -/

/-- **C25.**  No schedule leads to the use of an erased entry or of a value that does not
exist, or to the release of a mutex that is not held. -/
theorem C25_no_ub {cfg : Cfg K} (h : CfgOk cfg) (n : Nat) (gcs : List Nat) (acts : List (Nat × Act K)) :
    exec cfg acts (start n gcs) ≠ .ub := by
  intro hu
  have := exec_good h (start_inv n gcs) acts
  rw [hu] at this
  exact this

/-- Every handle refers to an entry that is in the container, and has a value. -/
theorem C25_live {cfg : Cfg K} (h : CfgOk cfg) {n : Nat} {gcs : List Nat} {acts : List (Nat × Act K)} {s : St K}
    (hs : exec cfg acts (start n gcs) = .ok s) {e : Nat} (he : e ∈ handles s) :
    ∃ x, s.ents e = some x ∧ x.cted = true := by
  have hi := exec_inv h hs
  have of : ∀ w : Fw K, FwOk cfg s.ents w → w.h = e → ∃ x, s.ents e = some x ∧ x.cted = true := by
    rintro w ⟨x, h1, _, h2, _⟩ rfl
    exact ⟨x, h1, h2⟩
  have ofl : ∀ l : List (Fw K), (∀ w ∈ l, FwOk cfg s.ents w) → e ∈ l.map Fw.h → ∃ x, s.ents e = some x ∧ x.cted = true := by
    intro l hl hm
    obtain ⟨w, hw, hwe⟩ := List.mem_map.1 hm
    exact of w (hl w hw) hwe
  rcases List.mem_append.1 he with he | he
  · rcases List.mem_append.1 he with he | he
    · exact ofl _ hi.core.objsOk he
    · obtain ⟨i, _, hm⟩ := List.mem_flatMap.1 he
      cases hx : s.ents i with
      | none => rw [hx] at hm; cases hm
      | some x => rw [hx] at hm; exact ofl _ (hi.core.kids i x hx) hm
  · obtain ⟨f, hf, hm⟩ := List.mem_flatMap.1 he
    have hok := hi.core.frames f hf
    cases f with
    | insLock c k loc pre => exact ofl loc hok hm
    | insHash c k loc pre => exact ofl loc hok hm
    | insFind c k loc pre => exact ofl loc hok hm
    | insVisit c k i loc => exact ofl loc hok.2 hm
    | insUser c k i loc => exact ofl loc hok.2 hm
    | insDone c k i loc => exact ofl loc hok.2 hm
    | insAddRef c k i loc => exact ofl loc hok.2 hm
    | insLeave c k i loc =>
      rcases List.mem_cons.1 hm with h1 | hm
      · exact of _ hok.1 h1.symm
      · exact ofl loc hok.2 hm
    | insFail c i loc => exact ofl loc hok.2 hm
    | insTrack c k i => exact of _ hok (List.mem_singleton.1 hm).symm
    | insUnlock c k i => exact of _ hok (List.mem_singleton.1 hm).symm
    | rel w => exact of w hok (List.mem_singleton.1 hm).symm
    | relLock w => exact of w hok (List.mem_singleton.1 hm).symm
    | relCheck w => exact of w hok (List.mem_singleton.1 hm).symm
    | relUnlock w => exact of w hok (List.mem_singleton.1 hm).symm
    | relDec w => exact of w hok (List.mem_singleton.1 hm).symm
    | _ => cases hm

/-- The reference count of an entry is the number of handles that refer to it. -/
theorem C25_counts {cfg : Cfg K} (h : CfgOk cfg) {n : Nat} {gcs : List Nat} {acts : List (Nat × Act K)} {s : St K}
    (hs : exec cfg acts (start n gcs) = .ok s) {e : Nat} {x : Ent K} (hx : s.ents e = some x) :
    x.ref = (handles s).count e := by
  have := refOf_handles (exec_inv h hs) e
  simpa only [refOf, hx] using this

/-- Two flyweights, objects or parts of values, refer to the same entry exactly if they are of the
same type and have been created from equivalent keys. -/
theorem C25_sharing {cfg : Cfg K} (h : CfgOk cfg) {n : Nat} {gcs : List Nat} {acts : List (Nat × Act K)} {s : St K}
    (hs : exec cfg acts (start n gcs) = .ok s) {v w : Fw K}
    (hv : v ∈ s.objs ∨ ∃ e x, s.ents e = some x ∧ v ∈ x.kids)
    (hw : w ∈ s.objs ∨ ∃ e x, s.ents e = some x ∧ w ∈ x.kids) :
    v.h = w.h ↔ v.c = w.c ∧ cfg.eqv v.c v.k w.k = true := by
  have hi := exec_inv h hs
  have key : ∀ w : Fw K, (w ∈ s.objs ∨ ∃ e x, s.ents e = some x ∧ w ∈ x.kids) → FwOk cfg s.ents w := by
    rintro w (hw | ⟨e, x, hx, hw⟩)
    · exact hi.core.objsOk w hw
    · exact hi.core.kids e x hx w hw
  obtain ⟨x, hx, h1, _, h2⟩ := key v hv
  obtain ⟨y, hy, h3, _, h4⟩ := key w hw
  constructor
  · intro he
    rw [he, hy] at hx
    cases hx
    have hc : v.c = w.c := h1.symm.trans h3
    refine ⟨hc, ?_⟩
    rw [hc] at h2 ⊢
    exact h.trans _ _ _ _ (h.symm _ _ _ h2) h4
  · rintro ⟨hc, he⟩
    refine hi.core.uniq _ _ x y hx hy (by rw [h1, h3, hc]) ?_
    rw [h1]
    rw [← hc] at h4
    exact h.trans _ _ _ _ h2 (h.trans _ _ _ _ he (h.symm _ _ _ h4))

/-- An element is accessed by one thread at a time. -/
theorem C25_exclusive {cfg : Cfg K} (h : CfgOk cfg) {n : Nat} {gcs : List Nat} {acts : List (Nat × Act K)} {s : St K}
    (hs : exec cfg acts (start n gcs) = .ok s) {t t' : Nat} {st st' : List (Frame K)} (ht : s.thr[t]? = some st)
    (ht' : s.thr[t']? = some st') {f f' : Frame K} (hf : f ∈ st) (hf' : f' ∈ st') {e : Nat}
    (he : elemOf f = some e) (he' : elemOf f' = some e) : t = t' := by
  have hl := (exec_inv h hs).locks
  have of : ∀ {t : Nat} {st : List (Frame K)} {f : Frame K}, s.thr[t]? = some st → f ∈ st → elemOf f = some e →
      s.vis e = some t := by
    intro t st f ht hf he
    have h1 := hl.elem t st ht e
    have h2 := Conc.tot_pos (g := elemF e) hf (by simp [elemF, he])
    by_cases hv : s.vis e = some t
    · exact hv
    · rw [if_neg hv] at h1
      omega
  have h1 := of ht hf he
  rw [of ht' hf' he'] at h1
  exact (Option.some.inj h1).symm

/-- The flyweights a function call holds whose tracking handle exists: those it has been passed,
the one it is about to return once its tracking handle has been constructed, or the one whose
destruction has not begun.  (No code of its own: used to state a property or an example.) -/
def trackedIn : Frame K → List Nat
  | .insLeave _ _ _ loc => loc.map Fw.h
  | .insTrack .. => []
  | .relLock _ => []
  | .relCheck _ => []
  | .relUnlock _ => []
  | .relDec _ => []
  | f => inFlight f

theorem count_trackedIn (e : Nat) (f : Frame K) : (trackedIn f).count e = trackF e f := by
  have one : ∀ i : Nat, List.count e [i] = if i = e then 1 else 0 := fun i => by
    by_cases h : i = e <;> simp [h]
  cases f <;> simp only [trackedIn, inFlight, trackF, count_map, one, List.count_nil]

/-- With `refcounted` the count kept by the tracking policy next to the value is the number of
flyweights that refer to the entry: objects, parts of keys and values, and those in the course
of function calls. -/
theorem C25_tracking {cfg : Cfg K} (h : CfgOk cfg) (hl : cfg.tracks = true) {n : Nat} {gcs : List Nat}
    {acts : List (Nat × Act K)} {s : St K} (hs : exec cfg acts (start n gcs) = .ok s) {e : Nat} {x : Ent K}
    (hx : s.ents e = some x) :
    x.tref = (s.objs.map Fw.h).count e +
      ((List.range s.next).flatMap
        (fun i => match s.ents i with | none => [] | some y => y.kids.map Fw.h)).count e +
      (s.thr.flatten.flatMap trackedIn).count e := by
  have h1 := exec_tracked h hl (start_inv n gcs) (start_tracked n gcs) hs e
  have h2 : (fun i => List.count e (match s.ents i with | none => [] | some x => x.kids.map Fw.h)) =
      fun i => kidsOf e (s.ents i) := funext fun i => by
    cases s.ents i with
    | none => rfl
    | some x => exact count_map e x.kids
  simp only [trefOf, hx] at h1
  simp only [count_map, count_flatMap, count_trackedIn]
  rw [tot_range, h2]
  exact h1

/-- In particular, while no function is at work on flyweights the two counts are equal. -/
theorem C25_counts_agree {cfg : Cfg K} (h : CfgOk cfg) (hl : cfg.tracks = true) {n : Nat} {gcs : List Nat}
    {acts : List (Nat × Act K)} {s : St K} (hs : exec cfg acts (start n gcs) = .ok s)
    (hq : ∀ st ∈ s.thr, st = [] ∨ ∃ c, st = [.gcIdle c]) {e : Nat} {x : Ent K} (hx : s.ents e = some x) :
    x.tref = x.ref := by
  have hz : ∀ g : Frame K → List Nat, (∀ c, g (.gcIdle c) = []) → s.thr.flatten.flatMap g = [] := by
    intro g hg
    refine List.flatMap_eq_nil_iff.2 fun f hf => ?_
    obtain ⟨st, h1, h2⟩ := List.mem_flatten.1 hf
    rcases hq st h1 with rfl | ⟨c, rfl⟩
    · cases h2
    · rw [List.mem_singleton.1 h2]
      exact hg c
  rw [C25_tracking h hl hs hx, C25_counts h hs hx, handles, hz _ fun _ => rfl, hz _ fun _ => rfl]
  simp only [List.count_append, List.count_nil]
  omega

/-- What can be seen of the two counts.  (No code of its own: used to state a property or an
example.) -/
def CF.counts (o : Out Nat) : Option (List (Option (Int × Int)) × Bool) := match o with
  | .ok s => some ((List.range s.next).map fun e => (s.ents e).map fun x => (x.ref, x.tref),
      s.thr.all fun st => match st with | [] => true | [.gcIdle _] => true | _ => false)
  | _ => none

/-- Two flyweights of an entry, and the destruction of one and of the other, stopped before the
factory's handle is released. -/
example :
    CF.counts (exec CF.tracked (CF.make 0 0 5 [] ++ [(0, .copy 0)]) (start 1 [0])) = some ([some (2, 2)], true) ∧
    CF.counts (exec CF.tracked (CF.make 0 0 5 [] ++ [(0, .copy 0), (0, .destroy [true]), (0, .run)]) (start 1 [0])) =
      some ([some (2, 1)], false) ∧
    CF.counts (exec CF.tracked (CF.make 0 0 5 [] ++ [(0, .destroy [true])] ++ CF.runs 3 0) (start 1 [0])) =
      some ([some (1, 0)], false) := ⟨rfl, rfl, rfl⟩

/-- With the race the two flyweights made share the entry, and the collector spares it, with and
without tracking. -/
example : CF.seen (exec CF.tracked CF.race (start 2 [0])) = some ([0, 0], [some (5, 2, true)], [0, 0, 1]) ∧
    CF.seen (exec CF.untracked CF.race (start 2 [0])) = some ([0, 0], [some (5, 2, true)], [0, 0, 1]) := ⟨rfl, rfl⟩

/-! ## C26 -/

/-- What a step does to an entry that is referred to. -/
theorem step_keep {cfg : Cfg K} {s s' : St K} (hi : Inv cfg s) {t : Nat} {a : Act K} (hs : step cfg s t a = .ok s')
    {e : Nat} {x : Ent K} (hx : s.ents e = some x) (hr : 0 < x.ref) :
    ∃ y, s'.ents e = some y ∧ y.core = x.core ∧ y.key = x.key ∧ (x.cted = true → y.cted = true) := by
  have same : s'.ents = s.ents → ∃ y, s'.ents e = some y ∧ y.core = x.core ∧ y.key = x.key ∧ (x.cted = true → y.cted = true) :=
    fun h => ⟨x, by rw [h, hx], rfl, rfl, id⟩
  have upd : ∀ i o, s'.ents = setEnt s.ents i o →
      (i = e → ∃ y, o = some y ∧ y.core = x.core ∧ y.key = x.key ∧ (x.cted = true → y.cted = true)) →
      ∃ y, s'.ents e = some y ∧ y.core = x.core ∧ y.key = x.key ∧ (x.cted = true → y.cted = true) := by
    intro i o h h1
    by_cases hie : i = e
    · obtain ⟨y, h2, h3⟩ := h1 hie
      exact ⟨y, by rw [h, hie, setEnt_same, h2], h3⟩
    · exact ⟨x, by rw [h, setEnt_ne _ _ (Ne.symm hie), hx], rfl, rfl, id⟩
  have chg : ∀ i z z', s.ents i = some z → s'.ents = setEnt s.ents i (some z') → z'.core = z.core → z'.key = z.key →
      (z.cted = true → z'.cted = true) →
      ∃ y, s'.ents e = some y ∧ y.core = x.core ∧ y.key = x.key ∧ (x.cted = true → y.cted = true) := by
    intro i z z' hz h h1 h2 h3
    refine upd i _ h fun hie => ⟨z', rfl, ?_⟩
    rw [hie, hx] at hz
    cases hz
    exact ⟨h1, h2, h3⟩
  unfold step at hs
  split at hs
  · cases hs
  rename_i st ht
  cases a with
  | run =>
    cases st with
    | nil => cases hs
    | cons f rest =>
      have hok : FrameOk cfg s.ents f :=
        hi.core.frames f (List.mem_flatten.2 ⟨_, List.mem_of_getElem? ht, List.mem_cons_self⟩)
      simp only [act] at hs
      unfold lib at hs
      dsimp only at hs
      cases f with
      | insFind c k loc pre =>
        dsimp only at hs
        repeat' split at hs
        all_goals cases hs
        · exact same rfl
        · refine upd _ _ rfl fun h => ?_
          have := hi.core.lt_next hx
          omega
      | gcErase c i =>
        dsimp only at hs
        split at hs <;> cases hs
        refine upd _ _ rfl fun h => ?_
        obtain ⟨z, hz, _, h0⟩ := hok
        rw [h, hx] at hz
        cases hz
        omega
      | gcUnlink c i =>
        dsimp only at hs
        split at hs <;> cases hs
        refine upd _ _ rfl fun h => ?_
        obtain ⟨z, hz, _, h0, _⟩ := hok
        rw [h, hx] at hz
        cases hz
        omega
      | insDone c k i loc =>
        dsimp only at hs
        split at hs <;> cases hs
        rename_i z hz
        exact chg _ z _ hz rfl rfl rfl fun _ => rfl
      | insAddRef c k i loc =>
        dsimp only at hs
        split at hs <;> cases hs
        rename_i z hz
        exact chg _ z _ hz rfl rfl rfl id
      | insTrack c k i =>
        dsimp only at hs
        split at hs <;> cases hs
        rename_i z hz
        exact chg _ z _ hz rfl rfl rfl id
      | rel w =>
        dsimp only at hs
        split at hs
        · cases hs
        · rename_i z hz
          split at hs <;> cases hs
          · exact chg _ z _ hz rfl rfl rfl id
          · exact same rfl
      | relDec w =>
        dsimp only at hs
        split at hs <;> cases hs
        rename_i z hz
        exact chg _ z _ hz rfl rfl rfl id
      | _ =>
        dsimp only at hs
        repeat' split at hs
        all_goals cases hs
        all_goals exact same rfl
  | copy i =>
    simp only [act] at hs
    repeat' split at hs
    all_goals cases hs
    all_goals rename_i z hz _
    all_goals exact chg _ z _ hz rfl rfl rfl id
  | copyKid i j =>
    simp only [act] at hs
    repeat' split at hs
    all_goals cases hs
    all_goals rename_i z hz _
    all_goals exact chg _ z _ hz rfl rfl rfl id
  | finish mask drop =>
    simp only [act] at hs
    split at hs
    · split at hs
      · cases hs
      · rename_i z hz
        split at hs <;> cases hs
        exact chg _ z _ hz rfl rfl rfl id
    · cases hs
  | _ =>
    simp only [act] at hs
    repeat' split at hs
    all_goals cases hs
    all_goals exact same rfl

/-- **C26.**  A step that removes an entry or destroys its value does so when there are no
handles that refer to it. -/
theorem C26_keep {cfg : Cfg K} (h : CfgOk cfg) {n : Nat} {gcs : List Nat} {acts : List (Nat × Act K)} {s s' : St K}
    (hs : exec cfg acts (start n gcs) = .ok s) {t : Nat} {a : Act K} (hst : step cfg s t a = .ok s')
    {e : Nat} {x : Ent K} (hx : s.ents e = some x) (hc : x.cted = true)
    (hgone : ∀ y, s'.ents e = some y → y.cted = false) : e ∉ handles s := by
  intro he
  have hi := exec_inv h hs
  have h1 := refOf_handles hi e
  have h2 := List.count_pos_iff.2 he
  simp only [refOf, hx] at h1
  obtain ⟨y, hy, _, _, h3⟩ := step_keep hi hst hx (by omega)
  have := hgone y hy
  rw [h3 hc] at this
  cases this

/-- An entry is removed by the collector of its type only. -/
theorem C26_only_collector {cfg : Cfg K} (h : CfgOk cfg) {n : Nat} {gcs : List Nat} {acts : List (Nat × Act K)} {s s' : St K}
    (hs : exec cfg acts (start n gcs) = .ok s) {t : Nat} {a : Act K} (hst : step cfg s t a = .ok s')
    {e : Nat} {x : Ent K} (hx : s.ents e = some x) (hgone : s'.ents e = none) :
    ∃ rest, s.thr[t]? = some (.gcUnlink x.core e :: rest) := by
  have hi := exec_inv h hs
  have same : s'.ents = s.ents → False := fun h1 => by rw [h1, hx] at hgone; cases hgone
  have upd : ∀ i z, s'.ents = setEnt s.ents i (some z) → False := by
    intro i z h1
    rw [h1] at hgone
    by_cases hie : e = i
    · rw [hie, setEnt_same] at hgone; cases hgone
    · rw [setEnt_ne _ _ hie, hx] at hgone; cases hgone
  unfold step at hst
  split at hst
  · cases hst
  rename_i st ht
  cases a with
  | run =>
    cases st with
    | nil => cases hst
    | cons f rest =>
      have hok : FrameOk cfg s.ents f :=
        hi.core.frames f (List.mem_flatten.2 ⟨_, List.mem_of_getElem? ht, List.mem_cons_self⟩)
      simp only [act] at hst
      unfold lib at hst
      dsimp only at hst
      cases f with
      | gcUnlink c i =>
        dsimp only at hst
        split at hst <;> cases hst
        have hie : e = i := by
          by_cases hie : e = i
          · exact hie
          · dsimp only at hgone
            rw [setEnt_ne _ _ hie, hx] at hgone
            cases hgone
        obtain ⟨z, hz, h1, _⟩ := hok
        rw [← hie, hx] at hz
        cases hz
        rw [hie, h1]
        exact ⟨rest, ht⟩
      | _ =>
        dsimp only at hst
        repeat' split at hst
        all_goals cases hst
        all_goals first | exact (same rfl).elim | exact (upd _ _ rfl).elim
  | _ =>
    simp only [act] at hst
    repeat' split at hst
    all_goals cases hst
    all_goals first | exact (same rfl).elim | exact (upd _ _ rfl).elim

theorem due_exec {cfg : Cfg K} (h : CfgOk cfg) {c e t : Nat} (acts : List (Nat × Act K)) {s s' : St K} (hi : Inv cfg s)
    (he : e < s.next) (hd : Due c e t s)
    (hno : ∀ i r, exec cfg (acts.take i) s = .ok r → e ∉ handles r) (hs : exec cfg acts s = .ok s') : Due c e t s' := by
  induction acts generalizing s with
  | nil => cases hs; exact hd
  | cons a acts ih =>
    obtain ⟨t', a⟩ := a
    have h0 := hno 0 s rfl
    simp only [exec] at hs
    cases hst : step cfg s t' a with
    | ok r =>
      rw [hst] at hs
      have hg := step_good h hi t' a
      rw [hst] at hg
      refine ih hg (Nat.lt_of_lt_of_le he (step_ents hi hst).1) (hd.step hi he (not_handle hi h0) hst) ?_ hs
      intro i r' hr'
      refine hno (i + 1) r' ?_
      simp only [List.take_succ_cons, exec, hst]
      exact hr'
    | no =>
      rw [hst] at hs
      refine ih hi he hd ?_ hs
      intro i r' hr'
      refine hno (i + 1) r' ?_
      simp only [List.take_succ_cons, exec, hst]
      exact hr'
    | ub => rw [hst] at hs; cases hs
    | reentrant => rw [hst] at hs; cases hs

/-- Let the collector of type `c`, on thread `t`, begin a pass in state `s`; let `more` be
any schedule after which it is waiting again.  An entry of type `c` to which no handle
refers in any state in between is gone. -/
theorem C26_reclaim {cfg : Cfg K} (h : CfgOk cfg) {n : Nat} {gcs : List Nat} {acts more : List (Nat × Act K)}
    {s s1 s2 : St K} (hs : exec cfg acts (start n gcs) = .ok s) {t c : Nat} (ht : s.thr[t]? = some [.gcIdle c])
    (h1 : step cfg s t .run = .ok s1) {e : Nat} {x : Ent K} (hx : s.ents e = some x) (hc : x.core = c)
    (h2 : exec cfg more s1 = .ok s2) (hno : ∀ i r, exec cfg (more.take i) s1 = .ok r → e ∉ handles r)
    (hend : s2.thr[t]? = some [.gcIdle c]) : s2.ents e = none := by
  have hi := exec_inv h hs
  have hg := step_good h hi t .run
  rw [h1] at hg
  have hlt : t < s.thr.length := by
    rcases Nat.lt_or_ge t s.thr.length with h' | h'
    · exact h'
    · rw [List.getElem?_eq_none h'] at ht; cases ht
  have hd : Due c e t s1 := by
    have := elems_mem hi hx hc
    simp only [step, ht, act, lib] at h1
    cases h1
    exact .inr ⟨[.gcPass c s.next (elems s c)], List.getElem?_set_self hlt,
      .inl ⟨_, _, List.mem_singleton.2 rfl, this⟩⟩
  have he : e < s1.next := Nat.lt_of_lt_of_le (hi.core.lt_next hx) (step_ents hi h1).1
  rcases due_exec h more hg he hd hno h2 with hn | ⟨st, hst, hd⟩
  · exact hn
  · rw [hend] at hst
    cases hst
    simp at hd

/-- The entry of key 7 (type 1) is inside that of key 8 (type 0): destroying the flyweight of
key 8 makes the collector of type 0 (thread 1) remove the latter, and then that of type 1
(thread 2) the former; the entry of key 9, still referred to, stays. -/
example :
    let mk := CF.make 0 1 7 [] ++ CF.make 0 0 8 [true] ++ CF.make 0 1 9 [] ++ (0, .destroy [false, true]) :: CF.runs 9 0
    CF.seen (exec CF.tracked (mk ++ CF.pass 2 [0, 2]) (start 1 [0, 1])) =
      some ([2], [some (7, 1, true), some (8, 0, true), some (9, 1, true)], [0, 1, 1]) ∧
    CF.seen (exec CF.tracked (mk ++ CF.pass 1 [1] ++ CF.pass 2 [0, 2]) (start 1 [0, 1])) =
      some ([2], [none, none, some (9, 1, true)], [0, 1, 1]) := ⟨rfl, rfl⟩

/-! ## C27 -/

/-- **C27.**  An entry without a value is never referred to by a handle. -/
theorem C27_hidden {cfg : Cfg K} (h : CfgOk cfg) {n : Nat} {gcs : List Nat} {acts : List (Nat × Act K)} {s : St K}
    (hs : exec cfg acts (start n gcs) = .ok s) {e : Nat} {x : Ent K} (hx : s.ents e = some x) (hc : x.cted = false) :
    e ∉ handles s := by
  intro he
  obtain ⟨y, hy, h1⟩ := C25_live h hs he
  rw [hx] at hy
  cases hy
  rw [hc] at h1
  cases h1

/-- Frames of an insertion that is being left by an exception, and of destructors.  (No code of
its own: used to state a property or an example.) -/
def unwinding : Frame K → Bool
  | .insFail .. => true
  | .insUnwind .. => true
  | .rel .. => true
  | .relLock .. => true
  | .relCheck .. => true
  | .relUnlock .. => true
  | .relDec .. => true
  | _ => false

/-- When the value constructor throws, the insertion is being left, the container and the
objects are as before, and as many handles refer to each entry ... -/
theorem C27_throw {cfg : Cfg K} (h : CfgOk cfg) {n : Nat} {gcs : List Nat} {acts : List (Nat × Act K)} {s : St K}
    (hs : exec cfg acts (start n gcs) = .ok s) {t : Nat} {f : Frame K} {rest : List (Frame K)} {s' : St K}
    (ht : s.thr[t]? = some (f :: rest)) (hst : step cfg s t .throw_ = .ok s') :
    (∃ p, p ≠ [] ∧ (∀ g ∈ p, unwinding g = true) ∧ s'.thr[t]? = some (p ++ rest)) ∧
      s'.ents = s.ents ∧ s'.objs = s.objs ∧ ∀ e, (handles s').count e = (handles s).count e := by
  have hi := exec_inv h hs
  have hg := step_good h hi t .throw_
  rw [hst] at hg
  have hlt : t < s.thr.length := by
    rcases Nat.lt_or_ge t s.thr.length with h' | h'
    · exact h'
    · rw [List.getElem?_eq_none h'] at ht; cases ht
  have cnt : s'.ents = s.ents → ∀ e, (handles s').count e = (handles s).count e := by
    intro he e
    have h1 := refOf_handles hi e
    have h2 := refOf_handles hg e
    rw [he] at h2
    omega
  have fin : ∀ p : List (Frame K), p ≠ [] → (∀ g ∈ p, unwinding g = true) →
      s' = { s with thr := s.thr.set t (p ++ rest) } →
      (∃ p, p ≠ [] ∧ (∀ g ∈ p, unwinding g = true) ∧ s'.thr[t]? = some (p ++ rest)) ∧
      s'.ents = s.ents ∧ s'.objs = s.objs ∧ ∀ e, (handles s').count e = (handles s).count e := by
    intro p hp hu he
    refine ⟨⟨p, hp, hu, by rw [he]; exact List.getElem?_set_self hlt⟩, by rw [he], by rw [he], cnt (by rw [he])⟩
  have unw : ∀ (loc : List (Fw K)) (c : Nat), ∀ g ∈ loc.map Frame.rel ++ [.insUnwind c], unwinding g = true := by
    intro loc c g hg
    rcases List.mem_append.1 hg with hg | hg
    · obtain ⟨w, _, rfl⟩ := List.mem_map.1 hg
      rfl
    · rw [List.mem_singleton.1 hg]
      rfl
  simp only [step, ht, act] at hst
  cases f with
  | insUser c k e loc =>
    dsimp only at hst
    cases hst
    exact fin [.insFail c e loc] (by simp) (by simp [unwinding]) rfl
  | insHash c k loc pre =>
    dsimp only at hst
    cases hst
    exact fin _ (by simp) (unw loc c) (by simp)
  | insFind c k loc pre =>
    dsimp only at hst
    split at hst <;> cases hst
    exact fin _ (by simp) (unw loc c) (by simp)
  | _ => cases hst

/-- ... and whatever the thread does until it has left the insertion does not produce a flyweight
object. -/
theorem C27_no_object {cfg : Cfg K} {s s' : St K} {t : Nat} {p rest : List (Frame K)} (hp : p ≠ [])
    (hu : ∀ g ∈ p, unwinding g = true) (ht : s.thr[t]? = some (p ++ rest)) {a : Act K} (hst : step cfg s t a = .ok s') :
    s'.objs = s.objs ∧ ∃ p', (∀ g ∈ p', unwinding g = true) ∧ s'.thr[t]? = some (p' ++ rest) := by
  have hlt : t < s.thr.length := by
    rcases Nat.lt_or_ge t s.thr.length with h' | h'
    · exact h'
    · rw [List.getElem?_eq_none h'] at ht; cases ht
  cases p with
  | nil => exact absurd rfl hp
  | cons f p =>
    have hf := hu f List.mem_cons_self
    have hp' : ∀ g ∈ p, unwinding g = true := fun g hg => hu g (List.mem_cons_of_mem _ hg)
    have fin : ∀ q : List (Frame K), (∀ g ∈ q, unwinding g = true) → s'.objs = s.objs →
        s'.thr = s.thr.set t (q ++ (p ++ rest)) →
        s'.objs = s.objs ∧ ∃ p', (∀ g ∈ p', unwinding g = true) ∧ s'.thr[t]? = some (p' ++ rest) := by
      intro q hq ho hthr
      refine ⟨ho, q ++ p, fun g hg => ?_, by rw [hthr, List.getElem?_set_self hlt, List.append_assoc]⟩
      rcases List.mem_append.1 hg with hg | hg
      · exact hq g hg
      · exact hp' g hg
    simp only [step, ht, List.cons_append] at hst
    cases f with
    | insFail c e loc =>
      cases a <;> cases hst
      refine fin (loc.map .rel ++ [.insUnwind c]) ?_ rfl (by simp)
      intro g hg
      rcases List.mem_append.1 hg with hg | hg
      · obtain ⟨w, _, rfl⟩ := List.mem_map.1 hg
        rfl
      · rw [List.mem_singleton.1 hg]
        rfl
    | insUnwind c =>
      cases a <;> try cases hst
      simp only [act, lib] at hst
      split at hst <;> cases hst
      exact fin [] (by simp) rfl rfl
    | rel w =>
      cases a <;> try cases hst
      simp only [act, lib] at hst
      repeat' split at hst
      all_goals cases hst
      · exact fin [_] (by simp [unwinding]) rfl rfl
      · exact fin [_] (by simp [unwinding]) rfl rfl
      · exact fin [_] (by simp [unwinding]) rfl rfl
    | relLock w =>
      cases a <;> try cases hst
      simp only [act, lib] at hst
      split at hst <;> cases hst
      exact fin [_] (by simp [unwinding]) rfl rfl
    | relCheck w =>
      cases a <;> try cases hst
      simp only [act, lib] at hst
      split at hst <;> cases hst
      exact fin [_] (by simp [unwinding]) rfl rfl
    | relUnlock w =>
      cases a <;> try cases hst
      simp only [act, lib] at hst
      split at hst <;> cases hst
      exact fin [_] (by simp [unwinding]) rfl rfl
    | relDec w =>
      cases a <;> try cases hst
      simp only [act, lib] at hst
      split at hst <;> cases hst
      exact fin [] (by simp) rfl rfl
    | _ => cases hf

/-- An insertion that gets access to an entry without a value calls the value constructor for
it, whoever has left it there; when the constructor returns, the value exists and the
insertion has a handle to it. -/
theorem C27_repair {cfg : Cfg K} (h : CfgOk cfg) {n : Nat} {gcs : List Nat} {acts : List (Nat × Act K)} {s : St K}
    (hs : exec cfg acts (start n gcs) = .ok s) {t c e : Nat} {k : K} {loc : List (Fw K)} {pre : Bool}
    {rest : List (Frame K)} (ht : s.thr[t]? = some (.insFind c k loc pre :: rest))
    (hre : rest.any (userOf c) = false) {x : Ent K} (hx : s.ents e = some x)
    (hxc : x.core = c) (hk : cfg.eqv c x.key k = true) (hc : x.cted = false) (hv : s.vis e = none) :
    ∃ s1, exec cfg [(t, .run), (t, .run)] s = .ok s1 ∧ s1.thr[t]? = some (.insUser c k e loc :: rest) ∧
      s1.ents = s.ents ∧ s1.objs = s.objs ∧
      ∀ mask, ∃ s2 y, exec cfg [(t, .finish mask false), (t, .run), (t, .run)] s1 = .ok s2 ∧
        s2.thr[t]? = some (.insLeave c k e loc :: rest) ∧
        s2.ents e = some y ∧ y.cted = true ∧ y.key = x.key ∧ e ∈ handles s2 := by
  have hi := exec_inv h hs
  have hlt : t < s.thr.length := by
    rcases Nat.lt_or_ge t s.thr.length with h' | h'
    · exact h'
    · rw [List.getElem?_eq_none h'] at ht; cases ht
  have hf : find cfg s c k = some e := by
    cases hf : find cfg s c k with
    | some e' =>
      obtain ⟨y, hy, h1, h2⟩ := find_some hf
      refine congrArg some (hi.core.uniq _ _ y x hy hx (by rw [h1, hxc]) ?_)
      rw [h1]
      exact h.trans _ _ _ _ h2 (h.symm _ _ _ hk)
    | none => exact absurd hk (by simpa using find_none hi.core.bound hf e x hx hxc)
  have run : ∀ (r : St K) f l, r.thr[t]? = some (f :: l) → step cfg r t .run = lib cfg r t f l := by
    intro r f l hr
    simp only [step, hr, act]
  have two : ∀ (l : List (List (Frame K))) (a b : List (Frame K)), (l.set t a).set t b = l.set t b := by
    intro l a b
    simp
  let v := setVis s.vis e (some t)
  let s0 : St K := { s with vis := v, thr := s.thr.set t (.insVisit c k e loc :: rest) }
  let s1 : St K := { s with vis := v, thr := s.thr.set t (.insUser c k e loc :: rest) }
  have e0 : step cfg s t .run = .ok s0 := by
    rw [run s _ _ ht]
    simp only [lib, hre, hf, hv, if_true, Bool.false_eq_true, if_false]
    rfl
  have e1 : step cfg s0 t .run = .ok s1 := by
    rw [run s0 _ _ (List.getElem?_set_self hlt)]
    simp only [lib, s0, hx, hc, two, Bool.false_eq_true, if_false]
    rfl
  refine ⟨s1, by simp only [exec, e0, e1], List.getElem?_set_self hlt, rfl, rfl, fun mask => ?_⟩
  let y2 : Ent K := { x with cted := false, kids := x.kids ++ (pick mask s.objs).1 }
  let s2 : St K := { s with
    ents := setEnt s.ents e (some y2)
    vis := v
    objs := (pick mask s.objs).2
    thr := s.thr.set t (.insDone c k e loc :: rest) }
  let y3 : Ent K := { y2 with cted := true }
  let s3 : St K := { s2 with
    ents := setEnt s2.ents e (some y3)
    thr := s.thr.set t (.insAddRef c k e loc :: rest) }
  let y4 : Ent K := { y3 with ref := x.ref + 1 }
  let s4 : St K := { s3 with
    ents := setEnt s3.ents e (some y4)
    thr := s.thr.set t (.insLeave c k e loc :: rest) }
  have e2 : step cfg s1 t (.finish mask false) = .ok s2 := by
    simp only [step, s1, List.getElem?_set_self hlt, act, hx, hc, two, Bool.false_eq_true, if_false]
    rfl
  have e3 : step cfg s2 t .run = .ok s3 := by
    rw [run s2 _ _ (List.getElem?_set_self hlt)]
    simp only [lib, s2, setEnt_same, two]
    rfl
  have e4 : step cfg s3 t .run = .ok s4 := by
    rw [run s3 _ _ (List.getElem?_set_self hlt)]
    simp only [lib, s3, setEnt_same, two]
    rfl
  refine ⟨s4, y4, by simp only [exec, e2, e3, e4], List.getElem?_set_self hlt, setEnt_same _ _ _, rfl, rfl, ?_⟩
  refine List.mem_append.2 (.inr (List.mem_flatMap.2 ⟨.insLeave c k e loc, ?_, List.mem_cons_self⟩))
  exact List.mem_flatten.2 ⟨.insLeave c k e loc :: rest, List.mem_of_getElem? (List.getElem?_set_self hlt),
    List.mem_cons_self⟩

/-- An entry that has no value throughout a pass of the collector is gone after it. -/
theorem C27_collected {cfg : Cfg K} (h : CfgOk cfg) {n : Nat} {gcs : List Nat} {acts more : List (Nat × Act K)}
    {s s1 s2 : St K} (hs : exec cfg acts (start n gcs) = .ok s) {t c : Nat} (ht : s.thr[t]? = some [.gcIdle c])
    (h1 : step cfg s t .run = .ok s1) {e : Nat} {x : Ent K} (hx : s.ents e = some x) (hc : x.core = c)
    (h2 : exec cfg more s1 = .ok s2)
    (hno : ∀ i r y, exec cfg (more.take i) s1 = .ok r → r.ents e = some y → y.cted = false)
    (hend : s2.thr[t]? = some [.gcIdle c]) : s2.ents e = none := by
  refine C26_reclaim h hs ht h1 hx hc h2 (fun i r hr he => ?_) hend
  have hr' : exec cfg (acts ++ (t, .run) :: more.take i) (start n gcs) = .ok r := by
    have app : ∀ (l l' : List (Nat × Act K)) (a b : St K), exec cfg l a = .ok b → exec cfg (l ++ l') a = exec cfg l' b := by
      intro l l'
      induction l with
      | nil => intro a b hab; cases hab; rfl
      | cons p l ih =>
        intro a b hab
        obtain ⟨u, q⟩ := p
        simp only [exec, List.cons_append] at hab ⊢
        cases hst : step cfg a u q <;> rw [hst] at hab
        · exact ih _ _ hab
        · exact ih _ _ hab
        · cases hab
        · cases hab
    rw [app _ _ _ _ hs]
    simp only [exec, h1]
    exact hr
  obtain ⟨y, hy, hyc⟩ := C25_live h hr' he
  rw [hno i r y hr hy] at hyc
  cases hyc

/-- The constructor for key 5 throws on thread 0, while thread 1 waits for access to the entry;
the entry stays behind without a value, thread 1 constructs it. In the second run, the
collector is faster. -/
example :
    let fail := (0, .create 0 5 [] false) :: (1, .create 0 5 [] false) :: CF.runs 4 0 ++ CF.runs 4 1 ++
      (0, .throw_) :: CF.runs 2 0
    CF.seen (exec CF.untracked fail (start 2 [0])) = some ([], [some (5, 0, false)], [0, 1, 1]) ∧
    CF.seen (exec CF.untracked (fail ++ CF.runs 2 1 ++ (1, .finish [] false) :: CF.runs 5 1) (start 2 [0])) =
      some ([0], [some (5, 1, true)], [0, 0, 1]) ∧
    CF.seen (exec CF.untracked (fail ++ CF.pass 2 [0] ++ CF.runs 2 1 ++ (1, .finish [] false) :: CF.runs 5 1) (start 2 [0])) =
      some ([1], [none, some (5, 1, true)], [0, 0, 1]) := ⟨rfl, rfl, rfl⟩

/-! ## C28 -/

namespace Stop
open Verif.CStop

/-- The states that the owner and the collector can get into.  (No code of its own: used to
state a property or an example.) -/
def Reached (s : CStop.St) : Prop := ∃ acts, CStop.exec members acts (CStop.start members) = .ok s

theorem Reached.inv {s : CStop.St} (h : Reached s) : CStop.Inv s := by
  obtain ⟨acts, h⟩ := h
  have := CStop.exec_good CStop.start_inv acts
  rwa [h] at this

theorem Reached.step {s s' : CStop.St} (h : Reached s) {a : CStop.Act} (hs : CStop.step members s a = .ok s') :
    Reached s' := by
  obtain ⟨acts, h⟩ := h
  refine ⟨acts ++ [a], ?_⟩
  have app : ∀ (l : List CStop.Act) (r : CStop.St), CStop.exec members l r = .ok s →
      CStop.exec members (l ++ [a]) r = .ok s' := by
    intro l
    induction l with
    | nil =>
      intro r hr
      cases hr
      simp only [List.nil_append, CStop.exec, hs]
    | cons b l ih =>
      intro r hr
      simp only [List.cons_append, CStop.exec] at hr ⊢
      cases hb : CStop.step members r b <;> rw [hb] at hr
      · exact ih _ hr
      · exact ih _ hr
      · cases hr
  exact app _ _ h

/-- The value of `stop` has been set, as the owner sees it.  (No code of its own: used to state
a property or an example.) -/
def stopSet (s : CStop.St) : Prop :=
  s.o = .dUnlock ∨ s.o = .dNotify ∨ s.o = .dJoin ∨ (∃ l, s.o = .fini l) ∨ s.o = .over

theorem stopSet_iff (s : CStop.St) : stopSet s ↔ stopped s.o = true := by
  obtain ⟨_, _, _, o, _⟩ := s
  cases o <;> simp [stopSet, stopped]

end Stop

/-- **C28.**  Neither the owner of a factory nor its collector ever uses a member that has not been
initialised or has been destroyed, in any interleaving with time-outs and spurious
wake-ups; neither is a mutex destroyed while it is locked, a condition variable while it
is waited on, or a thread object while it is joinable. -/
theorem C28_no_ub (acts : List CStop.Act) : CStop.exec CStop.members acts (CStop.start CStop.members) ≠ .ub := by
  intro hu
  have := CStop.exec_good CStop.start_inv acts
  rw [hu] at this
  exact this

/-- While the collector thread exists, all members do. -/
theorem C28_members {s : CStop.St} (h : Stop.Reached s) (h1 : s.g ≠ .off) (h2 : s.g ≠ .done) (x : CStop.Member) :
    s.live x = true := (h.inv.alive h1 h2).2.2 x

/-- Members are destroyed in the reverse order of their construction, which is that of their declaration: if one exists then so
do all that are declared before it. -/
theorem C28_order {s : CStop.St} (h : Stop.Reached s) {x y : CStop.Member} (hx : s.live y = true)
    (hxy : [x, y].Sublist [CStop.Member.cont, .m, .cv, .stop, .gc]) : s.live x = true := by
  have hi := h.inv
  obtain ⟨acts, hr⟩ := h
  have ht := CStop.exec_tail acts CStop.start_inv CStop.start_tail hr
  cases hc : CStop.ctor s.o with
  | true =>
    cases ho : s.o with
    | init todo =>
      obtain ⟨pre, h1, h2⟩ := hi.ctor todo ho
      rw [h2] at hx ⊢
      have : (CStop.members.take pre.length) = pre := by rw [h1]; simp
      rw [← this] at hx ⊢
      clear this h1 h2
      rcases pre with _ | ⟨a, _ | ⟨b, _ | ⟨c, _ | ⟨d, _ | ⟨e, pre⟩⟩⟩⟩⟩ <;> revert hx hxy <;> cases x <;> cases y <;>
        simp [CStop.members] <;> decide
    | _ => rw [ho] at hc; cases hc
  | false =>
    cases hv : CStop.over s.o with
    | false => exact hi.live hc hv x
    | true =>
      cases ho : s.o with
      | over => rw [ht.2 ho y] at hx; cases hx
      | fini l =>
        obtain ⟨pre, h1, h2⟩ := ht.1 l ho
        rw [h2] at hx ⊢
        have : CStop.members.reverse.drop pre.length = l := by rw [h1]; simp
        rw [← this] at hx ⊢
        clear this h1 h2
        rcases pre with _ | ⟨a, _ | ⟨b, _ | ⟨c, _ | ⟨d, _ | ⟨e, pre⟩⟩⟩⟩⟩ <;> revert hx hxy <;> cases x <;> cases y <;>
          simp [CStop.members] <;> decide
      | _ => rw [ho] at hv; cases hv

/-- Everything but the thread and `stop` exists when `stop` has just been destroyed. -/
example : ∃ s, Stop.Reached s ∧ s.o = .fini [.cv, .m, .cont] ∧ s.live .cv = true ∧ s.live .stop = false ∧ s.live .m = true := by
  refine ⟨_, ⟨List.replicate 11 .own ++ [.run 0, .run 0, .run 0] ++ List.replicate 3 .own, rfl⟩, rfl, rfl, rfl, ?_⟩
  exact C28_order (y := .cv) ⟨List.replicate 11 .own ++ [.run 0, .run 0, .run 0] ++ List.replicate 3 .own, rfl⟩ rfl (by decide)

/-- In the end all members have been destroyed. -/
theorem C28_gone {s : CStop.St} (h : Stop.Reached s) (ho : s.o = .over) (x : CStop.Member) : s.live x = false := by
  obtain ⟨acts, hr⟩ := h
  exact (CStop.exec_tail acts CStop.start_inv CStop.start_tail hr).2 ho x

example : ∃ s, Stop.Reached s ∧ s.o = .over ∧ s.live .cont = false := by
  refine ⟨_, ⟨List.replicate 11 .own ++ [.run 0, .run 0, .run 0] ++ List.replicate 7 .own, rfl⟩, rfl, ?_⟩
  exact C28_gone ⟨List.replicate 11 .own ++ [.run 0, .run 0, .run 0] ++ List.replicate 7 .own, rfl⟩ rfl .cont

/-- The collector is notified by the destructor only, after it has set `stop`; before that only time-outs and spurious wake-ups
make it look for unreferenced entries. -/
theorem C28_notified {s s' : CStop.St} (h : Stop.Reached s) (hs : CStop.step CStop.members s .notified = .ok s') :
    s.o = .dJoin ∧ s.flag = true := by
  have hi := h.inv
  have hg : s.g = .wait true := by
    simp only [CStop.step] at hs
    split at hs
    · assumption
    · cases hs
  have ho : s.o = .dJoin := by
    obtain ⟨acts, hr⟩ := h
    suffices key : ∀ (acts : List CStop.Act) (r : CStop.St), CStop.Inv r → (r.g = .wait true → r.o = .dJoin) →
        CStop.exec CStop.members acts r = .ok s → s.o = .dJoin from
      key acts _ CStop.start_inv (fun h => (nomatch h)) hr
    intro acts
    induction acts with
    | nil => intro r _ h1 h2; cases h2; exact h1 hg
    | cons a l ih =>
      intro r hi h1 h2
      have hgood := CStop.step_good hi a
      unfold CStop.exec at h2
      cases hst : CStop.step CStop.members r a with
      | ub => rw [hst] at h2; cases h2
      | no => rw [hst] at h2; exact ih r hi h1 h2
      | ok r' =>
        rw [hst] at h2 hgood
        refine ih r' hgood (fun h3 => ?_) h2
        have hfini := hi.fini
        cases a <;> simp only [CStop.step, CStop.own, CStop.gc] at hst <;> repeat' split at hst
        all_goals cases hst
        all_goals first | (cases h3; done) | skip
        all_goals grind [CStop.over]
  refine ⟨ho, ?_⟩
  rw [hi.flag ((hi.alive (by rw [hg]; simp) (by rw [hg]; simp)).2.2 .stop) (by rw [ho]; rfl), ho]
  rfl

/-- The destructor notifies the waiting collector. -/
example : ∃ s s', Stop.Reached s ∧ CStop.step CStop.members s .notified = .ok s' :=
  ⟨_, _, ⟨List.replicate 6 .own ++ [.run 0, .run 0] ++ List.replicate 5 .own, rfl⟩, rfl⟩

/-- After `join` has returned the collector does nothing any more. -/
theorem C28_joined {s : CStop.St} (h : Stop.Reached s) (hj : (∃ l, s.o = .fini l) ∨ s.o = .over) :
    s.g = .done ∧ ∀ a, a ≠ .own → CStop.step CStop.members s a = .no := by
  have hg : s.g = .done := h.inv.fini (by rcases hj with ⟨l, hl⟩ | hl <;> simp [hl, CStop.over])
  refine ⟨hg, fun a ha => ?_⟩
  cases a with
  | own => exact absurd rfl ha
  | run n => simp [CStop.step, CStop.gc, hg]
  | notified => simp [CStop.step, hg]
  | timeout => simp [CStop.step, hg]
  | spurious => simp [CStop.step, hg]

/-- Until everything is over a step is possible, without relying on time-outs or
spurious wake-ups ... -/
theorem C28_progress {s : CStop.St} (h : Stop.Reached s) (hne : s.o ≠ .over) :
    ∃ a s', (a = .own ∨ a = .run 0 ∨ a = .notified) ∧ CStop.step CStop.members s a = .ok s' :=
  CStop.progress h.inv hne

/-- ... and once the destructor has set `stop` there is no infinite execution: the
destructor and the collector come to an end. -/
theorem C28_terminates (f : Nat → CStop.St) (h0 : Stop.Reached (f 0)) (hst : Stop.stopSet (f 0)) :
    ¬ ∀ i, ∃ a, CStop.step CStop.members (f i) a = .ok (f (i + 1)) := by
  intro hf
  have wf : WellFounded (Prod.Lex (α := Nat) (β := Nat) (· < ·) (· < ·)) :=
    (Prod.lex ⟨(· < ·), Nat.lt_wfRel.wf⟩ ⟨(· < ·), Nat.lt_wfRel.wf⟩).wf
  have all : ∀ i, Stop.Reached (f i) ∧ CStop.stopped (f i).o = true := by
    intro i
    induction i with
    | zero => exact ⟨h0, (Stop.stopSet_iff _).1 hst⟩
    | succ i ih =>
      obtain ⟨a, ha⟩ := hf i
      exact ⟨ih.1.step ha, (CStop.step_rank ih.1.inv ih.2 ha).2⟩
  have : ∀ p, ∀ i, CStop.rank (f i) = p → False := by
    intro p
    induction p using wf.induction with
    | _ p ih =>
      intro i hp
      obtain ⟨a, ha⟩ := hf i
      have := (CStop.step_rank (all i).1.inv (all i).2 ha).1
      rw [hp] at this
      exact ih _ this (i + 1) rfl
  exact this _ 0 rfl

/-- Before that, the destructor waits for the mutex only while the collector holds it,
which it releases after at most two steps. -/
theorem C28_lock {s : CStop.St} (h : Stop.Reached s) (ho : s.o = .dLock) (hno : CStop.step CStop.members s .own = .no) (n : Nat) :
    ∃ m s', m ≤ 2 ∧ CStop.exec CStop.members (List.replicate m (.run n)) s = .ok s' ∧ s'.o = .dLock ∧ s'.held = none := by
  have hi := h.inv
  have hl := hi.live (by rw [ho]; rfl) (by rw [ho]; rfl)
  have hfl : s.flag = false := by rw [hi.flag (hl _) (by rw [ho]; rfl), ho]; rfl
  have hgh := hi.gheld
  have hoh := hi.oheld
  obtain ⟨live, flag, held, o, g⟩ := s
  dsimp only at *
  subst ho hfl
  have hheld : held = some true := by
    rcases held with _ | _ | _
    · simp [CStop.step, CStop.own, hl] at hno
    · simp [CStop.oHolds] at hoh
    · rfl
  subst hheld
  have hgg := hgh.1 rfl
  cases g with
  | test b =>
    cases b
    · exact ⟨1, _, by omega, by simp [CStop.exec, CStop.step, CStop.gc, hl]; rfl, rfl, rfl⟩
    · exact ⟨2, _, by omega, by simp [List.replicate, CStop.exec, CStop.step, CStop.gc, hl]; rfl, rfl, rfl⟩
  | unlock b => exact ⟨1, _, by omega, by simp [CStop.exec, CStop.step, CStop.gc, hl]; rfl, rfl, rfl⟩
  | _ => cases hgg

/-- The collector returns at its next wake-up at the latest: if it wakes up when `stop` has been
set and the mutex released, it takes the mutex, sees `stop`, releases the mutex and returns ... -/
theorem C28_wakeup {s : CStop.St} (h : Stop.Reached s) (hst : Stop.stopSet s) (hno : s.o ≠ .dUnlock) {b : Bool}
    (hg : s.g = .wake b) (n : Nat) :
    ∃ s', CStop.exec CStop.members [.run n, .run n, .run n] s = .ok s' ∧ s'.g = .done := by
  have hi := h.inv
  obtain ⟨_, h2, h3⟩ := hi.alive (by rw [hg]; simp) (by rw [hg]; simp)
  have hfl : s.flag = true := by rw [hi.flag (h3 _) h2, (Stop.stopSet_iff s).1 hst]
  have hgh := hi.gheld
  have hoh := hi.oheld
  rw [Stop.stopSet_iff] at hst
  obtain ⟨live, flag, held, o, g⟩ := s
  dsimp only at *
  subst hg hfl
  have hheld : held = none := by
    rcases held with _ | _ | _
    · rfl
    · have := hoh.1 rfl
      cases o <;> first | (exact absurd rfl hno) | (cases this; done) | cases hst
    · exact absurd (hgh.1 rfl) (by simp [CStop.gHolds])
  subst hheld
  exact ⟨_, by simp [CStop.exec, CStop.step, CStop.gc, h3]; rfl, rfl⟩

/-- ... and no pass begins after the collector has seen `stop` or if it has yet to look: only a
pass already decided upon is carried out. -/
theorem C28_no_new_pass {s s' : CStop.St} (h : Stop.Reached s) (hst : Stop.stopSet s)
    (hg : s.g ≠ .unlock false ∧ ∀ k, s.g ≠ .erase k) {a : CStop.Act} (hs : CStop.step CStop.members s a = .ok s') :
    s'.g ≠ .unlock false ∧ ∀ k, s'.g ≠ .erase k := by
  have hi := h.inv
  have hal := hi.alive
  have hflag := hi.flag
  rw [Stop.stopSet_iff] at hst
  rw [hst] at hflag
  obtain ⟨live, flag, held, o, g⟩ := s
  dsimp only at *
  cases a with
  | own =>
    simp only [CStop.step, CStop.own] at hs
    repeat' split at hs
    all_goals cases hs
    all_goals first | exact hg | (cases g <;> simp_all) | simp
  | run n =>
    simp only [CStop.step] at hs
    cases g with
    | test b =>
      obtain ⟨_, b2, c⟩ := hal (by simp) (by simp)
      simp [CStop.gc, c, hflag (c _) b2] at hs
      cases hs
      simp
    | unlock b =>
      cases b
      · exact absurd rfl hg.1
      · simp only [CStop.gc] at hs
        split at hs <;> cases hs
        simp
    | erase k => exact absurd rfl (hg.2 k)
    | _ =>
      simp only [CStop.gc] at hs
      repeat' split at hs
      all_goals cases hs
      all_goals simp
  | _ =>
    simp only [CStop.step] at hs
    repeat' split at hs
    all_goals cases hs
    all_goals simp

/-- The order of the members matters: were `gc` declared before the others, the collector might
use the mutex before it is constructed. -/
theorem C28_order_needed : CStop.exec [.gc, .cont, .m, .cv, .stop] [.own, .run 0]
    (CStop.start [.gc, .cont, .m, .cv, .stop]) = .ub := by rfl

/-- The collector times out, makes a pass over three elements, during which the destructor sets
`stop`, goes through the loop again and returns; or it is woken up by the notification. -/
example :
    let acts : List CStop.Act := List.replicate 6 .own ++ [.run 0, .run 0, .timeout, .run 0, .run 0, .run 3]
    (∃ s, CStop.exec CStop.members (acts ++ [.own, .own, .own, .own, .own, .own] ++ List.replicate 4 (.run 0) ++
      List.replicate 3 (.run 0)) (CStop.start CStop.members) = .ok s ∧ s.o = .dJoin ∧ s.g = .done) ∧
    (∃ s, CStop.exec CStop.members (acts ++ List.replicate 6 (.run 0) ++ [.own, .own, .own, .own, .own, .notified] ++
      List.replicate 3 (.run 0) ++ List.replicate 7 .own) (CStop.start CStop.members) = .ok s ∧ s.o = .over) :=
  ⟨⟨_, rfl, rfl, rfl⟩, _, rfl, rfl⟩

/-! ## C40 -/

/-- Thread `t` can do nothing at all.  (No code of its own: used to state a property or an
example.) -/
def Stuck (cfg : Cfg K) (s : St K) (t : Nat) : Prop := ∀ a, step cfg s t a = .no

/-- Objects: key 1, and key 2 containing it, both destroyed; the collector has begun to
destroy the entry of key 2, while thread 0 creates it again.  (No code of its own: used to state
a property or an example.) -/
def lockOrder : List (Nat × Act Nat) :=
  CF.make 0 0 1 [] ++ CF.make 0 0 2 [true] ++ (0, .destroy [true]) :: CF.runs 9 0 ++
    (1, .run) :: (1, .gcVisit 1) :: CF.runs 2 1 ++ (0, .create 0 2 [] true) :: CF.runs 2 0 ++ CF.runs 1 1

/-- **C40, violated as stated.**  With `refcounted` and `simple_locking`, and values that contain
flyweights of the same type, the collector and a thread that creates a flyweight can
wait for each other forever. -/
theorem C40_deadlock : ∃ s, exec CF.tracked lockOrder (start 1 [0]) = .ok s ∧
    s.thr = [[.insFind 0 2 [] true], [.relLock ⟨0, 0, 1⟩, .gcUnlink 0 1, .gcPass 0 2 [0]]] ∧
    s.lock 0 = some (0, 1) ∧ s.vis 1 = some 1 ∧ ∀ t, Stuck CF.tracked s t := by
  refine ⟨_, rfl, rfl, rfl, rfl, fun t a => ?_⟩
  match t with
  | 0 => cases a <;> rfl
  | 1 => cases a <;> rfl
  | _ + 2 => rfl

/-- The same whatever the type, its keys and their equivalence: if values contain flyweights of their own type, two keys that
are not equivalent are enough. -/
theorem C40_deadlock_any {cfg : Cfg K} (h : CfgOk cfg) (hl : cfg.locking = true) (ht : cfg.tracks = true) (c : Nat) (k l : K)
    (hk : cfg.eqv c k l = false) : ∃ s, exec cfg (lockOrderOf c k l) (start 1 [c]) = .ok s ∧ ∀ t, Stuck cfg s t := by
  refine ⟨⟨fun i => if i = 0 then some ⟨c, k, true, [], 1, 0⟩ else if i = 1 then some ⟨c, l, false, [], 0, 0⟩ else none, 2,
        fun i => if i = 1 then some 1 else none, fun i => if i = c then some (0, 1) else none,
        [[.insFind c l [] true], [.relLock ⟨0, c, k⟩, .gcUnlink c 1, .gcPass c 2 [0]]], []⟩, ?_, ?_⟩
  · unfold lockOrderOf
    rw [exec_append_ok (phaseA hl ht c k), exec_append_ok (phaseB hl ht c k l hk), exec_append_ok (phaseC hl ht c k l),
      exec_append_ok (phaseD hl ht c k l)]
    exact phaseE hl ht c k l
  · obtain ⟨eqv, locking, deleter⟩ := cfg
    obtain rfl : locking = true := hl
    have hk' : eqv c k l = false := hk
    have hr : eqv c l l = true := h.refl c l
    intro t a
    match t with
    | 0 => cases a <;> simp [step, act, lib, inUser, find, List.range_succ, hk', hr]
    | 1 => cases a <;> simp [step, act, lib, inUser, Conc.acquire]
    | _ + 2 => rfl

/-- It is the same program; with numbers as keys, for type 3. -/
example : lockOrderOf 0 1 2 = lockOrder := rfl

example := C40_deadlock_any CF.trackedOk rfl rfl 3 10 11 rfl

/-- Nor is a type that contains itself needed: two types containing each other, their collectors and two threads can all
wait for one another. -/
theorem C40_deadlock_two : ∃ s, exec CF.tracked
    (CF.make 0 0 1 [] ++ CF.make 0 1 2 [true] ++ CF.make 0 1 3 [] ++ CF.make 0 0 4 [true] ++ (0, .destroy [true, true]) :: CF.runs 10 0 ++
      (2, .run) :: (2, .gcVisit 3) :: CF.runs 2 2 ++ (3, .run) :: (3, .gcVisit 1) :: CF.runs 2 3 ++
      (0, .create 0 4 [] true) :: CF.runs 2 0 ++ (1, .create 1 2 [] true) :: CF.runs 2 1 ++ [(2, .run), (3, .run)]) (start 2 [0, 1]) = .ok s ∧
    (s.thr.map fun st => st.head?) = [some (.insFind 0 4 [] true), some (.insFind 1 2 [] true), some (.relLock ⟨2, 1, 3⟩),
      some (.relLock ⟨0, 0, 1⟩)] ∧ ∀ t, Stuck CF.tracked s t := by
  refine ⟨_, rfl, rfl, fun t a => ?_⟩
  match t with
  | 0 => cases a <;> rfl
  | 1 => cases a <;> rfl
  | 2 => cases a <;> rfl
  | 3 => cases a <;> rfl
  | _ + 4 => rfl

/-- The rest of C40.  Let `calls c c'` tell that value constructors of type `c` may create
flyweights of type `c'`, and `has c c'` that values of type `c` may contain (or their
constructors destroy) flyweights of type `c'`.  If the former, and for `refcounted` and
`simple_locking` the two together, have no cycles (not even from a type to itself), then
each blocked thread waits, directly or through others, for a thread that is not blocked. -/
theorem C40_no_deadlock_partial {cfg : Cfg K} (h : CfgOk cfg) {calls has : Nat → Nat → Prop}
    (hwf : WellFounded fun a b => Order cfg calls has b a) {n : Nat} {gcs : List Nat} {s : St K}
    (hs : Reachable cfg calls has n gcs s) {t : Nat} (hb : Blocked cfg s t) :
    ∃ t', t' < n + gcs.length ∧ TransGen (MayWait cfg s) t t' ∧ ¬ Blocked cfg s t' := by
  obtain ⟨h1, h2, h3⟩ := hs.inv h
  have wf := mayWait_wf h1 h2 hs.noChk hwf
  induction t using wf.induction with
  | _ t ih =>
    obtain ⟨t', ht'⟩ := hb.mayWait h1 h2 h3 hwf
    by_cases hb' : Blocked cfg s t'
    · obtain ⟨t'', h0, h4, h5⟩ := ih t' ht' hb'
      exact ⟨t'', h0, .head ht' h4, h5⟩
    · exact ⟨t', MayWait.real hs h1 (.single ht'), .single ht', hb'⟩

/-- Value constructors that create flyweights of each other's types along a cycle of two or more types must be excluded whatever the
policies: as many threads can get to wait for each other in a circle, and can never do anything again, whatever the collectors do. -/
theorem C40_needed {cfg : Cfg K} (h : CfgOk cfg) {calls has : Nat → Nat → Prop} {n : Nat} (hn : 2 ≤ n) (gcs : List Nat) (ty : Nat → Nat)
    (hinj : ∀ i j, i < n → j < n → ty i = ty j → i = j) (hcall : ∀ i, i < n → calls (ty i) (ty ((i + 1) % n))) (k : K) :
    ∃ s, Reachable cfg calls has n gcs s ∧ (∀ t, t < n → Blocked cfg s t ∧ MayWait cfg s t ((t + 1) % n)) ∧
      ∀ acts s', exec cfg acts s = .ok s' → ∀ t, t < n → Stuck cfg s' t := by
  obtain ⟨s, hr, hb⟩ := all_begun (calls := calls) (has := has) (gcs := gcs) h hinj k n (Nat.le_refl _)
  obtain ⟨s', h1, h2, h2', h2'', h3, h4, h5⟩ := all_ask hcall k hr hb n (Nat.le_refl _)
  have hnext : ∀ t, t < n → (t + 1) % n < n ∧ t ≠ (t + 1) % n := by
    intro t ht
    refine ⟨Nat.mod_lt _ (by omega), ?_⟩
    by_cases htn : t + 1 = n
    · rw [htn, Nat.mod_self]
      omega
    · rw [Nat.mod_eq_of_lt (by omega)]
      omega
  have hne : ∀ t, t < n → ty t ≠ ty ((t + 1) % n) := fun t ht he => (hnext t ht).2 (hinj _ _ ht (hnext t ht).1 he)
  have hself : Halted n s' s' := ⟨rfl, rfl, rfl, rfl, fun _ _ => rfl, fun t ht => by
    rw [h5 t ht]
    rcases hb.gcs t ht with h6 | ⟨c, h6⟩
    · exact .inl h6
    · exact .inr ⟨c, .inl h6⟩⟩
  have hlock : cfg.locking = true → ∀ t, t < n → s'.lock (ty ((t + 1) % n)) = some ((t + 1) % n, 1) := fun hl t ht => by
    rw [h2]
    exact hb.held hl _ (hnext t ht).1
  have hst : ∀ s'', Halted n s' s'' → ∀ t, t < n → Stuck cfg s'' t := by
    intro s'' hh t ht a
    obtain ⟨hn1, hn2⟩ := hnext t ht
    obtain ⟨e, he⟩ := h4 t ht
    rw [← hh.thr t ht] at he
    cases hl : cfg.locking with
    | true =>
      rw [hl] at he
      have ha : Conc.acquire cfg s''.lock t (ty ((t + 1) % n)) = none := by
        rw [hh.lock]
        simp [Conc.acquire, hl, hlock hl t ht, hn2.symm]
      cases a with
      | run => simp [step, he, act, lib, ha]
      | _ => simp [step, he, act, inUser]
    | false =>
      rw [hl] at he
      obtain ⟨e', _, hv, x, hx, hx1, hx2⟩ := hb.busy _ hn1
      cases hf : find cfg s'' (ty ((t + 1) % n)) k with
      | none =>
        have := find_none (s := s'') (by rw [hh.ents, hh.next]; exact (h1.inv h).1.core.bound) hf e' x (by rw [hh.ents, h2']; exact hx) hx1
        rw [hx2, h.refl] at this
        cases this
      | some e1 =>
        obtain ⟨y, hy, hy1, _⟩ := find_some hf
        obtain ⟨t1, _, _, hv1⟩ := hb.ents e1 y (by rw [← h2', ← hh.ents]; exact hy)
        have hv1' : s''.vis e1 = some t1 := by rw [hh.vis, h2'']; exact hv1
        cases a with
        | run => simp [step, he, act, lib, userOf, hne t ht, hf, hv1']
        | throw_ => simp [step, he, act, hf, hv1']
        | _ => simp [step, he, act, inUser]
  refine ⟨s', h1, fun t ht => ?_, fun acts s'' he => hst s'' (hself.exec ?_ hst he)⟩
  · obtain ⟨hn1, hn2⟩ := hnext t ht
    obtain ⟨e, he⟩ := h4 t ht
    cases hl : cfg.locking with
    | true =>
      rw [hl] at he
      exact ⟨⟨_, he, rfl, hst _ hself t ht _, fun _ => hst _ hself t ht _⟩, hn2, .inl ⟨hl, _, 1, .inl ⟨k, [], false, _, he⟩, hlock hl t ht⟩⟩
    | false =>
      rw [hl] at he
      obtain ⟨e', _, hv, x, hx, hx1, _⟩ := hb.busy _ hn1
      exact ⟨⟨_, he, rfl, hst _ hself t ht _, fun _ => hst _ hself t ht _⟩, hn2, .inr ⟨_, .inl ⟨k, [], false, _, he⟩, e', x,
        by rw [h2'']; exact hv, by rw [h2']; exact hx, hx1⟩⟩
  · intro e x hx
    obtain ⟨t1, _, _, hv1⟩ := hb.ents e x (by rw [← h2']; exact hx)
    rw [h2'', hv1]
    simp

/-- Three types, with all their collectors; with and without tracking and locking. -/
example := C40_needed CF.trackedOk (calls := fun c c' => c' = (c + 1) % 3) (has := fun _ _ => False) (n := 3) (by decide) [0, 1, 2] id
  (fun _ _ _ _ h => h) (fun _ _ => rfl) 7

example := C40_needed (CF.with_ok false false)
  (calls := fun c c' => c' = (c + 1) % 3) (has := fun _ _ => False) (n := 3) (by decide) [0, 1, 2] id (fun _ _ _ _ h => h)
  (fun _ _ => rfl) 7

/-- With `refcounted` and `simple_locking` it does not matter whether the types along a cycle use the next in their constructors or contain
it, where `f` says so: with one thread for each type and the collectors of the types that contain the next, all of them can get to wait for
one another. -/
theorem C40_mixed {cfg : Cfg K} (h : CfgOk cfg) (hl : cfg.locking = true) (htr : cfg.tracks = true) {calls has : Nat → Nat → Prop}
    {n : Nat} (hn : 1 ≤ n) (ty : Nat → Nat) (hinj : ∀ i j, i < n → j < n → ty i = ty j → i = j) (f : Nat → Bool)
    (hhas : ∀ i, i < n → f i = true → has (ty i) (ty ((i + 1) % n)))
    (hcall : ∀ i, i < n → f i = false → calls (ty i) (ty ((i + 1) % n)) ∧ ty i ≠ ty ((i + 1) % n))
    (k l : K) (hkl : ∀ i, i < n → cfg.eqv (ty i) k l = false) :
    ∃ s, Reachable cfg calls has n (((List.range n).filter f).map ty) s ∧
      (∀ t, t < n + ((List.range n).filter f).length → Blocked cfg s t) ∧ ∀ t, Stuck cfg s t := by
  let H := (List.range n).filter f
  let a := fun j => ty (H.getD j 0)
  let b := fun j => ty ((H.getD j 0 + 1) % n)
  have hmod : ∀ i, (i + 1) % n < n := fun i => Nat.mod_lt _ (by omega)
  have gd : ∀ j (hj : j < H.length), H.getD j 0 = H[j] := fun j hj => by simp [List.getD, hj]
  have hget : ∀ j, j < H.length → H.getD j 0 < n ∧ f (H.getD j 0) = true := fun j hj => by
    have hm : H.getD j 0 ∈ H := by
      rw [gd j hj]
      exact List.getElem_mem hj
    simpa [H] using hm
  have hnd : H.Nodup := List.Nodup.filter _ List.nodup_range
  have hgi : ∀ i j, i < H.length → j < H.length → H.getD i 0 = H.getD j 0 → i = j := fun i j hi hj he => by
    rw [gd i hi, gd j hj] at he
    exact (List.Nodup.getElem_inj_iff hnd).1 he
  have hgcs : (List.range H.length).map a = H.map ty := by
    refine List.ext_getElem (by simp) fun i h1 h2 => ?_
    have hi : i < H.length := by simpa using h2
    simp only [List.getElem_map, List.getElem_range, a, gd i hi]
  obtain ⟨s1, r1, h1⟩ := all_laid (calls := calls) (has := has) (n := n) h hl htr (by omega) (h := H.length) (a := a) (b := b)
    (fun i j hi hj he => hgi i j hi hj (hinj _ _ (hget i hi).1 (hget j hj).1 he))
    (fun i j hi hj he => hgi i j hi hj (next_inj (hget i hi).1 (hget j hj).1 (hinj _ _ (hmod _) (hmod _) he)))
    (fun i hi => hhas _ (hget i hi).1 (hget i hi).2) (k := k) (l := l)
    (fun i hi => ⟨hkl _ (hget i hi).1, hkl _ (hmod _)⟩) H.length (Nat.le_refl _)
  rw [hgcs] at r1
  obtain ⟨s2, r2, h2⟩ := all_caught htr r1 h1 H.length (Nat.le_refl _)
  obtain ⟨s3, r3, h3, h4, h6, h7, h7', h8, h9, _⟩ := all_take (f := f) h hl hinj (fun j hj => ⟨_, (hget j hj).1, (hget j hj).2, rfl⟩) hkl r2 h2 n
    (Nat.le_refl _)
  have hlen := h2.len
  obtain ⟨s, r, b1, b2, b3, b4, b5, b6⟩ := some_ask hl (fun i hi hfi => (hcall i hi hfi).1) r3 h7' (by omega) n (Nat.le_refl _)
  have wants : ∀ t, t < n → f t = true → s.thr[t]? = some [.insFind (ty t) k [] true] := fun t ht hft => by
    rw [b6 t (.inr hft)]; exact h7 t ht hft
  have user : ∀ t, t < n → ∃ st, s.thr[t]? = some st ∧ inUser st = false ∧ Stuck cfg s t := by
    intro t ht
    cases hft : f t with
    | false =>
      obtain ⟨e, he⟩ := b5 t ht hft
      refine ⟨_, he, rfl, fun a => ?_⟩
      have hne : (t + 1) % n ≠ t := fun he => (hcall t ht hft).2 (by rw [he])
      have ha : Conc.acquire cfg s.lock t (ty ((t + 1) % n)) = none := by
        simp [Conc.acquire, hl, b1, h9 _ (hmod t), hne]
      cases a with
      | run => simp [step, he, act, lib, ha]
      | _ => simp [step, he, act, inUser]
    | true =>
      have he := wants t ht hft
      refine ⟨_, he, rfl, fun a => ?_⟩
      have hmem : t ∈ H := by simp [H, ht, hft]
      obtain ⟨j, hj, hjt⟩ := List.getElem_of_mem hmem
      have haj : ty (H.getD j 0) = ty t := by rw [gd j hj, hjt]
      cases hf : find cfg s (ty t) k with
      | none =>
        have := find_none (r.inv h).1.core.bound hf (2 * j + 1) _ (by rw [b2]; exact (h3 _ _ (h2.outer' j hj)).1) haj
        rw [h.refl] at this
        cases this
      | some e =>
        obtain ⟨y, hy, hy1, hy2⟩ := find_some hf
        rw [b2] at hy
        rcases h4 e y hy with hy | ⟨t', ht', hft', hc⟩
        · have hv := (h3 e y hy).2
          have hlt : e < s2.next := by
            by_cases hlt : e < s2.next
            · exact hlt
            · rw [(r2.inv h).1.core.bound e (by omega)] at hy
              cases hy
          rw [h2.next] at hlt
          have hv : s.vis e = some (n + e / 2) := by
            rw [b3, hv]
            by_cases hpar : e = 2 * (e / 2)
            · rw [hpar, h2.leaf' (e / 2) (by omega)] at hy
              cases hy
              have := h.symm _ _ _ hy2
              rw [hkl t ht] at this
              cases this
            · have ho : e = 2 * (e / 2) + 1 := by omega
              have := h2.visited (e / 2) (by omega)
              rwa [← ho] at this
          cases a with
          | run => simp [step, he, act, lib, hf, hv]
          | throw_ => simp [step, he, act, hf, hv]
          | _ => simp [step, he, act, inUser]
        · have := hinj t' t ht' ht (hc.symm.trans hy1)
          rw [this, hft] at hft'
          cases hft'
  have coll : ∀ i, i < H.length → ∃ st, s.thr[n + i]? = some st ∧ inUser st = false ∧ Stuck cfg s (n + i) := by
    intro i hi
    obtain ⟨rest, he⟩ := h2.busy i hi
    rw [← h8 (n + i) (by omega), ← b6 (n + i) (.inl (by omega))] at he
    have hne : (H.getD i 0 + 1) % n ≠ n + i := by have := hmod (H.getD i 0); omega
    have ha : Conc.acquire cfg s.lock (n + i) (b i) = none := by
      have hlk : s.lock (b i) = some ((H.getD i 0 + 1) % n, 1) := by rw [b1]; exact h9 _ (hmod (H.getD i 0))
      simp only [Conc.acquire, hl, hlk, if_neg hne]
      rfl
    refine ⟨_, he, rfl, fun a => ?_⟩
    cases a with
    | run => simp [step, he, act, lib, ha]
    | _ => simp [step, he, act, inUser]
  have all : ∀ t, t < n + H.length → ∃ st, s.thr[t]? = some st ∧ inUser st = false ∧ Stuck cfg s t := fun t ht => by
    by_cases htn : t < n
    · exact user t htn
    · have := coll (t - n) (by omega)
      rwa [show n + (t - n) = t by omega] at this
  refine ⟨s, r, fun t ht => ?_, fun t => ?_⟩
  · obtain ⟨st, h10, h11, h12⟩ := all t ht
    exact ⟨st, h10, h11, h12 _, fun _ => h12 _⟩
  · by_cases ht : t < n + H.length
    · exact (all t ht).choose_spec.2.2
    · intro a
      have : s.thr[t]? = none := List.getElem?_eq_none (by omega)
      simp [step, this]

/-- Constructors of type 0 create flyweights of type 1, whose values contain flyweights of type 0. -/
example := C40_mixed CF.trackedOk rfl rfl (calls := fun c c' => c = 0 ∧ c' = 1) (has := fun c c' => c = 1 ∧ c' = 0) (n := 2) (by decide) id
  (fun _ _ _ _ h => h) (fun i => i == 1) (fun i _ h => by simp at h; subst h; exact ⟨rfl, rfl⟩)
  (fun i hi h => by obtain rfl : i = 0 := by (simp at h; omega)
                    exact ⟨⟨rfl, rfl⟩, by decide⟩) 1 2 (fun _ _ => rfl)

/-- Nor, with `refcounted` and `simple_locking`, may values contain each other's flyweights along a cycle of types, of any length from
1: with as many threads, not using the library in constructors, all threads and all collectors can get to wait for one another. -/
theorem C40_ring {cfg : Cfg K} (h : CfgOk cfg) (hl : cfg.locking = true) (htr : cfg.tracks = true) {calls has : Nat → Nat → Prop}
    {n : Nat} (hn : 1 ≤ n) (ty : Nat → Nat) (hinj : ∀ i j, i < n → j < n → ty i = ty j → i = j)
    (hhas : ∀ i, i < n → has (ty i) (ty ((i + 1) % n))) (k l : K) (hkl : ∀ i, i < n → cfg.eqv (ty i) k l = false) :
    ∃ s, Reachable cfg calls has n ((List.range n).map ty) s ∧ (∀ t, t < n + n → Blocked cfg s t) ∧ ∀ t, Stuck cfg s t := by
  obtain ⟨s, r, hb, hs⟩ := C40_mixed (calls := calls) h hl htr hn ty hinj (fun _ => true) (fun i hi _ => hhas i hi)
    (fun _ _ h => (by cases h)) k l hkl
  rw [show (List.range n).filter (fun _ => true) = List.range n from List.filter_eq_self.2 fun _ _ => rfl] at r hb
  exact ⟨s, r, by simpa using hb, hs⟩

/-- Three types, each containing the next; one type containing itself. -/
example := C40_ring CF.trackedOk rfl rfl (calls := fun _ _ => False) (has := fun c c' => c' = (c + 1) % 3) (n := 3) (by decide) id
  (fun _ _ _ _ h => h) (fun _ _ => rfl) 1 2 (fun _ _ => rfl)

example := C40_ring CF.trackedOk rfl rfl (calls := fun _ _ => False) (has := fun c c' => c' = c) (n := 1) (by decide) (fun _ => 5)
  (fun _ _ hi hj _ => by omega) (fun _ _ => rfl) 1 2 (fun _ _ => rfl)

/-- In particular not all threads are blocked. -/
theorem C40_not_all_partial {cfg : Cfg K} (h : CfgOk cfg) {calls has : Nat → Nat → Prop}
    (hwf : WellFounded fun a b => Order cfg calls has b a) {n : Nat} {gcs : List Nat} (hn : 0 < n + gcs.length) {s : St K}
    (hs : Reachable cfg calls has n gcs s) : ∃ t, t < n + gcs.length ∧ ¬ Blocked cfg s t := by
  by_cases hb : Blocked cfg s 0
  · obtain ⟨t', h0, _, h1⟩ := C40_no_deadlock_partial h hwf hs hb
    exact ⟨t', h0, h1⟩
  · exact ⟨0, hn, hb⟩

/-- With finitely many types this is exact, whatever the policies: all threads and collectors can come to a standstill if and only if types
use each other along a cycle in their constructors or, with `refcounted` and `simple_locking`, in the flyweights that values contain.
(No constructor creates flyweights of its own type: it would use the container that it is called from, which concurrent containers
do not allow.) -/
theorem C40_exact {cfg : Cfg K} (h : CfgOk cfg) {calls has : Nat → Nat → Prop} {N : Nat}
    (hN : ∀ c c', Order cfg calls has c c' → c < N ∧ c' < N) (hirr : ∀ c, ¬calls c c) (k l : K) (hkl : ∀ c, cfg.eqv c k l = false) :
    (∃ n gcs s, 0 < n + gcs.length ∧ Reachable cfg calls has n gcs s ∧ ∀ t, t < n + gcs.length → Blocked cfg s t) ↔
      ∃ c, TransGen (Order cfg calls has) c c := by
  constructor
  · rintro ⟨n, gcs, s, hn, hs, hb⟩
    refine Classical.byContradiction fun hc => ?_
    obtain ⟨t, ht, hnb⟩ := C40_not_all_partial h (wf_of_acyclic hN fun c hcc => hc ⟨c, hcc⟩) hn hs
    exact hnb (hb t ht)
  · rintro ⟨c, hc⟩
    obtain ⟨n, ty, h1, h2, h3⟩ := ring_of hc
    by_cases hlt : cfg.locking = true ∧ cfg.tracks = true
    · obtain ⟨f, hf⟩ : ∃ f : Nat → Bool, ∀ i, f i = true ↔ has (ty i) (ty ((i + 1) % n)) :=
        ⟨fun i => @decide _ (Classical.propDecidable (has (ty i) (ty ((i + 1) % n)))), fun i => @decide_eq_true_iff _ (Classical.propDecidable _)⟩
      obtain ⟨s, hs, hb, _⟩ := C40_mixed h hlt.1 hlt.2 (calls := calls) (has := has) h1 ty h2 f (fun i _ => (hf i).1) (fun i hi hfi => by
        rcases h3 i hi with h4 | ⟨_, _, h4⟩
        · exact ⟨h4, fun he => hirr (ty i) (by rw [← he] at h4; exact h4)⟩
        · rw [(hf i).2 h4] at hfi
          cases hfi) k l fun _ _ => hkl _
      exact ⟨n, _, s, by omega, hs, fun t ht => hb t (by simpa using ht)⟩
    · have h3' : ∀ i, i < n → calls (ty i) (ty ((i + 1) % n)) := fun i hi => by
        rcases h3 i hi with h4 | ⟨h4, h5, _⟩
        · exact h4
        · exact absurd ⟨h4, h5⟩ hlt
      have h4 : 2 ≤ n := by
        refine Classical.byContradiction fun h4 => ?_
        obtain rfl : n = 1 := by omega
        exact hirr _ (h3' 0 (by omega))
      obtain ⟨s, hs, hb, _⟩ := C40_needed h (has := has) h4 [] ty h2 h3' k
      exact ⟨n, [], s, by simp; omega, hs, fun t ht => (hb t (by simpa using ht)).1⟩

/-- Four types: values of 0 contain flyweights of 1, constructors of 1 create flyweights of 2, and values of 2 contain flyweights of 1. -/
example := (C40_exact CF.trackedOk (calls := fun c c' => c = 1 ∧ c' = 2) (has := fun c c' => (c = 0 ∧ c' = 1) ∨ (c = 2 ∧ c' = 1)) (N := 4)
  (fun _ _ h => by rcases h with h | ⟨_, _, h⟩ <;> omega) (fun _ h => by omega) 1 2 (fun _ => rfl)).2
  ⟨1, .tail (.single (.inl ⟨rfl, rfl⟩)) (.inr ⟨rfl, rfl, .inr ⟨rfl, rfl⟩⟩)⟩

/-- Without tracking and locking: constructors of type 0 create flyweights of type 1, those of 1 of type 2, and those of 2 of type 0; all
values contain flyweights of all types. -/
example := (C40_exact (CF.with_ok false false) (calls := fun c c' => c < 3 ∧ c' = (c + 1) % 3) (has := fun _ _ => True) (N := 3)
  (fun _ _ h => by rcases h with h | ⟨h, _⟩; · omega
                   · cases h) (fun _ h => by omega) 1 2 (fun _ => rfl)).2
  ⟨0, .tail (.tail (.single (.inl ⟨by decide, rfl⟩)) (.inl ⟨by decide, rfl⟩)) (.inl ⟨by decide, rfl⟩)⟩

/-- Constructors that create, and values that contain, flyweights of types with smaller numbers only. -/
example : ¬∃ n gcs s, 0 < n + gcs.length ∧ Reachable CF.tracked (fun c c' => c' < c ∧ c < 4) (fun c c' => c' < c ∧ c < 4) n gcs s ∧
    ∀ t, t < n + gcs.length → Blocked CF.tracked s t := by
  have sub : ∀ {a b : Nat}, Order CF.tracked (fun c c' => c' < c ∧ c < 4) (fun c c' => c' < c ∧ c < 4) a b → b < a ∧ a < 4 :=
    fun h => by rcases h with h | ⟨_, _, h⟩ <;> exact h
  rw [C40_exact CF.trackedOk (N := 4) (fun _ _ h => by have := sub h; omega) (fun _ h => by omega) 1 2 (fun _ => rfl)]
  rintro ⟨c, hc⟩
  have lt : ∀ {a b : Nat}, TransGen (Order CF.tracked (fun c c' => c' < c ∧ c < 4) (fun c c' => c' < c ∧ c < 4)) a b → b < a := fun h => by
    induction h with
    | single h => exact (sub h).1
    | tail _ h ih => have := sub h; omega
  exact Nat.lt_irrefl _ (lt hc)

/-- With `no_tracking` or `no_locking` containment does not matter, not even of the same type: only
value constructors that create flyweights of the same type in turn are excluded. -/
theorem C40_untracked_partial {cfg : Cfg K} (h : CfgOk cfg) (hl : cfg.locking = false ∨ cfg.tracks = false) {calls : Nat → Nat → Prop}
    (hwf : WellFounded fun a b => calls b a) {n : Nat} {gcs : List Nat} {s : St K}
    (hs : Reachable cfg calls (fun _ _ => True) n gcs s) {t : Nat} (hb : Blocked cfg s t) :
    ∃ t', t' < n + gcs.length ∧ TransGen (MayWait cfg s) t t' ∧ ¬ Blocked cfg s t' := by
  refine C40_no_deadlock_partial h (calls := calls) (has := fun _ _ => True) ?_ hs hb
  refine Subrelation.wf (r := fun a b => calls b a) ?_ hwf
  intro a b hab
  rcases hab with hab | ⟨h1, h2, _⟩
  · exact hab
  · rcases hl with hl | hl
    · rw [hl] at h1
      cases h1
    · rw [hl] at h2
      cases h2

/-- The program of the deadlock with `no_tracking` and `no_locking`, and with only one of them: the collector
gets through, and then thread 0. -/
example :
    CF.seen (exec CF.untracked (lockOrder ++ CF.runs 4 1 ++ CF.runs 9 0) (start 1 [0])) =
      some ([2], [some (1, 0, true), none, some (2, 1, true)], [0, 1]) ∧
    CF.seen (exec (CF.with_ true false) (lockOrder ++ CF.runs 4 1 ++ CF.runs 9 0) (start 1 [0])) =
      some ([2], [some (1, 0, true), none, some (2, 1, true)], [0, 1]) ∧
    CF.seen (exec (CF.with_ false true) (lockOrder ++ CF.runs 7 1 ++ CF.runs 9 0) (start 1 [0])) =
      some ([2], [some (1, 0, true), none, some (2, 1, true)], [0, 1]) := ⟨rfl, rfl, rfl⟩

/-- Values of type 0 contain flyweights of type 1, nothing else: the collector of type 0 destroys
a value and waits for the mutex of type 1, held by thread 0, which is not blocked. -/
example : WellFounded (fun a b => Order CF.tracked (fun _ _ => False) (fun c c' => c = 0 ∧ c' = 1) b a) := by
  refine ⟨fun a => ⟨_, fun b hb => ⟨_, fun c hc => ?_⟩⟩⟩
  obtain ⟨⟨⟩⟩ | ⟨_, _, _, rfl⟩ := hb
  obtain ⟨⟨⟩⟩ | ⟨_, _, h, _⟩ := hc
  cases h

/-- In a program with `no_tracking` and `no_locking`, thread 1 waits for access to an element that
thread 0, which is not blocked, is accessing. -/
example : ∃ s, Reachable CF.untracked (fun _ _ => False) (fun _ _ => True) 2 [0] s ∧ Blocked CF.untracked s 1 ∧
    MayWait CF.untracked s 1 0 := by
  refine ⟨_, .step (t := 1) (a := .run) (.step (t := 1) (a := .run) (.step (t := 0) (a := .run) (.step (t := 0) (a := .run)
    (.step (t := 0) (a := .run) (.step (t := 1) (a := .create 0 5 [] true) (.step (t := 0) (a := .create 0 5 [] true)
    .start rfl ?_ rfl) rfl ?_ rfl) rfl trivial rfl) rfl trivial rfl) rfl trivial rfl) rfl trivial rfl) rfl trivial rfl, ?_, ?_⟩
  · exact ⟨by simp, by simp⟩
  · exact ⟨by simp, by simp⟩
  · exact ⟨_, rfl, rfl, rfl, fun _ => rfl⟩
  · exact ⟨by omega, .inr ⟨0, .inl ⟨5, [], true, [], rfl⟩, 0, _, rfl, rfl, rfl⟩⟩

end Verif.Props

import Verif.Props.FactoryRaces

/-!
# `concurrent_factory` without locking: C79

The reference says that `concurrent_factory` needs neither external locking nor a tracking mechanism
(/repo/doc/reference/factories.html:388-395).  The theorems are about any number of threads and
collectors and any schedule, as in C25 and C50, and about all four combinations of `refcounted` or `no_tracking` with
`simple_locking` or `no_locking` (`cfg.locking = false`).
-/

set_option autoImplicit false

namespace Verif.Props
open Verif.Conc (Fw Cfg CfgOk)
open Verif.CFac Verif.HB
variable {K : Type}

/-- Thread 0 makes a flyweight; thread 1 destroys it and is about to call `release_deleter`; thread 0 makes another of the same
key and is about to call `add_ref` and `add_deleter`.  (No code of its own: used to state a property or an example.) -/
def CF.remake : List (Nat × Act Nat) :=
  CF.make 0 0 5 [] ++ (1, .destroy [true]) :: CF.runs 2 1 ++ (0, .create 0 5 [] true) :: CF.runs 6 0

/-- The thread is in the handle's constructor, or in `check_erase`, for this entry.  (No code of its own: used to state a property
or an example.) -/
def CF.tracking : List (Frame Nat) → Option (Bool × Nat)
  | .insTrack _ _ e :: _ => some (true, e)
  | .relCheck w :: _ => some (false, w.h)
  | _ => none

/-- **C79, violated as stated.**  With `refcounted` and `no_locking` there is a data race, whatever the memory orders of the
operations on the counts: two threads are about to change the deleter count of the same entry (thread 0 in the constructor of a handle, whose
`add_ref` is going to return 1; thread 1 in `check_erase`), and neither change happens before the other. -/
theorem C79_violated (mo : Orders) :
    (hexec (CF.with_ false true) mo CF.remake (hstart 2 [0])).s.thr[0]?.map CF.tracking = some (some (true, 0)) ∧
    (hexec (CF.with_ false true) mo CF.remake (hstart 2 [0])).s.thr[1]?.map CF.tracking = some (some (false, 0)) ∧
    ((hexec (CF.with_ false true) mo CF.remake (hstart 2 [0])).s.ents 0).map Ent.tref = some 0 ∧
    ¬ RaceFree (hexec (CF.with_ false true) mo (CF.remake ++ [(0, .run), (1, .run)]) (hstart 2 [0])).tr := by
  refine ⟨?_, ?_, ?_, fun hr => ?_⟩
  · obtain ⟨_ | _, _ | _, _ | _, _ | _, _ | _⟩ := mo <;> decide +kernel
  · obtain ⟨_ | _, _ | _, _ | _, _ | _, _ | _⟩ := mo <;> decide +kernel
  · obtain ⟨_ | _, _ | _, _ | _, _ | _, _ | _⟩ := mo <;> decide +kernel
  · have key : Before (hexec (CF.with_ false true) mo (CF.remake ++ [(0, .run), (1, .run)]) (hstart 2 [0])).tr 19 20 := by
      refine hr.order (l := .part 0 .del) (k := .write) (k' := .write) (by decide) ?_ ?_ rfl
      · obtain ⟨_ | _, _ | _, _ | _, _ | _, _ | _⟩ := mo <;> exact ⟨_, rfl, by decide +kernel⟩
      · obtain ⟨_ | _, _ | _, _ | _, _ | _, _ | _⟩ := mo <;> exact ⟨_, rfl, by decide +kernel⟩
    refine not_before_of (fun i => decide (i ≤ 11) || i == 20) ?_ ?_ ?_ key <;>
      obtain ⟨_ | _, _ | _, _ | _, _ | _, _ | _⟩ := mo <;> decide +kernel

/-- The rest of C79.  There is no other data race: with any of the four combinations of policies, of two
accesses that conflict one happens before the other, unless both are to the deleter count of the same
entry, in the course of its life, with `refcounted` and `no_locking`. -/
theorem C79_only_race_partial {cfg : Cfg K} (h : CfgOk cfg) (inc decAcq trk : Bool) (n : Nat) (gcs : List Nat)
    (acts : List (Nat × Act K)) {i j e : Nat} {p : Part} {k k' : Kind} (hne : i ≠ j)
    (hi : Acc (hexec cfg ⟨inc, decAcq, true, true, trk⟩ acts (hstart n gcs)).tr i (.part e p, k))
    (hj : Acc (hexec cfg ⟨inc, decAcq, true, true, trk⟩ acts (hstart n gcs)).tr j (.part e p, k'))
    (hc : k.conflict k' = true)
    (hb : ¬ Before (hexec cfg ⟨inc, decAcq, true, true, trk⟩ acts (hstart n gcs)).tr i j)
    (hb' : ¬ Before (hexec cfg ⟨inc, decAcq, true, true, trk⟩ acts (hstart n gcs)).tr j i) :
    p = .del ∧ cfg.tracks = true ∧ cfg.locking = false ∧
      ¬ Acc (hexec cfg ⟨inc, decAcq, true, true, trk⟩ acts (hstart n gcs)).tr i (.part e .body, .write) ∧
      ¬ Acc (hexec cfg ⟨inc, decAcq, true, true, trk⟩ acts (hstart n gcs)).tr j (.part e .body, .write) := by
  have hr := (hexec_h h (mo := ⟨inc, decAcq, true, true, trk⟩) ⟨rfl, rfl⟩ (hstart_h n gcs) acts).race i j _ _ _ hne hi hj hc
  have no : ¬ Synced cfg (.part e p) (Acc (hexec cfg ⟨inc, decAcq, true, true, trk⟩ acts (hstart n gcs)).tr i)
      (Acc (hexec cfg ⟨inc, decAcq, true, true, trk⟩ acts (hstart n gcs)).tr j) := fun hs => (hr hs).elim hb hb'
  cases p with
  | del =>
    refine ⟨rfl, ?_, ?_, fun ha => no (.inr (.inl ha)), fun ha => no (.inr (.inr ha))⟩
    · cases ht : cfg.tracks with
      | true => rfl
      | false => exact (no (.inl fun h1 => by rw [ht] at h1; cases h1)).elim
    · cases hl : cfg.locking with
      | true => exact (no (.inl fun _ => hl)).elim
      | false => rfl
  | _ => exact (no trivial).elim

/-- In the execution of `C79_violated` the accesses are these. -/
example :
    ((hexec (CF.with_ false true) ⟨true, true, true, true, true⟩ (CF.remake ++ [(0, .run), (1, .run)]) (hstart 2 [0])).tr.drop 19).map
      (fun ev => (ev.thr, ev.accs)) =
    [(0, [(.part 0 .ref, .atomic), (.part 0 .tref, .atomic), (.part 0 .del, .write)]), (1, [(.part 0 .del, .write)])] := by
  decide +kernel

/-- With `no_tracking` there is none: the factory needs neither locking nor tracking. -/
theorem C79_untracked_partial {cfg : Cfg K} (h : CfgOk cfg) (ht : cfg.tracks = false) (inc decAcq trk : Bool) (n : Nat)
    (gcs : List Nat) (acts : List (Nat × Act K)) :
    RaceFree (hexec cfg ⟨inc, decAcq, true, true, trk⟩ acts (hstart n gcs)).tr :=
  C50_race_free h (fun h1 => by rw [ht] at h1; cases h1) inc decAcq trk n gcs acts

example : (hexec CF.untracked ⟨true, true, true, true, true⟩ (CF.remake ++ [(0, .run), (1, .run)]) (hstart 2 [0])).tr.length = 20 ∧
    RaceFree (hexec CF.untracked ⟨true, true, true, true, true⟩ (CF.remake ++ [(0, .run), (1, .run)]) (hstart 2 [0])).tr :=
  ⟨by decide +kernel, C79_untracked_partial CF.untrackedOk rfl _ _ _ _ _ _⟩

/-- Whatever the policies, `no_locking` in particular, no handle dangles and nothing else is undefined (but for that race); flyweights are the same exactly if
they are of the same type and their keys are equivalent; counts are exact; and an entry is destroyed only when no handle refers to
it.  (From C25 and C26; the deleter count, which decides nothing, is not part of the states.) -/
theorem C79_sound_partial {cfg : Cfg K} (h : CfgOk cfg) (n : Nat) (gcs : List Nat)
    (acts : List (Nat × Act K)) :
    exec cfg acts (start n gcs) ≠ .ub ∧
    ∀ s, exec cfg acts (start n gcs) = .ok s →
      (∀ e ∈ handles s, ∃ x, s.ents e = some x ∧ x.cted = true ∧ x.ref = (handles s).count e) ∧
      (∀ v ∈ s.objs, ∀ w ∈ s.objs, v.h = w.h ↔ v.c = w.c ∧ cfg.eqv v.c v.k w.k = true) ∧
      ∀ t a s' e x, step cfg s t a = .ok s' → s.ents e = some x → s'.ents e = none → e ∉ handles s := by
  refine ⟨C25_no_ub h n gcs acts, fun s hs => ⟨fun e he => ?_, fun v hv w hw => C25_sharing h hs (.inl hv) (.inl hw), ?_⟩⟩
  · obtain ⟨x, hx, hc⟩ := C25_live h hs he
    exact ⟨x, hx, hc, C25_counts h hs hx⟩
  · intro t a s' e x hst hx hgone he
    obtain ⟨y, hy, hc⟩ := C25_live h hs he
    exact C26_keep h hs hst hy hc (fun z hz => by rw [hgone] at hz; cases hz) he

/-- The race of `C79_violated` does no harm otherwise: both threads go on, and there is one entry with one flyweight. -/
example : CF.seen (exec (CF.with_ false true) (CF.remake ++ [(0, .run), (1, .run)] ++ CF.runs 2 1 ++ CF.runs 1 0) (start 2 [0])) =
    some ([0], [some (5, 1, true)], [0, 0, 1]) := rfl

end Verif.Props

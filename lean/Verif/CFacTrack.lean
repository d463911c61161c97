import Verif.CFacStep

/-!
# The count of `refcounted` over `concurrent_factory`

With `refcounted` an entry of `concurrent_factory` carries two counts: that of the
factory's handles and that of the tracking policy.  Here: the second one is the number of
flyweights that refer to the entry, from the end of the constructor of the tracking
handle to the start of its destructor.
-/

set_option autoImplicit false

namespace Verif.CFac
open Verif.Conc (Fw Cfg CfgOk pick acquire unlock fwCount tot nsum nsum_congr pick_count
  fwCount_cons fwCount_nil fwCount_append tot_nil tot_cons tot_append tot_eq_zero split swap_count)
variable {K : Type} {cfg : Cfg K}

/-- Tracking handles to entry `e` held by a frame.  (No code of its own: used in statements and
proofs.) -/
def trackF (e : Nat) : Frame K → Nat
  | .insLock _ _ loc _ => fwCount e loc
  | .insHash _ _ loc _ => fwCount e loc
  | .insFind _ _ loc _ => fwCount e loc
  | .insVisit _ _ _ loc => fwCount e loc
  | .insUser _ _ _ loc => fwCount e loc
  | .insDone _ _ _ loc => fwCount e loc
  | .insAddRef _ _ _ loc => fwCount e loc
  | .insLeave _ _ _ loc => fwCount e loc
  | .insFail _ _ loc => fwCount e loc
  | .insUnlock _ _ h => if h = e then 1 else 0
  | .rel w => if w.h = e then 1 else 0
  | _ => 0

theorem trackF_le (e : Nat) (f : Frame K) : trackF e f ≤ refF e f := by
  cases f <;> simp [trackF, refF]

theorem tot_trackF_le (e : Nat) (L : List (Frame K)) : tot (trackF e) L ≤ tot (refF e) L := by
  induction L with
  | nil => exact Nat.le_refl _
  | cons f L ih => have := trackF_le e f; simp only [tot_cons]; omega

@[simp] theorem track_rel (e : Nat) (l : List (Fw K)) : tot (trackF e) (l.map .rel) = fwCount e l := by
  induction l with
  | nil => rfl
  | cons w l ih => simp only [List.map_cons, tot_cons, ih, trackF, fwCount_cons]; omega

/-- Tracking count of entry `e`, zero if there is none.  (No code of its own: used in statements
and proofs.) -/
def trefOf (ents : Nat → Option (Ent K)) (e : Nat) : Int :=
  match ents e with
  | none => 0
  | some x => x.tref

/-- Tracking counts are numbers of tracking handles.  (No code of its own: used in statements
and proofs.) -/
def Tracked (s : St K) : Prop :=
  ∀ e, trefOf s.ents e = fwCount e s.objs + kidsTo s.ents s.next e + tot (trackF e) (frames s)

theorem tot_set {s : St K} {t : Nat} {st : List (Frame K)} (ht : s.thr[t]? = some st) (st' : List (Frame K))
    (g : Frame K → Nat) : tot g (s.thr.set t st').flatten + tot g st = tot g (frames s) + tot g st' := by
  obtain ⟨A, B, h1, h2, _⟩ := split ht
  rw [frames, h1, h2]
  simp only [tot_append]
  omega

/-- Steps that leave the entries alone. -/
theorem Tracked.same {s : St K} (h : Tracked s) {t : Nat} {st : List (Frame K)} (ht : s.thr[t]? = some st)
    (st' : List (Frame K)) {objs : List (Fw K)} {vis : Nat → Option Nat} {lock : Nat → Option (Nat × Nat)}
    (he : ∀ e, fwCount e objs + tot (trackF e) st' = fwCount e s.objs + tot (trackF e) st) :
    Tracked (⟨s.ents, s.next, vis, lock, s.thr.set t st', objs⟩ : St K) := by
  intro e
  have h1 := h e
  have h2 := tot_set ht st' (trackF e)
  have h3 := he e
  simp only [frames] at *
  omega

/-- Steps that change an entry. -/
theorem Tracked.change {s : St K} (h : Tracked s) (hi : Inv cfg s) {t : Nat} {st : List (Frame K)}
    (ht : s.thr[t]? = some st) (st' : List (Frame K)) {objs : List (Fw K)} {vis : Nat → Option Nat}
    {lock : Nat → Option (Nat × Nat)} {i : Nat} {x x' : Ent K} (hx : s.ents i = some x)
    (he : ∀ e, (if e = i then x'.tref - x.tref else 0) + fwCount e x.kids + fwCount e s.objs + tot (trackF e) st =
      fwCount e x'.kids + fwCount e objs + tot (trackF e) st') :
    Tracked (⟨setEnt s.ents i (some x'), s.next, vis, lock, s.thr.set t st', objs⟩ : St K) := by
  intro e
  have h1 := h e
  have h2 := tot_set ht st' (trackF e)
  have h3 := he e
  have h4 := kidsTo_set (ents := s.ents) (hi.core.lt_next hx) (some x') e
  simp only [hx, kidsOf] at h4
  have h5 : trefOf (setEnt s.ents i (some x')) e = trefOf s.ents e + if e = i then x'.tref - x.tref else 0 := by
    by_cases hie : e = i
    · subst hie
      simp only [trefOf, setEnt_same, hx, if_true]
      omega
    · simp [trefOf, setEnt_ne _ _ hie, hie]
  simp only [frames] at *
  omega

/-- A step of the library keeps tracking counts right. -/
theorem lib_tracked (hl : cfg.tracks = true) {s s' : St K} (hi : Inv cfg s) (h : Tracked s) {t : Nat} {f : Frame K}
    {rest : List (Frame K)} (ht : s.thr[t]? = some (f :: rest)) (hs : lib cfg s t f rest = .ok s') : Tracked s' := by
  have hmem : f ∈ frames s := List.mem_flatten.2 ⟨_, List.mem_of_getElem? ht, List.mem_cons_self⟩
  cases f with
  | insLock c k loc pre =>
    simp only [lib] at hs
    split at hs <;> cases hs
    exact h.same ht _ (by simp [trackF])
  | insHash c k loc pre =>
    cases hs
    exact h.same ht _ (by simp [trackF])
  | insFind c k loc pre =>
    simp only [lib] at hs
    repeat' split at hs
    all_goals cases hs
    · exact h.same ht _ (by simp [trackF])
    · intro e
      have h1 := h e
      have h2 := tot_set ht (.insVisit c k s.next [] :: rest) (trackF e)
      have hn : s.ents s.next = none := hi.core.bound s.next (Nat.le_refl _)
      have h3 : trefOf (setEnt s.ents s.next (some ⟨c, k, pre, loc, 0, 0⟩)) e = trefOf s.ents e := by
        by_cases he : e = s.next
        · subst he
          simp [trefOf, setEnt_same, hn]
        · simp [trefOf, setEnt_ne _ _ he]
      have h4 : kidsTo (setEnt s.ents s.next (some ⟨c, k, pre, loc, 0, 0⟩)) (s.next + 1) e =
          kidsTo s.ents s.next e + fwCount e loc := by
        simp only [kidsTo, nsum, setEnt_same, kidsOf]
        congr 1
        exact nsum_congr fun i hi => by rw [setEnt_ne _ _ (by omega)]
      simp only [frames, tot_cons, trackF, fwCount_nil] at *
      rw [h3, h4]
      omega
  | insVisit c k i loc =>
    simp only [lib] at hs
    split at hs <;> cases hs
    refine h.same ht _ fun e => ?_
    split <;> simp [trackF]
  | insUser c k i loc => cases hs
  | insDone c k i loc =>
    simp only [lib] at hs
    split at hs <;> cases hs
    rename_i x hx
    exact h.change hi ht _ hx fun e => by simp [trackF]
  | insAddRef c k i loc =>
    simp only [lib] at hs
    split at hs <;> cases hs
    rename_i x hx
    exact h.change hi ht _ hx fun e => by simp [trackF]
  | insLeave c k i loc =>
    cases hs
    exact h.same ht _ (by simp [trackF])
  | insFail c i loc =>
    cases hs
    exact h.same ht _ (by simp [trackF])
  | insUnwind c =>
    simp only [lib] at hs
    split at hs <;> cases hs
    exact h.same ht _ (by simp [trackF])
  | insTrack c k i =>
    simp only [lib] at hs
    split at hs <;> cases hs
    rename_i x hx
    refine h.change hi ht _ hx fun e => ?_
    simp only [hl, if_true, tot_cons, trackF]
    by_cases he : e = i
    · subst he
      simp
      omega
    · simp [he, Ne.symm he]
  | insUnlock c k i =>
    simp only [lib] at hs
    split at hs <;> cases hs
    exact h.same ht _ fun e => by simp only [fwCount_cons, tot_cons, trackF]; omega
  | rel w =>
    simp only [lib, hl, if_true] at hs
    split at hs <;> cases hs
    rename_i x hx
    refine h.change hi ht _ hx fun e => ?_
    have h0 : trackF e (if x.tref - 1 = 0 then Frame.relLock w else .relDec w) = 0 := by split <;> rfl
    simp only [tot_cons, h0]
    simp only [trackF]
    by_cases he : e = w.h
    · subst he
      simp
      omega
    · simp [he, Ne.symm he]
  | relLock w =>
    simp only [lib] at hs
    split at hs <;> cases hs
    exact h.same ht _ (by simp [trackF])
  | relCheck w =>
    simp only [lib] at hs
    split at hs <;> cases hs
    exact h.same ht _ (by simp [trackF])
  | relUnlock w =>
    simp only [lib] at hs
    split at hs <;> cases hs
    exact h.same ht _ (by simp [trackF])
  | relDec w =>
    simp only [lib] at hs
    split at hs <;> cases hs
    rename_i x hx
    exact h.change hi ht _ hx fun e => by simp [trackF]
  | gcIdle c =>
    cases hs
    exact h.same ht _ (by simp [trackF])
  | gcPass c fr todo =>
    simp only [lib] at hs
    split at hs <;> cases hs
    exact h.same ht _ (by simp [trackF])
  | gcTest c i =>
    simp only [lib] at hs
    split at hs <;> cases hs
    refine h.same ht _ fun e => ?_
    split <;> simp [trackF]
  | gcErase c i =>
    simp only [lib] at hs
    split at hs <;> cases hs
    rename_i x hx
    refine h.change hi ht _ hx fun e => ?_
    simp [trackF]
    omega
  | gcUnlink c i =>
    obtain ⟨x, hx, _, hr, hk⟩ := hi.core.frames _ hmem
    simp only [lib, hx] at hs
    cases hs
    intro e
    have h1 := h e
    have h2 := tot_set ht rest (trackF e)
    have h3 := kidsTo_set (ents := s.ents) (hi.core.lt_next hx) none e
    simp only [hx, kidsOf, hk, fwCount_nil] at h3
    have h4 : trefOf (setEnt s.ents i none) e = trefOf s.ents e := by
      by_cases he : e = i
      · subst he
        have h5 := hi.core.refs e
        have h6 := tot_trackF_le e (frames s)
        have h7 : refOf s.ents e = 0 := by simp [refOf, hx, hr]
        rw [show trefOf (setEnt s.ents e none) e = 0 by simp [trefOf, setEnt_same]]
        omega
      · simp [trefOf, setEnt_ne _ _ he]
    simp only [frames, tot_cons, trackF] at *
    rw [h4]
    omega
  | gcLeave c i =>
    cases hs
    exact h.same ht _ (by simp [trackF])

/-- So does an action of the program. -/
theorem act_tracked (hl : cfg.tracks = true) {s s' : St K} (hi : Inv cfg s) (h : Tracked s) {t : Nat}
    {st : List (Frame K)} (ht : s.thr[t]? = some st) {a : Act K} (hs : act cfg s t st a = .ok s') : Tracked s' := by
  have cp : ∀ {w : Fw K} {x : Ent K}, s.ents w.h = some x →
      Tracked { s with ents := setEnt s.ents w.h (some { x with ref := x.ref + 1, tref := x.tref + 1 }),
                       objs := w :: s.objs } := by
    intro w x hx
    have := h.change hi (vis := s.vis) (lock := s.lock) (objs := w :: s.objs) (t := t) ht st hx
      (x' := { x with ref := x.ref + 1, tref := x.tref + 1 }) fun e => by
        simp only [fwCount_cons]
        by_cases he : e = w.h
        · subst he
          simp
          omega
        · simp [he, Ne.symm he]
    rwa [Conc.set_self ht] at this
  cases a with
  | run =>
    cases st with
    | nil => cases hs
    | cons f rest => exact lib_tracked hl hi h ht hs
  | create c k mask pre =>
    simp only [act] at hs
    split at hs <;> cases hs
    refine h.same ht _ fun e => ?_
    have := pick_count (e := e) mask s.objs
    simp only [tot_cons, trackF]
    omega
  | destroy mask =>
    simp only [act] at hs
    split at hs <;> cases hs
    refine h.same ht _ fun e => ?_
    have := pick_count (e := e) mask s.objs
    simp only [tot_append, track_rel]
    omega
  | copy i =>
    simp only [act, hl, if_true] at hs
    repeat' split at hs
    all_goals cases hs
    rename_i x hx
    exact cp hx
  | copyKid i j =>
    simp only [act, hl, if_true] at hs
    repeat' split at hs
    all_goals cases hs
    rename_i y hy
    exact cp hy
  | swap i j =>
    simp only [act] at hs
    repeat' split at hs
    all_goals cases hs
    rename_i v w hv hw
    have := h.same (t := t) ht st (vis := s.vis) (lock := s.lock) (objs := (s.objs.set i w).set j v) fun e => by
      rw [swap_count hv hw]
    rwa [Conc.set_self ht] at this
  | read i =>
    simp only [act] at hs
    repeat' split at hs
    all_goals cases hs
    exact h
  | finish mask drop =>
    simp only [act] at hs
    repeat' split at hs
    all_goals cases hs
    all_goals rename_i x hx _ _
    all_goals refine h.change hi ht _ hx fun e => ?_
    all_goals
      have := pick_count (e := e) mask s.objs
      cases drop <;> simp [trackF] <;> omega
  | throw_ =>
    simp only [act] at hs
    repeat' split at hs
    all_goals cases hs
    all_goals exact h.same ht _ fun e => by simp [trackF]
  | gcVisit i =>
    simp only [act] at hs
    repeat' split at hs
    all_goals cases hs
    exact h.same ht _ fun e => by simp [trackF]

/-- With `refcounted`, tracking counts are numbers of tracking handles, whatever the schedule. -/
theorem exec_tracked (hcfg : CfgOk cfg) (hl : cfg.tracks = true) {s s' : St K} (hi : Inv cfg s) (h : Tracked s)
    {l : List (Nat × Act K)} (hs : exec cfg l s = .ok s') : Tracked s' := by
  induction l generalizing s with
  | nil => cases hs; exact h
  | cons p l ih =>
    obtain ⟨t, a⟩ := p
    have hg := step_good hcfg hi t a
    unfold exec at hs
    cases hst : step cfg s t a with
    | ok s1 =>
      rw [hst] at hg hs
      refine ih hg ?_ hs
      unfold step at hst
      split at hst
      · cases hst
      · rename_i st ht
        exact act_tracked hl hi h ht hst
    | no => rw [hst] at hs; exact ih hi h hs
    | ub => rw [hst] at hs; cases hs
    | reentrant => rw [hst] at hs; cases hs

theorem start_tracked (n : Nat) (gcs : List Nat) : Tracked (start n gcs : St K) := by
  intro e
  have : tot (trackF e) (frames (start n gcs : St K)) = 0 := by
    have h1 := tot_trackF_le e (frames (start n gcs : St K))
    have h2 := (start_inv (cfg := ⟨fun _ _ _ => true, true, true⟩) (K := K) n gcs).core.refs e
    simp only [refOf, start] at h2
    simp only [start] at h1 ⊢
    omega
  rw [this]
  simp [start, trefOf, kidsTo, nsum]

end Verif.CFac

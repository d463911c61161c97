import Verif.CFac
import Verif.ConcStep

/-!
# Invariant of the model of `concurrent_factory`
-/

set_option autoImplicit false

namespace Verif.CFac
open Verif.Conc (Fw Cfg CfgOk pick acquire unlock fwCount tot nsum fwCount_pos exists_of_fwCount tot_pos tot_le
  exists_of_tot tot_eq_zero tot_perm nsum_congr nsum_change nsum_pos exists_of_nsum pick_count pick_mem
  depthOf depth_excl LockStep acquire_some unlock_some fwCount_cons fwCount_nil fwCount_append tot_nil tot_cons
  tot_append split set_self swap_mem swap_count)
variable {K : Type} {cfg : Cfg K}

/-- References to entry `e` held by a frame.  (No code of its own: used in statements and
proofs.) -/
def refF (e : Nat) : Frame K → Nat
  | .insLock _ _ loc _ => fwCount e loc
  | .insHash _ _ loc _ => fwCount e loc
  | .insFind _ _ loc _ => fwCount e loc
  | .insVisit _ _ _ loc => fwCount e loc
  | .insUser _ _ _ loc => fwCount e loc
  | .insDone _ _ _ loc => fwCount e loc
  | .insAddRef _ _ _ loc => fwCount e loc
  | .insLeave _ _ h loc => fwCount e loc + if h = e then 1 else 0
  | .insFail _ _ loc => fwCount e loc
  | .insTrack _ _ h => if h = e then 1 else 0
  | .insUnlock _ _ h => if h = e then 1 else 0
  | .rel w => if w.h = e then 1 else 0
  | .relLock w => if w.h = e then 1 else 0
  | .relCheck w => if w.h = e then 1 else 0
  | .relUnlock w => if w.h = e then 1 else 0
  | .relDec w => if w.h = e then 1 else 0
  | _ => 0

/-- The element the frame has exclusive access to.  (No code of its own: used in statements and
proofs.) -/
def elemOf : Frame K → Option Nat
  | .insVisit _ _ h _ => some h
  | .insUser _ _ h _ => some h
  | .insDone _ _ h _ => some h
  | .insAddRef _ _ h _ => some h
  | .insLeave _ _ h _ => some h
  | .insFail _ h _ => some h
  | .gcTest _ h => some h
  | .gcErase _ h => some h
  | .gcUnlink _ h => some h
  | .gcLeave _ h => some h
  | _ => none

/-- The frame has exclusive access to `e`.  (No code of its own: used in statements and proofs.) -/
def elemF (e : Nat) (f : Frame K) : Nat := if elemOf f = some e then 1 else 0

/-- Type whose mutex the frame holds.  (No code of its own: used in statements and proofs.) -/
def holds : Frame K → Option Nat
  | .insHash c .. => some c
  | .insFind c .. => some c
  | .insVisit c .. => some c
  | .insUser c .. => some c
  | .insDone c .. => some c
  | .insAddRef c .. => some c
  | .insLeave c .. => some c
  | .insFail c .. => some c
  | .insUnwind c => some c
  | .insTrack c .. => some c
  | .insUnlock c .. => some c
  | .relCheck w => some w.c
  | .relUnlock w => some w.c
  | _ => none

/-- How many times the frame holds the mutex of type `c`.  (No code of its own: used in
statements and proofs.) -/
def holdF (c : Nat) (f : Frame K) : Nat := if holds f = some c then 1 else 0

/-- References to `e` from inside the entry `o`.  (No code of its own: used in statements and
proofs.) -/
def kidsOf (e : Nat) (o : Option (Ent K)) : Nat :=
  match o with
  | none => 0
  | some x => fwCount e x.kids

/-- References to `e` from inside entries.  (No code of its own: used in statements and proofs.) -/
def kidsTo (ents : Nat → Option (Ent K)) (next e : Nat) : Nat := nsum (fun i => kidsOf e (ents i)) next

/-- Reference count of entry `e`, zero if there is none.  (No code of its own: used in
statements and proofs.) -/
def refOf (ents : Nat → Option (Ent K)) (e : Nat) : Int :=
  match ents e with
  | none => 0
  | some x => x.ref

/-- A flyweight refers to an entry of its type, with a value, for an equivalent key.  (No code
of its own: used in statements and proofs.) -/
def FwOk (cfg : Cfg K) (ents : Nat → Option (Ent K)) (w : Fw K) : Prop :=
  ∃ x, ents w.h = some x ∧ x.core = w.c ∧ x.cted = true ∧ cfg.eqv w.c x.key w.k = true

/-- What holds of a frame.  (No code of its own: used in statements and proofs.) -/
def FrameOk (cfg : Cfg K) (ents : Nat → Option (Ent K)) : Frame K → Prop
  | .insLock _ _ loc _ => ∀ w ∈ loc, FwOk cfg ents w
  | .insHash _ _ loc _ => ∀ w ∈ loc, FwOk cfg ents w
  | .insFind _ _ loc _ => ∀ w ∈ loc, FwOk cfg ents w
  | .insVisit c k e loc => (∃ x, ents e = some x ∧ x.core = c ∧ cfg.eqv c x.key k = true) ∧ ∀ w ∈ loc, FwOk cfg ents w
  | .insUser c k e loc => (∃ x, ents e = some x ∧ x.core = c ∧ x.cted = false ∧ cfg.eqv c x.key k = true) ∧
      ∀ w ∈ loc, FwOk cfg ents w
  | .insDone c k e loc => (∃ x, ents e = some x ∧ x.core = c ∧ x.cted = false ∧ cfg.eqv c x.key k = true) ∧
      ∀ w ∈ loc, FwOk cfg ents w
  | .insAddRef c k e loc => FwOk cfg ents ⟨e, c, k⟩ ∧ ∀ w ∈ loc, FwOk cfg ents w
  | .insLeave c k e loc => FwOk cfg ents ⟨e, c, k⟩ ∧ ∀ w ∈ loc, FwOk cfg ents w
  | .insFail c e loc => (∃ x, ents e = some x ∧ x.core = c) ∧ ∀ w ∈ loc, FwOk cfg ents w
  | .insUnwind _ => True
  | .insTrack c k e => FwOk cfg ents ⟨e, c, k⟩
  | .insUnlock c k e => FwOk cfg ents ⟨e, c, k⟩
  | .rel w => FwOk cfg ents w
  | .relLock w => FwOk cfg ents w
  | .relCheck w => FwOk cfg ents w
  | .relUnlock w => FwOk cfg ents w
  | .relDec w => FwOk cfg ents w
  | .gcIdle _ => True
  | .gcPass .. => True
  | .gcTest c e => ∃ x, ents e = some x ∧ x.core = c
  | .gcErase c e => ∃ x, ents e = some x ∧ x.core = c ∧ x.ref = 0
  | .gcUnlink c e => ∃ x, ents e = some x ∧ x.core = c ∧ x.ref = 0 ∧ x.kids = []
  | .gcLeave c e => ∃ x, ents e = some x ∧ x.core = c

/-- The invariant on entries, objects and the frames `L` of all threads.  (No code of its own:
used in statements and proofs.) -/
structure Core (cfg : Cfg K) (ents : Nat → Option (Ent K)) (next : Nat) (objs : List (Fw K)) (L : List (Frame K)) :
    Prop where
  bound : ∀ e, next ≤ e → ents e = none
  frames : ∀ f ∈ L, FrameOk cfg ents f
  objsOk : ∀ w ∈ objs, FwOk cfg ents w
  kids : ∀ e x, ents e = some x → ∀ w ∈ x.kids, FwOk cfg ents w
  refs : ∀ e, refOf ents e = fwCount e objs + kidsTo ents next e + tot (refF e) L
  uniq : ∀ e e' x x', ents e = some x → ents e' = some x' → x.core = x'.core →
    cfg.eqv x.core x.key x'.key = true → e = e'

/-- Mutexes are held and elements accessed as the frames say.  (No code of its own: used in
statements and proofs.) -/
structure Locks (cfg : Cfg K) (vis : Nat → Option Nat) (lock : Nat → Option (Nat × Nat)) (thr : List (List (Frame K))) :
    Prop where
  elem : ∀ (t : Nat) (st : List (Frame K)), thr[t]? = some st → ∀ e, tot (elemF e) st = if vis e = some t then 1 else 0
  owner : ∀ e t, vis e = some t → t < thr.length
  depth : cfg.locking = true →
    ∀ (t : Nat) (st : List (Frame K)), thr[t]? = some st → ∀ c, tot (holdF c) st = depthOf lock t c
  pos : ∀ c o d, lock c = some (o, d) → 0 < d ∧ o < thr.length

/-- All frames of all threads.  (No code of its own: used in statements and proofs.) -/
def frames (s : St K) : List (Frame K) := s.thr.flatten

/-- The invariant.  (No code of its own: used in statements and proofs.) -/
structure Inv (cfg : Cfg K) (s : St K) : Prop where
  core : Core cfg s.ents s.next s.objs (frames s)
  locks : Locks cfg s.vis s.lock s.thr

/-- What must hold of every outcome.  (No code of its own: used in statements and proofs.) -/
def Good (cfg : Cfg K) : Out K → Prop
  | .ok s => Inv cfg s
  | .no => True
  | .ub => False
  | .reentrant => True

/-! ## Lemmas -/

theorem setEnt_same (f : Nat → Option (Ent K)) (e : Nat) (x : Option (Ent K)) : setEnt f e x e = x := by
  simp [setEnt]
theorem setEnt_ne (f : Nat → Option (Ent K)) {e i : Nat} (x : Option (Ent K)) (h : i ≠ e) :
    setEnt f e x i = f i := by simp [setEnt, h]

theorem tot_rel (g : Frame K → Nat) (l : List (Fw K)) (hg : ∀ w, g (.rel w) = 0) :
    tot g (l.map .rel) = 0 := tot_eq_zero fun f hf => by
  obtain ⟨w, _, rfl⟩ := List.mem_map.1 hf
  exact hg w

@[simp] theorem ref_rel (e : Nat) (l : List (Fw K)) : tot (refF e) (l.map .rel) = fwCount e l := by
  induction l with
  | nil => rfl
  | cons w l ih => simp only [List.map_cons, tot_cons, ih, refF, fwCount_cons]; omega

@[simp] theorem elem_rel (e : Nat) (l : List (Fw K)) : tot (elemF e) (l.map .rel) = 0 :=
  tot_rel _ _ fun _ => rfl
@[simp] theorem hold_rel (c : Nat) (l : List (Fw K)) : tot (holdF c) (l.map .rel) = 0 :=
  tot_rel _ _ fun _ => rfl

theorem kidsTo_set {ents : Nat → Option (Ent K)} {next e : Nat} (he : e < next) (x : Option (Ent K)) (i : Nat) :
    kidsTo (setEnt ents e x) next i + kidsOf i (ents e) = kidsTo ents next i + kidsOf i x := by
  have := nsum_change (f := fun j => kidsOf i (setEnt ents e x j)) (g := fun j => kidsOf i (ents j)) he
    fun j hj => by rw [setEnt_ne _ _ hj]
  rw [setEnt_same] at this
  exact this

/-- Entries that flyweights refer to: type and key stay, a value does not disappear.  (No code
of its own: used in statements and proofs.) -/
def Keeps (ents ents' : Nat → Option (Ent K)) (i : Nat) : Prop :=
  ∀ x, ents i = some x → ∃ x', ents' i = some x' ∧ x'.core = x.core ∧ x'.key = x.key ∧ (x.cted = true → x'.cted = true)

/-- Entries that are being accessed exclusively: nothing changes, except for the
reference counts if the entry is referred to.  (No code of its own: used in statements and
proofs.) -/
def Still (ents ents' : Nat → Option (Ent K)) (i : Nat) : Prop :=
  ∀ x, ents i = some x → ∃ x', ents' i = some x' ∧ x'.core = x.core ∧ x'.key = x.key ∧ x'.cted = x.cted ∧
    x'.kids = x.kids ∧ (x.ref = 0 → x'.ref = 0)

theorem Still.keeps {ents ents' : Nat → Option (Ent K)} {i : Nat} (h : Still ents ents' i) : Keeps ents ents' i := by
  intro x hx
  obtain ⟨x', h1, h2, h3, h4, _⟩ := h x hx
  exact ⟨x', h1, h2, h3, fun h => h4.trans h⟩

theorem FwOk.upd {ents ents' : Nat → Option (Ent K)} {w : Fw K} (h : FwOk cfg ents w) (hk : Keeps ents ents' w.h) :
    FwOk cfg ents' w := by
  obtain ⟨x, h1, h2, h3, h4⟩ := h
  obtain ⟨x', g1, g2, g3, g4⟩ := hk x h1
  exact ⟨x', g1, g2.trans h2, g4 h3, g3 ▸ h4⟩

theorem FrameOk.upd {ents ents' : Nat → Option (Ent K)} {f : Frame K} (h : FrameOk cfg ents f)
    (hk : ∀ i, 0 < refF i f → Keeps ents ents' i) (hs : ∀ i, elemOf f = some i → Still ents ents' i) :
    FrameOk cfg ents' f := by
  have hloc : ∀ loc : List (Fw K), (∀ i, fwCount i loc ≤ refF i f) → (∀ w ∈ loc, FwOk cfg ents w) →
      ∀ w ∈ loc, FwOk cfg ents' w := by
    intro loc hl hw w hm
    refine (hw w hm).upd (hk _ ?_)
    have h1 := hl w.h
    have h2 := fwCount_pos hm rfl
    omega
  cases f with
  | insLock c k loc pre => exact hloc loc (fun _ => Nat.le_refl _) h
  | insHash c k loc pre => exact hloc loc (fun _ => Nat.le_refl _) h
  | insFind c k loc pre => exact hloc loc (fun _ => Nat.le_refl _) h
  | insVisit c k e loc =>
    obtain ⟨⟨x, h1, h2, h3⟩, h4⟩ := h
    obtain ⟨x', g1, g2, g3, _⟩ := hs e rfl x h1
    exact ⟨⟨x', g1, g2.trans h2, g3 ▸ h3⟩, hloc loc (fun _ => Nat.le_refl _) h4⟩
  | insUser c k e loc =>
    obtain ⟨⟨x, h1, h2, h3, h5⟩, h4⟩ := h
    obtain ⟨x', g1, g2, g3, g4, _⟩ := hs e rfl x h1
    exact ⟨⟨x', g1, g2.trans h2, g4.trans h3, g3 ▸ h5⟩, hloc loc (fun _ => Nat.le_refl _) h4⟩
  | insDone c k e loc =>
    obtain ⟨⟨x, h1, h2, h3, h5⟩, h4⟩ := h
    obtain ⟨x', g1, g2, g3, g4, _⟩ := hs e rfl x h1
    exact ⟨⟨x', g1, g2.trans h2, g4.trans h3, g3 ▸ h5⟩, hloc loc (fun _ => Nat.le_refl _) h4⟩
  | insAddRef c k e loc => exact ⟨h.1.upd (hs e rfl).keeps, hloc loc (fun _ => Nat.le_refl _) h.2⟩
  | insLeave c k e loc => exact ⟨h.1.upd (hs e rfl).keeps, hloc loc (fun _ => by simp [refF]) h.2⟩
  | insFail c e loc =>
    obtain ⟨⟨x, h1, h2⟩, h4⟩ := h
    obtain ⟨x', g1, g2, _⟩ := hs e rfl x h1
    exact ⟨⟨x', g1, g2.trans h2⟩, hloc loc (fun _ => Nat.le_refl _) h4⟩
  | insUnwind c => trivial
  | insTrack c k e => exact FwOk.upd h (hk _ (by simp [refF]))
  | insUnlock c k e => exact FwOk.upd h (hk _ (by simp [refF]))
  | rel w => exact FwOk.upd h (hk _ (by simp [refF]))
  | relLock w => exact FwOk.upd h (hk _ (by simp [refF]))
  | relCheck w => exact FwOk.upd h (hk _ (by simp [refF]))
  | relUnlock w => exact FwOk.upd h (hk _ (by simp [refF]))
  | relDec w => exact FwOk.upd h (hk _ (by simp [refF]))
  | gcIdle c => trivial
  | gcPass c f todo => trivial
  | gcTest c e =>
    obtain ⟨x, h1, h2⟩ := h
    obtain ⟨x', g1, g2, _⟩ := hs e rfl x h1
    exact ⟨x', g1, g2.trans h2⟩
  | gcErase c e =>
    obtain ⟨x, h1, h2, h3⟩ := h
    obtain ⟨x', g1, g2, _, _, _, g3⟩ := hs e rfl x h1
    exact ⟨x', g1, g2.trans h2, g3 h3⟩
  | gcUnlink c e =>
    obtain ⟨x, h1, h2, h3, h4⟩ := h
    obtain ⟨x', g1, g2, _, _, g4, g3⟩ := hs e rfl x h1
    exact ⟨x', g1, g2.trans h2, g3 h3, g4.trans h4⟩
  | gcLeave c e =>
    obtain ⟨x, h1, h2⟩ := h
    obtain ⟨x', g1, g2, _⟩ := hs e rfl x h1
    exact ⟨x', g1, g2.trans h2⟩

namespace Core
variable {ents : Nat → Option (Ent K)} {next : Nat} {objs : List (Fw K)} {L : List (Frame K)}

theorem lt_next (h : Core cfg ents next objs L) {e : Nat} {x : Ent K} (hx : ents e = some x) : e < next := by
  rcases Nat.lt_or_ge e next with h1 | h1
  · exact h1
  · rw [h.bound e h1] at hx
    cases hx

theorem perm {L' : List (Frame K)} (h : Core cfg ents next objs L) (hp : L.Perm L') : Core cfg ents next objs L' where
  bound := h.bound
  frames f hf := h.frames f (hp.mem_iff.2 hf)
  objsOk := h.objsOk
  kids := h.kids
  refs e := by rw [h.refs, tot_perm hp]
  uniq := h.uniq

theorem ref_nonneg (h : Core cfg ents next objs L) (e : Nat) : 0 ≤ refOf ents e := by
  rw [h.refs e]; omega

/-- Nothing refers to an entry whose count is zero. -/
theorem ref_zero (h : Core cfg ents next objs L) {e : Nat} (he : refOf ents e = 0) :
    fwCount e objs = 0 ∧ kidsTo ents next e = 0 ∧ tot (refF e) L = 0 := by
  have := h.refs e
  omega

theorem ref_pos_obj (h : Core cfg ents next objs L) {w : Fw K} (hw : w ∈ objs) : 0 < refOf ents w.h := by
  have h1 := h.refs w.h
  have h2 := fwCount_pos hw rfl
  omega

theorem ref_pos_kid (h : Core cfg ents next objs L) {e : Nat} {x : Ent K} (hx : ents e = some x) {w : Fw K}
    (hw : w ∈ x.kids) : 0 < refOf ents w.h := by
  have h1 := h.refs w.h
  have h2 := nsum_pos (f := fun i => kidsOf w.h (ents i)) (h.lt_next hx) (by simpa [hx, kidsOf] using fwCount_pos hw rfl)
  unfold kidsTo at h1
  omega

theorem ref_pos_frame (h : Core cfg ents next objs L) {e : Nat} {f : Frame K} (hf : f ∈ L) (hr : 0 < refF e f) :
    0 < refOf ents e := by
  have h1 := h.refs e
  have h2 := tot_pos hf hr
  omega

/-- Steps that change one entry (or none), the frames of a thread, and the objects. -/
theorem change {objs' : List (Fw K)} {old new oth : List (Frame K)} (h : Core cfg ents next objs (old ++ oth))
    {e : Nat} {x x' : Ent K} (hx : ents e = some x) (hc : x'.core = x.core) (hk : x'.key = x.key)
    (hkeep : 0 < x.ref → x.cted = true → x'.cted = true)
    (hstill : (x'.cted = x.cted ∧ x'.kids = x.kids ∧ (x.ref = 0 → x'.ref = 0)) ∨ ∀ f ∈ oth, elemOf f ≠ some e)
    (hnew : ∀ f ∈ new, FrameOk cfg (setEnt ents e (some x')) f)
    (ho : ∀ w ∈ objs', FwOk cfg (setEnt ents e (some x')) w)
    (hkids : ∀ w ∈ x'.kids, FwOk cfg (setEnt ents e (some x')) w)
    (href : ∀ i, (if i = e then x'.ref - x.ref else 0) + fwCount i objs + tot (refF i) old + fwCount i x.kids =
      fwCount i objs' + tot (refF i) new + fwCount i x'.kids) :
    Core cfg (setEnt ents e (some x')) next objs' (new ++ oth) := by
  have hkp : ∀ i, 0 < refOf ents i → Keeps ents (setEnt ents e (some x')) i := by
    intro i hi y hy
    by_cases hie : i = e
    · subst hie
      rw [hx] at hy
      cases hy
      refine ⟨x', setEnt_same _ _ _, hc, hk, hkeep ?_⟩
      simpa [refOf, hx] using hi
    · exact ⟨y, by rw [setEnt_ne _ _ hie, hy], rfl, rfl, id⟩
  refine ⟨?_, ?_, ho, ?_, ?_, ?_⟩
  · intro i hi
    have := h.lt_next hx
    rw [setEnt_ne _ _ (by omega)]
    exact h.bound i hi
  · intro f hf
    rcases List.mem_append.1 hf with hf | hf
    · exact hnew f hf
    · have hm : f ∈ old ++ oth := List.mem_append.2 (.inr hf)
      refine (h.frames f hm).upd (fun i hi => hkp i (h.ref_pos_frame hm hi)) fun i hi y hy => ?_
      by_cases hie : i = e
      · subst hie
        rw [hx] at hy
        cases hy
        rcases hstill with ⟨h1, h2, h3⟩ | h1
        · exact ⟨x', setEnt_same _ _ _, hc, hk, h1, h2, h3⟩
        · exact absurd hi (h1 f hf)
      · exact ⟨y, by rw [setEnt_ne _ _ hie, hy], rfl, rfl, rfl, rfl, id⟩
  · intro i y hy w hw
    by_cases hie : i = e
    · subst hie
      rw [setEnt_same] at hy
      cases hy
      exact hkids w hw
    · rw [setEnt_ne _ _ hie] at hy
      exact (h.kids i y hy w hw).upd (hkp _ (h.ref_pos_kid hy hw))
  · intro i
    have h1 := h.refs i
    have h2 := href i
    have h3 := kidsTo_set (ents := ents) (h.lt_next hx) (some x') i
    simp only [hx, kidsOf] at h3
    have h4 : refOf (setEnt ents e (some x')) i = refOf ents i + if i = e then x'.ref - x.ref else 0 := by
      by_cases hie : i = e
      · subst hie
        simp only [refOf, setEnt_same, hx, if_true]
        omega
      · simp [refOf, setEnt_ne _ _ hie, hie]
    rw [h4]
    simp only [tot_append] at h1 ⊢
    omega
  · have key : ∀ i y, setEnt ents e (some x') i = some y → ∃ z, ents i = some z ∧ z.core = y.core ∧ z.key = y.key := by
      intro i y hy
      by_cases hie : i = e
      · subst hie
        rw [setEnt_same] at hy
        cases hy
        exact ⟨x, hx, hc.symm, hk.symm⟩
      · rw [setEnt_ne _ _ hie] at hy
        exact ⟨y, hy, rfl, rfl⟩
    intro i j y z hy hz hcc hkk
    obtain ⟨y', a1, a2, a3⟩ := key i y hy
    obtain ⟨z', b1, b2, b3⟩ := key j z hz
    exact h.uniq i j y' z' a1 b1 (by rw [a2, b2, hcc]) (by rw [a2, a3, b3]; exact hkk)

/-- Steps that change only the frames of a thread and the objects. -/
theorem same {objs' : List (Fw K)} {old new oth : List (Frame K)} (h : Core cfg ents next objs (old ++ oth))
    (hnew : ∀ f ∈ new, FrameOk cfg ents f) (ho : ∀ w ∈ objs', FwOk cfg ents w)
    (href : ∀ i, fwCount i objs + tot (refF i) old = fwCount i objs' + tot (refF i) new) :
    Core cfg ents next objs' (new ++ oth) := by
  refine ⟨h.bound, ?_, ho, h.kids, ?_, h.uniq⟩
  · intro f hf
    rcases List.mem_append.1 hf with hf | hf
    · exact hnew f hf
    · exact h.frames f (List.mem_append.2 (.inr hf))
  · intro i
    have h1 := h.refs i
    have h2 := href i
    simp only [tot_append] at h1 ⊢
    omega

/-- A new entry. -/
theorem insert {oth : List (Frame K)} {c : Nat} {k : K} {loc : List (Fw K)} {pre : Bool} (hcfg : CfgOk cfg)
    (h : Core cfg ents next objs (.insFind c k loc pre :: oth))
    (hno : ∀ e x, ents e = some x → x.core = c → cfg.eqv c x.key k = false) :
    Core cfg (setEnt ents next (some ⟨c, k, pre, loc, 0, 0⟩)) (next + 1) objs (.insVisit c k next [] :: oth) := by
  have hn : ents next = none := h.bound next (Nat.le_refl _)
  have hst : ∀ i y, ents i = some y → setEnt ents next (some ⟨c, k, pre, loc, 0, 0⟩) i = some y := by
    intro i y hy
    rw [setEnt_ne _ _ (Nat.ne_of_lt (h.lt_next hy)), hy]
  have hfw : ∀ w, FwOk cfg ents w → FwOk cfg (setEnt ents next (some ⟨c, k, pre, loc, 0, 0⟩)) w := by
    rintro w ⟨x, h1, h2⟩
    exact ⟨x, hst _ _ h1, h2⟩
  refine ⟨?_, ?_, fun w hw => hfw w (h.objsOk w hw), ?_, ?_, ?_⟩
  · intro e he
    rw [setEnt_ne _ _ (by omega)]
    exact h.bound e (by omega)
  · intro f hf
    rcases List.mem_cons.1 hf with rfl | hf
    · exact ⟨⟨_, setEnt_same _ _ _, rfl, hcfg.refl c k⟩, by simp⟩
    · exact (h.frames f (List.mem_cons_of_mem _ hf)).upd (fun i _ y hy => ⟨y, hst i y hy, rfl, rfl, id⟩)
        fun i _ y hy => ⟨y, hst i y hy, rfl, rfl, rfl, rfl, id⟩
  · intro e x hx w hw
    by_cases he : e = next
    · subst he
      rw [setEnt_same] at hx
      cases hx
      exact hfw w (h.frames _ List.mem_cons_self w hw)
    · rw [setEnt_ne _ _ he] at hx
      exact hfw w (h.kids e x hx w hw)
  · intro e
    have h1 := h.refs e
    have h2 : refOf (setEnt ents next (some ⟨c, k, pre, loc, 0, 0⟩)) e = refOf ents e := by
      by_cases he : e = next
      · subst he
        simp [refOf, setEnt_same, hn]
      · simp [refOf, setEnt_ne _ _ he]
    have h3 : kidsTo (setEnt ents next (some ⟨c, k, pre, loc, 0, 0⟩)) (next + 1) e =
        kidsTo ents next e + fwCount e loc := by
      simp only [kidsTo, nsum, setEnt_same, kidsOf]
      congr 1
      exact nsum_congr fun i hi => by rw [setEnt_ne _ _ (by omega)]
    rw [h2, h3]
    simp only [tot_cons, refF, fwCount_nil] at h1 ⊢
    omega
  · intro e e' x x' hx hx' hc hk
    by_cases he : e = next <;> by_cases he' : e' = next
    · rw [he, he']
    · subst he
      rw [setEnt_same] at hx
      rw [setEnt_ne _ _ he'] at hx'
      cases hx
      have := hno e' x' hx' hc.symm
      rw [hcfg.symm _ _ _ hk] at this
      cases this
    · subst he'
      rw [setEnt_same] at hx'
      rw [setEnt_ne _ _ he] at hx
      cases hx'
      have := hno e x hx hc
      simp only at hc hk
      rw [hc] at hk
      rw [hk] at this
      cases this
    · rw [setEnt_ne _ _ he] at hx
      rw [setEnt_ne _ _ he'] at hx'
      exact h.uniq e e' x x' hx hx' hc hk

/-- A destroyed entry is unlinked. -/
theorem unlink {oth : List (Frame K)} {c e : Nat} (h : Core cfg ents next objs (.gcUnlink c e :: oth))
    (hex : ∀ f ∈ oth, elemOf f ≠ some e) : Core cfg (setEnt ents e none) next objs oth := by
  obtain ⟨x, hx, _, hr, hk⟩ := h.frames _ List.mem_cons_self
  have hz : refOf ents e = 0 := by simp [refOf, hx, hr]
  have hst : ∀ i y, 0 < refOf ents i → ents i = some y → setEnt ents e none i = some y := by
    intro i y hi hy
    have : i ≠ e := by
      rintro rfl
      omega
    rw [setEnt_ne _ _ this, hy]
  have hfw : ∀ w, 0 < refOf ents w.h → FwOk cfg ents w → FwOk cfg (setEnt ents e none) w := by
    rintro w hw ⟨x, h1, h2⟩
    exact ⟨x, hst _ _ hw h1, h2⟩
  refine ⟨?_, ?_, fun w hw => hfw w (h.ref_pos_obj hw) (h.objsOk w hw), ?_, ?_, ?_⟩
  · intro i hi
    by_cases he : i = e
    · subst he
      exact setEnt_same _ _ _
    · rw [setEnt_ne _ _ he]
      exact h.bound i hi
  · intro f hf
    refine (h.frames f (List.mem_cons_of_mem _ hf)).upd
      (fun i hi y hy => ⟨y, hst i y (h.ref_pos_frame (List.mem_cons_of_mem _ hf) hi) hy, rfl, rfl, id⟩)
      fun i hi y hy => ⟨y, ?_, rfl, rfl, rfl, rfl, id⟩
    rw [setEnt_ne _ _ ?_, hy]
    rintro rfl
    exact hex f hf hi
  · intro i y hy w hw
    by_cases he : i = e
    · subst he
      rw [setEnt_same] at hy
      cases hy
    · rw [setEnt_ne _ _ he] at hy
      exact hfw w (h.ref_pos_kid hy hw) (h.kids i y hy w hw)
  · intro i
    have h1 := h.refs i
    have h3 := kidsTo_set (ents := ents) (h.lt_next hx) none i
    simp only [hx, kidsOf, hk, fwCount_nil] at h3
    have h2 : refOf (setEnt ents e none) i = refOf ents i := by
      by_cases he : i = e
      · subst he
        rw [hz]
        simp [refOf, setEnt_same]
      · simp [refOf, setEnt_ne _ _ he]
    rw [h2]
    simp only [tot_cons, refF] at h1
    omega
  · intro i j y z hy hz hc hkk
    have key : ∀ i y, setEnt ents e none i = some y → ents i = some y := by
      intro i y hy
      by_cases he : i = e
      · subst he
        rw [setEnt_same] at hy
        cases hy
      · rwa [setEnt_ne _ _ he] at hy
    exact h.uniq i j y z (key i y hy) (key j z hz) hc hkk

/-- A flyweight refers to an entry with a value, and is counted. -/
theorem fw_ent (h : Core cfg ents next objs L) {w : Fw K} (hw : w ∈ objs) :
    ∃ x, ents w.h = some x ∧ x.core = w.c ∧ cfg.eqv w.c x.key w.k = true ∧ x.cted = true ∧ 0 < x.ref := by
  obtain ⟨x, h1, h2, h3, h4⟩ := h.objsOk w hw
  have := h.ref_pos_obj hw
  exact ⟨x, h1, h2, h4, h3, by simpa [refOf, h1] using this⟩

theorem kid_ent (h : Core cfg ents next objs L) {e : Nat} {y : Ent K} (hy : ents e = some y) {w : Fw K}
    (hw : w ∈ y.kids) :
    ∃ x, ents w.h = some x ∧ x.core = w.c ∧ cfg.eqv w.c x.key w.k = true ∧ x.cted = true ∧ 0 < x.ref := by
  obtain ⟨x, h1, h2, h3, h4⟩ := h.kids e y hy w hw
  have := h.ref_pos_kid hy hw
  exact ⟨x, h1, h2, h4, h3, by simpa [refOf, h1] using this⟩

end Core

end Verif.CFac

import Verif.Atomic
import Verif.ConcStep

/-!
# The concurrent model refines the atomic specification: abstraction, invariant, general lemmas
-/

set_option autoImplicit false

namespace Verif.Conc
open Verif.Atomic (Val Call drops setVal)
variable {K : Type} {cfg : Cfg K}

/-- What matters of an entry.  `live`: it has a value, and its reference count is positive or some thread that
has dropped the count to zero is about to check it for erasure.  (No code of its own: used in statements and proofs.) -/
structure Info (K : Type) where
  core : Nat
  key : K
  cted : Bool
  kids : List (Fw K)
  live : Bool

/-- Of an entry, given the frames of all threads.  (No code of its own: used in statements and proofs.) -/
def info (ents : Nat → Option (Ent K)) (L : List (Frame K)) (e : Nat) : Option (Info K) :=
  (ents e).map fun x =>
    ⟨x.core, x.key, x.cted, x.kids, x.cted && (decide (0 < x.ref) || decide (0 < tot (pendF e) L))⟩

/-- Flyweights inside an entry.  (No code of its own: used in statements and proofs.) -/
def kidsI (I : Nat → Option (Info K)) (e : Nat) : List (Fw K) := match I e with
  | some i => i.kids
  | none => []

/-- Calls that a frame stands for.  (No code of its own: used in statements and proofs.) -/
def absF (I : Nat → Option (Info K)) : Frame K → List (Call K)
  | .insLock c k loc _ => [.create c k loc]
  | .insFind c k loc _ => [.create c k loc]
  | .insVisit c k e loc new =>
    if new then match I e with
      | some i => if i.cted then [.built c k i.kids] else [.build c k i.kids]
      | none => []
    else [.create c k loc]
  | .insUser c k e => [.build c k (kidsI I e)]
  | .insDone c k e => [.built c k (kidsI I e)]
  | .insCatch _ e => drops (kidsI I e)
  | .insUnwind _ loc => drops loc
  | .insAddRef c k e loc => match I e with
    | some i => if i.live then [.create c k loc] else [.built c k i.kids]
    | none => []
  | .insAddDel c k e loc => [.made ⟨e, c, k⟩ loc]
  | .insUnlock c k e loc => [.made ⟨e, c, k⟩ loc]
  | .relDec w => [.destroy w.h]
  | .relLock _ e => [.destroy e]
  | .relCheck _ e => [.destroy e]
  | .relErase _ e => drops (kidsI I e)
  | .relUnlock _ => []

/-- Calls that a stack stands for.  (No code of its own: used in statements and proofs.) -/
def absS (I : Nat → Option (Info K)) (st : List (Frame K)) : List (Call K) := st.flatMap (absF I)

/-- Values: those of live entries.  (No code of its own: used in statements and proofs.) -/
def absV (I : Nat → Option (Info K)) (e : Nat) : Option (Val K) :=
  (I e).bind fun i => if i.live then some ⟨i.core, i.key, i.kids⟩ else none

/-- The state of the specification that a state of the model stands for.  (No code of its own: used in statements and proofs.) -/
def abs (s : St K) : Atomic.St K :=
  ⟨absV (info s.ents (frames s)), s.objs, s.thr.map (absS (info s.ents (frames s)))⟩

/-- What holds of a frame in addition to the invariant.  (No code of its own: used in statements and proofs.) -/
def FitF (I : Nat → Option (Info K)) : Frame K → Prop
  | .insVisit _ k e _ new => ∃ i, I e = some i ∧
      (if new then i.key = k ∧ i.live = false else i.cted = true → i.live = true)
  | .insUser _ k e => ∃ i, I e = some i ∧ i.key = k
  | .insDone _ k e => ∃ i, I e = some i ∧ i.key = k
  | .insAddRef _ k e loc => ∃ i, I e = some i ∧ (i.live = true ∨ i.key = k ∧ loc = [])
  | _ => True

/-- What holds of all frames.  (No code of its own: used in statements and proofs.) -/
def Fit (s : St K) : Prop := ∀ f ∈ frames s, FitF (info s.ents (frames s)) f

/-! ## General lemmas -/

@[simp] theorem absS_nil (I : Nat → Option (Info K)) : absS I [] = [] := rfl
@[simp] theorem absS_cons (I : Nat → Option (Info K)) (f : Frame K) (st : List (Frame K)) :
    absS I (f :: st) = absF I f ++ absS I st := by simp [absS]
@[simp] theorem absS_append (I : Nat → Option (Info K)) (l l' : List (Frame K)) :
    absS I (l ++ l') = absS I l ++ absS I l' := by simp [absS]
@[simp] theorem absS_relDec (I : Nat → Option (Info K)) (l : List (Fw K)) : absS I (l.map .relDec) = drops l := by
  induction l with
  | nil => rfl
  | cons w l ih => simp only [List.map_cons, absS_cons, ih]; rfl
@[simp] theorem drops_nil : drops ([] : List (Fw K)) = [] := rfl

theorem absF_congr {I I' : Nat → Option (Info K)} {f : Frame K} (h : ∀ e, 0 < claimF e f → I' e = I e) :
    absF I' f = absF I f := by
  cases f <;> simp only [absF, kidsI]
  all_goals rw [h _ (by simp [claimF])]

theorem FitF.congr {I I' : Nat → Option (Info K)} {f : Frame K} (h : ∀ e, 0 < claimF e f → I' e = I e)
    (hf : FitF I f) : FitF I' f := by
  cases f <;> simp only [FitF] at *
  all_goals rw [h _ (by simp [claimF])]; exact hf

theorem absS_congr {I I' : Nat → Option (Info K)} {st : List (Frame K)}
    (h : ∀ f ∈ st, ∀ e, 0 < claimF e f → I' e = I e) : absS I' st = absS I st := by
  induction st with
  | nil => rfl
  | cons f st ih =>
    rw [absS_cons, absS_cons, absF_congr (h f (by simp)), ih fun g hg => h g (by simp [hg])]

theorem info_perm {ents : Nat → Option (Ent K)} {L L' : List (Frame K)} (h : L.Perm L') : info ents L = info ents L' := by
  funext e
  simp only [info, tot_perm h]

/-- The same information about an entry. -/
theorem info_eq {ents ents' : Nat → Option (Ent K)} {L L' : List (Frame K)} {e : Nat}
    (h1 : (ents' e).map shape = (ents e).map shape)
    (h2 : ∀ x x', ents e = some x → ents' e = some x' → x.cted = true →
      ((0 < x'.ref ∨ 0 < tot (pendF e) L') ↔ (0 < x.ref ∨ 0 < tot (pendF e) L))) :
    info ents' L' e = info ents L e := by
  unfold info
  cases hx : ents e with
  | none =>
    rw [hx] at h1
    cases hx' : ents' e with
    | none => rfl
    | some x' => rw [hx'] at h1; cases h1
  | some x =>
    rw [hx] at h1
    cases hx' : ents' e with
    | none => rw [hx'] at h1; cases h1
    | some x' =>
      rw [hx'] at h1
      simp only [Option.map_some, Option.some.injEq, shape, Prod.mk.injEq] at h1
      obtain ⟨a1, a2, a3, a4, _⟩ := h1
      simp only [Option.map_some, a1, a2, a3, a4, Option.some.injEq, Info.mk.injEq, true_and]
      cases hc : x.cted with
      | false => rfl
      | true =>
        have := h2 x x' hx hx' hc
        rw [Bool.true_and, Bool.true_and, ← Bool.decide_or, ← Bool.decide_or]
        exact decide_eq_decide.2 this

/-- ... when the entries are the same. -/
theorem info_frames {ents : Nat → Option (Ent K)} {L L' : List (Frame K)} {e : Nat}
    (h : tot (pendF e) L' = tot (pendF e) L) : info ents L' e = info ents L e :=
  info_eq rfl fun x x' hx hx' _ => by
    rw [hx] at hx'
    cases hx'
    rw [h]

theorem frames_perm {thr : List (List (Frame K))} {t : Nat} {st : List (Frame K)} (h : thr[t]? = some st)
    (new rest : List (Frame K)) :
    (thr.set t (new ++ rest)).flatten.Perm (new ++ (thr.set t rest).flatten) := by
  obtain ⟨A, B, _, h2, _⟩ := split h
  rw [h2, h2]
  rw [List.append_assoc, List.append_assoc, ← List.append_assoc, ← List.append_assoc, ← List.append_assoc]
  refine List.Perm.append_right B ?_
  rw [← List.append_assoc]
  exact (List.perm_append_comm).append_right rest

/-- The frames of a state in which thread `t` is to execute `f`. -/
theorem frames_cons {s : St K} {t : Nat} {f : Frame K} {rest : List (Frame K)} (h : s.thr[t]? = some (f :: rest)) :
    (frames s).Perm (f :: (s.thr.set t rest).flatten) := by
  have := frames_perm h [f] rest
  rwa [show [f] ++ rest = f :: rest from rfl, set_self h] at this

/-- Which frames hold the mutex at the same time. -/
theorem Inv.excl {s : St K} (h : Inv cfg s) {t : Nat} {f : Frame K} {rest : List (Frame K)}
    (ht : s.thr[t]? = some (f :: rest)) :
    ∀ g ∈ (s.thr.set t rest).flatten, ∀ c, holds f = some c → holds g = some c → waiting g = true := by
  intro g hg c h1 h2
  obtain ⟨st, h3, h4⟩ := List.mem_flatten.1 hg
  obtain ⟨t', ht'⟩ := List.mem_iff_getElem?.1 h3
  by_cases he : t' = t
  · subst he
    rw [List.getElem?_set_self (List.getElem?_eq_some_iff.1 ht).1] at ht'
    cases ht'
    exact h.locks.tails _ _ ht g h4
  · rw [List.getElem?_set_ne (Ne.symm he)] at ht'
    have h5 := h.locks.depth t _ ht c
    have h6 := h.locks.depth t' _ ht' c
    rw [depth_excl (t := t) (by rw [← h5]; simp [holdF, h1]; omega) he] at h6
    have := tot_le (g := holdF c) h4
    simp [holdF, h2] at this
    omega

/-- The invariant with the frames in that order. -/
theorem Inv.core' {s : St K} (h : Inv cfg s) {t : Nat} {f : Frame K} {rest : List (Frame K)}
    (ht : s.thr[t]? = some (f :: rest)) :
    Core cfg s.ents s.next s.objs s.clock (f :: (s.thr.set t rest).flatten) := h.core.perm (frames_cons ht)

theorem abs_thr {thr : List (List (Frame K))} {t : Nat} {rest : List (Frame K)} (new : List (Frame K))
    {I I' : Nat → Option (Info K)} (hlt : t < thr.length)
    (h : ∀ g ∈ (thr.set t rest).flatten, ∀ e, 0 < claimF e g → I' e = I e) :
    (thr.set t (new ++ rest)).map (absS I') = (thr.map (absS I)).set t (absS I' new ++ absS I rest) := by
  have key : (thr.set t rest).map (absS I') = (thr.set t rest).map (absS I) :=
    List.map_congr_left fun st hst => absS_congr fun g hg => h g (List.mem_flatten.2 ⟨st, hst, hg⟩)
  refine List.ext_getElem? fun i => ?_
  by_cases hi : i = t
  · subst hi
    rw [List.getElem?_map, List.getElem?_set_self hlt, List.getElem?_set_self (by simpa using hlt)]
    have hm : rest ∈ thr.set i rest := List.mem_of_getElem? (List.getElem?_set_self hlt)
    simp only [Option.map_some, absS_append]
    rw [absS_congr (I := I) (I' := I') fun g hg => h g (List.mem_flatten.2 ⟨rest, hm, hg⟩)]
  · have := congrArg (·[i]?) key
    simp only [List.getElem?_map, List.getElem?_set_ne (Ne.symm hi)] at this
    rw [List.getElem?_map, List.getElem?_set_ne (Ne.symm hi), List.getElem?_set_ne (Ne.symm hi), List.getElem?_map]
    exact this

/-- General form of a step: thread `t` replaces the top of its stack by `new`, and the other frames see no change. -/
theorem abs_step {s : St K} (hF : Fit s) {t : Nat} {st : List (Frame K)} (ht : s.thr[t]? = some st)
    {new rest : List (Frame K)} (hr : ∀ g ∈ rest, g ∈ st)
    {ents : Nat → Option (Ent K)} {next clock : Nat} {objs : List (Fw K)} {lock : Nat → Option (Nat × Nat)}
    (h1 : ∀ g ∈ (s.thr.set t rest).flatten, ∀ e, 0 < claimF e g →
      info ents (new ++ (s.thr.set t rest).flatten) e = info s.ents (frames s) e)
    (h2 : ∀ g ∈ new, FitF (info ents (new ++ (s.thr.set t rest).flatten)) g) :
    Fit ⟨ents, next, lock, s.thr.set t (new ++ rest), objs, clock⟩ ∧
    abs ⟨ents, next, lock, s.thr.set t (new ++ rest), objs, clock⟩ =
      ⟨absV (info ents (new ++ (s.thr.set t rest).flatten)), objs,
        (abs s).thr.set t (absS (info ents (new ++ (s.thr.set t rest).flatten)) new ++
          absS (info s.ents (frames s)) rest)⟩ := by
  have hp := frames_perm ht new rest
  have hlt : t < s.thr.length := (List.getElem?_eq_some_iff.1 ht).1
  have hI : info ents (s.thr.set t (new ++ rest)).flatten = info ents (new ++ (s.thr.set t rest).flatten) := info_perm hp
  constructor
  · intro g hg
    show FitF (info ents (s.thr.set t (new ++ rest)).flatten) g
    rw [hI]
    rcases List.mem_append.1 (hp.mem_iff.1 hg) with hg | hg
    · exact h2 g hg
    · refine (hF g ?_).congr (h1 g hg)
      obtain ⟨st', h3, h4⟩ := List.mem_flatten.1 hg
      obtain ⟨t', ht'⟩ := List.mem_iff_getElem?.1 h3
      by_cases he : t' = t
      · subst he
        rw [List.getElem?_set_self hlt] at ht'
        cases ht'
        exact List.mem_flatten.2 ⟨st, List.mem_of_getElem? ht, hr g h4⟩
      · rw [List.getElem?_set_ne (Ne.symm he)] at ht'
        exact List.mem_flatten.2 ⟨st', List.mem_of_getElem? ht', h4⟩
  · unfold abs frames
    rw [show ({ ents := ents, next := next, lock := lock, thr := s.thr.set t (new ++ rest), objs := objs, clock := clock } :
      St K).thr = s.thr.set t (new ++ rest) from rfl]
    dsimp only
    rw [hI, abs_thr new hlt h1]
    rfl

end Verif.Conc

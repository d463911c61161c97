import Verif.CFacRank
import Verif.CFacTrack
import Verif.ConcWork

/-!
# How much the library does with `concurrent_factory`
-/

set_option autoImplicit false

namespace Verif.CFac
open Verif.Conc (Fw Cfg CfgOk pick tot tot_nil tot_append tot_cons nsum nsum_congr nsum_change nsum_pos split fwCount fwCount_pos
  exists_of_tot depthOf tot_pos)
open Relation
variable {K : Type} {cfg : Cfg K}

/-- Steps that a frame has left at most, including the later destruction of the flyweights in it.  (No code of its own: used in
proofs.) -/
def left : Frame K → Nat
  | .insLock _ _ loc _ => 15 + 2 * loc.length
  | .insHash _ _ loc _ => 14 + 2 * loc.length
  | .insFind _ _ loc _ => 13 + 2 * loc.length
  | .insVisit _ _ _ loc => 12 + 2 * loc.length
  | .insUser _ _ _ loc => 11 + 2 * loc.length
  | .insDone _ _ _ loc => 10 + 2 * loc.length
  | .insAddRef _ _ _ loc => 9 + 2 * loc.length
  | .insLeave _ _ _ loc => 8 + 2 * loc.length
  | .insFail _ _ loc => 2 + 2 * loc.length
  | .insUnwind _ => 1
  | .insTrack .. => 7
  | .insUnlock .. => 3
  | .rel _ => 2
  | .relLock _ => 4
  | .relCheck _ => 3
  | .relUnlock _ => 2
  | .relDec _ => 1
  | .gcIdle _ => 0
  | .gcPass .. => 1
  | .gcTest .. => 3
  | .gcErase .. => 2
  | .gcUnlink .. => 1
  | .gcLeave .. => 1

/-- Steps for the destruction of the flyweights in an entry, and for the last tracking handle to it.  (No code of its own:
used in proofs.) -/
def leftE : Option (Ent K) → Nat
  | none => 0
  | some x => 2 * x.kids.length + if 0 < x.tref then 3 else 0

/-- Steps that are left at most, including the later destruction of all flyweights.  (No code of its own: used in proofs.) -/
def potential (s : St K) : Nat :=
  tot left (frames s) + nsum (fun i => leftE (s.ents i)) s.next + 2 * s.objs.length

theorem left_rel (l : List (Fw K)) : tot left (l.map .rel) = 2 * l.length := by
  induction l with
  | nil => rfl
  | cons w l ih => simp only [List.map_cons, tot_cons, ih, left, List.length_cons]; omega

theorem leftE_set {ents : Nat → Option (Ent K)} {next e : Nat} (he : e < next) (x : Option (Ent K)) :
    nsum (fun i => leftE (setEnt ents e x i)) next + leftE (ents e) = nsum (fun i => leftE (ents i)) next + leftE x := by
  have := nsum_change (f := fun i => leftE (setEnt ents e x i)) (g := fun i => leftE (ents i)) he
    fun j hj => by simp only [setEnt_ne _ _ hj]
  simpa only [setEnt_same] using this

theorem leftE_new (ents : Nat → Option (Ent K)) (next : Nat) (x : Option (Ent K)) :
    nsum (fun i => leftE (setEnt ents next x i)) (next + 1) = nsum (fun i => leftE (ents i)) next + leftE x := by
  simp only [nsum, setEnt_same]
  rw [nsum_congr fun i hi => by rw [setEnt_ne _ _ (by omega)]]

/-- The actions, of a thread with stack `st`, by which calls and the collector's visits of elements proceed, rather than
begin.  (No code of its own: used in statements and proofs.) -/
def proceeds (st : List (Frame K)) : Act K → Bool
  | .run => match st with
    | .gcIdle _ :: _ => false
    | _ => true
  | .finish .. => true
  | .throw_ => true
  | _ => false

/-- Steps of the library that an action may cause, now or later; for `run`, if it is the collector's waking up.  (No code of
its own: used in statements and proofs.) -/
def cost (st : List (Frame K)) : Act K → Nat
  | .run => match st with
    | .gcIdle _ :: _ => 1
    | _ => 0
  | .create .. => 15
  | .copy _ => 2
  | .copyKid .. => 2
  | .gcVisit _ => 3
  | _ => 0

theorem lib_potential {s s' : St K} (hi : Inv cfg s) {t : Nat} {f : Frame K} {rest : List (Frame K)} (ht : s.thr[t]? = some (f :: rest))
    (hs : lib cfg s t f rest = .ok s') :
    potential s' + (if proceeds (f :: rest) .run then 1 else 0) ≤ potential s + cost (f :: rest) .run := by
  obtain ⟨A, B, h1, h2, _⟩ := split ht
  have lt : ∀ {e : Nat} {x : Ent K}, s.ents e = some x → e < s.next := fun hx => hi.core.lt_next hx
  unfold potential frames
  rw [h1]
  cases f with
  | insFind c k loc pre =>
    simp only [lib] at hs
    split at hs
    · cases hs
    split at hs
    · split at hs <;> cases hs
      simp only [h2, tot_append, tot_cons, left, proceeds, cost, if_true]
      omega
    · cases hs
      have := leftE_new s.ents s.next (some ⟨c, k, pre, loc, 0, 0⟩)
      simp only [leftE, Int.lt_irrefl, if_false] at this ⊢
      simp only [h2, tot_append, tot_cons, left, List.length_nil, proceeds, cost, if_true]
      omega
  | insVisit c k e loc =>
    simp only [lib] at hs
    split at hs <;> cases hs
    simp only [h2, tot_append, tot_cons, proceeds, cost, if_true]
    split <;> simp only [left] <;> omega
  | insUser => cases hs
  | insDone c k e loc =>
    simp only [lib] at hs
    split at hs <;> cases hs
    rename_i x hx
    have := leftE_set (ents := s.ents) (lt hx) (some { x with cted := true })
    rw [hx] at this
    simp only [leftE] at this ⊢
    simp only [h2, tot_append, tot_cons, left, proceeds, cost, if_true]
    omega
  | insAddRef c k e loc =>
    simp only [lib] at hs
    split at hs <;> cases hs
    rename_i x hx
    have := leftE_set (ents := s.ents) (lt hx) (some { x with ref := x.ref + 1 })
    rw [hx] at this
    simp only [leftE] at this ⊢
    simp only [h2, tot_append, tot_cons, left, proceeds, cost, if_true]
    omega
  | insTrack c k e =>
    simp only [lib] at hs
    split at hs <;> cases hs
    rename_i x hx
    have := leftE_set (ents := s.ents) (lt hx) (some { x with tref := if cfg.tracks then x.tref + 1 else x.tref })
    rw [hx] at this
    simp only [leftE] at this ⊢
    simp only [h2, tot_append, tot_cons, left, proceeds, cost, if_true]
    generalize (if cfg.tracks = true then x.tref + 1 else x.tref) = y at this ⊢
    repeat' split at this
    all_goals omega
  | rel w =>
    simp only [lib] at hs
    split at hs
    · cases hs
    rename_i x hx
    split at hs <;> cases hs
    · have := leftE_set (ents := s.ents) (lt hx) (some { x with tref := x.tref - 1 })
      rw [hx] at this
      simp only [leftE] at this ⊢
      simp only [h2, tot_append, tot_cons, proceeds, cost, if_true]
      split <;> simp only [left] <;> repeat' split at this
      all_goals omega
    · simp only [h2, tot_append, tot_cons, left, proceeds, cost, if_true]
      omega
  | relDec w =>
    simp only [lib] at hs
    split at hs <;> cases hs
    rename_i x hx
    have := leftE_set (ents := s.ents) (lt hx) (some { x with ref := x.ref - 1 })
    rw [hx] at this
    simp only [leftE] at this ⊢
    simp only [h2, tot_append, tot_cons, left, proceeds, cost, if_true]
    omega
  | gcTest c e =>
    simp only [lib] at hs
    split at hs <;> cases hs
    simp only [h2, tot_append, tot_cons, proceeds, cost, if_true]
    split <;> simp only [left] <;> omega
  | gcErase c e =>
    simp only [lib] at hs
    split at hs <;> cases hs
    rename_i x hx
    have := leftE_set (ents := s.ents) (lt hx) (some { x with cted := false, kids := [] })
    rw [hx] at this
    simp only [leftE] at this ⊢
    simp only [h2, tot_append, tot_cons, left, left_rel, proceeds, cost, if_true, List.length_nil] at this ⊢
    omega
  | gcUnlink c e =>
    simp only [lib] at hs
    split at hs <;> cases hs
    rename_i x hx
    have := leftE_set (ents := s.ents) (lt hx) none
    rw [hx] at this
    simp only [leftE] at this ⊢
    simp only [h2, tot_append, tot_cons, left, proceeds, cost, if_true]
    omega
  | _ =>
    simp only [lib] at hs
    repeat' split at hs
    all_goals cases hs
    all_goals
      simp only [h2, tot_append, tot_cons, left, left_rel, proceeds, cost, if_true, List.length_cons, Bool.false_eq_true, if_false]
      omega

theorem step_potential {s s' : St K} (hi : Inv cfg s) (htr : cfg.tracks = true → Tracked s) {t : Nat} {st : List (Frame K)}
    (ht : s.thr[t]? = some st) {a : Act K} (hs : step cfg s t a = .ok s') :
    potential s' + (if proceeds st a then 1 else 0) ≤ potential s + cost st a := by
  unfold step at hs
  rw [ht] at hs
  dsimp only at hs
  obtain ⟨A, B, h1, h2, _⟩ := split ht
  have lt : ∀ {e : Nat} {x : Ent K}, s.ents e = some x → e < s.next := fun hx => hi.core.lt_next hx
  have tr : ∀ {e : Nat} {x : Ent K}, s.ents e = some x → cfg.tracks = true → 0 < fwCount e s.objs + kidsTo s.ents s.next e → 0 < x.tref := by
    intro e x hx hl hp
    have := htr hl e
    simp only [trefOf, hx] at this
    omega
  cases a with
  | run =>
    cases st with
    | nil => cases hs
    | cons f rest => exact lib_potential hi ht hs
  | create c k mask pre =>
    simp only [act] at hs
    split at hs <;> cases hs
    have := Conc.pick_both mask s.objs
    simp only [proceeds, cost, potential, frames, h1, h2, tot_append, tot_cons, left, Bool.false_eq_true, if_false]
    omega
  | destroy mask =>
    simp only [act] at hs
    split at hs <;> cases hs
    have := Conc.pick_both mask s.objs
    simp only [proceeds, cost, potential, frames, h1, h2, tot_append, left_rel, Bool.false_eq_true, if_false]
    omega
  | copy i =>
    simp only [act] at hs
    split at hs
    case isFalse => cases hs
    split at hs
    · cases hs
    rename_i w hw
    split at hs <;> cases hs
    rename_i x hx
    have := leftE_set (ents := s.ents) (lt hx) (some { x with
        ref := x.ref + 1, tref := if cfg.tracks then x.tref + 1 else x.tref })
    rw [hx] at this
    have hp : cfg.tracks = true → 0 < x.tref := fun hl =>
      tr hx hl (by have := fwCount_pos (List.mem_of_getElem? hw) (rfl : w.h = w.h); omega)
    simp only [leftE, proceeds, cost, potential, frames, h1, List.length_cons, Bool.false_eq_true, if_false] at this ⊢
    cases hl : cfg.tracks with
    | false =>
      simp only [hl, Bool.false_eq_true, if_false] at this ⊢
      omega
    | true =>
      have h4 := hp hl
      simp only [hl, if_true] at this ⊢
      repeat' split at this
      all_goals omega
  | copyKid i j =>
    simp only [act] at hs
    split at hs
    case isFalse => cases hs
    split at hs
    · cases hs
    rename_i w hw
    split at hs
    · cases hs
    rename_i y hy
    split at hs
    case isFalse => cases hs
    split at hs
    · cases hs
    rename_i v hv
    split at hs <;> cases hs
    rename_i x hx
    have := leftE_set (ents := s.ents) (lt hx) (some { x with
        ref := x.ref + 1, tref := if cfg.tracks then x.tref + 1 else x.tref })
    rw [hx] at this
    have hp : cfg.tracks = true → 0 < x.tref := fun hl => tr hx hl (by
      have := nsum_pos (f := fun i => kidsOf v.h (s.ents i)) (lt hy)
        (by simpa [hy, kidsOf] using fwCount_pos (List.mem_of_getElem? hv) rfl)
      unfold kidsTo
      omega)
    simp only [leftE, proceeds, cost, potential, frames, h1, List.length_cons, Bool.false_eq_true, if_false] at this ⊢
    cases hl : cfg.tracks with
    | false =>
      simp only [hl, Bool.false_eq_true, if_false] at this ⊢
      omega
    | true =>
      have h4 := hp hl
      simp only [hl, if_true] at this ⊢
      repeat' split at this
      all_goals omega
  | swap i j =>
    simp only [act] at hs
    split at hs
    case isFalse => cases hs
    split at hs <;> cases hs
    simp [potential, frames, proceeds, cost]
  | read i =>
    simp only [act] at hs
    split at hs
    case isFalse => cases hs
    split at hs
    · cases hs
    split at hs
    · cases hs
    split at hs <;> cases hs
    simp [potential, frames, proceeds, cost]
  | finish mask drop =>
    cases st with
    | nil => cases hs
    | cons f rest =>
      cases f with
      | insUser c k e loc =>
        simp only [act] at hs
        split at hs
        · cases hs
        rename_i x hx
        split at hs <;> cases hs
        have h3 := leftE_set (ents := s.ents) (lt hx) (some { x with
            kids := if drop then (pick mask s.objs).1 else x.kids ++ (pick mask s.objs).1 })
        have h4 := Conc.pick_both mask s.objs
        rw [hx] at h3
        simp only [leftE, proceeds, cost, potential, frames, h1, h2, tot_append, tot_cons, left, if_true] at h3 ⊢
        cases drop
        · simp only [Bool.false_eq_true, if_false, List.length_append, tot_nil] at h3 ⊢
          omega
        · simp only [if_true, left_rel] at h3 ⊢
          omega
      | _ => cases hs
  | throw_ =>
    cases st with
    | nil => cases hs
    | cons f rest =>
      cases f with
      | insUser c k e loc =>
        cases hs
        simp only [proceeds, cost, potential, frames, h1, h2, tot_append, tot_cons, left, if_true]
        omega
      | insHash c k loc pre =>
        cases hs
        simp only [proceeds, cost, potential, frames, h1, h2, tot_append, tot_cons, left, left_rel, if_true]
        omega
      | insFind c k loc pre =>
        simp only [act] at hs
        split at hs <;> cases hs
        simp only [proceeds, cost, potential, frames, h1, h2, tot_append, tot_cons, left, left_rel, if_true]
        omega
      | _ => cases hs
  | gcVisit e =>
    cases st with
    | nil => cases hs
    | cons f rest =>
      cases f with
      | gcPass c n todo =>
        simp only [act] at hs
        split at hs
        · cases hs
        split at hs <;> cases hs
        simp only [proceeds, cost, potential, frames, h1, h2, tot_append, tot_cons, left, Bool.false_eq_true, if_false]
        omega
      | _ => cases hs

/-- Sum of `g` over the actions of an execution that take place, given the stack of the thread.  (No code of its own: used in
statements and proofs.) -/
def total (cfg : Cfg K) (g : List (Frame K) → Act K → Nat) : List (Nat × Act K) → St K → Nat
  | [], _ => 0
  | (t, a) :: l, s => match step cfg s t a with
    | .ok s' => g (s.thr.getD t []) a + total cfg g l s'
    | .no => total cfg g l s
    | _ => 0

theorem step_stack {s s' : St K} {t : Nat} {a : Act K} (hs : step cfg s t a = .ok s') : ∃ st, s.thr[t]? = some st := by
  unfold step at hs
  split at hs
  · cases hs
  · exact ⟨_, by assumption⟩

theorem step_tracked (hl : cfg.tracks = true) {s s' : St K} (hi : Inv cfg s) (h : Tracked s) {t : Nat} {a : Act K}
    (hs : step cfg s t a = .ok s') : Tracked s' := by
  obtain ⟨st, ht⟩ := step_stack hs
  unfold step at hs
  rw [ht] at hs
  exact act_tracked hl hi h ht hs

theorem total_le (hcfg : CfgOk cfg) {s : St K} (hi : Inv cfg s) (htr : cfg.tracks = true → Tracked s)
    (acts : List (Nat × Act K)) :
    total cfg (fun st a => if proceeds st a then 1 else 0) acts s ≤ potential s + total cfg cost acts s := by
  induction acts generalizing s with
  | nil => simp [total]
  | cons p acts ih =>
    obtain ⟨t, a⟩ := p
    unfold total
    have hg := step_good hcfg hi t a
    cases hs : step cfg s t a with
    | ok s' =>
      rw [hs] at hg
      obtain ⟨st, ht⟩ := step_stack hs
      have h1 := ih hg fun hl => step_tracked hl hi (htr hl) hs
      have h2 := step_potential hi htr ht hs
      have h3 : s.thr.getD t [] = st := by simp [List.getD, ht]
      dsimp only
      rw [h3]
      omega
    | no => exact ih hi htr
    | _ => dsimp only; omega

/-! ## Nothing is below the collector -/

/-- The collector is at the bottom of its thread's stack.  (No code of its own: used in proofs.) -/
def Rooted : List (Frame K) → Prop
  | [] => True
  | .gcIdle _ :: rest => rest = []
  | .gcPass .. :: rest => rest = []
  | _ :: rest => Rooted rest

theorem Rooted.tail {f : Frame K} {rest : List (Frame K)} (h : Rooted (f :: rest)) : Rooted rest := by
  cases f <;> first | exact h | (rw [show rest = [] from h]; trivial)

theorem Rooted.rel {rest : List (Frame K)} (h : Rooted rest) (l : List (Fw K)) : Rooted (l.map .rel ++ rest) := by
  induction l with
  | nil => exact h
  | cons w l ih => exact ih

/-- ... on all threads.  (No code of its own: used in proofs.) -/
def AllRooted (s : St K) : Prop := ∀ st ∈ s.thr, Rooted st

theorem AllRooted.set {s : St K} (h : AllRooted s) {t : Nat} {st : List (Frame K)} (hst : Rooted st) :
    ∀ st' ∈ s.thr.set t st, Rooted st' := by
  intro st' h1
  rcases List.mem_or_eq_of_mem_set h1 with h1 | rfl
  · exact h _ h1
  · exact hst

theorem lib_rooted {s s' : St K} (h : AllRooted s) {t : Nat} {f : Frame K} {rest : List (Frame K)}
    (ht : s.thr[t]? = some (f :: rest)) (hs : lib cfg s t f rest = .ok s') : AllRooted s' := by
  have h0 : Rooted (f :: rest) := h _ (List.mem_of_getElem? ht)
  have h1 := h0.tail
  cases f <;> dsimp only [lib] at hs
  case insLeave c k e loc => cases hs; exact h.set (Rooted.rel (rest := .insTrack c k e :: rest) h1 loc)
  case insFail c e loc => cases hs; exact h.set (Rooted.rel (rest := .insUnwind c :: rest) h1 loc)
  case insVisit => 
    split at hs <;> cases hs
    refine h.set ?_
    split <;> exact h1
  case rel w =>
    split at hs
    · cases hs
    split at hs <;> cases hs
    · refine h.set ?_
      split <;> exact h1
    · exact h.set h1
  case gcTest c e =>
    split at hs <;> cases hs
    refine h.set ?_
    split <;> exact h1
  case gcErase c e =>
    split at hs <;> cases hs
    exact h.set (Rooted.rel (rest := .gcUnlink c e :: rest) h1 _)
  case gcIdle c => cases hs; exact h.set h0
  case gcPass c n todo =>
    split at hs <;> cases hs
    exact h.set h0
  all_goals
    repeat' split at hs
    all_goals cases hs
    all_goals exact h.set h1

theorem step_rooted {s s' : St K} (h : AllRooted s) {t : Nat} {a : Act K} (hs : step cfg s t a = .ok s') : AllRooted s' := by
  obtain ⟨st, ht⟩ := step_stack hs
  unfold step at hs
  rw [ht] at hs
  have h0 : Rooted st := h _ (List.mem_of_getElem? ht)
  cases a with
  | run =>
    cases st with
    | nil => cases hs
    | cons f rest => exact lib_rooted h ht hs
  | create c k mask pre =>
    dsimp only [act] at hs
    split at hs <;> cases hs
    exact h.set h0
  | destroy mask =>
    dsimp only [act] at hs
    split at hs <;> cases hs
    exact h.set (h0.rel _)
  | finish mask drop =>
    cases st with
    | nil => cases hs
    | cons f rest =>
      cases f with
      | insUser c k e loc =>
        dsimp only [act] at hs
        split at hs
        · cases hs
        split at hs <;> cases hs
        refine h.set ?_
        cases drop
        · exact h0.tail
        · exact Rooted.rel (rest := .insDone c k e loc :: rest) h0.tail _
      | _ => cases hs
  | throw_ =>
    cases st with
    | nil => cases hs
    | cons f rest =>
      cases f with
      | insUser c k e loc => cases hs; exact h.set h0.tail
      | insHash c k loc pre => cases hs; exact h.set (Rooted.rel (rest := .insUnwind c :: rest) h0.tail _)
      | insFind c k loc pre =>
        dsimp only [act] at hs
        split at hs <;> cases hs
        exact h.set (Rooted.rel (rest := .insUnwind c :: rest) h0.tail _)
      | _ => cases hs
  | gcVisit e =>
    cases st with
    | nil => cases hs
    | cons f rest =>
      cases f with
      | gcPass c n todo =>
        dsimp only [act] at hs
        split at hs
        · cases hs
        split at hs <;> cases hs
        exact h.set h0
      | _ => cases hs
  | _ =>
    dsimp only [act] at hs
    repeat' split at hs
    all_goals cases hs
    all_goals exact h

theorem start_rooted (n : Nat) (gcs : List Nat) : AllRooted (start n gcs : St K) := by
  intro st hst
  obtain ⟨t, ht⟩ := List.mem_iff_getElem?.1 hst
  rcases start_thr ht with rfl | ⟨c, _, rfl⟩
  · trivial
  · rfl

theorem Reachable.rooted {calls has : Nat → Nat → Prop} {n : Nat} {gcs : List Nat} {s : St K}
    (h : Reachable cfg calls has n gcs s) : AllRooted s := by
  induction h with
  | start => exact start_rooted n gcs
  | step _ _ _ hs ih => exact step_rooted ih hs

theorem Reachable.tracked (hcfg : CfgOk cfg) (hl : cfg.tracks = true) {calls has : Nat → Nat → Prop} {n : Nat} {gcs : List Nat}
    {s : St K} (h : Reachable cfg calls has n gcs s) : Tracked s := by
  induction h with
  | start => exact start_tracked n gcs
  | step hr _ _ hs ih => exact step_tracked hl (hr.inv hcfg).1 ih hs

/-! ## Completion -/

/-- The thread is outside of the library, or is a collector that waits or is between two elements.  (No code of its own: used in
statements and proofs.) -/
def Rests (st : List (Frame K)) : Prop := st = [] ∨ (∃ c, st = [.gcIdle c]) ∨ ∃ c n todo, st = [.gcPass c n todo]

theorem stuck_rests {calls has : Nat → Nat → Prop} (hwf : WellFounded fun a b => Order cfg calls has b a) {s : St K}
    (hi : Inv cfg s) (hr : RankInv calls has s) (hn : NoChk cfg s) (hp : Passes s) (hro : AllRooted s)
    (hrun : ∀ (t : Nat) (st : List (Frame K)), s.thr[t]? = some st → Rests st ∨ step cfg s t .run = .no)
    (hfin : ∀ t, t < s.thr.length → ∃ mask drop, step cfg s t (.finish mask drop) = .no) : ∀ st ∈ s.thr, Rests st := by
  have blk : ∀ (t : Nat) (st : List (Frame K)), s.thr[t]? = some st → ¬ Rests st → Blocked cfg s t := by
    intro t st ht hne
    have hlt : t < s.thr.length := by
      by_cases h : t < s.thr.length
      · exact h
      · rw [List.getElem?_eq_none (by omega)] at ht; cases ht
    have hroot := hro st (List.mem_of_getElem? ht)
    refine ⟨st, ht, ?_, (hrun t st ht).resolve_left hne, ?_⟩
    · cases st with
      | nil => exact absurd (.inl rfl) hne
      | cons f rest =>
        cases f with
        | insUser c k e loc =>
          obtain ⟨mask, drop, hn⟩ := hfin t hlt
          simp only [step, ht, act] at hn
          split at hn
          · cases hn
          · split at hn <;> cases hn
        | _ => rfl
    · intro e
      cases st with
      | nil => exact absurd (.inl rfl) hne
      | cons f rest =>
        cases f with
        | gcPass c n todo =>
          have : rest = [] := hroot
          exact absurd (.inr (.inr ⟨c, n, todo, by rw [this]⟩)) hne
        | _ => simp only [step, ht, act]
  intro st hst
  by_cases hne : Rests st
  · exact hne
  exfalso
  obtain ⟨t, ht⟩ := List.mem_iff_getElem?.1 hst
  have hb := blk t st ht hne
  clear ht
  have wf := mayWait_wf hi hr hn hwf
  induction t using wf.induction with
  | _ t ih =>
    obtain ⟨t', hw⟩ := hb.mayWait hi hr hp hwf
    refine ih t' hw ?_
    obtain ⟨_, ⟨hlk, c, d, _, hl⟩ | ⟨c, _, e, x, hv, hx, _⟩⟩ := hw
    · obtain ⟨hd, ho⟩ := hi.locks.pos c t' d hl
      have ht' : s.thr[t']? = some s.thr[t'] := List.getElem?_eq_getElem ho
      refine blk t' _ ht' fun hrest => ?_
      have h3 := hi.locks.depth hlk t' _ ht' c
      rw [depthOf, hl] at h3
      simp only [if_true] at h3
      rcases hrest with h4 | ⟨c', h4⟩ | ⟨c', n, todo, h4⟩ <;> rw [h4] at h3 <;> simp [holdF, holds] at h3 <;> omega
    · obtain ⟨st', ht', g, hg, _, hge⟩ := elem_frame hi hv hx
      refine blk t' _ ht' fun hrest => ?_
      rcases hrest with rfl | ⟨c', rfl⟩ | ⟨c', n, todo, rfl⟩
      · cases hg
      · rw [List.mem_singleton.1 hg] at hge; cases hge
      · rw [List.mem_singleton.1 hg] at hge; cases hge

end Verif.CFac

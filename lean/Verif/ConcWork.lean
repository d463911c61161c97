import Verif.ConcRank

/-!
# How much the library does: a potential function for the concurrent core
-/

set_option autoImplicit false

namespace Verif.Conc
variable {K : Type} {cfg : Cfg K}

/-- Steps that a frame has left at most, including the later destruction of the flyweights in it.  (No code of its own: used in
proofs.) -/
def left : Frame K → Nat
  | .insLock _ _ loc _ => 13 + loc.length
  | .insFind _ _ loc _ => 12 + loc.length
  | .insVisit _ _ _ loc _ => 11 + loc.length
  | .insUser .. => 10
  | .insDone .. => 9
  | .insCatch .. => 2
  | .insUnwind _ loc => 1 + loc.length
  | .insAddRef _ _ _ loc => 8 + loc.length
  | .insAddDel _ _ _ loc => 3 + loc.length
  | .insUnlock _ _ _ loc => 2 + loc.length
  | .relDec _ => 1
  | .relLock .. => 4
  | .relCheck .. => 3
  | .relErase .. => 2
  | .relUnlock _ => 1

/-- Steps for the destruction of the flyweights in an entry, and for its erasure if it has references.  (No code of its own:
used in proofs.) -/
def leftE : Option (Ent K) → Nat
  | none => 0
  | some x => x.kids.length + if 0 < x.ref then 4 else 0

/-- Steps that are left at most, including the later destruction of all flyweights.  (No code of its own: used in proofs.) -/
def potential (s : St K) : Nat :=
  tot left (frames s) + nsum (fun i => leftE (s.ents i)) s.next + s.objs.length

theorem left_relDec (l : List (Fw K)) : tot left (l.map .relDec) = l.length := by
  induction l with
  | nil => rfl
  | cons w l ih => simp only [List.map_cons, tot_cons, ih, left, List.length_cons]; omega

theorem pick_both {α : Type} (m : List Bool) (l : List α) : (pick m l).1.length + (pick m l).2.length = l.length := by
  induction l generalizing m with
  | nil => cases m <;> rfl
  | cons a l ih =>
    cases m with
    | nil => simp [pick]
    | cons b m =>
      have := ih m
      cases b
      · simp only [pick, Bool.false_eq_true, if_false, List.length_cons]; omega
      · simp only [pick, if_true, List.length_cons]; omega

theorem leftE_set {ents : Nat → Option (Ent K)} {next e : Nat} (he : e < next) (x : Option (Ent K)) :
    nsum (fun i => leftE (setEnt ents e x i)) next + leftE (ents e) = nsum (fun i => leftE (ents i)) next + leftE x := by
  have := nsum_change (f := fun i => leftE (setEnt ents e x i)) (g := fun i => leftE (ents i)) he
    fun j hj => by simp only [setEnt_ne _ _ hj]
  simpa only [setEnt_same] using this

theorem leftE_new (ents : Nat → Option (Ent K)) (next : Nat) (x : Option (Ent K)) :
    nsum (fun i => leftE (setEnt ents next x i)) (next + 1) = nsum (fun i => leftE (ents i)) next + leftE x := by
  simp only [nsum, setEnt_same]
  rw [nsum_congr fun i hi => by rw [setEnt_ne _ _ (by omega)]]

/-- The actions by which calls proceed, rather than begin.  (No code of its own: used in statements and proofs.) -/
def proceeds : Act K → Bool
  | .run => true
  | .finish .. => true
  | .throw_ => true
  | _ => false

/-- Steps of the library that an action may cause, now or later.  (No code of its own: used in statements and proofs.) -/
def cost : Act K → Nat
  | .create .. => 13
  | .copy _ => 1
  | .copyKid .. => 1
  | _ => 0

theorem lib_potential {s s' : St K} (hi : Inv cfg s) {t : Nat} {f : Frame K} {rest : List (Frame K)} (ht : s.thr[t]? = some (f :: rest))
    (hs : lib cfg s t f rest = .ok s') : potential s' + 1 ≤ potential s := by
  obtain ⟨A, B, h1, h2, _⟩ := split ht
  have lt : ∀ {e : Nat} {x : Ent K}, s.ents e = some x → e < s.next := fun hx => hi.core.lt_next hx
  unfold potential frames
  rw [h1]
  cases f with
  | insLock c k loc pre =>
    simp only [lib] at hs
    split at hs <;> cases hs
    simp only [h2, tot_append, tot_cons, left]
    omega
  | insFind c k loc pre =>
    simp only [lib] at hs
    split at hs <;> cases hs
    · simp only [h2, tot_append, tot_cons, left]
      omega
    · have := leftE_new s.ents s.next (some ⟨c, k, pre, loc, 0, 0, s.clock⟩)
      simp only [leftE, Int.lt_irrefl, if_false] at this ⊢
      simp only [h2, tot_append, tot_cons, left, List.length_nil]
      omega
  | insVisit c k e loc new =>
    simp only [lib] at hs
    split at hs
    · cases hs
    · split at hs
      · cases hs
        simp only [h2, tot_append, tot_cons, left]
        omega
      · split at hs <;> cases hs
        simp only [h2, tot_append, tot_cons, left]
        omega
  | insUser => cases hs
  | insDone c k e =>
    simp only [lib] at hs
    split at hs <;> cases hs
    rename_i x hx
    have := leftE_set (ents := s.ents) (lt hx) (some { x with cted := true, stamp := s.clock })
    rw [hx] at this
    simp only [leftE] at this ⊢
    simp only [h2, tot_append, tot_cons, left, List.length_nil]
    omega
  | insCatch c e =>
    simp only [lib] at hs
    split at hs <;> cases hs
    rename_i x hx
    have := leftE_set (ents := s.ents) (lt hx) none
    rw [hx] at this
    simp only [leftE] at this ⊢
    simp only [h2, tot_append, tot_cons, left, List.length_nil, left_relDec]
    omega
  | insUnwind c loc =>
    simp only [lib] at hs
    split at hs <;> cases hs
    simp only [h2, tot_append, tot_cons, left, left_relDec]
    omega
  | insAddRef c k e loc =>
    simp only [lib] at hs
    split at hs <;> cases hs
    rename_i x hx
    have := leftE_set (ents := s.ents) (lt hx) (some { x with ref := x.ref + 1 })
    rw [hx] at this
    simp only [leftE] at this ⊢
    simp only [h2, tot_append, tot_cons]
    split <;> simp only [left] <;> repeat' split at this
    all_goals omega
  | insAddDel c k e loc =>
    simp only [lib] at hs
    split at hs <;> cases hs
    rename_i x hx
    have := leftE_set (ents := s.ents) (lt hx) (some { x with del := x.del + 1 })
    rw [hx] at this
    simp only [leftE] at this ⊢
    simp only [h2, tot_append, tot_cons, left]
    omega
  | insUnlock c k e loc =>
    simp only [lib] at hs
    split at hs <;> cases hs
    simp only [h2, tot_append, tot_cons, left, left_relDec, List.length_cons]
    omega
  | relDec w =>
    simp only [lib] at hs
    split at hs <;> cases hs
    rename_i x hx
    have := leftE_set (ents := s.ents) (lt hx) (some { x with ref := x.ref - 1 })
    rw [hx] at this
    simp only [leftE] at this ⊢
    simp only [h2, tot_append, tot_cons]
    split <;> simp only [left, tot_cons] <;> repeat' split at this
    all_goals omega
  | relLock c e =>
    simp only [lib] at hs
    split at hs <;> cases hs
    simp only [h2, tot_append, tot_cons, left]
    omega
  | relCheck c e =>
    simp only [lib] at hs
    split at hs
    · cases hs
    · rename_i x hx
      split at hs <;> cases hs
      · have := leftE_set (ents := s.ents) (lt hx) (some { x with del := x.del - 1 })
        rw [hx] at this
        simp only [leftE] at this ⊢
        simp only [h2, tot_append, tot_cons]
        split <;> simp only [left] <;> omega
      · simp only [h2, tot_append, tot_cons, left]
        omega
  | relErase c e =>
    simp only [lib] at hs
    split at hs <;> cases hs
    rename_i x hx
    have := leftE_set (ents := s.ents) (lt hx) none
    rw [hx] at this
    simp only [leftE] at this ⊢
    simp only [h2, tot_append, tot_cons, left, left_relDec]
    omega
  | relUnlock c =>
    simp only [lib] at hs
    split at hs <;> cases hs
    simp only [h2, tot_append, tot_cons, left]
    omega

theorem step_potential {s s' : St K} (hi : Inv cfg s) {t : Nat} {a : Act K} (hs : step cfg s t a = .ok s') :
    potential s' + (if proceeds a then 1 else 0) ≤ potential s + cost a := by
  unfold step at hs
  split at hs
  · cases hs
  rename_i st ht
  obtain ⟨A, B, h1, h2, _⟩ := split ht
  have lt : ∀ {e : Nat} {x : Ent K}, s.ents e = some x → e < s.next := fun hx => hi.core.lt_next hx
  cases a with
  | run =>
    cases st with
    | nil => cases hs
    | cons f rest =>
      have := lib_potential hi ht hs
      simpa [proceeds, cost] using this
  | create c k mask pre =>
    simp only [act] at hs
    split at hs <;> cases hs
    have := pick_both mask s.objs
    simp only [proceeds, cost, potential, frames, h1, h2, tot_append, tot_cons, left, Bool.false_eq_true, if_false]
    omega
  | destroy mask =>
    simp only [act] at hs
    split at hs <;> cases hs
    have := pick_both mask s.objs
    simp only [proceeds, cost, potential, frames, h1, h2, tot_append, left_relDec, Bool.false_eq_true, if_false]
    omega
  | copy i =>
    simp only [act] at hs
    split at hs
    case isFalse => cases hs
    split at hs
    · cases hs
    rename_i w hw
    split at hs <;> cases hs
    rename_i x hx
    have := leftE_set (ents := s.ents) (lt hx) (some { x with ref := x.ref + 1 })
    obtain ⟨_, hx', _, _, _, hp⟩ := hi.core.fw_ent (List.mem_of_getElem? hw)
    rw [hx] at hx' this
    cases hx'
    simp only [leftE, proceeds, cost, potential, frames, h1, List.length_cons, Bool.false_eq_true, if_false] at this ⊢
    repeat' split at this
    all_goals omega
  | copyKid i j =>
    simp only [act] at hs
    split at hs
    case isFalse => cases hs
    split at hs
    · cases hs
    rename_i w hw
    split at hs
    · cases hs
    rename_i y hy
    split at hs
    case isFalse => cases hs
    split at hs
    · cases hs
    rename_i v hv
    split at hs <;> cases hs
    rename_i x hx
    have := leftE_set (ents := s.ents) (lt hx) (some { x with ref := x.ref + 1 })
    have hp : 0 < x.ref := by
      have h3 := hi.core.refs v.h
      have h4 := nsum_pos (f := fun i => kidsOf v.h (s.ents i)) (hi.core.lt_next hy)
        (by simpa [hy, kidsOf] using fwCount_pos (List.mem_of_getElem? hv) rfl)
      simp only [kidsTo, refOf, hx] at h3
      omega
    rw [hx] at this
    simp only [leftE, proceeds, cost, potential, frames, h1, List.length_cons, Bool.false_eq_true, if_false] at this ⊢
    repeat' split at this
    all_goals omega
  | swap i j =>
    simp only [act] at hs
    split at hs
    case isFalse => cases hs
    split at hs <;> cases hs
    simp [potential, frames, proceeds, cost]
  | read i =>
    simp only [act] at hs
    split at hs
    case isFalse => cases hs
    split at hs
    · cases hs
    split at hs
    · cases hs
    split at hs <;> cases hs
    simp [potential, frames, proceeds, cost]
  | finish mask drop =>
    cases st with
    | nil => cases hs
    | cons f rest =>
      cases f with
      | insUser c k e =>
        simp only [act] at hs
        split at hs
        · cases hs
        rename_i x hx
        split at hs <;> cases hs
        have h3 := leftE_set (ents := s.ents) (lt hx) (some { x with
            kids := if drop then (pick mask s.objs).1 else x.kids ++ (pick mask s.objs).1 })
        have h4 := pick_both mask s.objs
        rw [hx] at h3
        simp only [leftE, proceeds, cost, potential, frames, h1, h2, tot_append, tot_cons, left, if_true] at h3 ⊢
        cases drop
        · simp only [Bool.false_eq_true, if_false, List.length_append, tot_nil] at h3 ⊢
          omega
        · simp only [if_true, left_relDec] at h3 ⊢
          omega
      | _ => cases hs
  | throw_ =>
    cases st with
    | nil => cases hs
    | cons f rest =>
      cases f with
      | insUser c k e =>
        cases hs
        simp only [proceeds, cost, potential, frames, h1, h2, tot_append, tot_cons, left, if_true]
        omega
      | insFind c k loc pre =>
        cases hs
        simp only [proceeds, cost, potential, frames, h1, h2, tot_append, tot_cons, left, if_true]
        omega
      | _ => cases hs

/-- The number of steps of the library in an execution: actions that take place and by which calls proceed, rather than begin.
(No code of its own: used in statements and proofs.) -/
def work (cfg : Cfg K) : List (Nat × Act K) → St K → Nat
  | [], _ => 0
  | (t, a) :: l, s => match step cfg s t a with
    | .ok s' => (if proceeds a then 1 else 0) + work cfg l s'
    | .no => work cfg l s
    | _ => 0

theorem work_le (hcfg : CfgOk cfg) (hlk : cfg.locking = true) (hdl : cfg.deleter = true) {s : St K} (hi : Inv cfg s)
    (acts : List (Nat × Act K)) : work cfg acts s ≤ potential s + (acts.map fun p => cost p.2).sum := by
  induction acts generalizing s with
  | nil => simp [work]
  | cons p acts ih =>
    obtain ⟨t, a⟩ := p
    unfold work
    have hg := step_good hcfg hlk hdl hi t a
    simp only [List.map_cons, List.sum_cons]
    cases hs : step cfg s t a with
    | ok s' =>
      rw [hs] at hg
      have h1 := ih hg
      have h2 := step_potential hi hs
      dsimp only
      omega
    | no =>
      have h1 := ih hi
      dsimp only
      omega
    | _ => dsimp only; omega

/-- A quantity that decreases with every change allows only finitely many changes. -/
theorem settle {σ : Type} {f : Nat → σ} (μ : σ → Nat) (h : ∀ n, f (n + 1) = f n ∨ μ (f (n + 1)) < μ (f n)) :
    ∃ n, ∀ m, n ≤ m → f m = f n := by
  suffices H : ∀ d n, μ (f n) ≤ d → ∃ n', n ≤ n' ∧ ∀ m, n' ≤ m → f m = f n' by
    obtain ⟨n, _, hn⟩ := H _ 0 (Nat.le_refl _)
    exact ⟨n, hn⟩
  intro d
  induction d with
  | zero =>
    intro n hn
    have key : ∀ k, f (n + k) = f n := by
      intro k
      induction k with
      | zero => rfl
      | succ k ih =>
        rcases h (n + k) with h1 | h1
        · rw [← Nat.add_assoc, h1, ih]
        · rw [ih] at h1; omega
    refine ⟨n, Nat.le_refl _, fun m hm => ?_⟩
    have := key (m - n)
    rwa [Nat.add_sub_cancel' hm] at this
  | succ d ih =>
    intro n hn
    by_cases hc : ∃ m, n ≤ m ∧ μ (f m) ≤ d
    · obtain ⟨m, h1, h2⟩ := hc
      obtain ⟨n', h3, h4⟩ := ih m h2
      exact ⟨n', Nat.le_trans h1 h3, h4⟩
    · have key : ∀ k, f (n + k) = f n := by
        intro k
        induction k with
        | zero => rfl
        | succ k ihk =>
          rcases h (n + k) with h1 | h1
          · rw [← Nat.add_assoc, h1, ihk]
          · exfalso
            rw [ihk] at h1
            exact hc ⟨n + k + 1, by omega, by omega⟩
      refine ⟨n, Nat.le_refl _, fun m hm => ?_⟩
      have := key (m - n)
      rwa [Nat.add_sub_cancel' hm] at this

/-- If every action either decreases a quantity or is refused, then from some time on all are refused. -/
theorem refused {σ α : Type} {f : Nat → σ} {acts : Nat → α} (μ : σ → Nat) (no : σ → α → Prop)
    (h : ∀ n, μ (f (n + 1)) < μ (f n) ∨ (no (f n) (acts n) ∧ f (n + 1) = f n)) : ∃ m, ∀ k, m ≤ k → no (f m) (acts k) := by
  obtain ⟨m, hm⟩ := settle (f := f) μ fun n => (h n).elim .inr fun h => .inl h.2
  refine ⟨m, fun k hk => ?_⟩
  rcases h k with h1 | ⟨h1, _⟩
  · rw [hm k hk, hm (k + 1) (by omega)] at h1
    omega
  · rwa [hm k hk] at h1

theorem stuck_out (hlk : cfg.locking = true) {uses : Nat → Nat → Prop} (hwf : NoCycles uses) {s : St K} (hi : Inv cfg s)
    (hr : RankInv uses s) (hrun : ∀ t, t < s.thr.length → step cfg s t .run = .no)
    (hfin : ∀ t, t < s.thr.length → ∃ mask drop, step cfg s t (.finish mask drop) = .no) : ∀ st ∈ s.thr, st = [] := by
  have blk : ∀ (t : Nat) (st : List (Frame K)), s.thr[t]? = some st → st ≠ [] → Blocked cfg s t := by
    intro t st ht hne
    have hlt : t < s.thr.length := by
      by_cases h : t < s.thr.length
      · exact h
      · rw [List.getElem?_eq_none (by omega)] at ht; cases ht
    refine ⟨st, ht, ?_, hrun t hlt⟩
    cases st with
    | nil => exact absurd rfl hne
    | cons f rest =>
      cases f with
      | insUser c k e =>
        obtain ⟨mask, drop, hn⟩ := hfin t hlt
        simp only [step, ht, act] at hn
        split at hn
        · cases hn
        · split at hn <;> cases hn
      | _ => rfl
  intro st hst
  by_cases hne : st = []
  · exact hne
  exfalso
  obtain ⟨t, ht⟩ := List.mem_iff_getElem?.1 hst
  obtain ⟨t', h1, h2⟩ := no_deadlock hlk hwf hi hr (blk t st ht hne)
  have : ∃ t0, Waits s t0 t' := by
    cases h1 with
    | single h => exact ⟨_, h⟩
    | tail _ h => exact ⟨_, h⟩
  obtain ⟨t0, _, c, d, _, hl⟩ := this
  obtain ⟨hd, ho⟩ := hi.locks.pos c t' d hl
  obtain ⟨st', hst'⟩ : ∃ st', s.thr[t']? = some st' := ⟨_, List.getElem?_eq_getElem ho⟩
  refine h2 (blk t' st' hst' fun he => ?_)
  have h3 := hi.locks.depth t' st' hst' c
  rw [he] at h3
  simp only [tot_nil, depthOf, hl] at h3
  simp at h3
  omega

end Verif.Conc

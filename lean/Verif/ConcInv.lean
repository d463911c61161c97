import Verif.Conc

/-!
# Invariant of the concurrent model: definitions and general lemmas
-/

set_option autoImplicit false

namespace Verif.Conc
variable {K : Type}

/-! ## Counting -/

/-- Number of flyweights in `l` with handle `e`.  (No code of its own: used in statements and
proofs.) -/
def fwCount (e : Nat) (l : List (Fw K)) : Nat := l.countP fun w => w.h == e

/-- Sum of `g` over a list of frames.  (No code of its own: used in statements and proofs.) -/
def tot {α : Type} (g : α → Nat) (l : List α) : Nat := (l.map g).sum

/-- References to entry `e` held by a frame.  (No code of its own: used in statements and
proofs.) -/
def refF (e : Nat) : Frame K → Nat
  | .insLock _ _ loc _ => fwCount e loc
  | .insFind _ _ loc _ => fwCount e loc
  | .insVisit _ _ _ loc _ => fwCount e loc
  | .insUnwind _ loc => fwCount e loc
  | .insAddRef _ _ _ loc => fwCount e loc
  | .insAddDel _ _ h loc => fwCount e loc + if h = e then 1 else 0
  | .insUnlock _ _ h loc => fwCount e loc + if h = e then 1 else 0
  | .relDec w => if w.h = e then 1 else 0
  | _ => 0

/-- The frame is about to check entry `e` for erasure.  (No code of its own: used in statements
and proofs.) -/
def pendF (e : Nat) : Frame K → Nat
  | .relLock _ h => if h = e then 1 else 0
  | .relCheck _ h => if h = e then 1 else 0
  | _ => 0

/-- The frame has raised the reference count of `e` to one but not yet the
deleter count.  (No code of its own: used in statements and proofs.) -/
def addF (e : Nat) : Frame K → Nat
  | .insAddDel _ _ h _ => if h = e then 1 else 0
  | _ => 0

/-- The frame is in charge of a new entry `e`.  (No code of its own: used in statements and
proofs.) -/
def ownF (e : Nat) : Frame K → Nat
  | .insVisit _ _ h _ new => if h = e ∧ new = true then 1 else 0
  | .insUser _ _ h => if h = e then 1 else 0
  | .insDone _ _ h => if h = e then 1 else 0
  | .insCatch _ h => if h = e then 1 else 0
  | _ => 0

/-- The frame will attach a reference to `e`, or check it for erasure, or erase it.  (No code of
its own: used in statements and proofs.) -/
def claimF (e : Nat) : Frame K → Nat
  | .insVisit _ _ h _ _ => if h = e then 1 else 0
  | .insUser _ _ h => if h = e then 1 else 0
  | .insDone _ _ h => if h = e then 1 else 0
  | .insCatch _ h => if h = e then 1 else 0
  | .insAddRef _ _ h _ => if h = e then 1 else 0
  | .relLock _ h => if h = e then 1 else 0
  | .relCheck _ h => if h = e then 1 else 0
  | .relErase _ h => if h = e then 1 else 0
  | _ => 0

/-- Type whose mutex the frame holds.  (No code of its own: used in statements and proofs.) -/
def holds : Frame K → Option Nat
  | .insLock .. => none
  | .insFind c .. => some c
  | .insVisit c .. => some c
  | .insUser c .. => some c
  | .insDone c .. => some c
  | .insCatch c _ => some c
  | .insUnwind c _ => some c
  | .insAddRef c .. => some c
  | .insAddDel c .. => some c
  | .insUnlock c .. => some c
  | .relDec _ => none
  | .relLock .. => none
  | .relCheck c _ => some c
  | .relErase c _ => some c
  | .relUnlock c => some c

/-- How many times the frame holds the mutex of type `c`.  (No code of its own: used in
statements and proofs.) -/
def holdF (c : Nat) (f : Frame K) : Nat := if holds f = some c then 1 else 0

/-- Frames that may be below others on a stack.  (No code of its own: used in statements and
proofs.) -/
def waiting : Frame K → Bool
  | .insUser .. => true
  | .insDone .. => true
  | .insUnwind .. => true
  | .relDec _ => true
  | .relUnlock _ => true
  | _ => false

/-- Sum over the first `n` numbers.  (No code of its own: used in statements and proofs.) -/
def nsum (f : Nat → Nat) : Nat → Nat
  | 0 => 0
  | n + 1 => nsum f n + f n

/-- References to `e` from inside the entry `o`.  (No code of its own: used in statements and
proofs.) -/
def kidsOf (e : Nat) (o : Option (Ent K)) : Nat :=
  match o with
  | none => 0
  | some x => fwCount e x.kids

/-- References to `e` from inside entries.  (No code of its own: used in statements and proofs.) -/
def kidsTo (ents : Nat → Option (Ent K)) (next e : Nat) : Nat := nsum (fun i => kidsOf e (ents i)) next

/-- Reference count of entry `e`, zero if there is none.  (No code of its own: used in
statements and proofs.) -/
def refOf (ents : Nat → Option (Ent K)) (e : Nat) : Int :=
  match ents e with
  | none => 0
  | some x => x.ref

/-- The parts of an entry that other frames rely on.  (No code of its own: used in statements
and proofs.) -/
def stat (ents : Nat → Option (Ent K)) (e : Nat) : Option (Nat × K × Bool) :=
  (ents e).map fun x => (x.core, x.key, x.cted)

/-- A flyweight refers to an entry of its type, with a value, for an equivalent key.  (No code
of its own: used in statements and proofs.) -/
def FwOk (cfg : Cfg K) (st : Nat → Option (Nat × K × Bool)) (w : Fw K) : Prop :=
  ∃ k, st w.h = some (w.c, k, true) ∧ cfg.eqv w.c k w.k = true

/-- What holds of a frame.  (No code of its own: used in statements and proofs.) -/
def FrameOk (cfg : Cfg K) (st : Nat → Option (Nat × K × Bool)) : Frame K → Prop
  | .insLock _ _ loc _ => ∀ w ∈ loc, FwOk cfg st w
  | .insFind _ _ loc _ => ∀ w ∈ loc, FwOk cfg st w
  | .insVisit c k e loc new => (∃ k' b, st e = some (c, k', b) ∧ cfg.eqv c k' k = true) ∧
      (∀ w ∈ loc, FwOk cfg st w) ∧ (new = true → loc = [])
  | .insUser c k e => ∃ k', st e = some (c, k', false) ∧ cfg.eqv c k' k = true
  | .insDone c k e => ∃ k', st e = some (c, k', false) ∧ cfg.eqv c k' k = true
  | .insCatch c e => ∃ k', st e = some (c, k', false)
  | .insUnwind _ loc => ∀ w ∈ loc, FwOk cfg st w
  | .insAddRef c k e loc => FwOk cfg st ⟨e, c, k⟩ ∧ ∀ w ∈ loc, FwOk cfg st w
  | .insAddDel c k e loc => FwOk cfg st ⟨e, c, k⟩ ∧ ∀ w ∈ loc, FwOk cfg st w
  | .insUnlock c k e loc => FwOk cfg st ⟨e, c, k⟩ ∧ ∀ w ∈ loc, FwOk cfg st w
  | .relDec w => FwOk cfg st w
  | .relLock c e => ∃ k', st e = some (c, k', true)
  | .relCheck c e => ∃ k', st e = some (c, k', true)
  | .relErase c e => ∃ k', st e = some (c, k', true)
  | .relUnlock _ => True

/-- The invariant on entries, objects and the frames `L` of all threads.  (No code of its own:
used in statements and proofs.) -/
structure Core (cfg : Cfg K) (ents : Nat → Option (Ent K)) (next : Nat) (objs : List (Fw K)) (clock : Nat)
    (L : List (Frame K)) : Prop where
  bound : ∀ e, next ≤ e → ents e = none
  frames : ∀ f ∈ L, FrameOk cfg (stat ents) f
  objsOk : ∀ w ∈ objs, FwOk cfg (stat ents) w
  kids : ∀ e x, ents e = some x → ∀ w ∈ x.kids, FwOk cfg (stat ents) w
  refs : ∀ e, refOf ents e = fwCount e objs + kidsTo ents next e + tot (refF e) L
  dels : ∀ e x, ents e = some x →
    x.del + tot (addF e) L = tot (pendF e) L + if 0 < x.ref then 1 else 0
  own : ∀ e, tot (ownF e) L ≤ 1
  uncted : ∀ e x, ents e = some x → x.cted = false → 0 < tot (ownF e) L
  era : ∀ c e, .relErase c e ∈ L → refOf ents e = 0 ∧ tot (pendF e) L = 0
  uniq : ∀ e e' x x', ents e = some x → ents e' = some x' → x.core = x'.core →
    cfg.eqv x.core x.key x'.key = true → e = e'
  claim : ∀ e x, ents e = some x → x.ref = 0 → 0 < tot (claimF e) L
  time : ∀ e x, ents e = some x → x.cted = true → x.stamp < clock ∧
    ∀ w ∈ x.kids, ∀ y, ents w.h = some y → y.stamp < x.stamp

/-- Keys of each type are compared by an equivalence relation.  (No code of its own: used in
statements and proofs.) -/
structure CfgOk (cfg : Cfg K) : Prop where
  refl : ∀ c k, cfg.eqv c k k = true
  symm : ∀ c k l, cfg.eqv c k l = true → cfg.eqv c l k = true
  trans : ∀ c k l m, cfg.eqv c k l = true → cfg.eqv c l m = true → cfg.eqv c k m = true

/-! ## Lemmas on counting -/

@[simp] theorem fwCount_nil (e : Nat) : fwCount e ([] : List (Fw K)) = 0 := rfl
@[simp] theorem fwCount_cons (e : Nat) (w : Fw K) (l : List (Fw K)) :
    fwCount e (w :: l) = fwCount e l + if w.h = e then 1 else 0 := by
  simp [fwCount, List.countP_cons]
@[simp] theorem fwCount_append (e : Nat) (l l' : List (Fw K)) :
    fwCount e (l ++ l') = fwCount e l + fwCount e l' := by simp [fwCount]

theorem fwCount_pos {e : Nat} {l : List (Fw K)} {w : Fw K} (hw : w ∈ l) (he : w.h = e) : 0 < fwCount e l := by
  unfold fwCount
  rw [List.countP_pos_iff]
  exact ⟨w, hw, by simp [he]⟩

theorem exists_of_fwCount {e : Nat} {l : List (Fw K)} (h : 0 < fwCount e l) : ∃ w ∈ l, w.h = e := by
  unfold fwCount at h
  rw [List.countP_pos_iff] at h
  obtain ⟨w, hw, he⟩ := h
  exact ⟨w, hw, by simpa using he⟩

@[simp] theorem tot_nil {α : Type} (g : α → Nat) : tot g [] = 0 := rfl
@[simp] theorem tot_cons {α : Type} (g : α → Nat) (f : α) (l : List α) :
    tot g (f :: l) = g f + tot g l := by simp [tot]
@[simp] theorem tot_append {α : Type} (g : α → Nat) (l l' : List α) :
    tot g (l ++ l') = tot g l + tot g l' := by simp [tot]

theorem tot_pos {α : Type} {g : α → Nat} {l : List α} {f : α} (hf : f ∈ l) (hg : 0 < g f) :
    0 < tot g l := by
  induction l with
  | nil => cases hf
  | cons a l ih =>
    rw [tot_cons]
    rcases List.mem_cons.1 hf with rfl | hf
    · omega
    · have := ih hf
      omega

theorem tot_le {α : Type} {g : α → Nat} {l : List α} {f : α} (hf : f ∈ l) : g f ≤ tot g l := by
  induction l with
  | nil => cases hf
  | cons a l ih =>
    rw [tot_cons]
    rcases List.mem_cons.1 hf with rfl | hf
    · omega
    · have := ih hf
      omega

theorem exists_of_tot {α : Type} {g : α → Nat} {l : List α} (h : 0 < tot g l) : ∃ f ∈ l, 0 < g f := by
  induction l with
  | nil => simp at h
  | cons a l ih =>
    rw [tot_cons] at h
    by_cases ha : 0 < g a
    · exact ⟨a, List.mem_cons_self, ha⟩
    · obtain ⟨f, hf, hg⟩ := ih (by omega)
      exact ⟨f, List.mem_cons_of_mem _ hf, hg⟩

theorem tot_eq_zero {α : Type} {g : α → Nat} {l : List α} (h : ∀ f ∈ l, g f = 0) : tot g l = 0 := by
  rcases Nat.eq_zero_or_pos (tot g l) with h0 | h0
  · exact h0
  · obtain ⟨f, hf, hg⟩ := exists_of_tot h0
    rw [h f hf] at hg
    cases hg

theorem tot_perm {α : Type} {g : α → Nat} {l l' : List α} (h : l.Perm l') : tot g l = tot g l' :=
  (h.map g).sum_nat

/-- Frames that destroy the flyweights of a list. -/
theorem tot_relDec (g : Frame K → Nat) (l : List (Fw K)) (hg : ∀ w, g (.relDec w) = 0) :
    tot g (l.map .relDec) = 0 := tot_eq_zero fun f hf => by
  obtain ⟨w, _, rfl⟩ := List.mem_map.1 hf
  exact hg w

@[simp] theorem ref_relDec (e : Nat) (l : List (Fw K)) : tot (refF e) (l.map .relDec) = fwCount e l := by
  induction l with
  | nil => rfl
  | cons w l ih => simp only [List.map_cons, tot_cons, ih, refF, fwCount_cons]; omega

@[simp] theorem pend_relDec (e : Nat) (l : List (Fw K)) : tot (pendF e) (l.map .relDec) = 0 :=
  tot_relDec _ _ fun _ => rfl
@[simp] theorem add_relDec (e : Nat) (l : List (Fw K)) : tot (addF e) (l.map .relDec) = 0 :=
  tot_relDec _ _ fun _ => rfl
@[simp] theorem own_relDec (e : Nat) (l : List (Fw K)) : tot (ownF e) (l.map .relDec) = 0 :=
  tot_relDec _ _ fun _ => rfl
@[simp] theorem claim_relDec (e : Nat) (l : List (Fw K)) : tot (claimF e) (l.map .relDec) = 0 :=
  tot_relDec _ _ fun _ => rfl
@[simp] theorem hold_relDec (c : Nat) (l : List (Fw K)) : tot (holdF c) (l.map .relDec) = 0 :=
  tot_relDec _ _ fun _ => rfl

theorem nsum_congr {f g : Nat → Nat} {n : Nat} (h : ∀ i, i < n → f i = g i) : nsum f n = nsum g n := by
  induction n with
  | zero => rfl
  | succ n ih => simp only [nsum, ih fun i hi => h i (by omega), h n (by omega)]

theorem nsum_change {f g : Nat → Nat} {n i : Nat} (hi : i < n) (h : ∀ j, j ≠ i → f j = g j) :
    nsum f n + g i = nsum g n + f i := by
  induction n with
  | zero => omega
  | succ n ih =>
    simp only [nsum]
    by_cases hn : i = n
    · subst hn
      rw [nsum_congr (f := f) (g := g) fun j hj => h j (by omega)]
      omega
    · have := ih (by omega)
      rw [h n (Ne.symm hn)]
      omega

theorem nsum_pos {f : Nat → Nat} {n i : Nat} (hi : i < n) (h : 0 < f i) : 0 < nsum f n := by
  induction n with
  | zero => omega
  | succ n ih =>
    simp only [nsum]
    by_cases hn : i = n
    · subst hn; omega
    · have := ih (by omega); omega

theorem exists_of_nsum {f : Nat → Nat} {n : Nat} (h : 0 < nsum f n) : ∃ i, i < n ∧ 0 < f i := by
  induction n with
  | zero => simp [nsum] at h
  | succ n ih =>
    simp only [nsum] at h
    by_cases hn : 0 < f n
    · exact ⟨n, by omega, hn⟩
    · obtain ⟨i, hi, hf⟩ := ih (by omega)
      exact ⟨i, by omega, hf⟩

theorem pick_count {e : Nat} (m : List Bool) (l : List (Fw K)) :
    fwCount e (pick m l).1 + fwCount e (pick m l).2 = fwCount e l := by
  induction l generalizing m with
  | nil => cases m <;> rfl
  | cons a l ih =>
    cases m with
    | nil => simp [pick]
    | cons b m =>
      have := ih m
      unfold pick
      cases b <;> simp <;> omega

theorem pick_mem {m : List Bool} {l : List (Fw K)} {w : Fw K} :
    w ∈ l ↔ w ∈ (pick m l).1 ∨ w ∈ (pick m l).2 := by
  induction l generalizing m with
  | nil => cases m <;> simp [pick]
  | cons a l ih =>
    cases m with
    | nil => simp [pick]
    | cons b m =>
      unfold pick
      rw [List.mem_cons, ih (m := m)]
      cases b <;> simp
      · exact or_left_comm
      · exact or_assoc.symm

/-! ## Entries -/

theorem setEnt_same (f : Nat → Option (Ent K)) (e : Nat) (x : Option (Ent K)) : setEnt f e x e = x := by
  simp [setEnt]
theorem setEnt_ne (f : Nat → Option (Ent K)) {e i : Nat} (x : Option (Ent K)) (h : i ≠ e) :
    setEnt f e x i = f i := by simp [setEnt, h]

/-- The part of an entry that changes of the counts leave alone.  (No code of its own: used in
statements and proofs.) -/
def shape (x : Ent K) : Nat × K × Bool × List (Fw K) × Nat := (x.core, x.key, x.cted, x.kids, x.stamp)

theorem stat_of_shape {ents ents' : Nat → Option (Ent K)}
    (h : ∀ e, (ents' e).map shape = (ents e).map shape) : stat ents' = stat ents := by
  funext e
  have := congrArg (Option.map fun p : Nat × K × Bool × List (Fw K) × Nat => (p.1, p.2.1, p.2.2.1)) (h e)
  simpa [stat, Option.map_map, Function.comp_def, shape] using this

theorem shape_some {ents ents' : Nat → Option (Ent K)} (h : ∀ e, (ents' e).map shape = (ents e).map shape)
    {e : Nat} {x' : Ent K} (hx : ents' e = some x') :
    ∃ x, ents e = some x ∧ x.core = x'.core ∧ x.key = x'.key ∧ x.cted = x'.cted ∧ x.kids = x'.kids ∧
      x.stamp = x'.stamp := by
  have := h e
  rw [hx] at this
  cases hy : ents e with
  | none => rw [hy] at this; simp at this
  | some x =>
    rw [hy] at this
    simp only [Option.map_some, shape, Option.some.injEq, Prod.mk.injEq] at this
    exact ⟨x, rfl, this.1.symm, this.2.1.symm, this.2.2.1.symm, this.2.2.2.1.symm, this.2.2.2.2.symm⟩

theorem kidsTo_of_shape {ents ents' : Nat → Option (Ent K)}
    (h : ∀ e, (ents' e).map shape = (ents e).map shape) (n e : Nat) : kidsTo ents' n e = kidsTo ents n e := by
  refine nsum_congr fun i _ => ?_
  have := h i
  cases hx : ents i <;> cases hx' : ents' i <;> rw [hx, hx'] at this <;> simp_all [kidsOf, shape]

theorem shape_set {ents : Nat → Option (Ent K)} {e : Nat} {x x' : Ent K} (hx : ents e = some x)
    (h : shape x' = shape x) (i : Nat) : (setEnt ents e (some x') i).map shape = (ents i).map shape := by
  by_cases hi : i = e
  · subst hi
    rw [setEnt_same, hx]
    simp [h]
  · rw [setEnt_ne _ _ hi]

/-- Steps that change counts and frames only, and move flyweights between
objects and frames. -/
theorem Core.move {cfg : Cfg K} {ents ents' : Nat → Option (Ent K)} {next clock : Nat} {objs objs' : List (Fw K)}
    {old new oth : List (Frame K)} (h : Core cfg ents next objs clock (old ++ oth))
    (hs : ∀ e, (ents' e).map shape = (ents e).map shape)
    (hf : ∀ f ∈ new, FrameOk cfg (stat ents) f) (ho : ∀ w ∈ objs', FwOk cfg (stat ents) w)
    (href : ∀ e, refOf ents' e + (fwCount e objs + tot (refF e) old) =
      refOf ents e + (fwCount e objs' + tot (refF e) new))
    (hdel : ∀ e x x', ents e = some x → ents' e = some x' →
      x'.del + tot (addF e) new + tot (pendF e) old + (if 0 < x.ref then 1 else 0) =
      x.del + tot (addF e) old + tot (pendF e) new + (if 0 < x'.ref then 1 else 0))
    (hown : ∀ e, tot (ownF e) new ≤ tot (ownF e) old)
    (hunc : ∀ e x, ents e = some x → x.cted = false → tot (ownF e) old ≤ tot (ownF e) new)
    (hera : ∀ c e, .relErase c e ∈ new ++ oth → refOf ents' e = 0 ∧ tot (pendF e) (new ++ oth) = 0)
    (hcl : ∀ e x', ents' e = some x' → x'.ref = 0 → 0 < tot (claimF e) (new ++ oth)) :
    Core cfg ents' next objs' clock (new ++ oth) := by
  have hst := stat_of_shape hs
  refine ⟨fun e he => ?_, ?_, ?_, ?_, ?_, ?_, ?_, ?_, hera, ?_, hcl, ?_⟩
  · have := hs e
    rw [h.bound e he] at this
    simpa using this
  · rw [hst]
    intro f hf'
    rcases List.mem_append.1 hf' with h1 | h1
    · exact hf f h1
    · exact h.frames f (List.mem_append.2 (.inr h1))
  · rw [hst]; exact ho
  · rw [hst]
    intro e x' hx' w hw
    obtain ⟨x, hx, _, _, _, hk, _⟩ := shape_some hs hx'
    exact h.kids e x hx w (hk ▸ hw)
  · intro e
    have h1 := h.refs e
    have h2 := href e
    rw [kidsTo_of_shape hs]
    simp only [tot_append] at h1 ⊢
    omega
  · intro e x' hx'
    obtain ⟨x, hx, _⟩ := shape_some hs hx'
    have h1 := h.dels e x hx
    have h2 := hdel e x x' hx hx'
    simp only [tot_append] at h1 ⊢
    omega
  · intro e
    have h1 := h.own e
    have h2 := hown e
    simp only [tot_append] at h1 ⊢
    omega
  · intro e x' hx' hc
    obtain ⟨x, hx, _, _, hc', _⟩ := shape_some hs hx'
    have h1 := h.uncted e x hx (hc'.trans hc)
    have h2 := hunc e x hx (hc'.trans hc)
    simp only [tot_append] at h1 ⊢
    omega
  · intro e e' x x' hx hx' hc hk
    obtain ⟨y, hy, a1, a2, _⟩ := shape_some hs hx
    obtain ⟨y', hy', b1, b2, _⟩ := shape_some hs hx'
    exact h.uniq e e' y y' hy hy' (by rw [a1, b1, hc]) (by rw [a1, a2, b2]; exact hk)
  · intro e x' hx' hc
    obtain ⟨x, hx, _, _, hc', hk, hst'⟩ := shape_some hs hx'
    obtain ⟨h1, h2⟩ := h.time e x hx (hc'.trans hc)
    refine ⟨hst' ▸ h1, fun w hw y hy => ?_⟩
    obtain ⟨z, hz, _, _, _, _, hzs⟩ := shape_some hs hy
    rw [← hzs, ← hst']
    exact h2 w (hk ▸ hw) z hz

theorem Core.perm {cfg : Cfg K} {ents : Nat → Option (Ent K)} {next clock : Nat} {objs : List (Fw K)}
    {L L' : List (Frame K)} (h : Core cfg ents next objs clock L) (hp : L.Perm L') :
    Core cfg ents next objs clock L' where
  bound := h.bound
  frames f hf := h.frames f (hp.mem_iff.2 hf)
  objsOk := h.objsOk
  kids := h.kids
  refs e := by rw [h.refs, tot_perm hp]
  dels e x hx := by rw [← tot_perm hp, ← tot_perm hp]; exact h.dels e x hx
  own e := by rw [← tot_perm hp]; exact h.own e
  uncted e x hx hc := by rw [← tot_perm hp]; exact h.uncted e x hx hc
  era c e hm := by rw [← tot_perm hp]; exact h.era c e (hp.mem_iff.2 hm)
  uniq := h.uniq
  claim e x hx hr := by rw [← tot_perm hp]; exact h.claim e x hx hr
  time := h.time

/-! ## Frames under changes of the entries -/

theorem FwOk.upd {cfg : Cfg K} {st st' : Nat → Option (Nat × K × Bool)} {w : Fw K} (h : FwOk cfg st w)
    (hst : ∀ v, st w.h = some v → ∃ b, st' w.h = some (v.1, v.2.1, b) ∧ (v.2.2 = true → b = true)) :
    FwOk cfg st' w := by
  obtain ⟨k, h1, h2⟩ := h
  obtain ⟨b, h3, h4⟩ := hst _ h1
  rw [h4 rfl] at h3
  exact ⟨k, h3, h2⟩

theorem FrameOk.upd {cfg : Cfg K} {st st' : Nat → Option (Nat × K × Bool)} {f : Frame K} (h : FrameOk cfg st f)
    (hst : ∀ i v, st i = some v → 0 < refF i f + claimF i f →
      ∃ b, st' i = some (v.1, v.2.1, b) ∧ (v.2.2 = true → b = true) ∧ (0 < ownF i f → b = v.2.2)) :
    FrameOk cfg st' f := by
  have hloc : ∀ loc : List (Fw K), (∀ i, fwCount i loc ≤ refF i f) → (∀ w ∈ loc, FwOk cfg st w) →
      ∀ w ∈ loc, FwOk cfg st' w := by
    intro loc hl hw w hm
    refine (hw w hm).upd fun v hv => ?_
    have h1 := hl w.h
    have h2 := fwCount_pos hm rfl
    obtain ⟨b, hb, hb', _⟩ := hst w.h v hv (by omega)
    exact ⟨b, hb, hb'⟩
  cases f with
  | insLock c k loc pre => exact hloc loc (fun _ => Nat.le_refl _) h
  | insFind c k loc pre => exact hloc loc (fun _ => Nat.le_refl _) h
  | insUnwind c loc => exact hloc loc (fun _ => Nat.le_refl _) h
  | insVisit c k e loc new =>
    obtain ⟨⟨k', b, h1, h2⟩, h3⟩ := h
    obtain ⟨b', h4, _⟩ := hst e _ h1 (by simp [claimF])
    exact ⟨⟨k', b', h4, h2⟩, hloc loc (fun _ => Nat.le_refl _) h3.1, h3.2⟩
  | insUser c k e =>
    obtain ⟨k', h1, h2⟩ := h
    obtain ⟨b', h4, _, h5⟩ := hst e _ h1 (by simp [claimF])
    rw [h5 (by simp [ownF])] at h4
    exact ⟨k', h4, h2⟩
  | insDone c k e =>
    obtain ⟨k', h1, h2⟩ := h
    obtain ⟨b', h4, _, h5⟩ := hst e _ h1 (by simp [claimF])
    rw [h5 (by simp [ownF])] at h4
    exact ⟨k', h4, h2⟩
  | insCatch c e =>
    obtain ⟨k', h1⟩ := h
    obtain ⟨b', h4, _, h5⟩ := hst e _ h1 (by simp [claimF])
    rw [h5 (by simp [ownF])] at h4
    exact ⟨k', h4⟩
  | insAddRef c k e loc =>
    refine ⟨h.1.upd fun v hv => ?_, hloc loc (fun _ => Nat.le_refl _) h.2⟩
    obtain ⟨b, hb, hb', _⟩ := hst e v hv (by simp [claimF])
    exact ⟨b, hb, hb'⟩
  | insAddDel c k e loc =>
    refine ⟨h.1.upd fun v hv => ?_, hloc loc (fun _ => by simp [refF]) h.2⟩
    obtain ⟨b, hb, hb', _⟩ := hst e v hv (by simp [refF]; omega)
    exact ⟨b, hb, hb'⟩
  | insUnlock c k e loc =>
    refine ⟨h.1.upd fun v hv => ?_, hloc loc (fun _ => by simp [refF]) h.2⟩
    obtain ⟨b, hb, hb', _⟩ := hst e v hv (by simp [refF]; omega)
    exact ⟨b, hb, hb'⟩
  | relDec w =>
    refine FwOk.upd h fun v hv => ?_
    obtain ⟨b, hb, hb', _⟩ := hst w.h v hv (by simp [refF]; omega)
    exact ⟨b, hb, hb'⟩
  | relLock c e =>
    obtain ⟨k', h1⟩ := h
    obtain ⟨b', h4, h5, _⟩ := hst e _ h1 (by simp [claimF])
    rw [h5 rfl] at h4
    exact ⟨k', h4⟩
  | relCheck c e =>
    obtain ⟨k', h1⟩ := h
    obtain ⟨b', h4, h5, _⟩ := hst e _ h1 (by simp [claimF])
    rw [h5 rfl] at h4
    exact ⟨k', h4⟩
  | relErase c e =>
    obtain ⟨k', h1⟩ := h
    obtain ⟨b', h4, h5, _⟩ := hst e _ h1 (by simp [claimF])
    rw [h5 rfl] at h4
    exact ⟨k', h4⟩
  | relUnlock c => trivial

/-- Frames do not refer to entries that are not there. -/
theorem FrameOk.fresh {cfg : Cfg K} {st : Nat → Option (Nat × K × Bool)} {f : Frame K} (h : FrameOk cfg st f)
    {e : Nat} (he : st e = none) : pendF e f = 0 ∧ addF e f = 0 ∧ ownF e f = 0 ∧ claimF e f = 0 := by
  have hne : ∀ i c k b, st i = some (c, k, b) → ¬ i = e := by
    rintro i c k b h1 rfl
    rw [he] at h1
    cases h1
  cases f with
  | insVisit c k i loc new =>
    obtain ⟨⟨k', b, h1, h2⟩, h3⟩ := h
    simp [pendF, addF, ownF, claimF, hne _ _ _ _ h1]
  | insUser c k i => obtain ⟨k', h1, h2⟩ := h; simp [pendF, addF, ownF, claimF, hne _ _ _ _ h1]
  | insDone c k i => obtain ⟨k', h1, h2⟩ := h; simp [pendF, addF, ownF, claimF, hne _ _ _ _ h1]
  | insCatch c i => obtain ⟨k', h1⟩ := h; simp [pendF, addF, ownF, claimF, hne _ _ _ _ h1]
  | insAddRef c k i loc =>
    obtain ⟨⟨k', h1, h2⟩, h3⟩ := h
    simp [pendF, addF, ownF, claimF, hne _ _ _ _ h1]
  | insAddDel c k i loc =>
    obtain ⟨⟨k', h1, h2⟩, h3⟩ := h
    simp [pendF, addF, ownF, claimF, hne _ _ _ _ h1]
  | relLock c i => obtain ⟨k', h1⟩ := h; simp [pendF, addF, ownF, claimF, hne _ _ _ _ h1]
  | relCheck c i => obtain ⟨k', h1⟩ := h; simp [pendF, addF, ownF, claimF, hne _ _ _ _ h1]
  | relErase c i => obtain ⟨k', h1⟩ := h; simp [pendF, addF, ownF, claimF, hne _ _ _ _ h1]
  | _ => exact ⟨rfl, rfl, rfl, rfl⟩

theorem stat_some {ents : Nat → Option (Ent K)} {e : Nat} {x : Ent K} (hx : ents e = some x) :
    stat ents e = some (x.core, x.key, x.cted) := by simp [stat, hx]

theorem of_stat {ents : Nat → Option (Ent K)} {e c : Nat} {k : K} {b : Bool}
    (h : stat ents e = some (c, k, b)) : ∃ x, ents e = some x ∧ x.core = c ∧ x.key = k ∧ x.cted = b := by
  unfold stat at h
  cases hx : ents e with
  | none => rw [hx] at h; cases h
  | some x =>
    rw [hx] at h
    simp only [Option.map_some, Option.some.injEq, Prod.mk.injEq] at h
    exact ⟨x, rfl, h⟩

theorem kidsTo_set {ents : Nat → Option (Ent K)} {next e : Nat} (he : e < next) (x : Option (Ent K)) (i : Nat) :
    kidsTo (setEnt ents e x) next i + kidsOf i (ents e) = kidsTo ents next i + kidsOf i x := by
  have := nsum_change (f := fun j => kidsOf i (setEnt ents e x j)) (g := fun j => kidsOf i (ents j)) he
    fun j hj => by rw [setEnt_ne _ _ hj]
  rw [setEnt_same] at this
  exact this

namespace Core
variable {cfg : Cfg K} {ents : Nat → Option (Ent K)} {next clock : Nat} {objs : List (Fw K)}
  {L : List (Frame K)}

theorem lt_next (h : Core cfg ents next objs clock L) {e : Nat} {x : Ent K} (hx : ents e = some x) : e < next := by
  rcases Nat.lt_or_ge e next with h1 | h1
  · exact h1
  · rw [h.bound e h1] at hx
    cases hx

/-- Nothing refers to an entry that has no value, or is not there. -/
theorem ref_uncted (h : Core cfg ents next objs clock L) {e : Nat} (he : ∀ c k, stat ents e ≠ some (c, k, true)) :
    fwCount e objs = 0 ∧ kidsTo ents next e = 0 ∧ tot (refF e) L = 0 := by
  have hw : ∀ w : Fw K, FwOk cfg (stat ents) w → w.h ≠ e := by
    rintro w ⟨k, h1, _⟩ rfl
    exact he _ _ h1
  have hl : ∀ l : List (Fw K), (∀ w ∈ l, FwOk cfg (stat ents) w) → fwCount e l = 0 := by
    intro l hl
    rcases Nat.eq_zero_or_pos (fwCount e l) with h0 | h0
    · exact h0
    · obtain ⟨w, hm, hh⟩ := exists_of_fwCount h0
      exact absurd hh (hw w (hl w hm))
  refine ⟨hl _ h.objsOk, ?_, tot_eq_zero fun f hf => ?_⟩
  · rcases Nat.eq_zero_or_pos (kidsTo ents next e) with h0 | h0
    · exact h0
    · obtain ⟨i, _, hi⟩ := exists_of_nsum h0
      cases hx : ents i with
      | none => simp [hx, kidsOf] at hi
      | some x =>
        simp only [hx, kidsOf] at hi
        rw [hl _ (h.kids i x hx)] at hi
        cases hi
  · have hf := h.frames f hf
    cases f with
    | insLock c k loc pre => exact hl _ hf
    | insFind c k loc pre => exact hl _ hf
    | insVisit c k i loc new => exact hl _ hf.2.1
    | insUnwind c loc => exact hl _ hf
    | insAddRef c k i loc => exact hl _ hf.2
    | insAddDel c k i loc =>
      have h1 := hw _ hf.1
      simp only [refF, hl _ hf.2]
      simpa using h1
    | insUnlock c k i loc =>
      have h1 := hw _ hf.1
      simp only [refF, hl _ hf.2]
      simpa using h1
    | relDec w =>
      have h1 := hw _ hf
      simpa [refF] using h1
    | _ => rfl

theorem ref_nonneg (h : Core cfg ents next objs clock L) (e : Nat) : 0 ≤ refOf ents e := by
  rw [h.refs e]; omega

/-- A new entry. -/
theorem insert {oth : List (Frame K)} {c : Nat} {k : K} {loc : List (Fw K)} {pre : Bool} (hcfg : CfgOk cfg)
    (h : Core cfg ents next objs clock (.insFind c k loc pre :: oth))
    (hno : ∀ e x, ents e = some x → x.core = c → cfg.eqv c x.key k = false) :
    Core cfg (setEnt ents next (some ⟨c, k, pre, loc, 0, 0, clock⟩)) (next + 1) objs
      (if pre then clock + 1 else clock) (.insVisit c k next [] true :: oth) := by
  have hn : ents next = none := h.bound next (Nat.le_refl _)
  have hst : ∀ i v, stat ents i = some v →
      stat (setEnt ents next (some ⟨c, k, pre, loc, 0, 0, clock⟩)) i = some v := by
    intro i v hv
    have : i ≠ next := by
      rintro rfl
      simp [stat, hn] at hv
    simpa [stat, setEnt_ne _ _ this] using hv
  have hfw : ∀ w, FwOk cfg (stat ents) w →
      FwOk cfg (stat (setEnt ents next (some ⟨c, k, pre, loc, 0, 0, clock⟩))) w := by
    rintro w ⟨k', h1, h2⟩
    exact ⟨k', hst _ _ h1, h2⟩
  have hfr : ∀ f ∈ oth, FrameOk cfg (stat ents) f := fun f hf => h.frames f (List.mem_cons_of_mem _ hf)
  have hfresh : ∀ f ∈ oth, _ := fun f hf => (hfr f hf).fresh (e := next) (by simp [stat, hn])
  have z1 : tot (pendF next) oth = 0 := tot_eq_zero fun f hf => (hfresh f hf).1
  have z2 : tot (addF next) oth = 0 := tot_eq_zero fun f hf => (hfresh f hf).2.1
  have z3 : tot (ownF next) oth = 0 := tot_eq_zero fun f hf => (hfresh f hf).2.2.1
  have z4 : tot (claimF next) oth = 0 := tot_eq_zero fun f hf => (hfresh f hf).2.2.2
  have hloc : ∀ w ∈ loc, FwOk cfg (stat ents) w := h.frames _ List.mem_cons_self
  have hlt : ∀ w, FwOk cfg (stat ents) w → ∃ y, ents w.h = some y ∧ y.stamp < clock ∧ w.h ≠ next := by
    rintro w ⟨k', h1, h2⟩
    obtain ⟨y, hy, _, _, hc⟩ := of_stat h1
    exact ⟨y, hy, (h.time _ _ hy hc).1, Nat.ne_of_lt (h.lt_next hy)⟩
  have href : ∀ e, refOf (setEnt ents next (some ⟨c, k, pre, loc, 0, 0, clock⟩)) e = refOf ents e := by
    intro e
    by_cases he : e = next
    · subst he
      simp [refOf, setEnt_same, hn]
    · simp [refOf, setEnt_ne _ _ he]
  have hclock : clock ≤ if pre then clock + 1 else clock := by split <;> omega
  refine ⟨?_, ?_, ?_, ?_, ?_, ?_, ?_, ?_, ?_, ?_, ?_, ?_⟩
  · intro e he
    rw [setEnt_ne _ _ (by omega)]
    exact h.bound e (by omega)
  · intro f hf
    rcases List.mem_cons.1 hf with rfl | hf
    · exact ⟨⟨k, pre, by simp [stat, setEnt_same], hcfg.refl c k⟩, by simp, fun _ => rfl⟩
    · exact (hfr f hf).upd fun i v hv _ => ⟨v.2.2, hst i v hv, id, fun _ => rfl⟩
  · exact fun w hw => hfw w (h.objsOk w hw)
  · intro e x hx w hw
    by_cases he : e = next
    · subst he
      rw [setEnt_same] at hx
      cases hx
      exact hfw w (hloc w hw)
    · rw [setEnt_ne _ _ he] at hx
      exact hfw w (h.kids e x hx w hw)
  · intro e
    rw [href, h.refs e]
    have : kidsTo (setEnt ents next (some ⟨c, k, pre, loc, 0, 0, clock⟩)) (next + 1) e =
        kidsTo ents next e + fwCount e loc := by
      simp only [kidsTo, nsum, setEnt_same, kidsOf]
      congr 1
      exact nsum_congr fun i hi => by rw [setEnt_ne _ _ (by omega)]
    rw [this]
    simp only [tot_cons, refF, fwCount_nil]
    omega
  · intro e x hx
    by_cases he : e = next
    · subst he
      rw [setEnt_same] at hx
      cases hx
      simp [z1, z2, addF, pendF]
    · rw [setEnt_ne _ _ he] at hx
      have := h.dels e x hx
      simpa [addF, pendF] using this
  · intro e
    by_cases he : e = next
    · subst he
      simp [ownF, z3]
    · have := h.own e
      simpa [ownF, Ne.symm he] using this
  · intro e x hx hc
    by_cases he : e = next
    · subst he
      simp only [tot_cons, ownF, and_self, if_true]
      omega
    · rw [setEnt_ne _ _ he] at hx
      have := h.uncted e x hx hc
      simpa [ownF, Ne.symm he] using this
  · intro c' e hm
    rw [href]
    rcases List.mem_cons.1 hm with h1 | h1
    · cases h1
    · have := h.era c' e (List.mem_cons_of_mem _ h1)
      simpa [pendF] using this
  · have key : ∀ e x, e ≠ next → ents e = some x → x.core = c → cfg.eqv c x.key k = true → False := by
      intro e x _ hx hc hk
      rw [hno e x hx hc] at hk
      cases hk
    intro e e' x x' hx hx' hc hk
    by_cases he : e = next <;> by_cases he' : e' = next
    · rw [he, he']
    · subst he
      rw [setEnt_same] at hx
      cases hx
      rw [setEnt_ne _ _ he'] at hx'
      exact (key e' x' he' hx' hc.symm (hcfg.symm _ _ _ hk)).elim
    · subst he'
      rw [setEnt_same] at hx'
      cases hx'
      rw [setEnt_ne _ _ he] at hx
      dsimp only at hc hk
      rw [hc] at hk
      exact (key e x he hx hc hk).elim
    · rw [setEnt_ne _ _ he] at hx
      rw [setEnt_ne _ _ he'] at hx'
      exact h.uniq e e' x x' hx hx' hc hk
  · intro e x hx hr
    by_cases he : e = next
    · subst he
      simp only [tot_cons, claimF, if_true]
      omega
    · rw [setEnt_ne _ _ he] at hx
      have := h.claim e x hx hr
      simpa [claimF, Ne.symm he] using this
  · intro e x hx hc
    by_cases he : e = next
    · subst he
      rw [setEnt_same] at hx
      cases hx
      dsimp only at hc ⊢
      refine ⟨by rw [hc]; simp, fun w hw y hy => ?_⟩
      obtain ⟨y', hy', hlt', hne⟩ := hlt w (hloc w hw)
      rw [setEnt_ne _ _ hne, hy'] at hy
      cases hy
      exact hlt'
    · rw [setEnt_ne _ _ he] at hx
      obtain ⟨h1, h2⟩ := h.time e x hx hc
      refine ⟨by omega, fun w hw y hy => ?_⟩
      obtain ⟨y', hy', _, hne⟩ := hlt w (h.kids e x hx w hw)
      rw [setEnt_ne _ _ hne] at hy
      exact h2 w hw y hy

/-- The value constructor has returned. -/
theorem finish {oth : List (Frame K)} {c : Nat} {k : K} {e : Nat} {x : Ent K} {drop : Bool} {mask : List Bool}
    (h : Core cfg ents next objs clock (.insUser c k e :: oth)) (hx : ents e = some x) :
    Core cfg (setEnt ents e (some { x with
        kids := if drop then (pick mask objs).1 else x.kids ++ (pick mask objs).1 }))
      next (pick mask objs).2 clock
      ((if drop then x.kids.map .relDec else []) ++ .insDone c k e :: oth) := by
  obtain ⟨k', hk1, hk2⟩ := h.frames _ List.mem_cons_self
  have hc : x.cted = false := by
    rw [stat_some hx] at hk1
    simp only [Option.some.injEq, Prod.mk.injEq] at hk1
    exact hk1.2.2
  have hst : stat (setEnt ents e (some { x with
        kids := if drop then (pick mask objs).1 else x.kids ++ (pick mask objs).1 })) = stat ents := by
    funext i
    by_cases hi : i = e
    · subst hi
      simp [stat, setEnt_same, hx]
    · simp [stat, setEnt_ne _ _ hi]
  have href : ∀ i, refOf (setEnt ents e (some { x with
        kids := if drop then (pick mask objs).1 else x.kids ++ (pick mask objs).1 })) i = refOf ents i := by
    intro i
    by_cases hi : i = e
    · subst hi
      simp [refOf, setEnt_same, hx]
    · simp [refOf, setEnt_ne _ _ hi]
  have hkids := h.kids e x hx
  have hobj := h.objsOk
  have hsel : ∀ w, w ∈ (pick mask objs).1 ∨ w ∈ (pick mask objs).2 → FwOk cfg (stat ents) w :=
    fun w hw => hobj w (pick_mem.2 hw)
  have hmem : ∀ f, f ∈ ((if drop then x.kids.map .relDec else []) ++ .insDone c k e :: oth) →
      (∃ w ∈ x.kids, f = .relDec w) ∨ f = .insDone c k e ∨ f ∈ oth := by
    intro f hf
    rcases List.mem_append.1 hf with h1 | h1
    · left
      cases drop
      · simp at h1
      · simp only [if_true] at h1
        obtain ⟨w, hw, rfl⟩ := List.mem_map.1 h1
        exact ⟨w, hw, rfl⟩
    · exact .inr (List.mem_cons.1 h1)
  have htot : ∀ g : Frame K → Nat, (∀ w, g (.relDec w) = 0) →
      tot g ((if drop then x.kids.map .relDec else []) ++ .insDone c k e :: oth) = g (.insDone c k e) + tot g oth := by
    intro g hg
    rw [tot_append, tot_cons]
    have : tot g (if drop then x.kids.map .relDec else []) = 0 := by
      cases drop
      · simp
      · simpa using tot_relDec g x.kids hg
    omega
  have hget : ∀ i y, setEnt ents e (some { x with
        kids := if drop then (pick mask objs).1 else x.kids ++ (pick mask objs).1 }) i = some y →
      ∃ z, ents i = some z ∧ y.core = z.core ∧ y.key = z.key ∧ y.cted = z.cted ∧ y.ref = z.ref ∧ y.del = z.del ∧
        y.stamp = z.stamp ∧ (i ≠ e → y = z) := by
    intro i y hy
    by_cases hi : i = e
    · subst hi
      rw [setEnt_same] at hy
      cases hy
      exact ⟨x, hx, rfl, rfl, rfl, rfl, rfl, rfl, fun h => absurd rfl h⟩
    · rw [setEnt_ne _ _ hi] at hy
      exact ⟨y, hy, rfl, rfl, rfl, rfl, rfl, rfl, fun _ => rfl⟩
  refine ⟨?_, ?_, ?_, ?_, ?_, ?_, ?_, ?_, ?_, ?_, ?_, ?_⟩
  · intro i hi
    have := h.lt_next hx
    rw [setEnt_ne _ _ (by omega)]
    exact h.bound i hi
  · rw [hst]
    intro f hf
    rcases hmem f hf with ⟨w, hw, rfl⟩ | rfl | hf
    · exact hkids w hw
    · exact ⟨k', hk1, hk2⟩
    · exact h.frames f (List.mem_cons_of_mem _ hf)
  · rw [hst]
    exact fun w hw => hsel w (.inr hw)
  · rw [hst]
    intro i y hy w hw
    by_cases hi : i = e
    · subst hi
      rw [setEnt_same] at hy
      cases hy
      dsimp only at hw
      cases drop
      · rcases List.mem_append.1 (by simpa using hw) with h1 | h1
        · exact hkids w h1
        · exact hsel w (.inl h1)
      · exact hsel w (.inl (by simpa using hw))
    · rw [setEnt_ne _ _ hi] at hy
      exact h.kids i y hy w hw
  · intro i
    rw [href, h.refs i]
    have h1 := kidsTo_set (ents := ents) (h.lt_next hx) (some { x with
        kids := if drop then (pick mask objs).1 else x.kids ++ (pick mask objs).1 }) i
    have h2 := pick_count (e := i) mask objs
    rw [hx] at h1
    simp only [kidsOf] at h1
    simp only [tot_append, tot_cons, refF] at h1 ⊢
    cases drop <;> simp at h1 ⊢ <;> omega
  · intro i y hy
    obtain ⟨z, hz, _, _, _, h1, h2, _⟩ := hget i y hy
    rw [htot _ fun _ => rfl, htot _ fun _ => rfl, h1, h2]
    exact h.dels i z hz
  · intro i
    rw [htot _ fun _ => rfl]
    exact h.own i
  · intro i y hy hcy
    obtain ⟨z, hz, _, _, h3, _⟩ := hget i y hy
    rw [htot _ fun _ => rfl]
    exact h.uncted i z hz (h3 ▸ hcy)
  · intro c' i hm
    rw [href, htot _ fun _ => rfl]
    rcases hmem _ hm with ⟨w, _, h1⟩ | h1 | h1
    · cases h1
    · cases h1
    · exact h.era c' i (List.mem_cons_of_mem _ h1)
  · intro i j y y' hy hy' hcc hkk
    obtain ⟨z, hz, a1, a2, _⟩ := hget i y hy
    obtain ⟨z', hz', b1, b2, _⟩ := hget j y' hy'
    exact h.uniq i j z z' hz hz' (by rw [← a1, ← b1, hcc]) (by rw [← a1, ← a2, ← b2]; exact hkk)
  · intro i y hy hr
    obtain ⟨z, hz, _, _, _, h1, _⟩ := hget i y hy
    rw [htot _ fun _ => rfl]
    exact h.claim i z hz (h1 ▸ hr)
  · intro i y hy hcy
    obtain ⟨z, hz, _, _, h3, _, _, h5, h4⟩ := hget i y hy
    by_cases hi : i = e
    · subst hi
      rw [hz] at hx
      cases hx
      rw [← h3, hcy] at hc
      cases hc
    · have := h4 hi
      subst this
      obtain ⟨h6, h7⟩ := h.time i y hz hcy
      refine ⟨h6, fun w hw v hv => ?_⟩
      obtain ⟨v', hv', _, _, _, _, _, h8, _⟩ := hget _ v hv
      rw [h8]
      exact h7 w hw v' hv'

/-- The value is there. -/
theorem done {oth : List (Frame K)} {c : Nat} {k : K} {e : Nat} {x : Ent K}
    (h : Core cfg ents next objs clock (.insDone c k e :: oth)) (hx : ents e = some x) :
    Core cfg (setEnt ents e (some { x with cted := true, stamp := clock })) next objs (clock + 1)
      (.insAddRef c k e [] :: oth) := by
  obtain ⟨k', hk1, hk2⟩ := h.frames _ List.mem_cons_self
  have hk3 := hk1
  rw [stat_some hx] at hk3
  simp only [Option.some.injEq, Prod.mk.injEq] at hk3
  obtain ⟨e1, e2, hc⟩ := hk3
  have hzero := h.ref_uncted (e := e) fun c' k'' => by rw [stat_some hx, hc]; simp
  have hown : ∀ f ∈ oth, ownF e f = 0 := by
    intro f hf
    have h1 := h.own e
    simp only [tot_cons, ownF, if_true] at h1
    have h2 := tot_le (g := ownF e) hf
    omega
  have hst : ∀ i v, stat ents i = some v → ∃ b,
      stat (setEnt ents e (some { x with cted := true, stamp := clock })) i = some (v.1, v.2.1, b) ∧
        (v.2.2 = true → b = true) ∧ (i ≠ e → b = v.2.2) := by
    intro i v hv
    by_cases hi : i = e
    · subst hi
      rw [stat_some hx] at hv
      cases hv
      exact ⟨true, by simp [stat, setEnt_same], fun _ => rfl, fun h => absurd rfl h⟩
    · exact ⟨v.2.2, by rw [← hv]; simp [stat, setEnt_ne _ _ hi], id, fun _ => rfl⟩
  have hfw : ∀ w, FwOk cfg (stat ents) w →
      FwOk cfg (stat (setEnt ents e (some { x with cted := true, stamp := clock }))) w := fun w hw =>
    hw.upd fun v hv => by
      obtain ⟨b, hb, hb', _⟩ := hst _ v hv
      exact ⟨b, hb, hb'⟩
  have href : ∀ i, refOf (setEnt ents e (some { x with cted := true, stamp := clock })) i = refOf ents i := by
    intro i
    by_cases hi : i = e
    · subst hi
      simp [refOf, setEnt_same, hx]
    · simp [refOf, setEnt_ne _ _ hi]
  have hget : ∀ i y, setEnt ents e (some { x with cted := true, stamp := clock }) i = some y →
      ∃ z, ents i = some z ∧ y.core = z.core ∧ y.key = z.key ∧ y.ref = z.ref ∧ y.del = z.del ∧ y.kids = z.kids ∧
        (i ≠ e → y = z) := by
    intro i y hy
    by_cases hi : i = e
    · subst hi
      rw [setEnt_same] at hy
      cases hy
      exact ⟨x, hx, rfl, rfl, rfl, rfl, rfl, fun h => absurd rfl h⟩
    · rw [setEnt_ne _ _ hi] at hy
      exact ⟨y, hy, rfl, rfl, rfl, rfl, rfl, fun _ => rfl⟩
  have hkid : ∀ w, FwOk cfg (stat ents) w → w.h ≠ e ∧ ∃ y, ents w.h = some y ∧ y.stamp < clock := by
    rintro w ⟨k'', h1, h2⟩
    obtain ⟨y, hy, _, _, h4⟩ := of_stat h1
    refine ⟨?_, y, hy, (h.time _ y hy h4).1⟩
    rintro rfl
    rw [hx] at hy
    cases hy
    rw [hc] at h4
    cases h4
  refine ⟨?_, ?_, ?_, ?_, ?_, ?_, ?_, ?_, ?_, ?_, ?_, ?_⟩
  · intro i hi
    have := h.lt_next hx
    rw [setEnt_ne _ _ (by omega)]
    exact h.bound i hi
  · intro f hf
    rcases List.mem_cons.1 hf with rfl | hf1
    · refine ⟨⟨k', ?_, hk2⟩, by simp⟩
      simp [stat, setEnt_same, e1, e2]
    · refine (h.frames f (List.mem_cons_of_mem _ hf1)).upd fun i v hv _ => ?_
      obtain ⟨b, hb, hb', hb''⟩ := hst _ v hv
      refine ⟨b, hb, hb', fun h1 => hb'' ?_⟩
      rintro rfl
      rw [hown f hf1] at h1
      cases h1
  · exact fun w hw => hfw w (h.objsOk w hw)
  · intro i y hy w hw
    obtain ⟨z, hz, _, _, _, _, hk, _⟩ := hget i y hy
    exact hfw w (h.kids i z hz w (hk ▸ hw))
  · intro i
    rw [href, h.refs i]
    have h1 := kidsTo_set (ents := ents) (h.lt_next hx) (some { x with cted := true, stamp := clock }) i
    rw [hx] at h1
    simp only [kidsOf] at h1
    simp only [tot_cons, refF, fwCount_nil]
    omega
  · intro i y hy
    obtain ⟨z, hz, _, _, h1, h2, _⟩ := hget i y hy
    have := h.dels i z hz
    rw [h1, h2]
    simpa [addF, pendF] using this
  · intro i
    have := h.own i
    simp only [tot_cons, ownF] at this ⊢
    omega
  · intro i y hy hcy
    by_cases hi : i = e
    · subst hi
      rw [setEnt_same] at hy
      cases hy
      cases hcy
    · obtain ⟨z, hz, _, _, _, _, _, h1⟩ := hget i y hy
      have := h.uncted i z hz (h1 hi ▸ hcy)
      simpa [ownF, Ne.symm hi] using this
  · intro c' i hm
    rw [href]
    rcases List.mem_cons.1 hm with h1 | h1
    · cases h1
    · simpa [pendF] using h.era c' i (List.mem_cons_of_mem _ h1)
  · intro i j y y' hy hy' hcc hkk
    obtain ⟨z, hz, a1, a2, _⟩ := hget i y hy
    obtain ⟨z', hz', b1, b2, _⟩ := hget j y' hy'
    exact h.uniq i j z z' hz hz' (by rw [← a1, ← b1, hcc]) (by rw [← a1, ← a2, ← b2]; exact hkk)
  · intro i y hy hr
    obtain ⟨z, hz, _, _, h1, _⟩ := hget i y hy
    have := h.claim i z hz (h1 ▸ hr)
    simpa [claimF] using this
  · intro i y hy hcy
    by_cases hi : i = e
    · subst hi
      rw [setEnt_same] at hy
      cases hy
      refine ⟨Nat.lt_succ_self _, fun w hw v hv => ?_⟩
      obtain ⟨h1, v', hv', h2⟩ := hkid w (h.kids i x hx w hw)
      rw [setEnt_ne _ _ h1, hv'] at hv
      cases hv
      exact h2
    · obtain ⟨z, hz, _, _, _, _, _, h1⟩ := hget i y hy
      have := h1 hi
      subst this
      obtain ⟨h6, h7⟩ := h.time i y hz hcy
      refine ⟨by omega, fun w hw v hv => ?_⟩
      obtain ⟨h1, _⟩ := hkid w (h.kids i y hz w hw)
      rw [setEnt_ne _ _ h1] at hv
      exact h7 w hw v hv

/-- An entry nobody refers to is erased; its flyweights are destroyed next. -/
theorem erase {oth : List (Frame K)} {f f' : Frame K} {e : Nat} {x : Ent K}
    (h : Core cfg ents next objs clock (f :: oth)) (hx : ents e = some x) (hr : x.ref = 0)
    (hcl : tot (claimF e) oth = 0) (hf' : FrameOk cfg (stat ents) f')
    (hz : ∀ i, refF i f = 0 ∧ pendF i f = 0 ∧ addF i f = 0 ∧ (i ≠ e → ownF i f = 0 ∧ claimF i f = 0))
    (hz' : ∀ i, refF i f' = 0 ∧ pendF i f' = 0 ∧ addF i f' = 0 ∧ ownF i f' = 0 ∧ claimF i f' = 0) :
    Core cfg (setEnt ents e none) next objs clock (x.kids.map .relDec ++ f' :: oth) := by
  have hre := h.refs e
  have hre0 : refOf ents e = 0 := by simp [refOf, hx, hr]
  rw [hre0] at hre
  simp only [tot_cons] at hre
  have hobj0 : fwCount e objs = 0 := by omega
  have hkid0 : kidsTo ents next e = 0 := by omega
  have href0 : tot (refF e) oth = 0 := by omega
  have hkids0 : ∀ i y, ents i = some y → fwCount e y.kids = 0 := by
    intro i y hy
    rcases Nat.eq_zero_or_pos (fwCount e y.kids) with h0 | h0
    · exact h0
    · have := nsum_pos (f := fun i => kidsOf e (ents i)) (h.lt_next hy) (by simpa [hy, kidsOf] using h0)
      unfold kidsTo at hkid0
      omega
  have hst : ∀ i, i ≠ e → stat (setEnt ents e none) i = stat ents i := fun i hi => by
    simp [stat, setEnt_ne _ _ hi]
  have hfw : ∀ (l : List (Fw K)), fwCount e l = 0 → (∀ w ∈ l, FwOk cfg (stat ents) w) →
      ∀ w ∈ l, FwOk cfg (stat (setEnt ents e none)) w := by
    intro l hl hw w hm
    refine (hw w hm).upd fun v hv => ⟨v.2.2, ?_, id⟩
    have : w.h ≠ e := fun hh => by
      have := fwCount_pos hm hh
      omega
    rw [hst _ this]
    exact hv
  have hget : ∀ i y, setEnt ents e none i = some y → i ≠ e ∧ ents i = some y := by
    intro i y hy
    by_cases hi : i = e
    · subst hi
      rw [setEnt_same] at hy
      cases hy
    · rw [setEnt_ne _ _ hi] at hy
      exact ⟨hi, hy⟩
  have hmem : ∀ g, g ∈ x.kids.map .relDec ++ f' :: oth → (∃ w ∈ x.kids, g = .relDec w) ∨ g = f' ∨ g ∈ oth := by
    intro g hg
    rcases List.mem_append.1 hg with h1 | h1
    · obtain ⟨w, hw, rfl⟩ := List.mem_map.1 h1
      exact .inl ⟨w, hw, rfl⟩
    · exact .inr (List.mem_cons.1 h1)
  have hfr : ∀ g, FrameOk cfg (stat ents) g → refF e g = 0 → claimF e g = 0 →
      FrameOk cfg (stat (setEnt ents e none)) g := by
    intro g hg h1 h2
    refine hg.upd fun i v hv h3 => ⟨v.2.2, ?_, id, fun _ => rfl⟩
    have : i ≠ e := by
      rintro rfl
      omega
    rw [hst _ this]
    exact hv
  have href : ∀ i, refOf (setEnt ents e none) i = refOf ents i := by
    intro i
    by_cases hi : i = e
    · subst hi
      rw [hre0]
      simp [refOf, setEnt_same]
    · simp [refOf, setEnt_ne _ _ hi]
  refine ⟨?_, ?_, ?_, ?_, ?_, ?_, ?_, ?_, ?_, ?_, ?_, ?_⟩
  · intro i hi
    have := h.lt_next hx
    rw [setEnt_ne _ _ (by omega)]
    exact h.bound i hi
  · intro g hg
    rcases hmem g hg with ⟨w, hw, rfl⟩ | rfl | hg
    · exact hfw x.kids (hkids0 e x hx) (h.kids e x hx) w hw
    · exact hfr g hf' (hz' e).1 (hz' e).2.2.2.2
    · have h1 := tot_le (g := refF e) hg
      have h2 := tot_le (g := claimF e) hg
      exact hfr g (h.frames g (List.mem_cons_of_mem _ hg)) (by omega) (by omega)
  · exact hfw objs hobj0 h.objsOk
  · intro i y hy
    obtain ⟨_, hy'⟩ := hget i y hy
    exact hfw y.kids (hkids0 i y hy') (h.kids i y hy')
  · intro i
    have h1 := h.refs i
    have h2 := kidsTo_set (ents := ents) (h.lt_next hx) none i
    rw [hx] at h2
    simp only [kidsOf] at h2
    simp only [tot_append, tot_cons, ref_relDec, (hz i).1, (hz' i).1] at h1 ⊢
    rw [href]
    omega
  · intro i y hy
    obtain ⟨hi, hy'⟩ := hget i y hy
    have := h.dels i y hy'
    simpa [(hz i).2.1, (hz i).2.2.1, (hz' i).2.1, (hz' i).2.2.1] using this
  · intro i
    have := h.own i
    simp only [tot_append, tot_cons, own_relDec, (hz' i).2.2.2.1] at this ⊢
    omega
  · intro i y hy hcy
    obtain ⟨hi, hy'⟩ := hget i y hy
    have := h.uncted i y hy' hcy
    simpa [((hz i).2.2.2 hi).1, (hz' i).2.2.2.1] using this
  · intro c' i hm
    rw [href]
    rcases hmem _ hm with ⟨w, _, h1⟩ | h1 | h1
    · cases h1
    · have := (hz' i).2.2.2.2
      rw [← h1] at this
      simp [claimF] at this
    · have := h.era c' i (List.mem_cons_of_mem _ h1)
      simpa [(hz i).2.1, (hz' i).2.1] using this
  · intro i j y y' hy hy'
    exact h.uniq i j y y' (hget i y hy).2 (hget j y' hy').2
  · intro i y hy hr'
    obtain ⟨hi, hy'⟩ := hget i y hy
    have := h.claim i y hy' hr'
    simpa [((hz i).2.2.2 hi).2, (hz' i).2.2.2.2] using this
  · intro i y hy hcy
    obtain ⟨hi, hy'⟩ := hget i y hy
    obtain ⟨h1, h2⟩ := h.time i y hy' hcy
    exact ⟨h1, fun w hw v hv => h2 w hw v (hget _ v hv).2⟩

end Core

end Verif.Conc

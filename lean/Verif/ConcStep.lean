import Verif.ConcInv

/-!
# Invariant of the concurrent model: preservation
-/

set_option autoImplicit false

namespace Verif.Conc
variable {K : Type} {cfg : Cfg K}

/-- How many times thread `t` has locked the mutex of type `c`.  (No code of its own: used in
statements and proofs.) -/
def depthOf (lock : Nat → Option (Nat × Nat)) (t c : Nat) : Nat :=
  match lock c with
  | none => 0
  | some (o, d) => if o = t then d else 0

/-- Mutexes are held as the frames say; only certain frames wait for others.  (No code of its
own: used in statements and proofs.) -/
structure Locks (lock : Nat → Option (Nat × Nat)) (thr : List (List (Frame K))) : Prop where
  depth : ∀ (t : Nat) (st : List (Frame K)), thr[t]? = some st → ∀ c, tot (holdF c) st = depthOf lock t c
  pos : ∀ c o d, lock c = some (o, d) → 0 < d ∧ o < thr.length
  tails : ∀ (t : Nat) (st : List (Frame K)), thr[t]? = some st → ∀ f ∈ st.tail, waiting f = true

theorem Locks.pos1 {lock : Nat → Option (Nat × Nat)} {thr : List (List (Frame K))} (h : Locks lock thr) :
    ∀ c o d, lock c = some (o, d) → 0 < d := fun c o d hl => (h.pos c o d hl).1

/-- All frames of all threads.  (No code of its own: used in statements and proofs.) -/
def frames (s : St K) : List (Frame K) := s.thr.flatten

/-- The invariant.  (No code of its own: used in statements and proofs.) -/
structure Inv (cfg : Cfg K) (s : St K) : Prop where
  core : Core cfg s.ents s.next s.objs s.clock (frames s)
  locks : Locks s.lock s.thr

/-- What must hold of every outcome.  (No code of its own: used in statements and proofs.) -/
def Good (cfg : Cfg K) : Out K → Prop
  | .ok s => Inv cfg s
  | .no => True
  | .ub => False
  | .reentrant => True

theorem split {α : Type} {thr : List (List α)} {t : Nat} {st : List α} (h : thr[t]? = some st) :
    ∃ A B, thr.flatten = A ++ st ++ B ∧ (∀ st', (thr.set t st').flatten = A ++ st' ++ B) ∧
      ∀ f ∈ A ++ B, ∃ t' st', t' ≠ t ∧ thr[t']? = some st' ∧ f ∈ st' := by
  induction thr generalizing t with
  | nil => simp at h
  | cons a thr ih =>
    cases t with
    | zero =>
      simp only [List.getElem?_cons_zero, Option.some.injEq] at h
      subst h
      refine ⟨[], thr.flatten, by simp, by simp, fun f hf => ?_⟩
      obtain ⟨st', h1, h2⟩ := List.mem_flatten.1 (show f ∈ thr.flatten by simpa using hf)
      obtain ⟨i, hi⟩ := List.mem_iff_getElem?.1 h1
      exact ⟨i + 1, st', by omega, by simpa using hi, h2⟩
    | succ t =>
      simp only [List.getElem?_cons_succ] at h
      obtain ⟨A, B, h1, h2, h3⟩ := ih h
      refine ⟨a ++ A, B, by simp [h1], fun st' => by simp [h2], fun f hf => ?_⟩
      rw [List.append_assoc] at hf
      rcases List.mem_append.1 hf with hf | hf
      · exact ⟨0, a, by omega, by simp, hf⟩
      · obtain ⟨t', st', h4, h5, h6⟩ := h3 f hf
        exact ⟨t' + 1, st', by omega, by simpa using h5, h6⟩

theorem depth_excl {lock : Nat → Option (Nat × Nat)} {t t' c : Nat} (h : 0 < depthOf lock t c) (hne : t' ≠ t) :
    depthOf lock t' c = 0 := by
  unfold depthOf at *
  split at h
  · cases h
  · rename_i o d he
    by_cases ho : o = t
    · rw [if_neg]
      omega
    · simp [ho] at h

/-- What changes of a mutex by thread `t` leave alone.  (No code of its own: used in statements
and proofs.) -/
structure LockStep (lock lock' : Nat → Option (Nat × Nat)) (t : Nat) : Prop where
  other : ∀ t' c, t' ≠ t → depthOf lock' t' c = depthOf lock t' c
  pos : ∀ c o d, lock' c = some (o, d) → 0 < d ∧ (o = t ∨ ∃ d', lock c = some (o, d'))

theorem LockStep.refl {lock : Nat → Option (Nat × Nat)} {t : Nat} {thr : List (List (Frame K))} (h : Locks lock thr) :
    LockStep lock lock t := ⟨fun _ _ _ => rfl, fun c o d hl => ⟨(h.pos c o d hl).1, .inr ⟨d, hl⟩⟩⟩

theorem acquire_some (hc : cfg.locking = true) {lock l : Nat → Option (Nat × Nat)} {t c : Nat}
    (hl : ∀ c o d, lock c = some (o, d) → 0 < d)
    (h : acquire cfg lock t c = some l) :
    LockStep lock l t ∧ ∀ c', depthOf l t c' = depthOf lock t c' + if c = c' then 1 else 0 := by
  unfold acquire at h
  rw [if_pos hc] at h
  cases hx : lock c with
  | none =>
    rw [hx] at h
    simp only [Option.some.injEq] at h
    subst h
    refine ⟨⟨fun t' c' hne => ?_, fun c' o d ho => ?_⟩, fun c' => ?_⟩
    · by_cases h' : c' = c
      · subst h'; simp [depthOf, hx, Ne.symm hne]
      · simp [depthOf, h']
    · by_cases h' : c' = c
      · subst h'
        simp only [if_true, Option.some.injEq, Prod.mk.injEq] at ho
        omega
      · rw [if_neg h'] at ho
        exact ⟨hl c' o d ho, .inr ⟨d, ho⟩⟩
    · by_cases h' : c' = c
      · subst h'; simp [depthOf, hx]
      · simp [depthOf, h', Ne.symm h']
  | some p =>
    obtain ⟨o, d⟩ := p
    rw [hx] at h
    by_cases ho : o = t
    · subst ho
      simp only [if_true, Option.some.injEq] at h
      subst h
      refine ⟨⟨fun t' c' hne => ?_, fun c' o' d' ho => ?_⟩, fun c' => ?_⟩
      · by_cases h' : c' = c
        · subst h'; simp [depthOf, hx, Ne.symm hne]
        · simp [depthOf, h']
      · by_cases h' : c' = c
        · subst h'
          simp only [if_true, Option.some.injEq, Prod.mk.injEq] at ho
          omega
        · rw [if_neg h'] at ho
          exact ⟨hl c' o' d' ho, .inr ⟨d', ho⟩⟩
      · by_cases h' : c' = c
        · subst h'; simp [depthOf, hx]
        · simp [depthOf, h', Ne.symm h']
    · simp [ho] at h

theorem unlock_some (hc : cfg.locking = true) {lock : Nat → Option (Nat × Nat)} {t c : Nat}
    (hl : ∀ c o d, lock c = some (o, d) → 0 < d) (h : 0 < depthOf lock t c) :
    ∃ l, unlock cfg lock t c = some l ∧ LockStep lock l t ∧
      ∀ c', depthOf l t c' + (if c = c' then 1 else 0) = depthOf lock t c' := by
  unfold unlock
  rw [if_pos hc]
  cases hx : lock c with
  | none => simp [depthOf, hx] at h
  | some p =>
    obtain ⟨o, d⟩ := p
    by_cases ho : o = t
    · subst ho
      simp only [if_true]
      refine ⟨_, rfl, ⟨fun t' c' hne => ?_, fun c' o' d' ho => ?_⟩, fun c' => ?_⟩
      · by_cases h' : c' = c
        · subst h'
          by_cases hd : d ≤ 1 <;> simp [depthOf, hx, Ne.symm hne, hd]
        · simp [depthOf, h']
      · by_cases h' : c' = c
        · subst h'
          by_cases hd : d ≤ 1
          · simp [hd] at ho
          · simp only [if_true, hd, if_false, Option.some.injEq, Prod.mk.injEq] at ho
            omega
        · rw [if_neg h'] at ho
          exact ⟨hl c' o' d' ho, .inr ⟨d', ho⟩⟩
      · by_cases h' : c' = c
        · subst h'
          have := hl c' o d hx
          by_cases hd : d ≤ 1 <;> simp [depthOf, hx, hd] <;> omega
        · simp [depthOf, h', Ne.symm h']
    · simp [depthOf, hx, ho] at h

/-- General form of a step of thread `t`. -/
theorem Inv.step_of {s : St K} (h : Inv cfg s) {t : Nat} {st st' : List (Frame K)} (ht : s.thr[t]? = some st)
    {ents : Nat → Option (Ent K)} {next clock : Nat} {objs : List (Fw K)} {lock : Nat → Option (Nat × Nat)}
    (hc : ∀ AB, Core cfg s.ents s.next s.objs s.clock (st ++ AB) →
      (∀ f ∈ AB, ∀ c, 0 < tot (holdF c) st → holdF c f = 0) → Core cfg ents next objs clock (st' ++ AB))
    (hl : LockStep s.lock lock t) (hd : ∀ c, tot (holdF c) st' = depthOf lock t c)
    (htl : ∀ f ∈ st'.tail, waiting f = true) :
    Inv cfg ⟨ents, next, lock, s.thr.set t st', objs, clock⟩ := by
  obtain ⟨A, B, h1, h2, h3⟩ := split ht
  have hlt : t < s.thr.length := by
    rcases Nat.lt_or_ge t s.thr.length with h' | h'
    · exact h'
    · rw [List.getElem?_eq_none h'] at ht; cases ht
  have hp : ∀ st'' : List (Frame K), (A ++ st'' ++ B).Perm (st'' ++ (A ++ B)) := fun st'' => by
    rw [List.append_assoc]
    refine (List.perm_append_comm (l₁ := A) (l₂ := st'' ++ B)).trans ?_
    rw [List.append_assoc]
    exact (List.perm_append_comm).append_left st''
  constructor
  · show Core cfg ents next objs clock (s.thr.set t st').flatten
    rw [h2]
    refine (hc (A ++ B) ?_ ?_).perm (hp st').symm
    · have := h.core
      unfold frames at this
      rw [h1] at this
      exact this.perm (hp st)
    · intro f hf c hpos
      obtain ⟨t', st'', h4, h5, h6⟩ := h3 f hf
      rw [h.locks.depth t st ht] at hpos
      have h7 := h.locks.depth t' st'' h5 c
      rw [depth_excl hpos h4] at h7
      have := tot_le (g := holdF c) h6
      omega
  · constructor
    · intro t' st'' ht' c
      by_cases he : t' = t
      · subst he
        rw [List.getElem?_set_self hlt] at ht'
        cases ht'
        exact hd c
      · rw [List.getElem?_set_ne (Ne.symm he)] at ht'
        rw [h.locks.depth t' st'' ht' c]
        exact (hl.other t' c he).symm
    · intro c o d ho
      obtain ⟨h4, h5⟩ := hl.pos c o d ho
      refine ⟨h4, ?_⟩
      rw [List.length_set]
      rcases h5 with rfl | ⟨d', h5⟩
      · exact hlt
      · exact (h.locks.pos c o d' h5).2
    · intro t' st'' ht' f hf
      by_cases he : t' = t
      · subst he
        rw [List.getElem?_set_self hlt] at ht'
        cases ht'
        exact htl f hf
      · rw [List.getElem?_set_ne (Ne.symm he)] at ht'
        exact h.locks.tails t' st'' ht' f hf

/-- General form of a step of the library. -/
theorem Inv.lib_of {s : St K} (h : Inv cfg s) {t : Nat} {f : Frame K} {rest new : List (Frame K)}
    (ht : s.thr[t]? = some (f :: rest))
    {ents : Nat → Option (Ent K)} {next clock : Nat} {objs : List (Fw K)} {lock : Nat → Option (Nat × Nat)}
    (hl : LockStep s.lock lock t)
    (hd : ∀ c, tot (holdF c) new + depthOf s.lock t c = depthOf lock t c + holdF c f)
    (htl : ∀ g ∈ new.tail, waiting g = true)
    (hc : ∀ oth, Core cfg s.ents s.next s.objs s.clock (f :: oth) →
      (∀ g ∈ oth, ∀ c, holds f = some c → holds g = some c → waiting g = true) →
      Core cfg ents next objs clock (new ++ oth)) :
    Inv cfg ⟨ents, next, lock, s.thr.set t (new ++ rest), objs, clock⟩ := by
  have hrest : ∀ g ∈ rest, waiting g = true := h.locks.tails t _ ht
  refine h.step_of ht (fun AB hcore hex => ?_) hl ?_ ?_
  · rw [List.append_assoc]
    refine hc (rest ++ AB) hcore fun g hg c h1 h2 => ?_
    rcases List.mem_append.1 hg with h3 | h3
    · exact hrest g h3
    · have := hex g h3 c (by simp only [tot_cons, holdF, h1, if_true]; omega)
      simp [holdF, h2] at this
  · intro c
    have h1 := h.locks.depth t _ ht c
    have h2 := hd c
    simp only [tot_cons, tot_append] at h1 ⊢
    omega
  · intro g hg
    cases new with
    | nil => exact hrest g (List.mem_of_mem_tail hg)
    | cons a new =>
      rcases List.mem_append.1 (show g ∈ new ++ rest from hg) with h1 | h1
      · exact htl g h1
      · exact hrest g h1

theorem shape_refl (ents : Nat → Option (Ent K)) (e : Nat) : (ents e).map shape = (ents e).map shape := rfl

/-- Steps that only change the frames. -/
theorem Core.same {ents : Nat → Option (Ent K)} {next clock : Nat} {objs objs' : List (Fw K)}
    {old new oth : List (Frame K)} (h : Core cfg ents next objs clock (old ++ oth))
    (hf : ∀ f ∈ new, FrameOk cfg (stat ents) f) (ho : ∀ w ∈ objs', FwOk cfg (stat ents) w)
    (href : ∀ e, fwCount e objs + tot (refF e) old = fwCount e objs' + tot (refF e) new)
    (hadd : ∀ e, tot (addF e) new = tot (addF e) old) (hpend : ∀ e, tot (pendF e) new = tot (pendF e) old)
    (hown : ∀ e, tot (ownF e) new ≤ tot (ownF e) old)
    (hunc : ∀ e x, ents e = some x → x.cted = false → tot (ownF e) old ≤ tot (ownF e) new)
    (hera : ∀ c e, Frame.relErase c e ∉ new)
    (hcl : ∀ e x, ents e = some x → x.ref = 0 → tot (claimF e) old ≤ tot (claimF e) new) :
    Core cfg ents next objs' clock (new ++ oth) := by
  refine h.move (shape_refl _) hf ho (fun e => ?_) (fun e x x' hx hx' => ?_) hown hunc (fun c e hm => ?_)
    (fun e x hx hr => ?_)
  · have := href e; omega
  · rw [hx] at hx'
    cases hx'
    rw [hadd, hpend]
  · rcases List.mem_append.1 hm with h1 | h1
    · exact absurd h1 (hera c e)
    · have := h.era c e (List.mem_append.2 (.inr h1))
      simp only [tot_append, hpend] at this ⊢
      exact this
  · have h1 := h.claim e x hx hr
    have h2 := hcl e x hx hr
    simp only [tot_append] at h1 ⊢
    omega

/-- Lookup finds an entry of the type with an equivalent key. -/
theorem find_some {s : St K} {c : Nat} {k : K} {e : Nat} (h : find cfg s c k = some e) :
    ∃ x, s.ents e = some x ∧ x.core = c ∧ cfg.eqv c x.key k = true := by
  unfold find at h
  have := List.find?_some h
  cases hx : s.ents e with
  | none => simp [hx] at this
  | some x =>
    simp only [hx, Bool.and_eq_true, beq_iff_eq] at this
    exact ⟨x, rfl, this⟩

theorem find_none {s : St K} {c : Nat} {k : K} (hb : ∀ e, s.next ≤ e → s.ents e = none)
    (h : find cfg s c k = none) :
    ∀ e x, s.ents e = some x → x.core = c → cfg.eqv c x.key k = false := by
  intro e x hx hc
  unfold find at h
  rw [List.find?_eq_none] at h
  have hlt : e < s.next := by
    rcases Nat.lt_or_ge e s.next with h1 | h1
    · exact h1
    · rw [hb e h1] at hx; cases hx
  have := h e (List.mem_range.2 hlt)
  simpa [hx, hc] using this

/-- Steps that change the counts of one entry. -/
theorem Core.count {ents : Nat → Option (Ent K)} {next clock : Nat} {objs objs' : List (Fw K)}
    {old new oth : List (Frame K)} {e : Nat} {x x' : Ent K} (h : Core cfg ents next objs clock (old ++ oth))
    (hx : ents e = some x) (hs : shape x' = shape x)
    (hf : ∀ f ∈ new, FrameOk cfg (stat ents) f) (ho : ∀ w ∈ objs', FwOk cfg (stat ents) w)
    (href : ∀ i, (if i = e then x'.ref - x.ref else 0) + fwCount i objs + tot (refF i) old =
      fwCount i objs' + tot (refF i) new)
    (hadd : ∀ i, i ≠ e → tot (addF i) new = tot (addF i) old)
    (hpend : ∀ i, i ≠ e → tot (pendF i) new = tot (pendF i) old)
    (hdel : x'.del + tot (addF e) new + tot (pendF e) old + (if 0 < x.ref then 1 else 0) =
      x.del + tot (addF e) old + tot (pendF e) new + (if 0 < x'.ref then 1 else 0))
    (hown : ∀ i, tot (ownF i) new = tot (ownF i) old)
    (hera : ∀ c i, .relErase c i ∈ new → i = e)
    (hera' : ∀ c, .relErase c e ∈ new ++ oth → x'.ref = 0 ∧ tot (pendF e) (new ++ oth) = 0)
    (hcl : ∀ i, i ≠ e → tot (claimF i) new = tot (claimF i) old)
    (hcl' : x'.ref = 0 → 0 < tot (claimF e) (new ++ oth)) :
    Core cfg (setEnt ents e (some x')) next objs' clock (new ++ oth) := by
  have hrefOf : ∀ i, refOf (setEnt ents e (some x')) i = refOf ents i + if i = e then x'.ref - x.ref else 0 := by
    intro i
    by_cases hi : i = e
    · subst hi
      simp only [refOf, setEnt_same, hx, if_true]
      omega
    · simp [refOf, setEnt_ne _ _ hi, hi]
  refine h.move (shape_set hx hs) hf ho (fun i => ?_) (fun i y y' hy hy' => ?_) (fun i => by rw [hown]; omega)
    (fun i _ _ _ => by rw [hown]; omega) (fun c i hm => ?_) (fun i y' hy' hr => ?_)
  · have := href i
    rw [hrefOf]
    omega
  · by_cases hi : i = e
    · subst hi
      rw [setEnt_same] at hy'
      cases hy'
      rw [hx] at hy
      cases hy
      exact hdel
    · rw [setEnt_ne _ _ hi, hy] at hy'
      cases hy'
      rw [hadd i hi, hpend i hi]
  · by_cases hi : i = e
    · subst hi
      obtain ⟨h1, h2⟩ := hera' c hm
      exact ⟨by simp [refOf, setEnt_same, h1], h2⟩
    · rcases List.mem_append.1 hm with h1 | h1
      · exact absurd (hera c i h1) hi
      · have := h.era c i (List.mem_append.2 (.inr h1))
        rw [hrefOf, if_neg hi]
        simp only [tot_append, hpend i hi] at this ⊢
        simpa using this
  · by_cases hi : i = e
    · subst hi
      rw [setEnt_same] at hy'
      cases hy'
      exact hcl' hr
    · rw [setEnt_ne _ _ hi] at hy'
      have := h.claim i y' hy' hr
      simpa only [tot_append, hcl i hi] using this

/-- No other frame lays claim to an entry that is about to be erased. -/
theorem claim_zero {st : Nat → Option (Nat × K × Bool)} {g : Frame K} {e c : Nat} {k : K} {b : Bool}
    (hg : FrameOk cfg st g) (hst : st e = some (c, k, b))
    (hex : holds g = some c → waiting g = true)
    (h1 : b = true → pendF e g = 0) (h2 : b = false → ownF e g = 0) : claimF e g = 0 := by
  cases g with
  | insVisit c' k' i loc new =>
    by_cases hi : i = e
    · subst hi
      obtain ⟨⟨k'', b', h3, _⟩, _⟩ := hg
      rw [hst] at h3
      cases h3
      cases hex rfl
    · simp [claimF, hi]
  | insUser c' k' i =>
    by_cases hi : i = e
    · subst hi
      obtain ⟨k'', h3, _⟩ := hg
      rw [hst] at h3
      cases h3
      simp [ownF] at h2
    · simp [claimF, hi]
  | insDone c' k' i =>
    by_cases hi : i = e
    · subst hi
      obtain ⟨k'', h3, _⟩ := hg
      rw [hst] at h3
      cases h3
      simp [ownF] at h2
    · simp [claimF, hi]
  | insCatch c' i =>
    by_cases hi : i = e
    · subst hi
      obtain ⟨k'', h3⟩ := hg
      rw [hst] at h3
      cases h3
      simp [ownF] at h2
    · simp [claimF, hi]
  | insAddRef c' k' i loc =>
    by_cases hi : i = e
    · subst hi
      obtain ⟨⟨k'', h3, _⟩, _⟩ := hg
      rw [hst] at h3
      cases h3
      cases hex rfl
    · simp [claimF, hi]
  | relLock c' i =>
    by_cases hi : i = e
    · subst hi
      obtain ⟨k'', h3⟩ := hg
      rw [hst] at h3
      cases h3
      simp [pendF] at h1
    · simp [claimF, hi]
  | relCheck c' i =>
    by_cases hi : i = e
    · subst hi
      obtain ⟨k'', h3⟩ := hg
      rw [hst] at h3
      cases h3
      simp [pendF] at h1
    · simp [claimF, hi]
  | relErase c' i =>
    by_cases hi : i = e
    · subst hi
      obtain ⟨k'', h3⟩ := hg
      rw [hst] at h3
      cases h3
      cases hex rfl
    · simp [claimF, hi]
  | _ => rfl

theorem relDec_waiting {l : List (Fw K)} {f : Frame K} (hf : waiting f = true) :
    ∀ g ∈ (l.map Frame.relDec ++ [f]).tail, waiting g = true := by
  intro g hg
  rcases List.mem_append.1 (List.mem_of_mem_tail hg) with h1 | h1
  · obtain ⟨w, _, rfl⟩ := List.mem_map.1 h1
    rfl
  · rw [List.mem_singleton] at h1
    rw [h1]
    exact hf

theorem relDec_waiting' {l : List (Fw K)} : ∀ g ∈ (l.map Frame.relDec).tail, waiting g = true := by
  intro g hg
  obtain ⟨w, _, rfl⟩ := List.mem_map.1 (List.mem_of_mem_tail hg)
  rfl

theorem pend_le_claim (e : Nat) (l : List (Frame K)) : tot (pendF e) l ≤ tot (claimF e) l := by
  induction l with
  | nil => simp
  | cons f l ih =>
    simp only [tot_cons]
    have : pendF e f ≤ claimF e f := by cases f <;> simp [pendF, claimF]
    omega

theorem lib_good (hcfg : CfgOk cfg) (hlk : cfg.locking = true) (hdl : cfg.deleter = true) {s : St K} (h : Inv cfg s)
    {t : Nat} {f : Frame K} {rest : List (Frame K)} (ht : s.thr[t]? = some (f :: rest)) :
    Good cfg (lib cfg s t f rest) := by
  have hrefl := LockStep.refl (t := t) h.locks
  have hmem : f ∈ frames s := List.mem_flatten.2 ⟨_, List.mem_of_getElem? ht, List.mem_cons_self⟩
  have hfr := h.core.frames f hmem
  have hdep := h.locks.depth t _ ht
  unfold lib
  dsimp only
  cases f with
  | insLock c k loc pre =>
    dsimp only
    cases ha : acquire cfg s.lock t c with
    | none => trivial
    | some l =>
      obtain ⟨h1, h2⟩ := acquire_some hlk h.locks.pos1 ha
      refine h.lib_of (new := [.insFind c k loc pre]) ht h1 ?_ (by simp) fun oth hc hex => ?_
      · intro c'
        rw [h2]
        simp [holdF, holds]
        omega
      · exact hc.same (old := [_]) (fun f hf => by rw [List.mem_singleton.1 hf]; exact hfr) hc.objsOk (by simp [refF]) (by simp [addF])
          (by simp [pendF]) (by simp [ownF]) (by simp [ownF]) (by simp) (by simp [claimF])
  | insFind c k loc pre =>
    dsimp only
    cases hfi : find cfg s c k with
    | some e =>
      obtain ⟨x, hx, hxc, hxk⟩ := find_some hfi
      refine h.lib_of (new := [.insVisit c k e loc false]) ht hrefl ?_ (by simp) fun oth hc hex => ?_
      · intro c'; simp [holdF, holds]; omega
      · refine hc.same (old := [_]) ?_ hc.objsOk (by simp [refF]) (by simp [addF])
          (by simp [pendF]) (by simp [ownF]) (by simp [ownF]) (by simp) (by simp [claimF])
        intro f hf
        rw [List.mem_singleton] at hf
        subst hf
        exact ⟨⟨x.key, x.cted, by rw [stat_some hx, hxc], hxk⟩, hfr, by simp⟩
    | none =>
      refine h.lib_of (new := [.insVisit c k s.next [] true]) ht hrefl ?_ (by simp) fun oth hc hex => ?_
      · intro c'; simp [holdF, holds]; omega
      · exact hc.insert hcfg (find_none h.core.bound hfi)
  | insVisit c k e loc new =>
    dsimp only
    obtain ⟨⟨k', b, hst, hk⟩, hloc, hnew⟩ := hfr
    obtain ⟨x, hx, e1, e2, e3⟩ := of_stat hst
    rw [hx]
    dsimp only
    cases hxc : x.cted with
    | true =>
      refine h.lib_of (new := [.insAddRef c k e loc]) ht hrefl ?_ (by simp) fun oth hc hex => ?_
      · intro c'; simp [holdF, holds]; omega
      · refine hc.same (old := [_]) ?_ hc.objsOk (by simp [refF]) (by simp [addF])
          (by simp [pendF]) (by simp [ownF]) ?_ (by simp) (by simp [claimF])
        · intro f hf
          rw [List.mem_singleton] at hf
          subst hf
          refine ⟨⟨k', ?_, hk⟩, hloc⟩
          rw [stat_some hx, e1, e2, hxc]
        · intro i y hy hyc
          have : e ≠ i := by
            rintro rfl
            rw [hx] at hy
            cases hy
            rw [hxc] at hyc
            cases hyc
          simp [ownF, this]
    | false =>
      cases new with
      | false => trivial
      | true =>
        refine h.lib_of (new := [.insUser c k e]) ht hrefl ?_ (by simp) fun oth hc hex => ?_
        · intro c'; simp [holdF, holds]; omega
        · have hz : ∀ i, fwCount i loc = 0 := by rw [hnew rfl]; simp
          refine hc.same (old := [_]) ?_ hc.objsOk (by simp [refF, hz]) (by simp [addF])
            (by simp [pendF]) (by simp [ownF]) (by simp [ownF]) (by simp) (by simp [claimF])
          intro f hf
          rw [List.mem_singleton] at hf
          subst hf
          refine ⟨k', ?_, hk⟩
          rw [stat_some hx, e1, e2, hxc]
  | insUser c k e => trivial
  | insDone c k e =>
    obtain ⟨k', hst, hk⟩ := hfr
    obtain ⟨x, hx, e1, e2, e3⟩ := of_stat hst
    dsimp only
    rw [hx]
    dsimp only
    refine h.lib_of (new := [.insAddRef c k e []]) ht hrefl ?_ (by simp) fun oth hc hex => ?_
    · intro c'; simp [holdF, holds]; omega
    · exact hc.done hx
  | insCatch c e =>
    obtain ⟨k', hst⟩ := hfr
    obtain ⟨x, hx, e1, e2, e3⟩ := of_stat hst
    dsimp only
    rw [hx]
    dsimp only
    rw [show x.kids.map Frame.relDec ++ .insUnwind c [] :: rest = (x.kids.map .relDec ++ [.insUnwind c []]) ++ rest by simp]
    refine h.lib_of ht hrefl ?_ ?_ fun oth hc hex => ?_
    · intro c'; simp [holdF, holds]; omega
    · exact relDec_waiting rfl
    · have h0 := hc.ref_uncted (e := e) fun c' k'' => by rw [hst]; simp
      rw [List.append_assoc]
      refine hc.erase hx ?_ ?_ (by simp [FrameOk]) ?_ ?_
      · have := hc.refs e
        rw [h0.1, h0.2.1, h0.2.2] at this
        simpa [refOf, hx] using this
      · have ho := hc.own e
        simp only [tot_cons, ownF, if_true] at ho
        refine tot_eq_zero fun g hg => ?_
        refine claim_zero (hc.frames g (List.mem_cons_of_mem _ hg)) hst (hex g hg c rfl) (fun h => by cases h) fun _ => ?_
        have := tot_le (g := ownF e) hg
        omega
      · intro i
        simp +contextual [refF, pendF, addF, ownF, claimF, Ne.symm]
      · simp [refF, pendF, addF, ownF, claimF]
  | insUnwind c loc =>
    dsimp only
    obtain ⟨l, hl, h1, h2⟩ := unlock_some hlk h.locks.pos1 (t := t) (c := c) (by rw [← hdep c]; simp [holdF, holds]; omega)
    rw [hl]
    dsimp only
    refine h.lib_of ht h1 ?_ relDec_waiting' fun oth hc hex => ?_
    · intro c'
      have := h2 c'
      simp [holdF, holds]
      omega
    · refine hc.same (old := [_]) ?_ hc.objsOk (by simp [refF]) (by simp [addF])
          (by simp [pendF]) (by simp [ownF]) (by simp [ownF]) (by simp) (by simp [claimF])
      intro f hf
      obtain ⟨w, hw, rfl⟩ := List.mem_map.1 hf
      exact hfr w hw
  | insAddRef c k e loc =>
    obtain ⟨⟨k', hst, hk⟩, hloc⟩ := hfr
    obtain ⟨x, hx, e1, e2, e3⟩ := of_stat hst
    dsimp only
    rw [hx]
    dsimp only
    have hnn : 0 ≤ x.ref := by
      have := h.core.ref_nonneg e
      simpa [refOf, hx] using this
    have hok : FwOk cfg (stat s.ents) ⟨e, c, k⟩ := ⟨k', hst, hk⟩
    refine h.lib_of (new := [if x.ref + 1 = 1 then .insAddDel c k e loc else .insUnlock c k e loc]) ht hrefl ?_ (by simp)
      fun oth hc hex => ?_
    · intro c'; split <;> simp [holdF, holds] <;> omega
    · have hera : ∀ c', Frame.relErase c' e ∉ oth := by
        intro c' hm
        obtain ⟨k'', h1⟩ := hc.frames _ (List.mem_cons_of_mem _ hm)
        rw [hst] at h1
        cases h1
        cases hex _ hm c rfl rfl
      refine hc.count (old := [_]) hx rfl ?_ hc.objsOk ?_ ?_ ?_ ?_ ?_ ?_ ?_ ?_ ?_
      · intro f hf
        rw [List.mem_singleton.1 hf]
        split <;> exact ⟨hok, hloc⟩
      · intro i
        by_cases hi : i = e
        · subst hi
          by_cases h1 : x.ref + 1 = 1 <;> simp [refF, h1] <;> omega
        · by_cases h1 : x.ref + 1 = 1 <;> simp [refF, hi, Ne.symm hi, h1]
      · intro i hi
        split <;> simp [addF, Ne.symm hi]
      · intro i hi
        split <;> simp [pendF]
      · dsimp only
        split
        · rw [if_neg (show ¬ 0 < x.ref by omega), if_pos (show 0 < x.ref + 1 by omega)]
          simp [addF, pendF]
        · rw [if_pos (show 0 < x.ref by omega), if_pos (show 0 < x.ref + 1 by omega)]
          simp [addF, pendF]
      · intro i; split <;> simp [ownF]
      · intro c' i; split <;> simp
      · intro c' hm
        rcases List.mem_append.1 hm with h1 | h1
        · split at h1 <;> simp at h1
        · exact absurd h1 (hera c')
      · intro i hi
        split <;> simp [claimF, Ne.symm hi]
      · dsimp only
        omega
  | insAddDel c k e loc =>
    obtain ⟨⟨k', hst, hk⟩, hloc⟩ := hfr
    obtain ⟨x, hx, e1, e2, e3⟩ := of_stat hst
    dsimp only
    rw [hx]
    dsimp only
    have hok : FwOk cfg (stat s.ents) ⟨e, c, k⟩ := ⟨k', hst, hk⟩
    refine h.lib_of (new := [.insUnlock c k e loc]) ht hrefl ?_ (by simp) fun oth hc hex => ?_
    · intro c'; simp [holdF, holds]; omega
    · have hpos : 0 < x.ref := by
        have := hc.refs e
        simp only [refOf, hx, tot_cons, refF, if_true] at this
        omega
      refine hc.count (old := [_]) hx rfl ?_ hc.objsOk ?_ ?_ ?_ ?_ ?_ ?_ ?_ ?_ ?_
      · intro f hf
        rw [List.mem_singleton.1 hf]
        exact ⟨hok, hloc⟩
      · intro i
        simp [refF]
      · intro i hi
        simp [addF, Ne.symm hi]
      · intro i hi
        simp [pendF]
      · simp [addF, pendF]
      · intro i; simp [ownF]
      · intro c' i; simp
      · intro c' hm
        rcases List.mem_append.1 hm with h1 | h1
        · simp at h1
        · have := hc.era c' e (List.mem_cons_of_mem _ h1)
          simp only [refOf, hx] at this
          omega
      · intro i hi
        simp [claimF]
      · dsimp only
        omega
  | insUnlock c k e loc =>
    dsimp only
    obtain ⟨l, hl, h1, h2⟩ := unlock_some hlk h.locks.pos1 (t := t) (c := c) (by rw [← hdep c]; simp [holdF, holds]; omega)
    rw [hl]
    dsimp only
    refine h.lib_of ht h1 ?_ relDec_waiting' fun oth hc hex => ?_
    · intro c'
      have := h2 c'
      simp [holdF, holds]
      omega
    · refine hc.same (old := [_]) ?_ ?_ ?_ (by simp [addF])
          (by simp [pendF]) (by simp [ownF]) (by simp [ownF]) (by simp) (by simp [claimF])
      · intro f hf
        obtain ⟨w, hw, rfl⟩ := List.mem_map.1 hf
        exact hfr.2 w hw
      · intro w hw
        rcases List.mem_cons.1 hw with rfl | hw
        · exact hfr.1
        · exact hc.objsOk w hw
      · intro i
        simp [refF]
        omega
  | relDec w =>
    obtain ⟨k', hst, hk⟩ := hfr
    obtain ⟨x, hx, e1, e2, e3⟩ := of_stat hst
    dsimp only
    rw [hx]
    dsimp only
    rw [show (if x.ref - 1 = 0 then Frame.relLock w.c w.h :: rest else rest) =
      (if x.ref - 1 = 0 then [Frame.relLock w.c w.h] else []) ++ rest by split <;> simp]
    refine h.lib_of ht hrefl ?_ (by split <;> simp) fun oth hc hex => ?_
    · intro c'; split <;> simp [holdF, holds]
    · have hpos : 0 < x.ref := by
        have := hc.refs w.h
        simp only [refOf, hx, tot_cons, refF, if_true] at this
        omega
      refine hc.count (old := [_]) hx rfl ?_ hc.objsOk ?_ ?_ ?_ ?_ ?_ ?_ ?_ ?_ ?_
      · intro f hf
        split at hf
        · rw [List.mem_singleton.1 hf]
          exact ⟨k', hst⟩
        · simp at hf
      · intro i
        by_cases hi : i = w.h
        · subst hi
          by_cases h1 : x.ref - 1 = 0 <;> simp [refF, h1] <;> omega
        · by_cases h1 : x.ref - 1 = 0 <;> simp [refF, hi, Ne.symm hi, h1]
      · intro i hi
        split <;> simp [addF]
      · intro i hi
        split <;> simp [pendF, Ne.symm hi]
      · dsimp only
        rw [if_pos hpos]
        split
        · rw [if_neg (by omega)]
          simp [addF, pendF]
        · rw [if_pos (by omega)]
          simp [addF, pendF]
      · intro i; split <;> simp [ownF]
      · intro c' i; split <;> simp
      · intro c' hm
        rcases List.mem_append.1 hm with h1 | h1
        · split at h1 <;> simp at h1
        · have := hc.era c' w.h (List.mem_cons_of_mem _ h1)
          simp only [refOf, hx] at this
          omega
      · intro i hi
        split <;> simp [claimF, Ne.symm hi]
      · dsimp only
        intro h0
        rw [if_pos h0]
        simp [claimF]
        omega
  | relLock c e =>
    dsimp only
    cases ha : acquire cfg s.lock t c with
    | none => trivial
    | some l =>
      obtain ⟨h1, h2⟩ := acquire_some hlk h.locks.pos1 ha
      refine h.lib_of (new := [.relCheck c e]) ht h1 ?_ (by simp) fun oth hc hex => ?_
      · intro c'
        rw [h2]
        simp [holdF, holds]
        omega
      · exact hc.same (old := [_]) (fun f hf => by rw [List.mem_singleton.1 hf]; exact hfr) hc.objsOk
          (by simp [refF]) (by simp [addF])
          (by simp [pendF]) (by simp [ownF]) (by simp [ownF]) (by simp) (by simp [claimF])
  | relCheck c e =>
    obtain ⟨k', hst⟩ := hfr
    obtain ⟨x, hx, e1, e2, e3⟩ := of_stat hst
    dsimp only
    rw [hx]
    dsimp only
    rw [if_pos hdl]
    refine h.lib_of (new := [if x.del - 1 = 0 then .relErase c e else .relUnlock c]) ht hrefl ?_ (by simp)
      fun oth hc hex => ?_
    · intro c'; split <;> simp [holdF, holds] <;> omega
    · have hera : ∀ c', Frame.relErase c' e ∉ oth := by
        intro c' hm
        obtain ⟨k'', h1⟩ := hc.frames _ (List.mem_cons_of_mem _ hm)
        rw [hst] at h1
        cases h1
        cases hex _ hm c rfl rfl
      have hadd : tot (addF e) oth = 0 := by
        refine tot_eq_zero fun g hg => ?_
        cases g with
        | insAddDel c' k'' i loc =>
          by_cases hi : i = e
          · subst hi
            obtain ⟨⟨k3, h1, _⟩, _⟩ := hc.frames _ (List.mem_cons_of_mem _ hg)
            rw [hst] at h1
            cases h1
            cases hex _ hg _ rfl rfl
          · simp [addF, hi]
        | _ => rfl
      have hdels := hc.dels e x hx
      have hnn := hc.ref_nonneg e
      simp only [refOf, hx] at hnn
      simp only [tot_cons, addF, pendF, if_true, hadd] at hdels
      refine hc.count (old := [_]) hx rfl ?_ hc.objsOk ?_ ?_ ?_ ?_ ?_ ?_ ?_ ?_ ?_
      · intro f hf
        rw [List.mem_singleton.1 hf]
        split
        · exact ⟨k', hst⟩
        · trivial
      · intro i
        by_cases h1 : x.del - 1 = 0 <;> simp [refF, h1]
      · intro i hi
        split <;> simp [addF]
      · intro i hi
        split <;> simp [pendF, Ne.symm hi]
      · dsimp only
        split <;> simp [addF, pendF] <;> omega
      · intro i; split <;> simp [ownF]
      · intro c' i; split <;> simp
      · intro c' hm
        rcases List.mem_append.1 hm with h1 | h1
        · split at h1
          · rename_i h0
            rw [if_pos h0]
            dsimp only
            simp only [tot_append, tot_cons, pendF, tot_nil]
            split at hdels <;> omega
          · simp at h1
        · exact absurd h1 (hera c')
      · intro i hi
        split <;> simp [claimF, Ne.symm hi]
      · dsimp only
        intro h0
        split
        · simp [claimF]
          omega
        · have := pend_le_claim e oth
          rw [if_neg (by omega)] at hdels
          simp [claimF]
          omega
  | relErase c e =>
    obtain ⟨k', hst⟩ := hfr
    obtain ⟨x, hx, e1, e2, e3⟩ := of_stat hst
    dsimp only
    rw [hx]
    dsimp only
    rw [show x.kids.map Frame.relDec ++ .relUnlock c :: rest = (x.kids.map .relDec ++ [.relUnlock c]) ++ rest by simp]
    refine h.lib_of ht hrefl ?_ ?_ fun oth hc hex => ?_
    · intro c'; simp [holdF, holds]; omega
    · exact relDec_waiting rfl
    · obtain ⟨h1, h2⟩ := hc.era c e List.mem_cons_self
      rw [List.append_assoc]
      refine hc.erase hx ?_ ?_ (by simp [FrameOk]) ?_ ?_
      · simpa [refOf, hx] using h1
      · refine tot_eq_zero fun g hg => ?_
        refine claim_zero (hc.frames g (List.mem_cons_of_mem _ hg)) hst (hex g hg c rfl) (fun _ => ?_) fun h => by cases h
        have := tot_le (g := pendF e) hg
        simp only [tot_cons] at h2
        omega
      · intro i
        simp +contextual [refF, pendF, addF, ownF, claimF, Ne.symm]
      · simp [refF, pendF, addF, ownF, claimF]
  | relUnlock c =>
    dsimp only
    obtain ⟨l, hl, h1, h2⟩ := unlock_some hlk h.locks.pos1 (t := t) (c := c) (by rw [← hdep c]; simp [holdF, holds]; omega)
    rw [hl]
    dsimp only
    refine h.lib_of (new := []) ht h1 ?_ (by simp) fun oth hc hex => ?_
    · intro c'
      have := h2 c'
      simp [holdF, holds]
      omega
    · exact hc.same (old := [_]) (new := []) (by simp) hc.objsOk (by simp [refF]) (by simp [addF])
          (by simp [pendF]) (by simp [ownF]) (by simp [ownF]) (by simp) (by simp [claimF])

theorem fwCount_set {l : List (Fw K)} {i : Nat} {v w : Fw K} (h : l[i]? = some v) (e : Nat) :
    fwCount e (l.set i w) + (if v.h = e then 1 else 0) = fwCount e l + if w.h = e then 1 else 0 := by
  induction l generalizing i with
  | nil => simp at h
  | cons a l ih =>
    cases i with
    | zero =>
      simp only [List.getElem?_cons_zero, Option.some.injEq] at h
      subst h
      simp only [List.set_cons_zero, fwCount_cons]
      omega
    | succ i =>
      simp only [List.getElem?_cons_succ] at h
      have := ih h
      simp only [List.set_cons_succ, fwCount_cons]
      omega

theorem swap_count {l : List (Fw K)} {i j : Nat} {v w : Fw K} (hi : l[i]? = some v) (hj : l[j]? = some w) (e : Nat) :
    fwCount e ((l.set i w).set j v) = fwCount e l := by
  have h1 := fwCount_set (w := w) hi e
  have h2 : (l.set i w)[j]? = some w := by
    rw [List.getElem?_set]
    split
    · rename_i h
      subst h
      have : i < l.length := by
        rcases Nat.lt_or_ge i l.length with h | h
        · exact h
        · rw [List.getElem?_eq_none h] at hi; cases hi
      simp [this]
    · exact hj
  have h3 := fwCount_set (w := v) h2 e
  omega

theorem swap_mem {l : List (Fw K)} {i j : Nat} {v w u : Fw K} (hi : l[i]? = some v) (hj : l[j]? = some w)
    (h : u ∈ (l.set i w).set j v) : u ∈ l := by
  rcases List.mem_or_eq_of_mem_set h with h | rfl
  · rcases List.mem_or_eq_of_mem_set h with h | rfl
    · exact h
    · exact List.mem_of_getElem? hj
  · exact List.mem_of_getElem? hi

theorem set_self {α : Type} {l : List α} {t : Nat} {a : α} (h : l[t]? = some a) : l.set t a = l := by
  induction l generalizing t with
  | nil => rfl
  | cons b l ih =>
    cases t with
    | zero => simp only [List.getElem?_cons_zero, Option.some.injEq] at h; simp [h]
    | succ t => simp only [List.getElem?_cons_succ] at h; simp [ih h]

theorem inUser_waiting {st : List (Frame K)} (hu : inUser st = true) (ht : ∀ f ∈ st.tail, waiting f = true) :
    ∀ f ∈ st, waiting f = true := by
  intro f hf
  cases st with
  | nil => cases hf
  | cons a st =>
    rcases List.mem_cons.1 hf with rfl | hf
    · cases f <;> first | rfl | cases hu
    · exact ht f hf

/-- General form of a step of user code. -/
theorem Inv.user_of {s : St K} (h : Inv cfg s) {t : Nat} {st new : List (Frame K)}
    (ht : s.thr[t]? = some st) (hu : inUser st = true)
    {ents : Nat → Option (Ent K)} {objs : List (Fw K)}
    (hd : ∀ c, tot (holdF c) new = 0)
    (htl : ∀ g ∈ new.tail, waiting g = true)
    (hc : ∀ oth, Core cfg s.ents s.next s.objs s.clock ([] ++ oth) →
      Core cfg ents s.next objs s.clock (new ++ oth)) :
    Inv cfg ⟨ents, s.next, s.lock, s.thr.set t (new ++ st), objs, s.clock⟩ := by
  have hst := inUser_waiting hu (h.locks.tails t _ ht)
  refine h.step_of ht (fun AB hcore hex => ?_) (LockStep.refl h.locks) ?_ ?_
  · rw [List.append_assoc]
    exact hc (st ++ AB) hcore
  · intro c
    rw [tot_append, hd, Nat.zero_add]
    exact h.locks.depth t _ ht c
  · intro g hg
    cases new with
    | nil => exact hst g (List.mem_of_mem_tail hg)
    | cons a new =>
      rcases List.mem_append.1 (show g ∈ new ++ st from hg) with h1 | h1
      · exact htl g h1
      · exact hst g h1

theorem Inv.user_same {s : St K} (h : Inv cfg s) {t : Nat} {st : List (Frame K)}
    (ht : s.thr[t]? = some st) (hu : inUser st = true)
    {ents : Nat → Option (Ent K)} {objs : List (Fw K)}
    (hc : ∀ oth, Core cfg s.ents s.next s.objs s.clock ([] ++ oth) →
      Core cfg ents s.next objs s.clock ([] ++ oth)) :
    Inv cfg ⟨ents, s.next, s.lock, s.thr, objs, s.clock⟩ := by
  have := h.user_of (new := []) ht hu (ents := ents) (objs := objs) (by simp) (by simp) hc
  rwa [List.nil_append, set_self ht] at this

/-- A flyweight refers to an entry with a value, and is counted. -/
theorem Core.fw_ent {ents : Nat → Option (Ent K)} {next clock : Nat} {objs : List (Fw K)} {L : List (Frame K)}
    (h : Core cfg ents next objs clock L) {w : Fw K} (hw : w ∈ objs) :
    ∃ x, ents w.h = some x ∧ x.core = w.c ∧ cfg.eqv w.c x.key w.k = true ∧ x.cted = true ∧ 0 < x.ref := by
  obtain ⟨k, h1, h2⟩ := h.objsOk w hw
  obtain ⟨x, hx, e1, e2, e3⟩ := of_stat h1
  refine ⟨x, hx, e1, e2 ▸ h2, e3, ?_⟩
  have h3 := h.refs w.h
  have h4 := fwCount_pos hw rfl
  simp only [refOf, hx] at h3
  omega

theorem Core.kid_ent {ents : Nat → Option (Ent K)} {next clock : Nat} {objs : List (Fw K)} {L : List (Frame K)}
    (h : Core cfg ents next objs clock L) {e : Nat} {y : Ent K} (hy : ents e = some y) {w : Fw K} (hw : w ∈ y.kids) :
    ∃ x, ents w.h = some x ∧ x.core = w.c ∧ cfg.eqv w.c x.key w.k = true ∧ x.cted = true ∧ 0 < x.ref := by
  obtain ⟨k, h1, h2⟩ := h.kids e y hy w hw
  obtain ⟨x, hx, e1, e2, e3⟩ := of_stat h1
  refine ⟨x, hx, e1, e2 ▸ h2, e3, ?_⟩
  have h3 := h.refs w.h
  have h4 := nsum_pos (f := fun i => kidsOf w.h (ents i)) (h.lt_next hy)
    (by simpa [hy, kidsOf] using fwCount_pos hw rfl)
  simp only [refOf, hx] at h3
  unfold kidsTo at h3
  omega

/-- Copying a flyweight. -/
theorem Core.copy {ents : Nat → Option (Ent K)} {next clock : Nat} {objs : List (Fw K)} {oth : List (Frame K)}
    (hc : Core cfg ents next objs clock ([] ++ oth)) {w : Fw K} (hw : FwOk cfg (stat ents) w) {x : Ent K}
    (hx : ents w.h = some x) (hpos : 0 < x.ref) :
    Core cfg (setEnt ents w.h (some { x with ref := x.ref + 1 })) next (w :: objs) clock ([] ++ oth) := by
  refine hc.count (x' := { x with ref := x.ref + 1 }) hx rfl (by simp) ?_ ?_ (by simp) (by simp) ?_ (by simp)
    (by simp) ?_ (by simp) ?_
  · intro v hv
    rcases List.mem_cons.1 hv with rfl | hv
    · exact hw
    · exact hc.objsOk v hv
  · intro i
    by_cases hi : i = w.h
    · subst hi
      simp
      omega
    · simp [hi, Ne.symm hi]
  · dsimp only
    rw [if_pos hpos, if_pos (show 0 < x.ref + 1 by omega)]
  · intro c hm
    have := (hc.era c w.h hm).1
    simp only [refOf, hx] at this
    omega
  · dsimp only
    omega

theorem act_good (hcfg : CfgOk cfg) (hlk : cfg.locking = true) (hdl : cfg.deleter = true) {s : St K} (h : Inv cfg s)
    {t : Nat} {st : List (Frame K)} (ht : s.thr[t]? = some st) (a : Act K) :
    Good cfg (act cfg s t st a) := by
  cases a with
  | run =>
    cases st with
    | nil => trivial
    | cons f rest => exact lib_good hcfg hlk hdl h ht
  | create c k mask pre =>
    simp only [act]
    split
    · rename_i hu
      refine h.user_of (new := [.insLock c k (pick mask s.objs).1 pre]) ht hu (by simp [holdF, holds]) (by simp)
        fun oth hc => ?_
      refine hc.same ?_ (fun w hw => hc.objsOk w (pick_mem.2 (.inr hw))) ?_ (by simp [addF])
          (by simp [pendF]) (by simp [ownF]) (by simp) (by simp) (by simp)
      · intro f hf
        rw [List.mem_singleton.1 hf]
        exact fun w hw => hc.objsOk w (pick_mem.2 (.inl hw))
      · intro e
        have := pick_count (e := e) mask s.objs
        simp [refF]
        omega
    · trivial
  | destroy mask =>
    simp only [act]
    split
    · rename_i hu
      refine h.user_of (new := (pick mask s.objs).1.map .relDec) ht hu (by simp) relDec_waiting' fun oth hc => ?_
      refine hc.same ?_ (fun w hw => hc.objsOk w (pick_mem.2 (.inr hw))) ?_ (by simp)
          (by simp) (by simp) (by simp) (by simp) (by simp)
      · intro f hf
        obtain ⟨w, hw, rfl⟩ := List.mem_map.1 hf
        exact hc.objsOk w (pick_mem.2 (.inl hw))
      · intro e
        have := pick_count (e := e) mask s.objs
        simp
        omega
    · trivial
  | copy i =>
    simp only [act]
    split
    · rename_i hu
      cases hi : s.objs[i]? with
      | none => trivial
      | some w =>
        have hw := List.mem_of_getElem? hi
        obtain ⟨x, hx, e1, e2, e3, hpos⟩ := h.core.fw_ent hw
        dsimp only
        rw [hx]
        exact h.user_same ht hu fun oth hc => hc.copy (hc.objsOk w hw) hx hpos
    · trivial
  | copyKid i j =>
    simp only [act]
    split
    · rename_i hu
      cases hi : s.objs[i]? with
      | none => trivial
      | some w =>
        have hw := List.mem_of_getElem? hi
        obtain ⟨x, hx, e1, e2, e3, hpos⟩ := h.core.fw_ent hw
        dsimp only
        rw [hx]
        dsimp only
        rw [if_pos e3]
        cases hj : x.kids[j]? with
        | none => trivial
        | some v =>
          have hv := List.mem_of_getElem? hj
          obtain ⟨y, hy, _, _, _, hpos'⟩ := h.core.kid_ent hx hv
          dsimp only
          rw [hy]
          exact h.user_same ht hu fun oth hc => hc.copy (hc.kids _ x hx v hv) hy hpos'
    · trivial
  | swap i j =>
    simp only [act]
    split
    · rename_i hu
      split
      · rename_i v w hi hj
        refine h.user_same ht hu fun oth hc => ?_
        exact hc.same (new := []) (by simp) (fun u hu' => hc.objsOk u (swap_mem hi hj hu'))
          (by simp [swap_count hi hj]) (by simp)
          (by simp) (by simp) (by simp) (by simp) (by simp)
      · trivial
    · trivial
  | read i =>
    simp only [act]
    split
    · cases hi : s.objs[i]? with
      | none => trivial
      | some w =>
        obtain ⟨x, hx, e1, e2, e3, hpos⟩ := h.core.fw_ent (List.mem_of_getElem? hi)
        dsimp only
        rw [hx]
        dsimp only
        rw [if_pos e3]
        exact h
    · trivial
  | finish mask drop =>
    simp only [act]
    split
    · rename_i c k e rest
      have hmem : Frame.insUser c k e ∈ frames s :=
        List.mem_flatten.2 ⟨_, List.mem_of_getElem? ht, List.mem_cons_self⟩
      obtain ⟨k', hst, hk⟩ := h.core.frames _ hmem
      obtain ⟨x, hx, e1, e2, e3⟩ := of_stat hst
      rw [hx]
      dsimp only
      rw [if_neg (by rw [e3]; simp)]
      rw [show (if drop = true then x.kids.map Frame.relDec else []) ++ .insDone c k e :: rest =
        ((if drop = true then x.kids.map Frame.relDec else []) ++ [.insDone c k e]) ++ rest by simp]
      refine h.lib_of ht (LockStep.refl h.locks) ?_ ?_ fun oth hc hex => ?_
      · intro c'
        rw [tot_append]
        have : tot (holdF c') (if drop = true then x.kids.map Frame.relDec else []) = 0 := by
          split <;> simp
        rw [this]
        simp [holdF, holds]
        omega
      · cases drop
        · simp
        · exact relDec_waiting rfl
      · rw [List.append_assoc]
        exact hc.finish hx
    · trivial
  | throw_ =>
    simp only [act]
    split
    · rename_i c k e rest
      have hmem : Frame.insUser c k e ∈ frames s :=
        List.mem_flatten.2 ⟨_, List.mem_of_getElem? ht, List.mem_cons_self⟩
      obtain ⟨k', hst, hk⟩ := h.core.frames _ hmem
      refine h.lib_of (new := [.insCatch c e]) ht (LockStep.refl h.locks) ?_ (by simp) fun oth hc hex => ?_
      · intro c'; simp [holdF, holds]; omega
      · refine hc.same (old := [_]) ?_ hc.objsOk (by simp [refF]) (by simp [addF])
          (by simp [pendF]) (by simp [ownF]) (by simp [ownF]) (by simp) (by simp [claimF])
        intro f hf
        rw [List.mem_singleton.1 hf]
        exact ⟨k', hst⟩
    · rename_i c k loc pre rest
      have hmem : Frame.insFind c k loc pre ∈ frames s :=
        List.mem_flatten.2 ⟨_, List.mem_of_getElem? ht, List.mem_cons_self⟩
      have hfr := h.core.frames _ hmem
      refine h.lib_of (new := [.insUnwind c loc]) ht (LockStep.refl h.locks) ?_ (by simp) fun oth hc hex => ?_
      · intro c'; simp [holdF, holds]; omega
      · refine hc.same (old := [_]) ?_ hc.objsOk (by simp [refF]) (by simp [addF])
          (by simp [pendF]) (by simp [ownF]) (by simp [ownF]) (by simp) (by simp [claimF])
        intro f hf
        rw [List.mem_singleton.1 hf]
        exact hfr
    · trivial

theorem step_good (hcfg : CfgOk cfg) (hlk : cfg.locking = true) (hdl : cfg.deleter = true) {s : St K} (h : Inv cfg s)
    (t : Nat) (a : Act K) : Good cfg (step cfg s t a) := by
  unfold step
  split
  · trivial
  · rename_i st ht
    exact act_good hcfg hlk hdl h ht a

theorem nsum_zero {f : Nat → Nat} {n : Nat} (h : ∀ i, f i = 0) : nsum f n = 0 := by
  induction n with
  | zero => rfl
  | succ n ih => simp [nsum, ih, h]

theorem start_inv (n : Nat) : Inv cfg (start n : St K) := by
  have hf : frames (start n : St K) = [] := by
    unfold frames start
    induction n with
    | zero => rfl
    | succ n ih => simp
  have hthr : ∀ (t : Nat) (st : List (Frame K)), (start n : St K).thr[t]? = some st → st = [] := by
    intro t st h
    exact List.eq_of_mem_replicate (List.mem_of_getElem? h)
  constructor
  · rw [hf]
    constructor <;> simp [start, refOf, kidsTo, nsum]
  · constructor
    · intro t st h c
      rw [hthr t st h]
      rfl
    · intro c o d h
      cases h
    · intro t st h f hf
      rw [hthr t st h] at hf
      cases hf

theorem exec_good (hcfg : CfgOk cfg) (hlk : cfg.locking = true) (hdl : cfg.deleter = true) {s : St K} (h : Inv cfg s)
    (l : List (Nat × Act K)) : Good cfg (exec cfg l s) := by
  induction l generalizing s with
  | nil => exact h
  | cons p l ih =>
    obtain ⟨t, a⟩ := p
    have hg := step_good hcfg hlk hdl h t a
    unfold exec
    cases hs : step cfg s t a with
    | ok s' => rw [hs] at hg; exact ih hg
    | no => exact ih h
    | ub => rw [hs] at hg; exact hg
    | reentrant => trivial

end Verif.Conc

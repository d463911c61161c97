import Verif.CoreSim

/-!
# Sequential core: exceptions are not swallowed

If a computation returns normally then none of the operations it performed
that could throw did throw.
-/

set_option autoImplicit false

namespace Verif

/-- The part of the state that says what has thrown so far.  (No code of its own: used in
statements and proofs.) -/
structure Env.Calm (e e' : Env) : Prop where
  faults : e'.faults = e.faults
  tick : e.tick ≤ e'.tick
  calm : ∀ n, e.tick ≤ n → n < e'.tick → e.faults n = false

theorem Env.Calm.refl (e : Env) : e.Calm e := ⟨rfl, Nat.le_refl _, fun n h h' => by omega⟩

theorem Env.Calm.trans {e e' e'' : Env} (h : e.Calm e') (h' : e'.Calm e'') : e.Calm e'' :=
  ⟨h'.faults.trans h.faults, Nat.le_trans h.tick h'.tick, fun n h1 h2 => by
    by_cases hn : n < e'.tick
    · exact h.calm n h1 hn
    · rw [← h.faults]; exact h'.calm n (by omega) h2⟩

/-- Something has thrown.  (No code of its own: used in statements and proofs.) -/
structure Env.Struck (e e' : Env) : Prop where
  faults : e'.faults = e.faults
  hit : ∃ n, e.tick ≤ n ∧ n < e'.tick ∧ e.faults n = true

theorem Env.Calm.struck {e e' e'' : Env} (h : e.Calm e') (h' : e'.Struck e'') : e.Struck e'' := by
  obtain ⟨hf, n, h1, h2, h3⟩ := h'
  exact ⟨hf.trans h.faults, n, Nat.le_trans h.tick h1, h2, by rw [← h.faults]; exact h3⟩

theorem Env.Struck.calm {e e' e'' : Env} (h : e.Struck e') (h' : e'.Calm e'') : e.Struck e'' := by
  obtain ⟨hf, n, h1, h2, h3⟩ := h
  exact ⟨h'.faults.trans hf, n, h1, Nat.lt_of_lt_of_le h2 h'.tick, h3⟩

theorem Env.Struck.trans {e e' e'' : Env} (h : e.Struck e') (h' : e'.Struck e'') : e.Struck e'' := by
  obtain ⟨hf, n, h1, h2, h3⟩ := h
  obtain ⟨hf', m, g1, g2, g3⟩ := h'
  exact ⟨hf'.trans hf, n, h1, by omega, h3⟩

/-- A normal return means that nothing has thrown, an exception that something
has.  (No code of its own: used in statements and proofs.) -/
def Clean {σ α : Type} (π : σ → Env) (m : M σ α) : Prop :=
  ∀ s, match m s with
    | .ok _ s' => (π s).Calm (π s')
    | .exc s' => (π s).Struck (π s')
    | .ub => True

section
variable {σ α β : Type} {π : σ → Env}

theorem Clean.ret (a : α) : Clean π (pure a) := fun _ => .refl _

theorem Clean.read : Clean π M.read := fun _ => .refl _

theorem Clean.undef : Clean π (M.undef : M σ α) := fun _ => trivial

theorem Clean.update {f : σ → σ} (h : ∀ s, (π s).Calm (π (f s))) : Clean π (M.update f) := h

theorem Clean.bind {m : M σ α} {f : α → M σ β} (h : Clean π m) (h' : ∀ a, Clean π (f a)) :
    Clean π (m >>= f) := by
  intro s
  show match M.bind m f s with | .ok _ s' => (π s).Calm (π s') | .exc s' => (π s).Struck (π s') | .ub => True
  have h1 := h s
  unfold M.bind
  cases hm : m s with
  | ok a s' =>
    rw [hm] at h1
    have h2 := h' a s'
    show match f a s' with | .ok _ s' => (π s).Calm (π s') | .exc s' => (π s).Struck (π s') | .ub => True
    cases hf : f a s' with
    | ok b s'' => rw [hf] at h2; exact h1.trans h2
    | exc s'' => rw [hf] at h2; exact h1.struck h2
    | ub => trivial
  | exc s' => rw [hm] at h1; exact h1
  | ub => trivial

theorem Clean.scope {m : M σ α} {c : M σ Unit} (h : Clean π m) (h' : Clean π c) :
    Clean π (M.scope m c) := by
  intro s
  have h1 := h s
  unfold M.scope
  cases hm : m s with
  | ok a s' =>
    rw [hm] at h1
    have h2 := h' s'
    cases hf : c s' with
    | ok b s'' => rw [hf] at h2; simp only; rw [hf]; exact h1.trans h2
    | exc s'' => rw [hf] at h2; simp only; rw [hf]; exact h1.struck h2
    | ub => simp only; rw [hf]; trivial
  | exc s' =>
    rw [hm] at h1
    have h2 := h' s'
    cases hf : c s' with
    | ok b s'' => rw [hf] at h2; simp only; rw [hf]; exact h1.calm h2
    | exc s'' => simp only; rw [hf]; trivial
    | ub => simp only; rw [hf]; trivial
  | ub => trivial

theorem Clean.onExc {m : M σ α} {c : M σ Unit} (h : Clean π m) (h' : Clean π c) :
    Clean π (M.onExc m c) := by
  intro s
  have h1 := h s
  unfold M.onExc
  cases hm : m s with
  | ok a s' => rw [hm] at h1; exact h1
  | exc s' =>
    rw [hm] at h1
    have h2 := h' s'
    cases hf : c s' with
    | ok b s'' => rw [hf] at h2; simp only; rw [hf]; exact h1.calm h2
    | exc s'' => rw [hf] at h2; simp only; rw [hf]; exact h1.trans h2
    | ub => simp only; rw [hf]; trivial
  | ub => trivial

end

theorem mayThrow_clean : Clean id mayThrow := by
  intro e
  unfold mayThrow
  by_cases h : e.faults e.tick = true
  · simp only [h, if_true]
    exact ⟨rfl, e.tick, Nat.le_refl _, Nat.lt_succ_self _, h⟩
  · simp only [h]
    refine ⟨rfl, Nat.le_succ _, fun n h1 h2 => ?_⟩
    have : n = e.tick := by simp only [id] at h1 h2; omega
    subst this
    simpa using h

/-- The policy's operations do not swallow exceptions.  (No code of its own: used in statements
and proofs.) -/
structure Policy.Honest {K V Rep : Type} (P : Policy K V Rep) : Prop where
  ofSrc : ∀ s, Clean id (P.ofSrc s)
  copy : ∀ r, Clean id (P.copy r)
  move : ∀ r, Clean id (P.move r)
  destroy : ∀ r, Clean id (P.destroy r)
  visit : ∀ s r, Clean id (P.visit s r)

section
variable {K V : Type}

theorem clean_upd {f : Env → Env} (h : ∀ e, (f e).faults = e.faults) (h' : ∀ e, (f e).tick = e.tick) :
    Clean id (M.update f) :=
  Clean.update fun e => ⟨h e, Nat.le_of_eq (h' e).symm, fun n h1 h2 => by
    simp only [id, h'] at h1 h2; omega⟩

theorem VRep.newKey_clean (a : Act) (r : VRep K V) (k : K) : Clean id (VRep.newKey a r k) := by
  refine mayThrow_clean.bind fun _ => ?_
  cases r.key with
  | none => exact Clean.bind (clean_upd (fun _ => rfl) fun _ => rfl) fun _ => .ret _
  | some _ => exact .undef

theorem VRep.newVal_clean (a : Act) (r : VRep K V) (v : V) : Clean id (VRep.newVal a r v) := by
  refine mayThrow_clean.bind fun _ => ?_
  cases r.val with
  | none => exact Clean.bind (clean_upd (fun _ => rfl) fun _ => rfl) fun _ => .ret _
  | some _ => exact .undef

theorem VRep.delKey_clean (r : VRep K V) : Clean id (VRep.delKey r) := by
  unfold VRep.delKey
  cases r.key with
  | none => exact .undef
  | some _ => exact Clean.bind (clean_upd (fun _ => rfl) fun _ => rfl) fun _ => .ret _

theorem VRep.delVal_clean (r : VRep K V) : Clean id (VRep.delVal r) := by
  unfold VRep.delVal
  cases r.val with
  | none => exact .undef
  | some _ => exact Clean.bind (clean_upd (fun _ => rfl) fun _ => rfl) fun _ => .ret _

theorem VRep.honest (u : UserFns K V) : (VRep.policy u).Honest where
  ofSrc s := by
    cases s with
    | key k => exact VRep.newKey_clean _ VRep.raw k
    | copy v => exact VRep.newKey_clean _ VRep.raw (u.kfv v)
    | move v => exact VRep.newKey_clean _ VRep.raw (u.kfv v)
  copy r := by
    show Clean id (VRep.copy u r)
    unfold VRep.copy
    split
    · cases r.val with
      | none => exact .undef
      | some v => exact VRep.newKey_clean _ _ _
    · cases r.key with
      | none => exact .undef
      | some v => exact VRep.newKey_clean _ _ _
  move r := by
    show Clean id (VRep.move u r)
    unfold VRep.move
    split
    · cases r.val with
      | none => exact .undef
      | some v => exact (VRep.newKey_clean _ _ _).bind fun _ => .ret _
    · cases r.key with
      | none => exact .undef
      | some v => exact (VRep.newKey_clean _ _ _).bind fun _ => .ret _
  destroy r := by
    show Clean id (VRep.destroy r)
    unfold VRep.destroy
    split
    · exact (VRep.delVal_clean _).bind fun _ => .ret _
    · exact (VRep.delKey_clean _).bind fun _ => .ret _
  visit s r := by
    show Clean id (VRep.visit u s r)
    unfold VRep.visit
    split
    · exact .ret _
    · refine Clean.bind ?_ fun r1 => (VRep.delKey_clean r1).bind fun _ => .ret _
      cases s with
      | key k =>
        simp only
        cases r.key with
        | none => exact .undef
        | some k => exact VRep.newVal_clean _ _ _
      | copy v => exact VRep.newVal_clean _ _ _
      | move v =>
        exact (VRep.newVal_clean _ _ _).bind fun _ =>
          Clean.bind (clean_upd (fun _ => rfl) fun _ => rfl) fun _ => .ret _

theorem PRep.newRep_clean (a : Act) (k : K) : Clean id (PRep.newRep a k : M Env (PRep K V)) :=
  mayThrow_clean.bind fun _ => Clean.bind (clean_upd (fun _ => rfl) fun _ => rfl) fun _ => .ret _

theorem PRep.honest (u : UserFns K V) : (PRep.policy u).Honest where
  ofSrc s := by
    cases s with
    | key k => exact PRep.newRep_clean _ k
    | copy v => exact .undef
    | move v => exact .undef
  copy r := PRep.newRep_clean _ r.key
  move r := (PRep.newRep_clean _ r.key).bind fun _ => .ret _
  destroy r := by
    show Clean id (PRep.destroy r)
    unfold PRep.destroy
    have h2 : Clean id (M.update fun e : Env => { e with keys := e.keys - 1, acts := .keyGone :: e.acts }) :=
      clean_upd (fun _ => rfl) fun _ => rfl
    split
    · cases r.val with
      | none => exact Clean.bind .undef fun _ => h2
      | some v => exact Clean.bind (clean_upd (fun _ => rfl) fun _ => rfl) fun _ => h2
    · exact h2
  visit s r := by
    show Clean id (PRep.visit u s r)
    unfold PRep.visit
    cases s with
    | key k =>
      simp only
      split
      · exact .ret _
      · refine mayThrow_clean.bind fun _ => ?_
        cases r.val with
        | none => exact Clean.bind (clean_upd (fun _ => rfl) fun _ => rfl) fun _ => .ret _
        | some v => exact .undef
    | copy v => exact .ret _
    | move v => exact .ret _

theorem DRep.newRep_clean (a : Act) (v : V) : Clean id (DRep.newRep a v) :=
  mayThrow_clean.bind fun _ => Clean.bind (clean_upd (fun _ => rfl) fun _ => rfl) fun _ => .ret _

theorem DRep.honest (u : UserFns V V) : (DRep.policy u).Honest where
  ofSrc s := by
    cases s with
    | key k => exact DRep.newRep_clean _ k
    | copy v => exact DRep.newRep_clean _ v
    | move v => exact (DRep.newRep_clean _ v).bind fun _ =>
        Clean.bind (clean_upd (fun _ => rfl) fun _ => rfl) fun _ => .ret _
  copy r := DRep.newRep_clean _ r.x
  move r := (DRep.newRep_clean _ r.x).bind fun _ => .ret _
  destroy r := clean_upd (fun _ => rfl) fun _ => rfl
  visit s r := .ret _

end

/-! ## The core -/

section
variable {K V Rep F : Type} {P : Policy K V Rep} (H : P.Honest) (Fa : Factory F (Ent Rep))

theorem clean_env {α : Type} {m : M Env α} (h : Clean id m) :
    Clean (St.env (Rep := Rep) (F := F)) (Core.env m) := by
  intro s
  have h1 := h s.env
  unfold Core.env
  cases hm : m s.env <;> rw [hm] at h1 <;> simp only
  · exact h1
  · exact h1

theorem clean_same {f : St Rep F → St Rep F} (h : ∀ s, (f s).env = s.env) :
    Clean (St.env (Rep := Rep) (F := F)) (M.update f) :=
  Clean.update fun s => by rw [h s]; exact .refl _

theorem clean_deref : Clean (St.env (Rep := Rep) (F := F)) Core.deref := by
  refine Clean.bind .read fun s => ?_
  split
  · exact .ret _
  · exact .undef

theorem clean_lock : Clean (St.env (Rep := Rep) (F := F)) Core.lock :=
  clean_deref.bind fun _ => clean_same fun _ => rfl

theorem clean_unlock : Clean (St.env (Rep := Rep) (F := F)) Core.unlock := by
  refine Clean.bind .read fun s => ?_
  cases s.depth with
  | zero => exact .undef
  | succ n => exact clean_same fun _ => rfl

theorem clean_entry (h : Nat) : Clean (St.env (Rep := Rep) (F := F)) (Core.entry Fa h) := by
  refine clean_deref.bind fun _ => Clean.bind .read fun s => ?_
  cases Fa.entry s.fac h with
  | none => exact .undef
  | some e => exact .ret _

theorem clean_setEntry (h : Nat) (e : Ent Rep) :
    Clean (St.env (Rep := Rep) (F := F)) (Core.setEntry Fa h e) := clean_same fun _ => rfl

theorem clean_addRef (h : Nat) : Clean (St.env (Rep := Rep) (F := F)) (Core.addRef Fa h) :=
  (clean_entry Fa h).bind fun _ => (clean_setEntry Fa h _).bind fun _ => .ret _

theorem clean_release (h : Nat) : Clean (St.env (Rep := Rep) (F := F)) (Core.release Fa h) :=
  (clean_entry Fa h).bind fun _ => (clean_setEntry Fa h _).bind fun _ => .ret _

theorem clean_addDeleter (h : Nat) : Clean (St.env (Rep := Rep) (F := F)) (Core.addDeleter Fa h) :=
  (clean_entry Fa h).bind fun _ => clean_setEntry Fa h _

theorem clean_releaseDeleter (h : Nat) :
    Clean (St.env (Rep := Rep) (F := F)) (Core.releaseDeleter Fa h) :=
  (clean_entry Fa h).bind fun _ => (clean_setEntry Fa h _).bind fun _ => .ret _

theorem clean_handleCtor (trk : Tracking) (h : Nat) :
    Clean (St.env (Rep := Rep) (F := F)) (Core.handleCtor Fa trk h) := by
  cases trk with
  | noTracking => exact .ret _
  | refcounted =>
    refine (clean_addRef Fa h).bind fun n => ?_
    split
    · exact clean_addDeleter Fa h
    · exact .ret _

theorem clean_handleCopy (trk : Tracking) (h : Nat) :
    Clean (St.env (Rep := Rep) (F := F)) (Core.handleCopy Fa trk h) := by
  cases trk with
  | noTracking => exact .ret _
  | refcounted => exact (clean_addRef Fa h).bind fun n => .ret _

theorem clean_topLocal : Clean (St.env (Rep := Rep) (F := F)) Core.topLocal := by
  refine Clean.bind .read fun s => ?_
  cases s.locals with
  | nil => exact .undef
  | cons r l => exact .ret _

include H

theorem clean_withLocal {α : Type} {r : Rep} {m : M (St Rep F) α} (h : Clean St.env m) :
    Clean St.env (Core.withLocal P r m) := by
  refine Clean.bind (clean_same fun _ => rfl) fun _ => Clean.scope h (Clean.bind .read fun s => ?_)
  cases s.locals with
  | nil => exact .undef
  | cons r l => exact Clean.bind (clean_same fun _ => rfl) fun _ => clean_env (H.destroy _)

theorem clean_facErase (h : Nat) : Clean (St.env (Rep := Rep) (F := F)) (Core.facErase P Fa h) :=
  (clean_entry Fa h).bind fun _ => (clean_env (H.destroy _)).bind fun _ => clean_same fun _ => rfl

theorem clean_handleDtor (trk : Tracking) (h : Nat) :
    Clean (St.env (Rep := Rep) (F := F)) (Core.handleDtor P Fa trk h) := by
  cases trk with
  | noTracking => exact .ret _
  | refcounted =>
    refine (clean_release Fa h).bind fun b => ?_
    cases b with
    | false => exact .ret _
    | true =>
      refine Clean.bind (clean_same fun _ => rfl) fun _ => clean_lock.bind fun _ => Clean.scope ?_ clean_unlock
      refine (clean_releaseDeleter Fa h).bind fun b => ?_
      cases b with
      | false => exact .ret _
      | true => exact clean_facErase H Fa h

omit Fa in
theorem clean_makeNode (take : Take) (r : Rep) : Clean id (Core.makeNode P take r) := by
  cases take with
  | moves => exact mayThrow_clean.bind fun _ => H.move r
  | copies => exact mayThrow_clean.bind fun _ => (H.copy r).bind fun _ => .ret _
  | copiesMoves =>
    exact (H.copy r).bind fun x => (Clean.onExc (mayThrow_clean.bind fun _ => H.move x) (H.destroy x)).bind fun p =>
      (H.destroy p.2).bind fun _ => .ret _

theorem clean_facInsert : Clean (St.env (Rep := Rep) (F := F)) (Core.facInsert P Fa) := by
  refine clean_deref.bind fun _ => clean_topLocal.bind fun e => ?_
  refine Clean.bind (Clean.bind .read fun s => ?_) fun _ => ?_
  · split
    · exact .ret _
    · exact .undef
  refine (clean_env mayThrow_clean).bind fun _ => Clean.bind .read fun s => ?_
  split
  · exact Clean.bind (clean_same fun _ => rfl) fun _ => .ret _
  · refine Clean.bind (clean_same fun _ => rfl) fun _ => ?_
    refine (clean_env (clean_makeNode H Fa.take e)).bind fun p => ?_
    exact Clean.bind (clean_same fun _ => rfl) fun _ => Clean.bind (clean_same fun _ => rfl) fun _ => .ret _

theorem clean_insertLocked (trk : Tracking) (src : Src K V) :
    Clean (St.env (Rep := Rep) (F := F)) (Core.insertLocked P Fa trk src) := by
  refine clean_lock.bind fun _ => Clean.scope ?_ clean_unlock
  refine Clean.bind ?_ fun h => (clean_handleCtor Fa trk h).bind fun _ => .ret _
  refine (clean_facInsert H Fa).bind fun h => Clean.bind
    (Clean.onExc ?_ (clean_facErase H Fa h)) fun _ => .ret _
  exact (clean_entry Fa h).bind fun e => (clean_env (H.visit _ _)).bind fun _ => clean_setEntry Fa h _

theorem clean_insert (trk : Tracking) (src : Src K V) :
    Clean (St.env (Rep := Rep) (F := F)) (Core.insert P Fa trk src) := by
  have hval : Clean (St.env (Rep := Rep) (F := F)) (do
      Core.init
      let e ← Core.entryOf P trk src
      Core.withLocal P e (Core.insertLocked P Fa trk src)) := by
    refine Clean.bind (clean_same fun _ => rfl) fun _ => Clean.bind ?_ fun e =>
      clean_withLocal H (clean_insertLocked H Fa trk src)
    unfold Core.entryOf
    cases trk with
    | noTracking => exact clean_env (H.ofSrc src)
    | refcounted =>
      refine (clean_env (H.ofSrc src)).bind fun x => clean_withLocal H ?_
      exact (clean_env (H.move x)).bind fun _ => Clean.bind (clean_same fun _ => rfl) fun _ => .ret _
  cases src with
  | key k =>
    refine (clean_env (H.ofSrc _)).bind fun x => clean_withLocal H ?_
    refine Clean.bind (clean_same fun _ => rfl) fun _ => (clean_env (H.move x)).bind fun _ => ?_
    exact Clean.bind (clean_same fun _ => rfl) fun _ => clean_withLocal H (clean_insertLocked H Fa trk _)
  | copy v => exact hval
  | move v => exact hval

omit H in
theorem clean_handleOf (x : Nat) : Clean (St.env (Rep := Rep) (F := F)) (Core.handleOf x) := by
  refine Clean.bind .read fun s => ?_
  cases s.objs.lookup x with
  | none => exact .undef
  | some h => exact .ret _

theorem clean_assignHandle (trk : Tracking) (x h : Nat) :
    Clean (St.env (Rep := Rep) (F := F)) (Core.assignHandle P Fa trk x h) :=
  (clean_handleCopy Fa trk h).bind fun _ => (clean_handleOf x).bind fun _ =>
    Clean.bind (clean_same fun _ => rfl) fun _ => clean_handleDtor H Fa trk _

omit H in
theorem clean_get (x : Nat) : Clean (St.env (Rep := Rep) (F := F)) (Core.get P Fa x) := by
  refine (clean_handleOf x).bind fun h => (clean_entry Fa h).bind fun e => Clean.bind .read fun s => ?_
  cases P.toValue e.rep with
  | none => exact .undef
  | some v => exact .ret _

omit H in
theorem clean_getKey (x : Nat) : Clean (St.env (Rep := Rep) (F := F)) (Core.getKey P Fa x) := by
  refine (clean_handleOf x).bind fun h => (clean_entry Fa h).bind fun e => ?_
  cases P.toKey e.rep with
  | none => exact .undef
  | some v => exact .ret _

/-- No operation swallows an exception. -/
theorem clean_step (trk : Tracking) (hp : Nat → Nat) (op : Op K V) :
    Clean (St.env (Rep := Rep) (F := F)) (Core.step P Fa trk hp op) := by
  cases op with
  | init => exact Clean.bind (clean_same fun _ => rfl) fun _ => .ret _
  | make x s =>
    exact Clean.bind ((clean_insert H Fa trk s).bind fun _ => clean_same fun _ => rfl) fun _ => .ret _
  | copy x y =>
    exact Clean.bind ((clean_handleOf y).bind fun _ => (clean_handleCopy Fa trk _).bind fun _ =>
      clean_same fun _ => rfl) fun _ => .ret _
  | move x y =>
    exact Clean.bind ((clean_handleOf y).bind fun _ => (clean_handleCopy Fa trk _).bind fun _ =>
      clean_same fun _ => rfl) fun _ => .ret _
  | assign x y =>
    exact Clean.bind ((clean_handleOf y).bind fun _ => clean_assignHandle H Fa trk x _) fun _ => .ret _
  | assignVal x s =>
    exact Clean.bind ((clean_insert H Fa trk s).bind fun _ => (clean_assignHandle H Fa trk x _).bind
      fun _ => clean_handleDtor H Fa trk _) fun _ => .ret _
  | swap x y =>
    exact Clean.bind ((clean_handleOf x).bind fun _ => (clean_handleOf y).bind fun _ =>
      Clean.bind (clean_same fun _ => rfl) fun _ => clean_same fun _ => rfl) fun _ => .ret _
  | destroy x =>
    exact Clean.bind ((clean_handleOf x).bind fun _ => Clean.bind (clean_same fun _ => rfl) fun _ =>
      clean_handleDtor H Fa trk _) fun _ => .ret _
  | get x => exact (clean_get Fa x).bind fun _ => .ret _
  | getKey x => exact (clean_getKey Fa x).bind fun _ => .ret _
  | eq x y =>
    exact Clean.bind ((clean_get Fa x).bind fun _ => (clean_get Fa y).bind fun _ => .ret _) fun _ => .ret _
  | hash x => exact Clean.bind ((clean_get Fa x).bind fun _ => .ret _) fun _ => .ret _

end

end Verif

import Verif.Observe
import Verif.History

/-!
# Several modules sharing a factory

With `intermodule_holder` (/repo/include/boost/flyweight/intermodule_holder.hpp:30-37) the instantiations of
`flyweight_core` in the modules of a program obtain the same holder object, hence the same factory and mutex; the
static members, i.e. the pointers and the flag `static_initializer`
(/repo/include/boost/flyweight/detail/flyweight_core.hpp:314-351), are still one set per module.  That
`interprocess::ipcdetail::intermodule_singleton` gives the same object to all modules is trusted.
-/

set_option autoImplicit false

namespace Verif
namespace Modules
variable {K V Rep F : Type}

/-- State of the program: `core` has the shared factory, mutex, and the program's flyweights (its own `inited` is
not used), `up m` says that module `m` has set its pointers
(/repo/include/boost/flyweight/detail/flyweight_core.hpp:153-163, 314-351). -/
structure MSt (Rep F : Type) where
  core : St Rep F
  up : Nat → Bool

/-- The state as seen by the code of module `m`.  Models the static pointers of each module,
/repo/include/boost/flyweight/detail/flyweight_core.hpp:314-351. -/
def MSt.view (st : MSt Rep F) (m : Nat) : St Rep F := { st.core with inited := st.up m }

/-- An operation by the code of module `m`. (Dispatch.)  Models
/repo/include/boost/flyweight/intermodule_holder.hpp:30-37 with the calls of
/repo/include/boost/flyweight/flyweight.hpp:181-278. -/
def step (S : Setup K V Rep F) (hp : Nat → Nat) (m : Nat) (op : Op K V) (st : MSt Rep F) : Option (Out K V × MSt Rep F) :=
  if op.valid S.sp (st.core.objs.map Prod.fst) then
    match S.perform hp op (st.view m) with
    | .ok out s => some (out, ⟨s, upd st.up m s.inited⟩)
    | .exc s => some (.threw, ⟨s, upd st.up m s.inited⟩)
    | .ub => none
  else some (.skipped, st)

/-- A program: operations by the code of several modules. (The user's.)  (No code of its own:
used in statements and proofs.) -/
def exec (S : Setup K V Rep F) (hp : Nat → Nat) : List (Nat × Op K V) → MSt Rep F → Option (List (Out K V) × MSt Rep F)
  | [], st => some ([], st)
  | o :: ops, st => match step S hp o.1 o.2 st with
    | none => none
    | some (out, st) => (exec S hp ops st).map fun r => (out :: r.1, r.2)

/-- Program start: no module has set its pointers (/repo/include/boost/flyweight/detail/flyweight_core.hpp:314-351). -/
def start (S : Setup K V Rep F) (fl : Nat → Bool) (alloc : Nat → List Nat → Nat) : MSt Rep F :=
  ⟨Core.start S.Fa fl alloc, fun _ => false⟩

/-- Flyweights are used only by modules whose static initializer
(/repo/include/boost/flyweight/flyweight.hpp:181-189) has run; creation and assignment of values are allowed also
before. -/
def Ready : List Nat → List (Nat × Op K V) → Prop
  | _, [] => True
  | up, (m, op) :: ops =>
    (m ∈ up ∨ op = .init ∨ op.creates.isSome) ∧
      ((op = .init → Ready (m :: up) ops) ∧ (op ≠ .init → Ready up ops))

/-! ## Setting the pointers does not change anything but that -/

/-- The same state with pointers set.  (No code of its own: used in statements and proofs.) -/
def on (s : St Rep F) : St Rep F := { s with inited := true }

/-- Unless it is undefined, the computation does the same if pointers are already set.  (No code
of its own: used in statements and proofs.) -/
def Up {α : Type} (m : M (St Rep F) α) : Prop :=
  ∀ s, match m s with
    | .ok a s' => m (on s) = .ok a (on s')
    | .exc s' => m (on s) = .exc (on s')
    | .ub => True

section
variable {α β : Type}

theorem Up.ret (a : α) : Up (F := F) (Rep := Rep) (pure a) := fun _ => rfl

theorem Up.undef : Up (F := F) (Rep := Rep) (M.undef : M _ α) := fun _ => trivial

theorem Up.update {f : St Rep F → St Rep F} (h : ∀ s, f (on s) = on (f s)) : Up (M.update f) := by
  intro s
  show M.update f (on s) = .ok () (on (f s))
  rw [← h]; rfl

theorem Up.bind {m : M (St Rep F) α} {f : α → M (St Rep F) β} (h : Up m) (h' : ∀ a, Up (f a)) : Up (m >>= f) := by
  intro s
  have h1 := h s
  show match M.bind m f s with | .ok a s' => M.bind m f (on s) = .ok a (on s') | .exc s' => M.bind m f (on s) = .exc (on s') | .ub => True
  unfold M.bind
  cases hm : m s with
  | ok a s' =>
    rw [hm] at h1
    simp only at h1
    have h2 := h' a s'
    simp only [h1]
    exact h2
  | exc s' => rw [hm] at h1; simp only at h1 ⊢; rw [h1]
  | ub => trivial

theorem Up.readBind {f : St Rep F → M (St Rep F) β} (h : ∀ s, Up (f s)) (he : ∀ s, f (on s) = f s) :
    Up (M.read >>= f) := by
  intro s
  have h1 := h s s
  show match f s s with | .ok a s' => f (on s) (on s) = .ok a (on s') | .exc s' => f (on s) (on s) = .exc (on s') | .ub => True
  rw [he]
  exact h1

theorem Up.scope {m : M (St Rep F) α} {c : M (St Rep F) Unit} (h : Up m) (h' : Up c) : Up (M.scope m c) := by
  intro s
  have h1 := h s
  unfold M.scope
  cases hm : m s with
  | ok a s' =>
    rw [hm] at h1
    simp only at h1
    have h2 := h' s'
    simp only [h1]
    cases hc : c s' <;> rw [hc] at h2 <;> simp only at h2 ⊢ <;> rw [h2]
  | exc s' =>
    rw [hm] at h1
    simp only at h1
    have h2 := h' s'
    simp only [h1]
    cases hc : c s' <;> rw [hc] at h2 <;> simp only at h2 ⊢
    rw [h2]
  | ub => trivial

theorem Up.onExc {m : M (St Rep F) α} {c : M (St Rep F) Unit} (h : Up m) (h' : Up c) : Up (M.onExc m c) := by
  intro s
  have h1 := h s
  unfold M.onExc
  cases hm : m s with
  | ok a s' => rw [hm] at h1; simp only at h1 ⊢; rw [h1]
  | exc s' =>
    rw [hm] at h1
    simp only at h1
    have h2 := h' s'
    simp only [h1]
    cases hc : c s' <;> rw [hc] at h2 <;> simp only at h2 ⊢ <;> rw [h2]
  | ub => trivial

end

section
variable (P : Policy K V Rep) (Fa : Factory F (Ent Rep))

theorem up_same {f : St Rep F → St Rep F} (h : ∀ s, f (on s) = on (f s)) : Up (M.update f) := Up.update h

theorem up_env {α : Type} (m : M Env α) : Up (Core.env m : M (St Rep F) α) := by
  intro s
  unfold Core.env on
  cases m s.env
  · rfl
  · rfl
  · trivial

theorem up_deref : Up (Core.deref : M (St Rep F) Unit) := by
  intro s
  have e : ∀ s : St Rep F, Core.deref s = if s.inited = true then .ok () s else .ub := by
    intro s
    show (if s.inited = true then (pure () : M (St Rep F) Unit) else M.undef) s = _
    split <;> rfl
  rw [e s, e (on s)]
  by_cases h : s.inited = true
  · rw [if_pos h]; rfl
  · rw [if_neg h]; trivial

theorem up_lock : Up (Core.lock : M (St Rep F) Unit) := up_deref.bind fun _ => .update fun _ => rfl

theorem up_unlock : Up (Core.unlock : M (St Rep F) Unit) := by
  refine .readBind (fun s => ?_) fun s => rfl
  cases s.depth with
  | zero => exact .undef
  | succ n => exact .update fun _ => rfl

theorem up_entry (h : Nat) : Up (Core.entry Fa h) := by
  refine up_deref.bind fun _ => .readBind (fun s => ?_) fun s => rfl
  cases Fa.entry s.fac h with
  | none => exact .undef
  | some e => exact .ret _

theorem up_setEntry (h : Nat) (e : Ent Rep) : Up (Core.setEntry Fa h e) := .update fun _ => rfl

theorem up_addRef (h : Nat) : Up (Core.addRef Fa h) :=
  (up_entry Fa h).bind fun _ => (up_setEntry Fa h _).bind fun _ => .ret _

theorem up_release (h : Nat) : Up (Core.release Fa h) :=
  (up_entry Fa h).bind fun _ => (up_setEntry Fa h _).bind fun _ => .ret _

theorem up_addDeleter (h : Nat) : Up (Core.addDeleter Fa h) :=
  (up_entry Fa h).bind fun _ => up_setEntry Fa h _

theorem up_releaseDeleter (h : Nat) : Up (Core.releaseDeleter Fa h) :=
  (up_entry Fa h).bind fun _ => (up_setEntry Fa h _).bind fun _ => .ret _

theorem up_handleCtor (trk : Tracking) (h : Nat) : Up (Core.handleCtor Fa trk h) := by
  cases trk with
  | noTracking => exact .ret _
  | refcounted =>
    refine (up_addRef Fa h).bind fun n => ?_
    split
    · exact up_addDeleter Fa h
    · exact .ret _

theorem up_handleCopy (trk : Tracking) (h : Nat) : Up (Core.handleCopy Fa trk h) := by
  cases trk with
  | noTracking => exact .ret _
  | refcounted => exact (up_addRef Fa h).bind fun n => .ret _

theorem up_topLocal : Up (Core.topLocal : M (St Rep F) Rep) := by
  refine .readBind (fun s => ?_) fun s => rfl
  cases s.locals with
  | nil => exact .undef
  | cons r l => exact .ret _

theorem up_withLocal {α : Type} {r : Rep} {m : M (St Rep F) α} (h : Up m) : Up (Core.withLocal P r m) := by
  refine Up.bind (.update fun _ => rfl) fun _ => Up.scope h (.readBind (fun s => ?_) fun s => rfl)
  cases s.locals with
  | nil => exact .undef
  | cons r l => exact Up.bind (.update fun _ => rfl) fun _ => up_env _

theorem up_facErase (h : Nat) : Up (Core.facErase P Fa h) :=
  (up_entry Fa h).bind fun _ => (up_env _).bind fun _ => .update fun _ => rfl

theorem up_handleDtor (trk : Tracking) (h : Nat) : Up (Core.handleDtor P Fa trk h) := by
  cases trk with
  | noTracking => exact .ret _
  | refcounted =>
    refine (up_release Fa h).bind fun b => ?_
    cases b with
    | false => exact .ret _
    | true =>
      refine Up.bind (.update fun _ => rfl) fun _ => up_lock.bind fun _ => Up.scope ?_ up_unlock
      refine (up_releaseDeleter Fa h).bind fun b => ?_
      cases b with
      | false => exact .ret _
      | true => exact up_facErase P Fa h

theorem up_facInsert : Up (Core.facInsert P Fa) := by
  refine up_deref.bind fun _ => up_topLocal.bind fun e => ?_
  refine Up.bind (.readBind (fun s => ?_) fun s => rfl) fun _ => ?_
  · split
    · exact .ret _
    · exact .undef
  refine (up_env _).bind fun _ => .readBind (fun s => ?_) fun s => rfl
  split
  · exact Up.bind (.update fun _ => rfl) fun _ => .ret _
  · refine Up.bind (.update fun _ => rfl) fun _ => (up_env _).bind fun p => ?_
    exact Up.bind (.update fun _ => rfl) fun _ => Up.bind (.update fun _ => rfl) fun _ => .ret _

theorem up_insertLocked (trk : Tracking) (src : Src K V) : Up (Core.insertLocked P Fa trk src) := by
  refine up_lock.bind fun _ => Up.scope ?_ up_unlock
  refine Up.bind ?_ fun h => (up_handleCtor Fa trk h).bind fun _ => .ret _
  refine (up_facInsert P Fa).bind fun h => Up.bind (Up.onExc ?_ (up_facErase P Fa h)) fun _ => .ret _
  exact (up_entry Fa h).bind fun e => (up_env _).bind fun _ => up_setEntry Fa h _

theorem up_insert (trk : Tracking) (src : Src K V) : Up (Core.insert P Fa trk src) := by
  have hval : Up (F := F) (do
      Core.init
      let e ← Core.entryOf P trk src
      Core.withLocal P e (Core.insertLocked P Fa trk src)) := by
    refine Up.bind (.update fun _ => rfl) fun _ => Up.bind ?_ fun e => up_withLocal P (up_insertLocked P Fa trk src)
    unfold Core.entryOf
    cases trk with
    | noTracking => exact up_env _
    | refcounted =>
      refine (up_env _).bind fun x => up_withLocal P ?_
      exact (up_env _).bind fun _ => Up.bind (.update fun _ => rfl) fun _ => .ret _
  cases src with
  | key k =>
    refine (up_env _).bind fun x => up_withLocal P ?_
    refine Up.bind (.update fun _ => rfl) fun _ => (up_env _).bind fun _ => ?_
    exact Up.bind (.update fun _ => rfl) fun _ => up_withLocal P (up_insertLocked P Fa trk _)
  | copy v => exact hval
  | move v => exact hval

theorem up_handleOf (x : Nat) : Up (Core.handleOf x : M (St Rep F) Nat) := by
  refine .readBind (fun s => ?_) fun s => rfl
  cases s.objs.lookup x with
  | none => exact .undef
  | some h => exact .ret _

theorem up_assignHandle (trk : Tracking) (x h : Nat) : Up (Core.assignHandle P Fa trk x h) :=
  (up_handleCopy Fa trk h).bind fun _ => (up_handleOf x).bind fun _ =>
    Up.bind (.update fun _ => rfl) fun _ => up_handleDtor P Fa trk _

theorem up_get (x : Nat) : Up (Core.get P Fa x) := by
  refine (up_handleOf x).bind fun h => (up_entry Fa h).bind fun e => .readBind (fun s => ?_) fun s => rfl
  cases P.toValue e.rep with
  | none => exact .undef
  | some v => exact .ret _

theorem up_getKey (x : Nat) : Up (Core.getKey P Fa x) := by
  refine (up_handleOf x).bind fun h => (up_entry Fa h).bind fun e => ?_
  cases P.toKey e.rep with
  | none => exact .undef
  | some v => exact .ret _

theorem up_step (trk : Tracking) (hp : Nat → Nat) (op : Op K V) : Up (Core.step P Fa trk hp op) := by
  cases op with
  | init => exact Up.bind (.update fun _ => rfl) fun _ => .ret _
  | make x s => exact Up.bind ((up_insert P Fa trk s).bind fun _ => .update fun _ => rfl) fun _ => .ret _
  | copy x y =>
    exact Up.bind ((up_handleOf y).bind fun _ => (up_handleCopy Fa trk _).bind fun _ => .update fun _ => rfl) fun _ => .ret _
  | move x y =>
    exact Up.bind ((up_handleOf y).bind fun _ => (up_handleCopy Fa trk _).bind fun _ => .update fun _ => rfl) fun _ => .ret _
  | assign x y => exact Up.bind ((up_handleOf y).bind fun _ => up_assignHandle P Fa trk x _) fun _ => .ret _
  | assignVal x s =>
    exact Up.bind ((up_insert P Fa trk s).bind fun _ => (up_assignHandle P Fa trk x _).bind
      fun _ => up_handleDtor P Fa trk _) fun _ => .ret _
  | swap x y =>
    exact Up.bind ((up_handleOf x).bind fun _ => (up_handleOf y).bind fun _ =>
      Up.bind (.update fun _ => rfl) fun _ => .update fun _ => rfl) fun _ => .ret _
  | destroy x =>
    exact Up.bind ((up_handleOf x).bind fun _ => Up.bind (.update fun _ => rfl) fun _ =>
      up_handleDtor P Fa trk _) fun _ => .ret _
  | get x => exact (up_get P Fa x).bind fun _ => .ret _
  | getKey x => exact (up_getKey P Fa x).bind fun _ => .ret _
  | eq x y => exact Up.bind ((up_get P Fa x).bind fun _ => (up_get P Fa y).bind fun _ => .ret _) fun _ => .ret _
  | hash x => exact Up.bind ((up_get P Fa x).bind fun _ => .ret _) fun _ => .ret _

/-- Pointers once set remain so. -/
theorem Up.stays {α : Type} {m : M (St Rep F) α} (h : Up m) {s : St Rep F} (hs : s.inited = true) :
    match m s with
    | .ok _ s' => s'.inited = true
    | .exc s' => s'.inited = true
    | .ub => True := by
  have h1 := h s
  have e : on s = s := by unfold on; rw [← hs]
  rw [e] at h1
  cases hm : m s with
  | ok a s' => rw [hm] at h1; simp only [Res.ok.injEq] at h1; rw [h1.2]; rfl
  | exc s' => rw [hm] at h1; simp only [Res.exc.injEq] at h1; rw [h1]; rfl
  | ub => trivial

/-- Insertion sets the pointers, unless it throws before. -/
theorem insert_sets (trk : Tracking) (src : Src K V) (s : St Rep F) :
    Core.insert P Fa trk src s = Core.insert P Fa trk src (on s) ∨ ∃ s', Core.insert P Fa trk src s = .exc s' := by
  cases src with
  | key k =>
    show M.bind (Core.env (P.ofSrc (.key k))) _ s = M.bind (Core.env (P.ofSrc (.key k))) _ (on s) ∨
      ∃ s', M.bind (Core.env (P.ofSrc (.key k))) _ s = _
    unfold M.bind Core.env on
    cases P.ofSrc (.key k) s.env with
    | ok x e => exact .inl rfl
    | exc e => exact .inr ⟨_, rfl⟩
    | ub => exact .inl rfl
  | copy v => exact .inl rfl
  | move v => exact .inl rfl

end

/-! ## The modules together behave as one -/

variable {S : Setup K V Rep F}

/-- Invariant.  (No code of its own: used in statements and proofs.) -/
structure Ok (S : Setup K V Rep F) (fl : Nat → Bool) (st : MSt Rep F) (t : SSt K V) : Prop where
  sim : Setup.Sim S fl (on st.core) t

theorem step_ok {fl : Nat → Bool} {st : MSt Rep F} {t : SSt K V} (h : Ok S fl st t) (hp : Nat → Nat) (m : Nat) (op : Op K V)
    (hr : st.up m = true ∨ op = .init ∨ op.creates.isSome) :
    ∃ out st' t', step S hp m op st = some (out, st') ∧ SRun S.trk S.keq S.sp hp t [op] [out] t' ∧ Ok S fl st' t' ∧
      (∀ n, st.up n = true → st'.up n = true) ∧ (op = .init → st'.up m = true) := by
  have hn : (on st.core).objs.map Prod.fst = st.core.objs.map Prod.fst := rfl
  have hnames : t.names = st.core.objs.map Prod.fst := h.sim.rel.vars.names
  unfold step
  by_cases hv : op.valid S.sp (st.core.objs.map Prod.fst) = true
  · rw [if_pos hv]
    have hview : on (st.view m) = on st.core := rfl
    have hu := up_step S.P S.Fa S.trk hp op (st.view m)
    rw [hview] at hu
    have hc := Setup.perform_cases h.sim hp (by rw [hn]; exact hv)
    unfold Setup.perform at hc ⊢
    -- no undefined behaviour
    have hub : Core.step S.P S.Fa S.trk hp op (st.view m) ≠ .ub := by
      intro hub
      have hne : Core.step S.P S.Fa S.trk hp op (on st.core) ≠ .ub := by
        rcases hc with ⟨_, _, _, h1, _⟩ | ⟨_, h1, _⟩ <;> rw [h1] <;> simp
      rcases hr with hr | rfl | hr
      · have : st.view m = on st.core := by unfold MSt.view on; rw [hr]
        rw [this] at hub
        exact hne hub
      · cases hub
      · have create : ∀ {α : Type} (k : Nat → M (St Rep F) α) (src : Src K V),
            (Core.insert S.P S.Fa S.trk src >>= k) (st.view m) = .ub →
            (Core.insert S.P S.Fa S.trk src >>= k) (on st.core) = .ub := by
          intro α k src hub
          have hub' : M.bind (Core.insert S.P S.Fa S.trk src) k (st.view m) = .ub := hub
          show M.bind (Core.insert S.P S.Fa S.trk src) k (on st.core) = .ub
          unfold M.bind at hub' ⊢
          rcases insert_sets S.P S.Fa S.trk src (st.view m) with h1 | ⟨s', h1⟩
          · rw [← hview, ← h1]; exact hub'
          · rw [h1] at hub'; cases hub'
        have strip : ∀ (x : M (St Rep F) Unit) (s : St Rep F), (x >>= fun _ => (pure .done : M (St Rep F) (Out K V))) s = .ub ↔ x s = .ub := by
          intro x s
          show M.bind x _ s = .ub ↔ _
          unfold M.bind
          cases x s <;> simp [pure, M.ret]
        cases op with
        | make x src =>
          refine hne ((strip _ _).2 (create _ src ((strip _ _).1 hub)))
        | assignVal x src =>
          refine hne ((strip _ _).2 (create _ src ((strip _ _).1 hub)))
        | _ => simp [Op.creates] at hr
    have keep : ∀ s' : St Rep F, (st.up m = true → s'.inited = true) → ∀ n, st.up n = true → upd st.up m s'.inited n = true := by
      intro s' hs n hn
      unfold upd
      split
      · rename_i he; subst he; exact hs hn
      · exact hn
    have stays := (up_step S.P S.Fa S.trk hp op).stays (s := st.view m)
    cases hm : Core.step S.P S.Fa S.trk hp op (st.view m) with
    | ok out s' =>
      rw [hm] at hu stays
      rcases hc with ⟨o, s1, t', h1, _, h3, h4⟩ | ⟨s1, h1, _⟩
      · simp only at hu
        rw [h1] at hu
        cases hu
        refine ⟨_, _, t', rfl, .step (by rw [hnames]; exact hv) h3 (.nil t'), ⟨h4⟩, keep s' stays, ?_⟩
        rintro rfl
        cases hm
        simp [upd]
      · simp only at hu
        rw [h1] at hu
        cases hu
    | exc s' =>
      rw [hm] at hu stays
      rcases hc with ⟨o, s1, t', h1, _⟩ | ⟨s1, h1, h3, h4, _⟩
      · simp only at hu
        rw [h1] at hu
        cases hu
      · simp only at hu
        rw [h1] at hu
        cases hu
        refine ⟨_, _, t, rfl, .step (by rw [hnames]; exact hv) h3 (.nil t), ⟨h4⟩, keep s' stays, ?_⟩
        rintro rfl
        cases hm
    | ub => exact (hub hm).elim
  · rw [if_neg hv]
    refine ⟨_, _, t, rfl, .skip (by rw [hnames]; simpa using hv) (.nil t), h, fun _ h => h, ?_⟩
    rintro rfl
    simp [Op.valid] at hv

theorem exec_ok {fl : Nat → Bool} (hp : Nat → Nat) (ops : List (Nat × Op K V)) : ∀ {st : MSt Rep F} {t : SSt K V} {up : List Nat},
    Ok S fl st t → (∀ m ∈ up, st.up m = true) → Ready up ops →
    ∃ outs st' t', exec S hp ops st = some (outs, st') ∧ SRun S.trk S.keq S.sp hp t (ops.map Prod.snd) outs t' ∧ Ok S fl st' t' ∧
      (∀ m, st.up m = true → st'.up m = true) ∧ ∀ m, (m, .init) ∈ ops → st'.up m = true := by
  induction ops with
  | nil => intro st t up h _ _; exact ⟨[], st, t, rfl, .nil t, h, fun _ h => h, fun m h => by cases h⟩
  | cons o ops ih =>
    intro st t up h hu hr
    obtain ⟨m, op⟩ := o
    obtain ⟨hr1, hr2, hr3⟩ := hr
    obtain ⟨out, st1, t1, h1, h2, h3, h4, h5⟩ := step_ok h hp m op (hr1.imp (hu m) id)
    have hr' : ∃ up', (∀ m ∈ up', st1.up m = true) ∧ Ready up' ops := by
      by_cases hi : op = .init
      · refine ⟨m :: up, fun n hn => ?_, hr2 hi⟩
        rcases List.mem_cons.1 hn with rfl | hn
        · exact h5 hi
        · exact h4 n (hu n hn)
      · exact ⟨up, fun n hn => h4 n (hu n hn), hr3 hi⟩
    obtain ⟨up', hu', hr'⟩ := hr'
    obtain ⟨outs, st2, t2, g1, g2, g3, g4, g5⟩ := ih h3 hu' hr'
    refine ⟨out :: outs, st2, t2, by simp only [exec, h1, g1]; rfl, ?_, g3, fun n hn => g4 n (h4 n hn), fun n hn => ?_⟩
    · cases h2 with
      | step hv hs hn => cases hn; exact .step hv hs g2
      | skip hv hn => cases hn; exact .skip hv g2
    · rcases List.mem_cons.1 hn with he | hn
      · cases he; exact g4 _ (h5 rfl)
      · exact g5 n hn

theorem start_ok (S : Setup K V Rep F) (fl : Nat → Bool) {alloc : Nat → List Nat → Nat} (hal : ∀ n l, alloc n l ∉ l) :
    Ok S fl (start S fl alloc) SSt.start := by
  have h := Setup.sim_start S fl hal
  refine ⟨⟨⟨h.rel.inv.setInited, h.rel.vars, h.rel.nodup, h.rel.kept⟩, ⟨h.idle.locals, h.idle.depth⟩, h.faults⟩⟩

end Modules
end Verif

import Verif.Observe

/-!
# Runs with different factories

A way to compare runs of the sequential core that use different factories:
morphisms of factories, and the product of two lawful factories.
-/

set_option autoImplicit false

namespace Verif
variable {K V Rep F F' E : Type}

/-- `proj` maps states of factory `Fa` to states of `Fa'` and commutes with all
operations as long as the state remains `Good`.  (No code of its own: used in statements and
proofs.) -/
structure Factory.Hom (Fa : Factory F E) (Fa' : Factory F' E) where
  proj : F → F'
  Good : F → Prop
  empty : proj Fa.empty = Fa'.empty
  good_empty : Good Fa.empty
  lookup_good : ∀ f e, Good (Fa.lookup f e).1 → Good f
  lookup : ∀ f e, Good (Fa.lookup f e).1 → Fa'.lookup (proj f) e = (proj (Fa.lookup f e).1, (Fa.lookup f e).2)
  link_good : ∀ f i e, Good (Fa.link f i e) → Good f
  link : ∀ f i e, Fa'.link (proj f) i e = proj (Fa.link f i e)
  erase_good : ∀ f i, Good (Fa.erase f i) → Good f
  erase : ∀ f i, Fa'.erase (proj f) i = proj (Fa.erase f i)
  update_good : ∀ f i e, Good (Fa.update f i e) → Good f
  update : ∀ f i e, Fa'.update (proj f) i e = proj (Fa.update f i e)
  entry : ∀ f i, Good f → Fa'.entry (proj f) i = Fa.entry f i
  ids : ∀ f i, Good f → (i ∈ Fa'.ids (proj f) ↔ i ∈ Fa.ids f)
  take : Fa'.take = Fa.take

namespace Hom
variable {Fa : Factory F (Ent Rep)} {Fa' : Factory F' (Ent Rep)} (H : Fa.Hom Fa')

/-- Equal states apart from the factories, which are related by the morphism,
and the addresses.  (No code of its own: used in statements and proofs.) -/
structure Proj (s : St Rep F) (t : St Rep F') : Prop where
  fac : t.fac = H.proj s.fac
  env : t.env = s.env
  inited : t.inited = s.inited
  depth : t.depth = s.depth
  nextId : t.nextId = s.nextId
  locals : t.locals = s.locals
  objs : t.objs = s.objs

/-- Whenever `m` does not end in a bad state, `m'` does the same as `m`.  (No code of its own:
used in statements and proofs.) -/
def Follows {α β : Type} (r : α → β → Prop) (m : M (St Rep F) α) (m' : M (St Rep F') β) : Prop :=
  (∀ s, match m s with
    | .ok _ s' => H.Good s'.fac → H.Good s.fac
    | .exc s' => H.Good s'.fac → H.Good s.fac
    | .ub => True) ∧
  ∀ s t, Proj H s t → match m s with
    | .ok a s' => H.Good s'.fac → ∃ b t', m' t = .ok b t' ∧ r a b ∧ Proj H s' t'
    | .exc s' => H.Good s'.fac → ∃ t', m' t = .exc t' ∧ Proj H s' t'
    | .ub => True

variable {H} {α β γ δ : Type}

theorem Follows.bind {r : α → β → Prop} {q : γ → δ → Prop} {m : M (St Rep F) α} {m' : M (St Rep F') β}
    {f : α → M (St Rep F) γ} {f' : β → M (St Rep F') δ} (h : Follows H r m m')
    (hf : ∀ a, ∃ b, Follows H q (f a) (f' b)) (hr : ∀ a b, r a b → Follows H q (f a) (f' b)) :
    Follows H q (m >>= f) (m' >>= f') := by
  constructor
  · intro s
    show match M.bind m f s with | .ok _ s' => _ | .exc s' => _ | .ub => _
    unfold M.bind
    have h1 := h.1 s
    cases hm : m s with
    | ok a s' =>
      rw [hm] at h1
      obtain ⟨b, hb⟩ := hf a
      have h2 := hb.1 s'
      simp only
      cases hm2 : f a s' <;> rw [hm2] at h2 <;> simp_all
    | exc s' => rw [hm] at h1; exact h1
    | ub => trivial
  · intro s t hP
    show match M.bind m f s with | .ok a s' => _ → ∃ b t', M.bind m' f' t = _ ∧ _ | .exc s' => _ → ∃ t', M.bind m' f' t = _ ∧ _ | .ub => _
    unfold M.bind
    have h1 := h.2 s t hP
    cases hm : m s with
    | ok a s' =>
      rw [hm] at h1
      simp only at h1 ⊢
      obtain ⟨b, hb⟩ := hf a
      have h2 := hb.1 s'
      cases hm2 : f a s' with
      | ok c s2 =>
        rw [hm2] at h2
        intro hg
        obtain ⟨b, t', h3, h4, h5⟩ := h1 (h2 hg)
        have h6 := (hr a b h4).2 s' t' h5
        rw [hm2] at h6
        rw [h3]
        exact h6 hg
      | exc s2 =>
        rw [hm2] at h2
        intro hg
        obtain ⟨b, t', h3, h4, h5⟩ := h1 (h2 hg)
        have h6 := (hr a b h4).2 s' t' h5
        rw [hm2] at h6
        rw [h3]
        exact h6 hg
      | ub => trivial
    | exc s' =>
      rw [hm] at h1
      intro hg
      obtain ⟨t', h3, h5⟩ := h1 hg
      exact ⟨t', by rw [h3], h5⟩
    | ub => trivial

theorem Follows.seq {q : γ → δ → Prop} {m : M (St Rep F) α} {m' : M (St Rep F') α}
    {f : α → M (St Rep F) γ} {f' : α → M (St Rep F') δ} (h : Follows H Eq m m')
    (hf : ∀ a, Follows H q (f a) (f' a)) : Follows H q (m >>= f) (m' >>= f') :=
  h.bind (fun a => ⟨a, hf a⟩) fun a b hab => hab ▸ hf a

theorem Follows.ret {r : α → β → Prop} {a : α} {b : β} (h : r a b) :
    Follows H r (pure a) (pure b) :=
  ⟨fun _ hg => hg, fun _ t hP _ => ⟨b, t, rfl, h, hP⟩⟩

theorem Follows.undef {r : α → β → Prop} {m' : M (St Rep F') β} : Follows H r M.undef m' :=
  ⟨fun _ => trivial, fun _ _ _ => trivial⟩

theorem Follows.update {f : St Rep F → St Rep F} {f' : St Rep F' → St Rep F'}
    (h1 : ∀ s, H.Good (f s).fac → H.Good s.fac)
    (h2 : ∀ s t, Proj H s t → H.Good (f s).fac → Proj H (f s) (f' t)) :
    Follows H Eq (M.update f) (M.update f') :=
  ⟨fun s => h1 s, fun s t hP hg => ⟨(), f' t, rfl, rfl, h2 s t hP hg⟩⟩

theorem Follows.scope {r : α → β → Prop} {m : M (St Rep F) α} {m' : M (St Rep F') β} {c : M (St Rep F) Unit}
    {c' : M (St Rep F') Unit} (h : Follows H r m m') (hc : Follows H Eq c c') :
    Follows H r (M.scope m c) (M.scope m' c') := by
  constructor
  · intro s
    unfold M.scope
    have h1 := h.1 s
    cases hm : m s with
    | ok a s' =>
      rw [hm] at h1
      have h2 := hc.1 s'
      simp only
      cases hm2 : c s' <;> rw [hm2] at h2 <;> simp_all
    | exc s' =>
      rw [hm] at h1
      have h2 := hc.1 s'
      simp only
      cases hm2 : c s' <;> rw [hm2] at h2 <;> simp_all
    | ub => trivial
  · intro s t hP
    unfold M.scope
    have h1 := h.2 s t hP
    cases hm : m s with
    | ok a s' =>
      rw [hm] at h1
      simp only at h1 ⊢
      have h2 := hc.1 s'
      cases hm2 : c s' with
      | ok u s2 =>
        rw [hm2] at h2
        intro hg
        obtain ⟨b, t', h3, h4, h5⟩ := h1 (h2 hg)
        have h6 := hc.2 s' t' h5
        rw [hm2] at h6
        obtain ⟨_, t2, h7, _, h8⟩ := h6 hg
        exact ⟨b, t2, by rw [h3]; simp only; rw [h7], h4, h8⟩
      | exc s2 =>
        rw [hm2] at h2
        intro hg
        obtain ⟨b, t', h3, h4, h5⟩ := h1 (h2 hg)
        have h6 := hc.2 s' t' h5
        rw [hm2] at h6
        obtain ⟨t2, h7, h8⟩ := h6 hg
        exact ⟨t2, by rw [h3]; simp only; rw [h7], h8⟩
      | ub => trivial
    | exc s' =>
      rw [hm] at h1
      simp only at h1 ⊢
      have h2 := hc.1 s'
      cases hm2 : c s' with
      | ok u s2 =>
        rw [hm2] at h2
        intro hg
        obtain ⟨t', h3, h5⟩ := h1 (h2 hg)
        have h6 := hc.2 s' t' h5
        rw [hm2] at h6
        obtain ⟨_, t2, h7, _, h8⟩ := h6 hg
        exact ⟨t2, by rw [h3]; simp only; rw [h7], h8⟩
      | exc s2 => trivial
      | ub => trivial
    | ub => trivial

theorem Follows.onExc {r : α → β → Prop} {m : M (St Rep F) α} {m' : M (St Rep F') β} {c : M (St Rep F) Unit}
    {c' : M (St Rep F') Unit} (h : Follows H r m m') (hc : Follows H Eq c c') :
    Follows H r (M.onExc m c) (M.onExc m' c') := by
  constructor
  · intro s
    unfold M.onExc
    have h1 := h.1 s
    cases hm : m s with
    | ok a s' => rw [hm] at h1; exact h1
    | exc s' =>
      rw [hm] at h1
      have h2 := hc.1 s'
      simp only
      cases hm2 : c s' <;> rw [hm2] at h2 <;> simp_all
    | ub => trivial
  · intro s t hP
    unfold M.onExc
    have h1 := h.2 s t hP
    cases hm : m s with
    | ok a s' =>
      rw [hm] at h1
      intro hg
      obtain ⟨b, t', h3, h4, h5⟩ := h1 hg
      exact ⟨b, t', by rw [h3], h4, h5⟩
    | exc s' =>
      rw [hm] at h1
      simp only at h1 ⊢
      have h2 := hc.1 s'
      cases hm2 : c s' with
      | ok u s2 =>
        rw [hm2] at h2
        intro hg
        obtain ⟨t', h3, h5⟩ := h1 (h2 hg)
        have h6 := hc.2 s' t' h5
        rw [hm2] at h6
        obtain ⟨_, t2, h7, _, h8⟩ := h6 hg
        exact ⟨t2, by rw [h3]; simp only; rw [h7], h8⟩
      | exc s2 =>
        rw [hm2] at h2
        intro hg
        obtain ⟨t', h3, h5⟩ := h1 (h2 hg)
        have h6 := hc.2 s' t' h5
        rw [hm2] at h6
        obtain ⟨t2, h7, h8⟩ := h6 hg
        exact ⟨t2, by rw [h3]; simp only; rw [h7], h8⟩
      | ub => trivial
    | ub => trivial

/-- Computations on the environment only. -/
theorem follows_env (m : M Env α) : Follows H Eq (Core.env m) (Core.env m) := by
  constructor
  · intro s
    unfold Core.env
    cases m s.env <;> simp
  · intro s t hP
    unfold Core.env
    rw [hP.env]
    cases m s.env with
    | ok a e => exact fun _ => ⟨a, _, rfl, rfl, ⟨hP.fac, rfl, hP.inited, hP.depth, hP.nextId, hP.locals, hP.objs⟩⟩
    | exc e => exact fun _ => ⟨_, rfl, ⟨hP.fac, rfl, hP.inited, hP.depth, hP.nextId, hP.locals, hP.objs⟩⟩
    | ub => trivial

/-- Reading the state. -/
theorem Follows.reading {q : γ → δ → Prop} {f : St Rep F → M (St Rep F) γ} {f' : St Rep F' → M (St Rep F') δ}
    (h : ∀ s t, Proj H s t → H.Good s.fac → Follows H q (f s) (f' t))
    (h1 : ∀ s, match f s s with
      | .ok _ s' => H.Good s'.fac → H.Good s.fac
      | .exc s' => H.Good s'.fac → H.Good s.fac
      | .ub => True) :
    Follows H q (M.read >>= f) (M.read >>= f') := by
  refine ⟨h1, fun s t hP => ?_⟩
  have h1' := h1 s
  show match f s s with | .ok a s' => _ → ∃ b t', f' t t = _ ∧ _ | .exc s' => _ → ∃ t', f' t t = _ ∧ _ | .ub => _
  cases hm : f s s with
  | ok a s' =>
    rw [hm] at h1'
    intro hg
    have := (h s t hP (h1' hg)).2 s t hP
    rw [hm] at this
    exact this hg
  | exc s' =>
    rw [hm] at h1'
    intro hg
    have := (h s t hP (h1' hg)).2 s t hP
    rw [hm] at this
    exact this hg
  | ub => trivial

/-! ## The functions of the core -/

open Core

theorem follows_init : Follows H Eq Core.init Core.init :=
  .update (fun _ h => h) fun _ _ hP _ => ⟨hP.fac, hP.env, rfl, hP.depth, hP.nextId, hP.locals, hP.objs⟩

theorem follows_deref : Follows H Eq deref deref := by
  refine .reading (fun s t hP _ => ?_) fun s => ?_
  · rw [hP.inited]
    cases s.inited
    · exact .undef
    · exact .ret rfl
  · cases s.inited <;> simp [M.undef, pure, M.ret]

theorem follows_lock : Follows H Eq lock lock :=
  follows_deref.seq fun _ => .update (fun _ h => h) fun _ _ hP _ =>
    ⟨hP.fac, hP.env, hP.inited, by simp [hP.depth], hP.nextId, hP.locals, hP.objs⟩

theorem follows_unlock : Follows H Eq unlock unlock := by
  refine .reading (fun s t hP _ => ?_) fun s => ?_
  · rw [hP.depth]
    cases s.depth with
    | zero => exact .undef
    | succ n =>
      exact .update (fun _ h => h) fun _ _ hP _ =>
        ⟨hP.fac, hP.env, hP.inited, rfl, hP.nextId, hP.locals, hP.objs⟩
  · cases s.depth <;> simp [M.undef, M.update]

theorem follows_withLocal (P : Policy K V Rep) (r : Rep) {q : α → β → Prop} {m : M (St Rep F) α}
    {m' : M (St Rep F') β} (h : Follows H q m m') :
    Follows H q (withLocal P r m) (withLocal P r m') := by
  refine Follows.seq (.update (fun _ h => h) fun _ _ hP _ =>
    ⟨hP.fac, hP.env, hP.inited, hP.depth, hP.nextId, by simp [hP.locals], hP.objs⟩) fun _ => ?_
  refine h.scope (.reading (fun s t hP _ => ?_) fun s => ?_)
  · rw [hP.locals]
    cases s.locals with
    | nil => exact .undef
    | cons r rest =>
      exact Follows.seq (.update (fun _ h => h) fun _ _ hP _ =>
        ⟨hP.fac, hP.env, hP.inited, hP.depth, hP.nextId, rfl, hP.objs⟩) fun _ => follows_env _
  · cases s.locals with
    | nil => trivial
    | cons r rest =>
      simp only [bind, M.bind, M.update, Core.env]
      cases P.destroy r s.env <;> simp

theorem follows_topLocal : Follows H Eq topLocal topLocal := by
  refine .reading (fun s t hP _ => ?_) fun s => ?_
  · rw [hP.locals]
    cases s.locals with
    | nil => exact .undef
    | cons r rest => exact .ret rfl
  · cases s.locals <;> simp [M.undef, pure, M.ret]

theorem follows_setTop (r : Rep) : Follows H Eq (setTop r) (setTop r) :=
  .update (fun _ h => h) fun _ _ hP _ =>
    ⟨hP.fac, hP.env, hP.inited, hP.depth, hP.nextId, by simp [hP.locals], hP.objs⟩

theorem follows_entry (h : Nat) : Follows H Eq (Core.entry Fa h) (Core.entry Fa' h) := by
  refine follows_deref.seq fun _ => .reading (fun s t hP hg => ?_) fun s => ?_
  · rw [hP.fac, H.entry _ _ hg]
    cases Fa.entry s.fac h with
    | none => exact .undef
    | some e => exact .ret rfl
  · cases Fa.entry s.fac h <;> simp [M.undef, pure, M.ret]

theorem follows_setEntry (h : Nat) (e : Ent Rep) : Follows H Eq (setEntry Fa h e) (setEntry Fa' h e) :=
  .update (fun _ hg => H.update_good _ _ _ hg) fun s t hP _ =>
    ⟨by simp [hP.fac, H.update], hP.env, hP.inited, hP.depth, hP.nextId, hP.locals, hP.objs⟩

theorem follows_addRef (h : Nat) : Follows H Eq (addRef Fa h) (addRef Fa' h) :=
  (follows_entry h).seq fun _ => (follows_setEntry h _).seq fun _ => .ret rfl

theorem follows_release (h : Nat) : Follows H Eq (release Fa h) (release Fa' h) :=
  (follows_entry h).seq fun _ => (follows_setEntry h _).seq fun _ => .ret rfl

theorem follows_addDeleter (h : Nat) : Follows H Eq (addDeleter Fa h) (addDeleter Fa' h) :=
  (follows_entry h).seq fun _ => follows_setEntry h _

theorem follows_releaseDeleter (h : Nat) : Follows H Eq (releaseDeleter Fa h) (releaseDeleter Fa' h) :=
  (follows_entry h).seq fun _ => (follows_setEntry h _).seq fun _ => .ret rfl

theorem follows_facErase (P : Policy K V Rep) (h : Nat) :
    Follows H Eq (facErase P Fa h) (facErase P Fa' h) :=
  (follows_entry h).seq fun _ => (follows_env _).seq fun _ =>
    .update (fun _ hg => H.erase_good _ _ hg) fun s t hP _ =>
      ⟨by simp [hP.fac, H.erase], hP.env, hP.inited, hP.depth, hP.nextId, hP.locals, hP.objs⟩

theorem follows_guard {b b' : Bool} (h : b' = b) :
    Follows H Eq (if b = true then pure () else M.undef) (if b' = true then pure () else M.undef) := by
  subst h
  cases b'
  · exact .undef
  · exact .ret rfl

theorem follows_keysReadable (P : Policy K V Rep) (e : Rep) :
    Follows H Eq (keysReadable P Fa e) (keysReadable P Fa' e) := by
  refine .reading (fun s t hP hg => follows_guard ?_) fun s => (follows_guard rfl).1 s
  rw [hP.fac]
  refine congrArg (_ && ·) ?_
  rw [Bool.eq_iff_iff, List.all_eq_true, List.all_eq_true]
  simp only [H.ids _ _ hg, H.entry _ _ hg]

theorem follows_visitEntry (P : Policy K V Rep) (src : Src K V) (h : Nat) :
    Follows H Eq (visitEntry P Fa src h) (visitEntry P Fa' src h) :=
  (follows_entry h).seq fun _ => (follows_env _).seq fun _ => follows_setEntry h _

theorem follows_facInsert (P : Policy K V Rep) : Follows H Eq (facInsert P Fa) (facInsert P Fa') := by
  refine follows_deref.seq fun _ => follows_topLocal.seq fun e => (follows_keysReadable P e).seq fun _ =>
    (follows_env _).seq fun _ => ?_
  have miss : ∀ n, Follows H Eq
      (do
        let p ← env (makeNode P Fa.take e)
        setTop p.2
        M.update fun s => { s with
          fac := Fa.link s.fac s.nextId ⟨p.1, 0, 0⟩,
          addr := fun i => if i = s.nextId then s.alloc s.nextId ((Fa.ids s.fac).map s.addr) else s.addr i,
          nextId := s.nextId + 1 }
        pure n : M (St Rep F) Nat)
      (do
        let p ← env (makeNode P Fa'.take e)
        setTop p.2
        M.update fun s => { s with
          fac := Fa'.link s.fac s.nextId ⟨p.1, 0, 0⟩,
          addr := fun i => if i = s.nextId then s.alloc s.nextId ((Fa'.ids s.fac).map s.addr) else s.addr i,
          nextId := s.nextId + 1 }
        pure n : M (St Rep F') Nat) := fun n =>
    (by rw [H.take]; exact follows_env _ : Follows H Eq (env (makeNode P Fa.take e)) (env (makeNode P Fa'.take e))).seq fun p => (follows_setTop _).seq fun _ =>
      Follows.seq (.update (fun _ hg => H.link_good _ _ _ hg) fun s t hP _ =>
        ⟨by simp [hP.fac, hP.nextId, H.link], hP.env, hP.inited, hP.depth, by simp [hP.nextId],
          hP.locals, hP.objs⟩) fun _ => .ret rfl
  have hlook : Follows H Eq
      (fun s => .ok ((Fa.lookup s.fac ⟨e, 0, 0⟩).2, s.nextId) { s with fac := (Fa.lookup s.fac ⟨e, 0, 0⟩).1 })
      (fun s => .ok ((Fa'.lookup s.fac ⟨e, 0, 0⟩).2, s.nextId)
        { s with fac := (Fa'.lookup s.fac ⟨e, 0, 0⟩).1 }) := by
    refine ⟨fun s hg => H.lookup_good _ _ hg, fun s t hP hg => ?_⟩
    have hl := H.lookup s.fac ⟨e, 0, 0⟩ hg
    refine ⟨_, _, rfl, ?_, ?_, hP.env, hP.inited, hP.depth, hP.nextId, hP.locals, hP.objs⟩
    · simp only [hP.fac, hP.nextId, hl]
    · simp only [hP.fac, hl]
  have hall := hlook.seq (q := Eq) (f := fun (p : Option Nat × Nat) => match p.1 with
      | some i => pure i
      | none => do
        let p' ← env (makeNode P Fa.take e)
        setTop p'.2
        M.update fun s => { s with
          fac := Fa.link s.fac s.nextId ⟨p'.1, 0, 0⟩,
          addr := fun i => if i = s.nextId then s.alloc s.nextId ((Fa.ids s.fac).map s.addr) else s.addr i,
          nextId := s.nextId + 1 }
        pure p.2)
    (f' := fun (p : Option Nat × Nat) => match p.1 with
      | some i => pure i
      | none => do
        let p' ← env (makeNode P Fa'.take e)
        setTop p'.2
        M.update fun s => { s with
          fac := Fa'.link s.fac s.nextId ⟨p'.1, 0, 0⟩,
          addr := fun i => if i = s.nextId then s.alloc s.nextId ((Fa'.ids s.fac).map s.addr) else s.addr i,
          nextId := s.nextId + 1 }
        pure p.2)
    (fun p => match p with
      | (some i, n) => .ret rfl
      | (none, n) => miss n)
  refine cast ?_ hall
  congr 1
  · funext s
    show M.bind _ _ s = M.bind _ _ s
    simp only [M.bind, M.read]
    rcases Fa.lookup s.fac ⟨e, 0, 0⟩ with ⟨f, _ | i⟩ <;> rfl
  · funext s
    show M.bind _ _ s = M.bind _ _ s
    simp only [M.bind, M.read]
    rcases Fa'.lookup s.fac ⟨e, 0, 0⟩ with ⟨f, _ | i⟩ <;> rfl

theorem follows_insertAndVisit (P : Policy K V Rep) (src : Src K V) :
    Follows H Eq (insertAndVisit P Fa src) (insertAndVisit P Fa' src) :=
  (follows_facInsert P).seq fun h => ((follows_visitEntry P src h).onExc (follows_facErase P h)).seq fun _ =>
    .ret rfl

theorem follows_handleCtor (trk : Tracking) (h : Nat) :
    Follows H Eq (handleCtor Fa trk h) (handleCtor Fa' trk h) := by
  cases trk with
  | noTracking => exact .ret rfl
  | refcounted =>
    refine (follows_addRef h).seq fun n => ?_
    split
    · exact follows_addDeleter h
    · exact .ret rfl

theorem follows_handleCopy (trk : Tracking) (h : Nat) :
    Follows H Eq (handleCopy Fa trk h) (handleCopy Fa' trk h) := by
  cases trk with
  | noTracking => exact .ret rfl
  | refcounted => exact (follows_addRef h).seq fun _ => .ret rfl

theorem follows_trackingErase (P : Policy K V Rep) (h : Nat) :
    Follows H Eq (trackingErase P Fa h) (trackingErase P Fa' h) := by
  refine follows_init.seq fun _ => follows_lock.seq fun _ =>
    ((follows_releaseDeleter h).seq fun last => ?_).scope follows_unlock
  cases last
  · exact .ret rfl
  · exact follows_facErase P h

theorem follows_handleDtor (P : Policy K V Rep) (trk : Tracking) (h : Nat) :
    Follows H Eq (handleDtor P Fa trk h) (handleDtor P Fa' trk h) := by
  cases trk with
  | noTracking => exact .ret rfl
  | refcounted =>
    refine (follows_release h).seq fun z => ?_
    cases z
    · exact .ret rfl
    · exact follows_trackingErase P h

theorem follows_insertLocked (P : Policy K V Rep) (trk : Tracking) (src : Src K V) :
    Follows H Eq (insertLocked P Fa trk src) (insertLocked P Fa' trk src) :=
  follows_lock.seq fun _ => ((follows_insertAndVisit P src).seq fun h => (follows_handleCtor trk h).seq fun _ =>
    .ret rfl).scope follows_unlock

theorem follows_insert (P : Policy K V Rep) (trk : Tracking) (src : Src K V) :
    Follows H Eq (Core.insert P Fa trk src) (Core.insert P Fa' trk src) := by
  have he : ∀ src : Src K V, Follows H Eq (entryOf P trk src : M (St Rep F) Rep) (entryOf P trk src) := by
    intro src
    unfold entryOf
    cases trk with
    | noTracking => exact follows_env _
    | refcounted =>
      exact (follows_env _).seq fun x => follows_withLocal P x
        ((follows_env _).seq fun p => (follows_setTop _).seq fun _ => .ret rfl)
  have hv : ∀ src : Src K V, Follows H Eq
      (do
        Core.init
        let e ← entryOf P trk src
        withLocal P e (insertLocked P Fa trk src) : M (St Rep F) Nat)
      (do
        Core.init
        let e ← entryOf P trk src
        withLocal P e (insertLocked P Fa' trk src)) := fun src =>
    follows_init.seq fun _ => (he src).seq fun e => follows_withLocal P e (follows_insertLocked P trk src)
  cases src with
  | key k =>
    exact (follows_env _).seq fun x => follows_withLocal P x (follows_init.seq fun _ =>
      (follows_env _).seq fun p => (follows_setTop _).seq fun _ =>
        follows_withLocal P p.1 (follows_insertLocked P trk _))
  | copy v => exact hv _
  | move v => exact hv _

theorem follows_handleOf (x : Nat) : Follows H Eq (handleOf x) (handleOf x) := by
  refine .reading (fun s t hP _ => ?_) fun s => ?_
  · rw [hP.objs]
    cases s.objs.lookup x with
    | none => exact .undef
    | some e => exact .ret rfl
  · cases s.objs.lookup x <;> simp [M.undef, pure, M.ret]

theorem follows_newObj (x h : Nat) : Follows H Eq (newObj x h) (newObj x h) :=
  .update (fun _ h => h) fun _ _ hP _ =>
    ⟨hP.fac, hP.env, hP.inited, hP.depth, hP.nextId, hP.locals, by simp [hP.objs]⟩

theorem follows_setHandle (x h : Nat) : Follows H Eq (setHandle x h) (setHandle x h) :=
  .update (fun _ h => h) fun _ _ hP _ =>
    ⟨hP.fac, hP.env, hP.inited, hP.depth, hP.nextId, hP.locals, by simp [hP.objs]⟩

theorem follows_forget (x : Nat) : Follows H Eq
    (M.update fun s : St Rep F => { s with objs := s.objs.filter fun p => p.1 ≠ x })
    (M.update fun s : St Rep F' => { s with objs := s.objs.filter fun p => p.1 ≠ x }) :=
  .update (fun _ h => h) fun _ _ hP _ =>
    ⟨hP.fac, hP.env, hP.inited, hP.depth, hP.nextId, hP.locals, by simp [hP.objs]⟩

theorem follows_assignHandle (P : Policy K V Rep) (trk : Tracking) (x h : Nat) :
    Follows H Eq (assignHandle P Fa trk x h) (assignHandle P Fa' trk x h) :=
  (follows_handleCopy trk h).seq fun _ => (follows_handleOf x).seq fun _ => (follows_setHandle x h).seq fun _ =>
    follows_handleDtor P trk _

theorem follows_get (P : Policy K V Rep) (x : Nat) :
    Follows H (fun a b => a.2 = b.2) (Core.get P Fa x) (Core.get P Fa' x) := by
  refine (follows_handleOf x).seq fun h => (follows_entry h).seq fun e =>
    .reading (fun s t _ _ => ?_) fun s => ?_
  · cases P.toValue e.rep with
    | none => exact .undef
    | some v => exact .ret rfl
  · cases P.toValue e.rep <;> simp [M.undef, pure, M.ret]

theorem follows_getKey (P : Policy K V Rep) (x : Nat) :
    Follows H Eq (Core.getKey P Fa x) (Core.getKey P Fa' x) := by
  refine (follows_handleOf x).seq fun h => (follows_entry h).seq fun e => ?_
  cases P.toKey e.rep with
  | none => exact .undef
  | some v => exact .ret rfl

/-- All operations but `==`, which compares addresses. -/
theorem follows_step (P : Policy K V Rep) (trk : Tracking) (hp : Nat → Nat) (op : Op K V)
    (hop : ∀ x y, op ≠ .eq x y) :
    Follows H (fun a b => a.erase = b.erase) (Core.step P Fa trk hp op) (Core.step P Fa' trk hp op) := by
  cases op with
  | init => exact follows_init.seq fun _ => .ret rfl
  | make x src =>
    exact ((follows_insert P trk src).seq fun h => follows_newObj x h).seq fun _ => .ret rfl
  | copy x y =>
    exact ((follows_handleOf y).seq fun h => (follows_handleCopy trk h).seq fun _ => follows_newObj x h).seq
      fun _ => .ret rfl
  | move x y =>
    exact ((follows_handleOf y).seq fun h => (follows_handleCopy trk h).seq fun _ => follows_newObj x h).seq
      fun _ => .ret rfl
  | assign x y =>
    exact ((follows_handleOf y).seq fun h => follows_assignHandle P trk x h).seq fun _ => .ret rfl
  | assignVal x src =>
    exact ((follows_insert P trk src).seq fun h => (follows_assignHandle P trk x h).seq fun _ =>
      follows_handleDtor P trk h).seq fun _ => .ret rfl
  | swap x y =>
    exact ((follows_handleOf x).seq fun h => (follows_handleOf y).seq fun h' => (follows_setHandle x h').seq
      fun _ => follows_setHandle y h).seq fun _ => .ret rfl
  | destroy x =>
    exact ((follows_handleOf x).seq fun h => (follows_forget x).seq fun _ =>
      follows_handleDtor P trk h).seq fun _ => .ret rfl
  | get x =>
    refine (follows_get P x).bind (fun a => ⟨a, .ret rfl⟩) fun a b hab => .ret ?_
    simp only [Out.erase, hab]
  | getKey x => exact (follows_getKey P x).seq fun _ => .ret rfl
  | eq x y => exact absurd rfl (hop x y)
  | hash x =>
    refine Follows.bind (r := fun _ _ => True) ?_ (fun a => ⟨a, .ret rfl⟩) fun a b hab => .ret rfl
    exact (follows_get P x).bind (fun a => ⟨a, .ret trivial⟩) fun a b hab => .ret trivial

end Hom
end Verif

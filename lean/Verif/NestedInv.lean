import Verif.Nested

/-!
# Nested construction with `no_tracking`: the invariant and its preservation
-/

set_option autoImplicit false

namespace Verif.Nested
variable {K V F : Type}

/-- An environment change that constructs no value.  (No code of its own: used in statements and
proofs.) -/
structure Quiet (e e' : Env) : Prop where
  faults : e'.faults = e.faults
  made : e'.made = e.made
  vals : e'.vals = e.vals

theorem Quiet.trans {e e' e'' : Env} (h : Quiet e e') (h' : Quiet e' e'') : Quiet e e'' :=
  ⟨h'.faults.trans h.faults, h'.made.trans h.made, h'.vals.trans h.vals⟩

theorem mayThrow_quiet (e : Env) : Triple (· = e) mayThrow (fun _ e' => Quiet e e')
    (fun e' => Quiet e e' ∧ ∃ n, e.faults n = true) := by
  refine (mayThrow_triple e).conseq (fun _ h => h) ?_ ?_
  · rintro _ e' rfl; exact ⟨rfl, rfl, rfl⟩
  · rintro e' ⟨rfl, h⟩; exact ⟨⟨rfl, rfl, rfl⟩, _, h⟩

theorem newRep_quiet (a : Act) (k : K) (e : Env) : Triple (· = e) (PRep.newRep a k : M Env (PRep K V))
    (fun r e' => r = ⟨k, none, false⟩ ∧ Quiet e e')
    (fun e' => Quiet e e' ∧ ∃ n, e.faults n = true) := by
  unfold PRep.newRep
  refine Triple.bind (mayThrow_quiet e) fun _ => ?_
  refine Triple.bind (R := fun _ e' => Quiet e e') ?_ fun _ => ?_
  · exact Triple.update fun s h => ⟨h.faults, h.made, h.vals⟩
  · exact Triple.ret fun s h => ⟨rfl, h⟩

theorem move_quiet (u : UserFns K V) (k : K) (e : Env) : Triple (· = e) ((PRep.policy u).move ⟨k, none, false⟩)
    (fun p e' => (p.1 = ⟨k, none, false⟩ ∧ ∃ k', p.2 = ⟨k', none, false⟩) ∧ Quiet e e')
    (fun e' => Quiet e e' ∧ ∃ n, e.faults n = true) := by
  show Triple (· = e) (PRep.move u ⟨k, none, false⟩) _ _
  unfold PRep.move
  refine Triple.bind (newRep_quiet _ _ _) fun r => ?_
  refine Triple.ret ?_
  rintro e' ⟨rfl, hq⟩
  exact ⟨⟨rfl, _, rfl⟩, hq⟩

theorem makeNode_quiet (u : UserFns K V) (take : Take) (k : K) (e : Env) :
    Triple (· = e) (Core.makeNode (PRep.policy u) take ⟨k, none, false⟩)
    (fun p e' => (p.1 = ⟨k, none, false⟩ ∧ ∃ k', p.2 = ⟨k', none, false⟩) ∧ Quiet e e')
    (fun e' => Quiet e e' ∧ ∃ n, e.faults n = true) := by
  have fail : ∀ {e1 e2 : Env}, Quiet e e1 → (Quiet e1 e2 ∧ ∃ n, e1.faults n = true) →
      Quiet e e2 ∧ ∃ n, e.faults n = true := by
    rintro e1 e2 h ⟨h', n, hn⟩
    exact ⟨h.trans h', n, by rw [← h.faults]; exact hn⟩
  have mv : ∀ e1, Quiet e e1 → Triple (· = e1) (mayThrow >>= fun _ => (PRep.policy u).move ⟨k, none, false⟩)
      (fun p e' => (p.1 = ⟨k, none, false⟩ ∧ ∃ k', p.2 = ⟨k', none, false⟩) ∧ Quiet e e')
      (fun e' => Quiet e e' ∧ ∃ n, e.faults n = true) := fun e1 h =>
    ((mayThrow_quiet e1).conseq (fun _ h => h) (fun _ _ h => h) fun _ h' => fail h h').bind fun _ => .at fun e2 h2 =>
      (move_quiet u k e2).conseq (fun _ h => h) (fun _ _ h3 => ⟨h3.1, (h.trans h2).trans h3.2⟩)
        fun _ h' => fail (h.trans h2) h'
  have del : ∀ e1 k', Quiet e e1 → Triple (· = e1) ((PRep.policy u).destroy ⟨k', none, false⟩)
      (fun _ e' => Quiet e e') (fun _ => False) := fun e1 k' h =>
    .ofOk (a := ()) (e₂ := { e1 with keys := e1.keys - 1, acts := .keyGone :: e1.acts }) rfl ⟨h.faults, h.made, h.vals⟩
  cases take with
  | moves => exact mv e ⟨rfl, rfl, rfl⟩
  | copies =>
    refine (mayThrow_quiet e).bind fun _ => .at fun e1 h1 => ?_
    refine ((newRep_quiet _ k e1).conseq (fun _ h => h) (fun _ _ h => h) fun _ h' => fail h1 h').bind fun r => ?_
    refine Triple.ret ?_
    rintro e' ⟨rfl, hq⟩
    exact ⟨⟨rfl, _, rfl⟩, h1.trans hq⟩
  | copiesMoves =>
    refine (newRep_quiet _ k e).bind fun r => .at ?_
    rintro e1 ⟨rfl, h1⟩
    refine Triple.bind ((mv e1 h1).onExc (E := fun e' => Quiet e e' ∧ ∃ n, e.faults n = true) (.at fun e2 h2 => ?_))
      fun p => .at ?_
    · exact (del e2 k h2.1).conseq (fun _ h => h) (fun _ _ h => ⟨h, h2.2⟩) (fun _ h => h.elim)
    · rintro e2 ⟨⟨hp, k', hp'⟩, hq⟩
      rw [hp']
      exact ((del e2 k' hq).conseq (fun _ h => h) (fun _ _ h => h) (fun _ h => h.elim)).bind fun _ =>
        .ret fun e3 h3 => ⟨⟨hp, k, rfl⟩, h3⟩

variable {Fa : Factory F (Ent (PRep K V))} {eqv : Ent (PRep K V) → Ent (PRep K V) → Prop}

/-- The invariant: entries in `opn` are under construction (present, without
value), all others hold the value meant for their key, as do those they need.  (No code of its
own: used in statements and proofs.) -/
structure Good (LF : Fa.Lawful eqv) (body : K → Body K V) (val : K → V) (opn : List Nat)
    (s : St (PRep K V) F) : Prop where
  fac : LF.Inv s.fac
  lt : ∀ i, (Fa.entry s.fac i).isSome → i < s.nextId
  full : ∀ i e, Fa.entry s.fac i = some e → i ∉ opn →
    e.rep.val = some (val e.rep.key) ∧ e.rep.cted = true
  opened : ∀ i ∈ opn, ∃ e, Fa.entry s.fac i = some e ∧ e.rep.val = none ∧ e.rep.cted = false
  uniq : ∀ i j e e', Fa.entry s.fac i = some e → Fa.entry s.fac j = some e' →
    e.rep.key = e'.rep.key → i = j
  closed : ∀ i e, Fa.entry s.fac i = some e → i ∉ opn → ∀ k' ∈ (body e.rep.key).asks val,
    ∃ j e', Fa.entry s.fac j = some e' ∧ j ∉ opn ∧ e'.rep.key = k'

/-- What a piece of program has changed: entries are only added, with keys
satisfying `C`, as many values constructed as entries added, and none destroyed.  (No code of its own: used in
statements and proofs.) -/
structure Ext (Fa : Factory F (Ent (PRep K V))) (C : K → Prop) (s s' : St (PRep K V) F) :
    Prop where
  keep : ∀ i e, Fa.entry s.fac i = some e → Fa.entry s'.fac i = some e
  new : ∀ i e, Fa.entry s'.fac i = some e → Fa.entry s.fac i = none → C e.rep.key
  count : (Fa.ids s'.fac).length + s.env.made = (Fa.ids s.fac).length + s'.env.made
  alive : s'.env.vals + s.env.made = s.env.vals + s'.env.made
  objs : s'.objs = s.objs
  depth : s'.depth = s.depth
  faults : s'.env.faults = s.env.faults
  next : s.nextId ≤ s'.nextId
  addr : ∀ i, i < s.nextId → s'.addr i = s.addr i
  ini : s.inited = true → s'.inited = true

theorem Ext.trans {C : K → Prop} {s s' s'' : St (PRep K V) F} (h : Ext Fa C s s')
    (h' : Ext Fa C s' s'') : Ext Fa C s s'' where
  keep i e he := h'.keep i e (h.keep i e he)
  new i e he hn := by
    cases hm : Fa.entry s'.fac i with
    | none => exact h'.new i e he hm
    | some e' =>
      have := h'.keep i e' hm
      rw [he] at this
      cases this
      exact h.new i e hm hn
  count := by have := h.count; have := h'.count; omega
  alive := by have := h.alive; have := h'.alive; omega
  objs := h'.objs.trans h.objs
  depth := h'.depth.trans h.depth
  faults := h'.faults.trans h.faults
  next := Nat.le_trans h.next h'.next
  addr i hi := (h'.addr i (Nat.lt_of_lt_of_le hi h.next)).trans (h.addr i hi)
  ini hi := h'.ini (h.ini hi)

theorem Ext.mono {C C' : K → Prop} {s s' : St (PRep K V) F} (h : Ext Fa C s s')
    (hC : ∀ k, C k → C' k) : Ext Fa C' s s' :=
  { h with new := fun i e he hn => hC _ (h.new i e he hn) }

/-- Steps that leave the factory's contents alone. -/
theorem Ext.same {C : K → Prop} {s s' : St (PRep K V) F} (hf : s'.fac = s.fac)
    (hq : Quiet s.env s'.env) (ho : s'.objs = s.objs) (hd : s'.depth = s.depth)
    (hn : s'.nextId = s.nextId) (ha : s'.addr = s.addr)
    (hi : s.inited = true → s'.inited = true) : Ext Fa C s s' where
  keep i e he := by rw [hf]; exact he
  new i e he hn := by rw [hf, hn] at he; cases he
  count := by rw [hf, hq.made]
  alive := by rw [hq.made, hq.vals]
  objs := ho
  depth := hd
  faults := hq.faults
  next := Nat.le_of_eq hn.symm
  addr i _ := by rw [ha]
  ini := hi

variable {LF : Fa.Lawful eqv} {body : K → Body K V} {val : K → V}

theorem Good.congr {opn : List Nat} {s s' : St (PRep K V) F} (h : Good LF body val opn s)
    (hf : s'.fac = s.fac) (hn : s'.nextId = s.nextId) : Good LF body val opn s' := by
  obtain ⟨h1, h2, h3, h4, h5, h6⟩ := h
  constructor <;> simpa only [hf, hn]

theorem ids_same {f f' : F} (hf : LF.Inv f) (hf' : LF.Inv f')
    (h : ∀ i, (Fa.entry f' i).isSome = (Fa.entry f i).isSome) :
    (Fa.ids f').length = (Fa.ids f).length := by
  have hp : (Fa.ids f').Perm (Fa.ids f) := by
    rw [List.perm_ext_iff_of_nodup (LF.ids_nodup hf') (LF.ids_nodup hf)]
    intro i
    rw [LF.mem_ids i hf', LF.mem_ids i hf, h]
  exact hp.length_eq

theorem ids_more {f f' : F} {h : Nat} (hf : LF.Inv f) (hf' : LF.Inv f')
    (hn : Fa.entry f h = none)
    (hv : ∀ i, (Fa.entry f' i).isSome = (decide (i = h) || (Fa.entry f i).isSome)) :
    (Fa.ids f').length = (Fa.ids f).length + 1 := by
  have hp : (Fa.ids f').Perm (h :: Fa.ids f) := by
    rw [List.perm_ext_iff_of_nodup (LF.ids_nodup hf')]
    · intro i
      rw [LF.mem_ids i hf', List.mem_cons, LF.mem_ids i hf, hv]
      simp
    · rw [List.nodup_cons]
      refine ⟨?_, LF.ids_nodup hf⟩
      rw [LF.mem_ids h hf, hn]
      simp
  exact hp.length_eq

/-! ## Insertion in the factory -/

theorem keysReadable_ok {Rep : Type} {P : Policy K V Rep} {Fa : Factory F (Ent Rep)} {e : Rep}
    {s : St Rep F} (he : (P.toKey e).isSome = true)
    (h : ∀ i ∈ Fa.ids s.fac, ∃ x, Fa.entry s.fac i = some x ∧ (P.toKey x.rep).isSome = true) :
    Core.keysReadable P Fa e s = .ok () s := by
  unfold Core.keysReadable
  simp only [bind, M.bind, M.read]
  rw [if_pos]
  · rfl
  · rw [Bool.and_eq_true, List.all_eq_true]
    refine ⟨he, fun i hi => ?_⟩
    obtain ⟨x, hx, hk⟩ := h i hi
    rw [hx]
    exact hk

/-- A new entry for `k` has been linked, to be given its value.  (No code of its own: used in
statements and proofs.) -/
structure LinkedNew (Fa : Factory F (Ent (PRep K V))) (k : K) (s : St (PRep K V) F) (h : Nat)
    (s' : St (PRep K V) F) : Prop where
  fresh : Fa.entry s.fac h = none
  view : ∀ i, Fa.entry s'.fac i =
    if i = h then some ⟨⟨k, none, false⟩, 0, 0⟩ else Fa.entry s.fac i
  none_eqv : ∀ i e, Fa.entry s.fac i = some e → e.rep.key ≠ k
  quiet : Quiet s.env s'.env
  objs : s'.objs = s.objs
  depth : s'.depth = s.depth
  next : s'.nextId = s.nextId + 1
  id : h = s.nextId
  addr : ∀ i, i < s.nextId → s'.addr i = s.addr i
  ini : s'.inited = s.inited

variable {u : UserFns K V}

theorem facInsert_spec (heq : ∀ e e', eqv e e' ↔ e.rep.key = e'.rep.key) {opn : List Nat}
    {s : St (PRep K V) F} {k : K} {rest : List (PRep K V)}
    (hG : Good LF body val opn s) (hi : s.inited = true)
    (hl : s.locals = ⟨k, none, false⟩ :: rest)
    (hopn : ∀ i ∈ opn, ∀ e, Fa.entry s.fac i = some e → e.rep.key ≠ k) :
    Triple (· = s) (Core.facInsert (PRep.policy u) Fa)
      (fun h s' => (∃ k', s'.locals = ⟨k', none, false⟩ :: rest) ∧
        ((Good LF body val opn s' ∧ Ext Fa (fun _ => False) s s' ∧ h ∉ opn ∧
            ∃ e, Fa.entry s'.fac h = some e ∧ e.rep.key = k) ∨
          (Good LF body val (h :: opn) s' ∧ LinkedNew Fa k s h s')))
      (fun s' => (∃ k', s'.locals = ⟨k', none, false⟩ :: rest) ∧ Good LF body val opn s' ∧
        Ext Fa (fun _ => False) s s' ∧ ∃ n, s.env.faults n = true) := by
  unfold Core.facInsert
  refine Triple.bind (R := fun _ s' => s' = s) ?_ fun _ => ?_
  · exact .ofOk (a := ()) (by simp [Core.deref, bind, M.bind, M.read, hi]; rfl) rfl
  refine Triple.bind (R := fun e s' => e = ⟨k, none, false⟩ ∧ s' = s) ?_ fun e => ?_
  · exact .ofOk (a := ⟨k, none, false⟩) (e₂ := s)
      (by simp [Core.topLocal, bind, M.bind, M.read, hl]; rfl) ⟨rfl, rfl⟩
  refine Triple.pull fun he => ?_
  subst he
  refine Triple.bind (R := fun _ s' => s' = s) ?_ fun _ => ?_
  · refine .ofOk (a := ()) (e₂ := s) (keysReadable_ok rfl fun i hi => ?_) rfl
    rw [LF.mem_ids i hG.fac] at hi
    obtain ⟨x, hx⟩ := Option.isSome_iff_exists.1 hi
    exact ⟨x, hx, rfl⟩
  refine Triple.bind ((Setup.env_triple (mayThrow_quiet s.env)).conseq (fun _ h => h)
    (fun _ _ h => h) ?_) fun _ => ?_
  · rintro s' ⟨e', ⟨hq, hf⟩, rfl⟩
    exact ⟨⟨k, hl⟩, hG.congr rfl rfl, Ext.same rfl hq rfl rfl rfl rfl id, hf⟩
  refine Triple.at ?_
  rintro s1 ⟨e1, hq1, rfl⟩
  refine Triple.bind (Triple.read (Q := fun a s' => a = s' ∧ s' = { s with env := e1 })
    fun s' h => ⟨rfl, h⟩) fun sr => ?_
  refine Triple.at ?_
  rintro s1 ⟨rfl, rfl⟩
  simp only
  have hlk := LF.lookup_entry (f := s.fac) ⟨⟨k, none, false⟩, 0, 0⟩
  have hlinv := LF.lookup_inv (f := s.fac) ⟨⟨k, none, false⟩, 0, 0⟩ hG.fac
  cases hlook : Fa.lookup s.fac ⟨⟨k, none, false⟩, 0, 0⟩ with
  | mk f o =>
  rw [hlook] at hlinv
  have hvf : ∀ i, Fa.entry f i = Fa.entry s.fac i := fun i => by
    have := hlk i hG.fac
    rw [hlook] at this
    exact this
  have hidf : (Fa.ids f).length = (Fa.ids s.fac).length :=
    ids_same (LF := LF) hG.fac hlinv fun i => by rw [hvf]
  have hG1 : ∀ e : Env, Good LF body val opn { s with env := e, fac := f } := by
    intro e
    obtain ⟨h1, h2, h3, h4, h5, h6⟩ := hG
    constructor <;> simp only [hvf]
    · exact hlinv
    · exact h2
    · exact h3
    · exact h4
    · exact h5
    · exact h6
  have hE1 : ∀ e : Env, Quiet s.env e →
      Ext Fa (fun _ => False) s { s with env := e, fac := f } := by
    intro e hq
    exact {
      keep := fun i e he => by rw [hvf]; exact he
      new := fun i e he hn => by simp only [hvf, hn] at he; cases he
      count := by rw [hidf, hq.made]
      alive := by rw [hq.made, hq.vals]
      objs := rfl
      depth := rfl
      faults := hq.faults
      next := Nat.le_refl _
      addr := fun _ _ => rfl
      ini := id }
  cases o with
  | some i =>
    have hs := LF.lookup_some (f := s.fac) ⟨⟨k, none, false⟩, 0, 0⟩ i hG.fac (by rw [hlook])
    obtain ⟨e', he', hev⟩ := hs
    have hk : e'.rep.key = k := (heq _ _).1 hev
    refine .ofOk (a := i) rfl ⟨⟨k, hl⟩, .inl ⟨hG1 e1, hE1 e1 hq1, ?_, e', ?_, hk⟩⟩
    · exact fun hm => hopn i hm e' he' hk
    · rw [hvf]; exact he'
  | none =>
    have hs := LF.lookup_none (f := s.fac) ⟨⟨k, none, false⟩, 0, 0⟩ hG.fac (by rw [hlook])
    have hne : ∀ i e, Fa.entry s.fac i = some e → e.rep.key ≠ k := fun i e he hk =>
      hs i e he ((heq _ _).2 hk)
    simp only
    refine Triple.bind (Triple.update (Q := fun _ s' => s' = { s with env := e1, fac := f })
      fun s' h => by rw [h]) fun _ => ?_
    refine Triple.bind (R := fun (p : PRep K V × PRep K V) s' =>
        (p.1 = ⟨k, none, false⟩ ∧ ∃ k', p.2 = ⟨k', none, false⟩) ∧
        ∃ e3, Quiet s.env e3 ∧ s' = { s with env := e3, fac := f }) ?_ fun p => ?_
    · refine (Setup.env_triple (makeNode_quiet u Fa.take k e1)).conseq (fun _ h => h) ?_ ?_
      · rintro p s' ⟨e', ⟨hp, hq⟩, rfl⟩
        exact ⟨hp, e', hq1.trans hq, rfl⟩
      · rintro s' ⟨e', ⟨hq, n, hf⟩, rfl⟩
        exact ⟨⟨k, hl⟩, hG1 e', hE1 e' (hq1.trans hq), n, by rw [← hq1.faults]; exact hf⟩
    refine Triple.pull fun hp => ?_
    obtain ⟨hp1, k', hp2⟩ := hp
    refine Triple.at ?_
    rintro s3 ⟨e3, hq3, rfl⟩
    have hfresh : Fa.entry s.fac s.nextId = none := by
      cases he' : Fa.entry s.fac s.nextId with
      | none => rfl
      | some e' => exact absurd (hG.lt s.nextId (by simp [he'])) (Nat.lt_irrefl _)
    have hview : ∀ i, Fa.entry (Fa.link f s.nextId ⟨p.1, 0, 0⟩) i =
        if i = s.nextId then some ⟨⟨k, none, false⟩, 0, 0⟩ else Fa.entry s.fac i := by
      intro i
      have := LF.link_entry (f := f) s.nextId ⟨p.1, 0, 0⟩ i hlinv (by rw [hvf]; exact hfresh)
      rw [this, hvf, hp1]
    have hlnk : LF.Inv (Fa.link f s.nextId ⟨p.1, 0, 0⟩) := by
      refine LF.link_inv _ _ hlinv (by rw [hvf]; exact hfresh) ?_
      intro j e he hev
      rw [hvf] at he
      have := (heq _ _).1 hev
      rw [hp1] at this
      exact hne j e he this
    refine .ofOk (a := s.nextId) rfl ⟨⟨k', by simp [hl, hp2]⟩, .inr ⟨?_, ?_⟩⟩
    · constructor
      · exact hlnk
      · intro i hi'
        simp only [hview] at hi' ⊢
        by_cases h : i = s.nextId
        · omega
        · rw [if_neg h] at hi'
          exact Nat.lt_succ_of_lt (hG.lt i hi')
      · intro i e he hno
        simp only [hview] at he
        rw [List.mem_cons, not_or] at hno
        rw [if_neg hno.1] at he
        exact hG.full i e he hno.2
      · intro i hi'
        simp only [hview]
        rcases List.mem_cons.1 hi' with rfl | hi'
        · exact ⟨_, if_pos rfl, rfl, rfl⟩
        · obtain ⟨e, he, h1, h2⟩ := hG.opened i hi'
          refine ⟨e, ?_, h1, h2⟩
          rw [if_neg, he]
          rintro rfl
          rw [hfresh] at he; cases he
      · intro i j e e' he he' hkk
        simp only [hview] at he he'
        by_cases h : i = s.nextId
        · by_cases h' : j = s.nextId
          · omega
          · rw [if_neg h'] at he'
            rw [if_pos h] at he
            cases he
            exact absurd hkk.symm (hne j e' he')
        · rw [if_neg h] at he
          by_cases h' : j = s.nextId
          · rw [if_pos h'] at he'
            cases he'
            exact absurd hkk (hne i e he)
          · rw [if_neg h'] at he'
            exact hG.uniq i j e e' he he' hkk
      · intro i e he hno kk hkk
        simp only [hview] at he
        rw [List.mem_cons, not_or] at hno
        rw [if_neg hno.1] at he
        obtain ⟨j, e', he', hj, hjk⟩ := hG.closed i e he hno.2 kk hkk
        have hjn : j ≠ s.nextId := by
          rintro rfl
          rw [hfresh] at he'; cases he'
        refine ⟨j, e', by simp only [hview, if_neg hjn]; exact he', ?_, hjk⟩
        rw [List.mem_cons, not_or]
        exact ⟨hjn, hj⟩
    · exact ⟨hfresh, hview, hne, hq3, rfl, rfl, rfl, rfl,
        fun i hi' => by simp [Nat.ne_of_lt hi'], rfl⟩

/-! ## Nested requests -/

/-- On the keys in `D`, constructors end with the value meant for the key, and
ask only for keys in `D` of smaller rank.  (No code of its own: used in statements and proofs.) -/
structure Sound (body : K → Body K V) (val : K → V) (D : K → Prop) (rank : K → Nat) : Prop where
  value : ∀ k, D k → (body k).value val = some (val k)
  asks : ∀ k, D k → ∀ k' ∈ (body k).asks val, D k' ∧ rank k' < rank k

/-- A request has succeeded.  (No code of its own: used in statements and proofs.) -/
structure Done (LF : Fa.Lawful eqv) (body : K → Body K V) (val : K → V) (opn : List Nat) (k : K)
    (h : Nat) (s s' : St (PRep K V) F) : Prop where
  good : Good LF body val opn s'
  ext : Ext Fa (Needs body val k) s s'
  locals : s'.locals = s.locals
  closed : h ∉ opn
  ini : s'.inited = true
  entry : ∃ e, Fa.entry s'.fac h = some e ∧ e.rep.key = k

/-- Something has thrown.  (No code of its own: used in statements and proofs.) -/
structure Fail (LF : Fa.Lawful eqv) (body : K → Body K V) (val : K → V) (opn : List Nat)
    (C : K → Prop) (s s' : St (PRep K V) F) : Prop where
  good : Good LF body val opn s'
  ext : Ext Fa C s s'
  locals : s'.locals = s.locals
  faulty : ∃ n, s.env.faults n = true

theorem Fail.mono {opn : List Nat} {C C' : K → Prop} {s s' : St (PRep K V) F}
    (h : Fail LF body val opn C s s') (hC : ∀ k, C k → C' k) : Fail LF body val opn C' s s' :=
  ⟨h.good, h.ext.mono hC, h.locals, h.faulty⟩

theorem entry_ok {s : St (PRep K V) F} {h : Nat} {e : Ent (PRep K V)} (hi : s.inited = true)
    (he : Fa.entry s.fac h = some e) : Core.entry Fa h s = .ok e s := by
  show M.bind Core.deref _ s = _
  simp [M.bind, Core.deref, bind, M.read, hi, pure, M.ret, he]

theorem valueOf_ok {opn : List Nat} {s : St (PRep K V) F} {h : Nat} {e : Ent (PRep K V)}
    (hG : Good LF body val opn s) (hi : s.inited = true) (he : Fa.entry s.fac h = some e)
    (hh : h ∉ opn) : valueOf Fa h s = .ok (val e.rep.key) s := by
  unfold valueOf
  obtain ⟨h1, h2⟩ := hG.full h e he hh
  show M.bind _ _ s = _
  simp only [M.bind, entry_ok hi he, PRep.toValue, h2, if_true, h1]
  rfl

theorem nodtor (P : Policy K V (PRep K V)) (h : Nat) :
    Core.handleDtor P Fa .noTracking h = (pure () : M (St (PRep K V) F) Unit) := rfl

/-- The entries under construction have keys of greater rank than `k`.  (No code of its own:
used in statements and proofs.) -/
def Above (Fa : Factory F (Ent (PRep K V))) (rank : K → Nat) (opn : List Nat) (k : K)
    (s : St (PRep K V) F) : Prop :=
  ∀ i ∈ opn, ∀ e, Fa.entry s.fac i = some e → rank k < rank e.rep.key

theorem Above.ext {rank : K → Nat} {opn : List Nat} {k : K} {s s' : St (PRep K V) F}
    {C : K → Prop} (h : Above Fa rank opn k s) (hG : Good LF body val opn s)
    (hE : Ext Fa C s s') : Above Fa rank opn k s' := by
  intro i hi e he
  obtain ⟨e', he', _⟩ := hG.opened i hi
  have := hE.keep i e' he'
  rw [he] at this
  cases this
  exact h i hi e he'

/-- What is assumed about the requests a constructor makes.  (No code of its own: used in
statements and proofs.) -/
def Serves (LF : Fa.Lawful eqv) (body : K → Body K V) (val : K → V) (D : K → Prop)
    (rank : K → Nat) (n : Nat) (req : K → M (St (PRep K V) F) Nat) : Prop :=
  ∀ (opn : List Nat) (k : K) (s : St (PRep K V) F), D k → rank k < n →
    Above Fa rank opn k s → Good LF body val opn s →
    Triple (· = s) (req k) (fun h s' => Done LF body val opn k h s s')
      (fun s' => Fail LF body val opn (Needs body val k) s s')

theorem runBody_spec {D : K → Prop} {rank : K → Nat} {n : Nat} {opn : List Nat}
    {P : Policy K V (PRep K V)} {req : K → M (St (PRep K V) F) Nat}
    (hreq : Serves LF body val D rank n req) {v : V} :
    ∀ (b : Body K V) (s : St (PRep K V) F), b.value val = some v →
      (∀ k ∈ b.asks val, D k ∧ rank k < n ∧ Above Fa rank opn k s) →
      Good LF body val opn s → s.inited = true →
      Triple (· = s) (runBody P Fa .noTracking req b)
        (fun w s' => w = v ∧ Good LF body val opn s' ∧
          Ext Fa (fun x => ∃ k ∈ b.asks val, Needs body val k x) s s' ∧ s'.locals = s.locals ∧
          ∀ k ∈ b.asks val, ∃ j e, Fa.entry s'.fac j = some e ∧ j ∉ opn ∧ e.rep.key = k)
        (fun s' => Fail LF body val opn (fun x => ∃ k ∈ b.asks val, Needs body val k x) s s') := by
  intro b
  induction b with
  | ret w =>
    intro s hv _ hG hi
    simp only [Body.value, Option.some.injEq] at hv
    subst hv
    exact .ofOk (e₂ := s) rfl ⟨rfl, hG, Ext.same rfl ⟨rfl, rfl, rfl⟩ rfl rfl rfl rfl id, rfl, by
      simp [Body.asks]⟩
  | ub => intro s hv; cases hv
  | ask k f ih =>
    intro s hv hk hG hi
    simp only [Body.asks, List.mem_cons, forall_eq_or_imp] at hk
    simp only [Body.value] at hv
    obtain ⟨⟨hD, hr, hA⟩, hrest⟩ := hk
    unfold runBody
    refine Triple.bind ((hreq opn k s hD hr hA hG).conseq (fun _ h => h) (fun _ _ h => h) ?_)
      fun h => ?_
    · intro s' hf
      exact hf.mono fun x hx => ⟨k, by simp [Body.asks], hx⟩
    refine Triple.at ?_
    intro s1 h1
    obtain ⟨e, he, hek⟩ := h1.entry
    rw [nodtor]
    have hE1 : Ext Fa (fun x => ∃ k' ∈ (Body.ask k f).asks val, Needs body val k' x) s s1 :=
      h1.ext.mono fun x hx => ⟨k, by simp [Body.asks], hx⟩
    have hmain : Triple (· = s1) (do
          let v ← valueOf Fa h
          runBody P Fa .noTracking req (f v))
        (fun w s' => w = v ∧ Good LF body val opn s' ∧
          Ext Fa (fun x => ∃ k' ∈ (Body.ask k f).asks val, Needs body val k' x) s s' ∧
          s'.locals = s.locals ∧ ∀ k' ∈ (Body.ask k f).asks val,
            ∃ j e, Fa.entry s'.fac j = some e ∧ j ∉ opn ∧ e.rep.key = k')
        (fun s' => Fail LF body val opn
          (fun x => ∃ k' ∈ (Body.ask k f).asks val, Needs body val k' x) s s') := by
      refine Triple.bind (R := fun w s' => w = val k ∧ s' = s1)
        (.ofOk (valueOf_ok h1.good h1.ini he h1.closed) ⟨by rw [hek], rfl⟩) fun w => ?_
      refine Triple.pull fun hw => ?_
      subst hw
      refine (ih (val k) s1 hv (fun k' hk' => ?_) h1.good h1.ini).conseq (fun _ h => h) ?_ ?_
      · obtain ⟨g1, g2, g3⟩ := hrest k' hk'
        exact ⟨g1, g2, g3.ext hG h1.ext⟩
      · rintro w s' ⟨g1, g2, g3, g4, g5⟩
        refine ⟨g1, g2, hE1.trans (g3.mono ?_), g4.trans h1.locals, ?_⟩
        · rintro x ⟨k', hk', hx⟩
          exact ⟨k', by simp [Body.asks, hk'], hx⟩
        · intro k' hk'
          simp only [Body.asks, List.mem_cons] at hk'
          rcases hk' with rfl | hk'
          · exact ⟨h, e, g3.keep h e he, h1.closed, hek⟩
          · exact g5 k' hk'
      · intro s' hf
        refine ⟨hf.good, hE1.trans (hf.ext.mono ?_), hf.locals.trans h1.locals, ?_⟩
        · rintro x ⟨k', hk', hx⟩
          exact ⟨k', by simp [Body.asks, hk'], hx⟩
        · rw [← h1.ext.faults]; exact hf.faulty
    exact Triple.scope hmain (fun a => Triple.ret fun _ h => h) (Triple.ret fun _ h => h)

/-- The visitor on a new entry: it is given its value, or stays as it was. -/
theorem visit_new {D : K → Prop} {rank : K → Nat} {n : Nat} {opn : List Nat}
    (heq : ∀ e e', eqv e e' ↔ e.rep.key = e'.rep.key) (hS : Sound body val D rank)
    {P : Policy K V (PRep K V)} {req : K → M (St (PRep K V) F) Nat}
    (hreq : Serves LF body val D rank n req) {k : K} {h : Nat} {s : St (PRep K V) F}
    (hD : D k) (hr : rank k < n + 1) (hA : Above Fa rank opn k s)
    (hG : Good LF body val (h :: opn) s) (hi : s.inited = true) (hh : h ∉ opn)
    (he : Fa.entry s.fac h = some ⟨⟨k, none, false⟩, 0, 0⟩) :
    Triple (· = s) (visit P Fa .noTracking body req h)
      (fun _ s' => Good LF body val opn s' ∧ s'.locals = s.locals ∧
        ∃ s₁, Ext Fa (Needs body val k) s s₁ ∧
          Fa.entry s₁.fac h = some ⟨⟨k, none, false⟩, 0, 0⟩ ∧
          (∀ i, Fa.entry s'.fac i = if i = h then some ⟨⟨k, some (val k), true⟩, 0, 0⟩
            else Fa.entry s₁.fac i) ∧
          LF.Inv s₁.fac ∧
          (s'.env.made = s₁.env.made + 1 ∧ s'.env.vals = s₁.env.vals + 1) ∧ s'.env.faults = s₁.env.faults ∧ s'.objs = s₁.objs ∧
          s'.depth = s₁.depth ∧ s'.nextId = s₁.nextId ∧ s'.addr = s₁.addr ∧
          s'.inited = s₁.inited)
      (fun s' => Fail LF body val (h :: opn) (Needs body val k) s s' ∧ s'.inited = true) := by
  unfold visit
  refine Triple.bind (R := fun e s' => e = ⟨⟨k, none, false⟩, 0, 0⟩ ∧ s' = s)
    (.ofOk (entry_ok hi he) ⟨rfl, rfl⟩) fun e => ?_
  refine Triple.pull fun hee => ?_
  subst hee
  simp only [Bool.false_eq_true, if_false]
  refine Triple.bind ((runBody_spec (P := P) (opn := h :: opn) hreq (body k) s (hS.value k hD) ?_ hG
    hi).conseq (fun _ h => h) (fun _ _ h => h) ?_) fun w => ?_
  · intro k' hk'
    obtain ⟨h1, h2⟩ := hS.asks k hD k' hk'
    refine ⟨h1, by omega, ?_⟩
    intro i hi' e he'
    rcases List.mem_cons.1 hi' with rfl | hi'
    · rw [he] at he'
      cases he'
      exact h2
    · exact Nat.lt_trans h2 (hA i hi' e he')
  · intro s' hf
    exact ⟨hf.mono fun x ⟨k', hk', hx⟩ => .step hk' hx, hf.ext.ini hi⟩
  refine Triple.at ?_
  rintro s1 ⟨rfl, hG1, hE1, hl1, hp1⟩
  have hE1' : Ext Fa (Needs body val k) s s1 := hE1.mono fun x ⟨k', hk', hx⟩ => .step hk' hx
  have he1 := hE1.keep h _ he
  have hi1 := hE1.ini hi
  refine Triple.bind ((Setup.env_triple (mayThrow_quiet s1.env)).conseq (fun _ h => h)
    (fun _ _ h => h) ?_) fun _ => ?_
  · rintro s' ⟨e', ⟨hq, hf⟩, rfl⟩
    refine ⟨⟨hG1.congr rfl rfl, hE1'.trans (Ext.same rfl hq rfl rfl rfl rfl id), hl1, ?_⟩, hi1⟩
    rw [← hE1.faults]; exact hf
  refine Triple.at ?_
  rintro s2 ⟨e2, hq2, rfl⟩
  have he2 : Fa.entry ({ s1 with env := e2 } : St (PRep K V) F).fac h =
    some ⟨⟨k, none, false⟩, 0, 0⟩ := he1
  refine Triple.bind (R := fun e s' => e = ⟨⟨k, none, false⟩, 0, 0⟩ ∧ s' = { s1 with env := e2 })
    (.ofOk (entry_ok hi1 he2) ⟨rfl, rfl⟩) fun e => ?_
  refine Triple.pull fun hee => ?_
  subst hee
  have hev : eqv ⟨⟨k, none, false⟩, 0, 0⟩ ⟨⟨k, some (val k), true⟩, 0, 0⟩ := (heq _ _).2 rfl
  have hev' : eqv ⟨⟨k, some (val k), true⟩, 0, 0⟩ ⟨⟨k, none, false⟩, 0, 0⟩ := (heq _ _).2 rfl
  have hview : ∀ i, Fa.entry (Fa.update s1.fac h ⟨⟨k, some (val k), true⟩, 0, 0⟩) i =
      if i = h then some ⟨⟨k, some (val k), true⟩, 0, 0⟩ else Fa.entry s1.fac i :=
    fun i => LF.update_entry h _ _ i hG1.fac he1 hev hev'
  have hinv := LF.update_inv h _ _ hG1.fac he1 hev hev'
  refine .ofOk (a := ()) rfl ⟨?_, hl1, s1, hE1', he1, hview, hG1.fac, ?_, hq2.faults, rfl, rfl, rfl,
    rfl, rfl⟩
  · constructor
    · exact hinv
    · intro i hi'
      simp only [hview] at hi'
      by_cases hih : i = h
      · subst hih
        exact hG1.lt i (by rw [he1]; rfl)
      · rw [if_neg hih] at hi'
        exact hG1.lt i hi'
    · intro i e he' hno
      simp only [hview] at he'
      by_cases hih : i = h
      · rw [if_pos hih] at he'
        cases he'
        exact ⟨rfl, rfl⟩
      · rw [if_neg hih] at he'
        exact hG1.full i e he' (by rw [List.mem_cons, not_or]; exact ⟨hih, hno⟩)
    · intro i hi'
      have hih : i ≠ h := by rintro rfl; exact hh hi'
      simp only [hview, if_neg hih]
      exact hG1.opened i (List.mem_cons_of_mem _ hi')
    · have hkey : ∀ i e, Fa.entry (Fa.update s1.fac h ⟨⟨k, some (val k), true⟩, 0, 0⟩) i = some e →
          ∃ e', Fa.entry s1.fac i = some e' ∧ e'.rep.key = e.rep.key := by
        intro i e he'
        rw [hview] at he'
        by_cases hih : i = h
        · rw [if_pos hih] at he'
          cases he'
          exact ⟨⟨⟨k, none, false⟩, 0, 0⟩, by rw [hih]; exact he1, rfl⟩
        · rw [if_neg hih] at he'
          exact ⟨e, he', rfl⟩
      intro i j e e' h1 h2 h3
      obtain ⟨a, ha, hak⟩ := hkey i e h1
      obtain ⟨b, hb, hbk⟩ := hkey j e' h2
      exact hG1.uniq i j a b ha hb (by rw [hak, hbk, h3])
    · intro i e he' hno k' hk'
      simp only [hview] at he'
      have hfind : ∀ j e', Fa.entry s1.fac j = some e' → j ∉ h :: opn → e'.rep.key = k' →
          ∃ j e', Fa.entry (Fa.update s1.fac h ⟨⟨k, some (val k), true⟩, 0, 0⟩) j = some e' ∧
            j ∉ opn ∧ e'.rep.key = k' := by
        intro j e' hj hno' hjk
        rw [List.mem_cons, not_or] at hno'
        exact ⟨j, e', by rw [hview, if_neg hno'.1]; exact hj, hno'.2, hjk⟩
      by_cases hih : i = h
      · rw [if_pos hih] at he'
        cases he'
        obtain ⟨j, e', hj, hno', hjk⟩ := hp1 k' hk'
        exact hfind j e' hj hno' hjk
      · rw [if_neg hih] at he'
        obtain ⟨j, e', hj, hno', hjk⟩ := hG1.closed i e he' (by
          rw [List.mem_cons, not_or]; exact ⟨hih, hno⟩) k' hk'
        exact hfind j e' hj hno' hjk
  · show e2.made + 1 = s1.env.made + 1 ∧ e2.vals + 1 = s1.env.vals + 1
    rw [hq2.made, hq2.vals]
    exact ⟨rfl, rfl⟩

theorem facErase_nested {opn : List Nat} {k : K} {h : Nat} {s : St (PRep K V) F}
    (hG : Good LF body val (h :: opn) s) (hi : s.inited = true) (hh : h ∉ opn)
    (he : Fa.entry s.fac h = some ⟨⟨k, none, false⟩, 0, 0⟩) :
    ∃ e', Quiet s.env e' ∧ Core.facErase (PRep.policy u) Fa h s =
      .ok () { s with env := e', fac := Fa.erase s.fac h } ∧
    Good LF body val opn { s with env := e', fac := Fa.erase s.fac h } ∧
    (∀ i, Fa.entry (Fa.erase s.fac h) i = if i = h then none else Fa.entry s.fac i) := by
  have hview : ∀ i, Fa.entry (Fa.erase s.fac h) i = if i = h then none else Fa.entry s.fac i :=
    fun i => LF.erase_entry h i hG.fac
  refine ⟨{ s.env with keys := s.env.keys - 1, acts := .keyGone :: s.env.acts }, ⟨rfl, rfl, rfl⟩, ?_, ?_, hview⟩
  · unfold Core.facErase
    show M.bind _ _ s = _
    simp only [M.bind, entry_ok hi he]
    rfl
  · constructor
    · exact LF.erase_inv h hG.fac
    · intro i hi'
      simp only [hview] at hi'
      by_cases hih : i = h
      · rw [if_pos hih] at hi'; cases hi'
      · rw [if_neg hih] at hi'; exact hG.lt i hi'
    · intro i e he' hno
      simp only [hview] at he'
      by_cases hih : i = h
      · rw [if_pos hih] at he'; cases he'
      · rw [if_neg hih] at he'
        exact hG.full i e he' (by rw [List.mem_cons, not_or]; exact ⟨hih, hno⟩)
    · intro i hi'
      have hih : i ≠ h := by rintro rfl; exact hh hi'
      simp only [hview, if_neg hih]
      exact hG.opened i (List.mem_cons_of_mem _ hi')
    · intro i j e e' h1 h2 h3
      simp only [hview] at h1 h2
      by_cases hih : i = h
      · rw [if_pos hih] at h1; cases h1
      · by_cases hjh : j = h
        · rw [if_pos hjh] at h2; cases h2
        · rw [if_neg hih] at h1
          rw [if_neg hjh] at h2
          exact hG.uniq i j e e' h1 h2 h3
    · intro i e he' hno k' hk'
      simp only [hview] at he'
      by_cases hih : i = h
      · rw [if_pos hih] at he'; cases he'
      · rw [if_neg hih] at he'
        obtain ⟨j, e', hj, hno', hjk⟩ := hG.closed i e he' (by
          rw [List.mem_cons, not_or]; exact ⟨hih, hno⟩) k' hk'
        rw [List.mem_cons, not_or] at hno'
        exact ⟨j, e', by simp only [hview, if_neg hno'.1]; exact hj, hno'.2, hjk⟩

theorem withLocal_nested {α : Type} {s : St (PRep K V) F} {r : PRep K V}
    {m : M (St (PRep K V) F) α} {R : α → St (PRep K V) F → Prop} {RE : St (PRep K V) F → Prop}
    {Q : α → St (PRep K V) F → Prop} {E : St (PRep K V) F → Prop}
    (hm : Triple (· = { s with locals := r :: s.locals }) m R RE)
    (hQ : ∀ a s', R a s' → (∃ k', s'.locals = ⟨k', none, false⟩ :: s.locals) ∧
      ∀ e, Quiet s'.env e → Q a { s' with env := e, locals := s.locals })
    (hE : ∀ s', RE s' → (∃ k', s'.locals = ⟨k', none, false⟩ :: s.locals) ∧
      ∀ e, Quiet s'.env e → E { s' with env := e, locals := s.locals }) :
    Triple (· = s) (Core.withLocal (PRep.policy u) r m) Q E := by
  unfold Core.withLocal
  refine Triple.bind (R := fun _ s' => s' = { s with locals := r :: s.locals })
    (.ofOk rfl rfl) fun _ => ?_
  refine Triple.scope hm (fun a => ?_) ?_
  · refine Triple.at ?_
    intro s' h
    obtain ⟨⟨k', hl⟩, hQ'⟩ := hQ a s' h
    refine .ofOk (a := ()) ?_ (hQ' { s'.env with keys := s'.env.keys - 1, acts := .keyGone :: s'.env.acts } ⟨rfl, rfl, rfl⟩)
    simp only [bind, M.bind, M.read, hl]
    rfl
  · refine Triple.at ?_
    intro s' h
    obtain ⟨⟨k', hl⟩, hE'⟩ := hE s' h
    refine .ofOk (a := ()) ?_ (hE' { s'.env with keys := s'.env.keys - 1, acts := .keyGone :: s'.env.acts } ⟨rfl, rfl, rfl⟩)
    simp only [bind, M.bind, M.read, hl]
    rfl

/-- Like `Done`, while the local entry is in scope.  (No code of its own: used in statements and
proofs.) -/
structure DoneIn (LF : Fa.Lawful eqv) (body : K → Body K V) (val : K → V) (opn : List Nat) (k : K)
    (rest : List (PRep K V)) (h : Nat) (s s' : St (PRep K V) F) : Prop where
  good : Good LF body val opn s'
  ext : Ext Fa (Needs body val k) s s'
  locals : ∃ k', s'.locals = ⟨k', none, false⟩ :: rest
  closed : h ∉ opn
  ini : s'.inited = true
  entry : ∃ e, Fa.entry s'.fac h = some e ∧ e.rep.key = k

/-- Like `Fail`, while the local entry is in scope.  (No code of its own: used in statements and
proofs.) -/
structure FailIn (LF : Fa.Lawful eqv) (body : K → Body K V) (val : K → V) (opn : List Nat)
    (C : K → Prop) (rest : List (PRep K V)) (s s' : St (PRep K V) F) : Prop where
  good : Good LF body val opn s'
  ext : Ext Fa C s s'
  locals : ∃ k', s'.locals = ⟨k', none, false⟩ :: rest
  faulty : ∃ n, s.env.faults n = true

theorem locked_spec {D : K → Prop} {rank : K → Nat} {n : Nat} {opn : List Nat}
    (heq : ∀ e e', eqv e e' ↔ e.rep.key = e'.rep.key) (hS : Sound body val D rank)
    {req : K → M (St (PRep K V) F) Nat} (hreq : Serves LF body val D rank n req) {k : K}
    {s : St (PRep K V) F} {rest : List (PRep K V)} (hD : D k) (hr : rank k < n + 1)
    (hA : Above Fa rank opn k s) (hG : Good LF body val opn s) (hi : s.inited = true)
    (hl : s.locals = ⟨k, none, false⟩ :: rest) :
    Triple (· = s) (do
        let h ← Core.facInsert (PRep.policy u) Fa
        M.onExc (visit (PRep.policy u) Fa .noTracking body req h)
          (Core.facErase (PRep.policy u) Fa h)
        Core.handleCtor Fa .noTracking h
        pure h)
      (fun h s' => DoneIn LF body val opn k rest h s s')
      (fun s' => FailIn LF body val opn (Needs body val k) rest s s') := by
  refine Triple.bind ((facInsert_spec heq hG hi hl fun i hi' e he hk => ?_).conseq (fun _ h => h)
    (fun _ _ h => h) ?_) fun h => ?_
  · have := hA i hi' e he
    rw [hk] at this
    exact Nat.lt_irrefl _ this
  · rintro s' ⟨h1, h2, h3, h4⟩
    exact ⟨h2, h3.mono fun _ h => h.elim, h1, h4⟩
  refine Triple.at ?_
  rintro s1 ⟨hl1, hc⟩
  have hfin : ∀ (Q : Nat → St (PRep K V) F → Prop) (E : St (PRep K V) F → Prop),
      Triple (· = s1) (M.onExc (visit (PRep.policy u) Fa .noTracking body req h)
        (Core.facErase (PRep.policy u) Fa h)) (fun _ => Q h) E →
      Triple (· = s1) (do
        M.onExc (visit (PRep.policy u) Fa .noTracking body req h)
          (Core.facErase (PRep.policy u) Fa h)
        Core.handleCtor Fa .noTracking h
        pure h) Q E := by
    intro Q E ht
    refine Triple.bind ht fun _ => ?_
    exact Triple.bind (R := fun _ => Q h) (Triple.ret fun _ h => h) fun _ => Triple.ret fun _ h => h
  apply hfin
  rcases hc with ⟨hG1, hE1, hh, e, he, hek⟩ | ⟨hG1, hL⟩
  · -- found
    have hi1 := hE1.ini hi
    have hct := (hG1.full h e he hh).2
    have hv : visit (PRep.policy u) Fa .noTracking body req h s1 = .ok () s1 := by
      unfold visit
      show M.bind _ _ s1 = _
      simp only [M.bind, entry_ok hi1 he, hct, if_true]
      rfl
    refine .ofOk (a := ()) (e₂ := s1) (by simp only [M.onExc, hv])
      ⟨hG1, hE1.mono fun _ h => h.elim, hl1, hh, hi1, e, he, hek⟩
  · -- new
    have hi1 : s1.inited = true := by rw [hL.ini]; exact hi
    have hh : h ∉ opn := by
      intro hm
      obtain ⟨e, he, _⟩ := hG.opened h hm
      rw [hL.fresh] at he; cases he
    have he1 : Fa.entry s1.fac h = some ⟨⟨k, none, false⟩, 0, 0⟩ := by rw [hL.view, if_pos rfl]
    have hA1 : Above Fa rank opn k s1 := by
      intro i hi' e he
      have hih : i ≠ h := by rintro rfl; exact hh hi'
      rw [hL.view, if_neg hih] at he
      exact hA i hi' e he
    have hids : (Fa.ids s1.fac).length = (Fa.ids s.fac).length + 1 := by
      refine ids_more (LF := LF) hG.fac hG1.fac hL.fresh fun i => ?_
      rw [hL.view]
      by_cases hih : i = h <;> simp [hih]
    have hkeep : ∀ i e, Fa.entry s.fac i = some e → i ≠ h ∧ Fa.entry s1.fac i = some e := by
      intro i e he
      have hih : i ≠ h := by rintro rfl; rw [hL.fresh] at he; cases he
      exact ⟨hih, by rw [hL.view, if_neg hih]; exact he⟩
    refine Triple.onExc (RE := fun s' => Fail LF body val (h :: opn) (Needs body val k) s1 s' ∧
        s'.inited = true)
      ((visit_new heq hS hreq hD hr hA1 hG1 hi1 hh he1).conseq (fun _ h => h) ?_ (fun _ h => h)) ?_
    · rintro _ s' ⟨g1, g2, s2, hE, g3, g4, g5, g6, g7, g8, g9, g10, g11, g12⟩
      refine ⟨g1, ?_, ?_, hh, ?_, ⟨⟨k, some (val k), true⟩, 0, 0⟩, by rw [g4, if_pos rfl], rfl⟩
      · constructor
        · intro i e he
          obtain ⟨hih, he'⟩ := hkeep i e he
          rw [g4, if_neg hih]
          exact hE.keep i e he'
        · intro i e he hn
          rw [g4] at he
          by_cases hih : i = h
          · rw [if_pos hih] at he
            cases he
            exact .self k
          · rw [if_neg hih] at he
            refine hE.new i e he ?_
            rw [hL.view, if_neg hih]; exact hn
        · have h1 : (Fa.ids s'.fac).length = (Fa.ids s2.fac).length := by
            refine ids_same (LF := LF) g5 g1.fac fun i => ?_
            rw [g4]
            by_cases hih : i = h
            · rw [if_pos hih, hih, g3]; rfl
            · rw [if_neg hih]
          have h2 := hE.count
          have h3 := hL.quiet.made
          omega
        · have h1 := hE.alive
          have h2 := hL.quiet.made
          have h3 := hL.quiet.vals
          omega
        · rw [g8, hE.objs, hL.objs]
        · rw [g9, hE.depth, hL.depth]
        · rw [g7, hE.faults, hL.quiet.faults]
        · rw [g10]
          exact Nat.le_trans (by rw [hL.next]; exact Nat.le_succ _) hE.next
        · intro i hi'
          rw [g11, hE.addr i (by rw [hL.next]; exact Nat.lt_succ_of_lt hi'), hL.addr i hi']
        · intro _
          rw [g12]; exact hE.ini hi1
      · obtain ⟨k', hk'⟩ := hl1
        exact ⟨k', g2.trans hk'⟩
      · rw [g12]; exact hE.ini hi1
    · refine Triple.at ?_
      rintro s2 ⟨hf, hi2⟩
      obtain ⟨e', hq, hok, hG2, hv2⟩ := facErase_nested (u := u) hf.good hi2 hh
        (hf.ext.keep h _ he1)
      refine .ofOk hok ⟨hG2, ?_, ?_, ?_⟩
      · constructor
        · intro i e he
          obtain ⟨hih, he'⟩ := hkeep i e he
          show Fa.entry (Fa.erase s2.fac h) i = _
          rw [hv2, if_neg hih]
          exact hf.ext.keep i e he'
        · intro i e he hn
          simp only [hv2] at he
          by_cases hih : i = h
          · rw [if_pos hih] at he; cases he
          · rw [if_neg hih] at he
            refine hf.ext.new i e he ?_
            rw [hL.view, if_neg hih]; exact hn
        · have h1 : (Fa.ids s2.fac).length = (Fa.ids (Fa.erase s2.fac h)).length + 1 := by
            refine ids_more (LF := LF) (h := h) hG2.fac hf.good.fac (by rw [hv2, if_pos rfl])
              fun i => ?_
            rw [hv2]
            by_cases hih : i = h
            · subst hih
              rw [hf.ext.keep i _ he1]; simp
            · simp [hih]
          have h2 := hf.ext.count
          have h3 := hL.quiet.made
          have h4 := hq.made
          simp only
          omega
        · have h1 := hf.ext.alive
          have h2 := hL.quiet.made
          have h3 := hL.quiet.vals
          have h4 := hq.made
          have h5 := hq.vals
          simp only
          omega
        · exact hf.ext.objs.trans hL.objs
        · exact hf.ext.depth.trans hL.depth
        · exact hq.faults.trans (hf.ext.faults.trans hL.quiet.faults)
        · exact Nat.le_trans (by rw [hL.next]; exact Nat.le_succ _) hf.ext.next
        · intro i hi'
          exact (hf.ext.addr i (by rw [hL.next]; exact Nat.lt_succ_of_lt hi')).trans
            (hL.addr i hi')
        · intro _; exact hi2
      · obtain ⟨k', hk'⟩ := hl1
        exact ⟨k', hf.locals.trans hk'⟩
      · rw [← hL.quiet.faults]; exact hf.faulty

theorem request_spec {D : K → Prop} {rank : K → Nat}
    (heq : ∀ e e', eqv e e' ↔ e.rep.key = e'.rep.key) (hS : Sound body val D rank) :
    ∀ n, Serves LF body val D rank n (request (PRep.policy u) Fa .noTracking body n) := by
  intro n
  induction n with
  | zero => intro opn k s _ hr; exact absurd hr (Nat.not_lt_zero _)
  | succ n ih =>
    intro opn k s hD hr hA hG
    unfold request
    -- the temporary
    refine Triple.bind ((Setup.env_triple (newRep_quiet _ k s.env)).conseq (fun _ h => h)
      (fun _ _ h => h) ?_) fun x => ?_
    · rintro s' ⟨e', ⟨hq, hf⟩, rfl⟩
      exact ⟨hG.congr rfl rfl, Ext.same rfl hq rfl rfl rfl rfl id, rfl, hf⟩
    refine Triple.at ?_
    rintro s1 ⟨e1, ⟨rfl, hq1⟩, rfl⟩
    have hq1f : e1.faults = s.env.faults := hq1.faults
    refine withLocal_nested
      (R := fun h s' => DoneIn LF body val opn k s.locals h s s')
      (RE := fun s' => FailIn LF body val opn (Needs body val k) s.locals s s') ?_ ?_ ?_
    · refine Triple.bind (R := fun _ s' => s' = { s with
        env := e1, inited := true, locals := ⟨k, none, false⟩ :: s.locals }) (.ofOk rfl rfl)
        fun _ => ?_
      refine Triple.bind ((Setup.env_triple (move_quiet u k e1)).conseq (fun _ h => h) (fun _ _ h => h) ?_)
        fun p => ?_
      · rintro s' ⟨e', ⟨hq, hf⟩, rfl⟩
        refine ⟨hG.congr rfl rfl, Ext.same rfl (hq1.trans hq) rfl rfl rfl rfl (fun _ => rfl),
          ⟨k, rfl⟩, ?_⟩
        rw [← hq1f]; exact hf
      refine Triple.at ?_
      rintro s2 ⟨e2, ⟨⟨hp1, k', hp2⟩, hq2⟩, rfl⟩
      rw [hp1, hp2]
      refine Triple.bind (R := fun _ s' => s' = { s with
        env := e2, inited := true, locals := ⟨k', none, false⟩ :: s.locals }) (.ofOk rfl rfl)
        fun _ => ?_
      refine withLocal_nested
        (R := fun h s' => DoneIn LF body val opn k (⟨k', none, false⟩ :: s.locals) h s s')
        (RE := fun s' => FailIn LF body val opn (Needs body val k)
          (⟨k', none, false⟩ :: s.locals) s s') ?_ ?_ ?_
      · refine Triple.bind (R := fun _ s' => s' = { s with
          env := e2, inited := true, depth := s.depth + 1,
          locals := ⟨k, none, false⟩ :: ⟨k', none, false⟩ :: s.locals })
          (.ofOk (Setup.lock_ok rfl) rfl) fun _ => ?_
        let s3 : St (PRep K V) F := { s with
          env := e2, inited := true, depth := s.depth + 1,
          locals := ⟨k, none, false⟩ :: ⟨k', none, false⟩ :: s.locals }
        have hq3 : Quiet s.env e2 := hq1.trans hq2
        have hin := locked_spec (u := u) (rest := ⟨k', none, false⟩ :: s.locals) (s := s3) heq hS
          ih hD hr hA (hG.congr rfl rfl) rfl rfl
        have hback : ∀ (C : K → Prop) (s' : St (PRep K V) F), Ext Fa C s3 s' →
            Core.unlock s' = .ok () { s' with depth := s.depth } ∧
            Ext Fa C s { s' with depth := s.depth } := by
          intro C s' hE
          refine ⟨Setup.unlock_ok (n := s.depth) hE.depth, ?_⟩
          exact {
            keep := hE.keep
            new := hE.new
            count := by
              have h1 : (Fa.ids s'.fac).length + e2.made = (Fa.ids s.fac).length + s'.env.made :=
                hE.count
              rw [hq3.made] at h1
              exact h1
            alive := by
              have h1 : s'.env.vals + e2.made = e2.vals + s'.env.made := hE.alive
              rw [hq3.made, hq3.vals] at h1
              exact h1
            objs := hE.objs
            depth := rfl
            faults := hE.faults.trans hq3.faults
            next := hE.next
            addr := hE.addr
            ini := fun _ => hE.ini rfl }
        refine Triple.scope hin (fun h => ?_) ?_
        · refine Triple.at ?_
          intro s' hd
          obtain ⟨h1, h2⟩ := hback _ s' hd.ext
          exact .ofOk h1 ⟨hd.good.congr rfl rfl, h2, hd.locals, hd.closed, hd.ini, hd.entry⟩
        · refine Triple.at ?_
          intro s' hf
          obtain ⟨h1, h2⟩ := hback _ s' hf.ext
          refine .ofOk h1 ⟨hf.good.congr rfl rfl, h2, hf.locals, ?_⟩
          rw [← hq3.faults]; exact hf.faulty
      · intro h s' hd
        refine ⟨hd.locals, fun e hq => ?_⟩
        exact ⟨hd.good.congr rfl rfl, hd.ext.trans (Ext.same rfl hq rfl rfl rfl rfl id), ⟨k', rfl⟩,
          hd.closed, hd.ini, hd.entry⟩
      · intro s' hf
        refine ⟨hf.locals, fun e hq => ?_⟩
        exact ⟨hf.good.congr rfl rfl, hf.ext.trans (Ext.same rfl hq rfl rfl rfl rfl id), ⟨k', rfl⟩,
          hf.faulty⟩
    · intro h s' hd
      refine ⟨hd.locals, fun e hq => ?_⟩
      exact ⟨hd.good.congr rfl rfl, hd.ext.trans (Ext.same rfl hq rfl rfl rfl rfl id), rfl,
        hd.closed, hd.ini, hd.entry⟩
    · intro s' hf
      refine ⟨hf.locals, fun e hq => ?_⟩
      exact ⟨hf.good.congr rfl rfl, hf.ext.trans (Ext.same rfl hq rfl rfl rfl rfl id), rfl,
        hf.faulty⟩

/-! ## Requests made by the program -/

/-- There is an entry for `k`.  (No code of its own: used in statements and proofs.) -/
def Stored (Fa : Factory F (Ent (PRep K V))) (s : St (PRep K V) F) (k : K) : Prop :=
  ∃ i e, Fa.entry s.fac i = some e ∧ e.rep.key = k

theorem stored_needs {s : St (PRep K V) F} (hG : Good LF body val [] s) {k k' : K}
    (h : Needs body val k k') (hk : Stored Fa s k) : Stored Fa s k' := by
  induction h with
  | self k => exact hk
  | step hm _ ih =>
    obtain ⟨i, e, he, rfl⟩ := hk
    obtain ⟨j, e', he', _, hk'⟩ := hG.closed i e he (by simp) _ hm
    exact ih ⟨j, e', he', hk'⟩

theorem Ext.stored {C : K → Prop} {s s' : St (PRep K V) F} (h : Ext Fa C s s') {k : K}
    (hk : Stored Fa s k) : Stored Fa s' k := by
  obtain ⟨i, e, he, rfl⟩ := hk
  exact ⟨i, e, h.keep i e he, rfl⟩

theorem Ext.stored_iff {C : K → Prop} {s s' : St (PRep K V) F} (h : Ext Fa C s s') {k : K}
    (hk : Stored Fa s' k) : Stored Fa s k ∨ C k := by
  obtain ⟨i, e, he, rfl⟩ := hk
  cases hs : Fa.entry s.fac i with
  | none => exact .inr (h.new i e he hs)
  | some e' =>
    have := h.keep i e' hs
    rw [he] at this
    cases this
    exact .inl ⟨i, e, hs, rfl⟩

/-- The values constructed are those of the keys that were not there before,
one each. -/
theorem Ext.constructed {C : K → Prop} {s s' : St (PRep K V) F} (h : Ext Fa C s s')
    (hG : Good LF body val [] s) (hG' : Good LF body val [] s') :
    ∃ new : List K, new.Nodup ∧ (∀ k, k ∈ new ↔ Stored Fa s' k ∧ ¬ Stored Fa s k) ∧
      s'.env.made = s.env.made + new.length := by
  let ids := (Fa.ids s'.fac).filter fun i => (Fa.entry s.fac i).isNone
  let key : Nat → List K := fun i => (Fa.entry s'.fac i).toList.map fun e => e.rep.key
  have hmem : ∀ i, i ∈ ids ↔ (∃ e, Fa.entry s'.fac i = some e) ∧ Fa.entry s.fac i = none := by
    intro i
    simp only [ids, List.mem_filter, LF.mem_ids i hG'.fac, Option.isSome_iff_exists,
      Option.isNone_iff_eq_none]
  have hlen : (ids.flatMap key).length = ids.length := by
    have : ∀ l : List Nat, (∀ i ∈ l, i ∈ ids) → (l.flatMap key).length = l.length := by
      intro l
      induction l with
      | nil => intro _; rfl
      | cons i l ih =>
        intro hl
        obtain ⟨e, he⟩ := ((hmem i).1 (hl i (by simp))).1
        rw [List.flatMap_cons, List.length_append, ih fun j hj => hl j (by simp [hj])]
        simp [key, he, Nat.add_comm]
    exact this ids fun _ h => h
  have hperm : (Fa.ids s'.fac).Perm (ids ++ Fa.ids s.fac) := by
    rw [List.perm_ext_iff_of_nodup (LF.ids_nodup hG'.fac)]
    · intro i
      rw [List.mem_append, hmem, LF.mem_ids i hG'.fac, LF.mem_ids i hG.fac]
      constructor
      · intro hi
        obtain ⟨e, he⟩ := Option.isSome_iff_exists.1 hi
        cases hs : Fa.entry s.fac i with
        | none => exact .inl ⟨⟨e, he⟩, rfl⟩
        | some _ => exact .inr rfl
      · rintro (⟨⟨e, he⟩, _⟩ | hi)
        · rw [he]; rfl
        · obtain ⟨e, he⟩ := Option.isSome_iff_exists.1 hi
          rw [h.keep i e he]; rfl
    · rw [List.nodup_append]
      refine ⟨(LF.ids_nodup hG'.fac).filter _, LF.ids_nodup hG.fac, ?_⟩
      intro a ha b hb hab
      subst hab
      have h1 := ((hmem a).1 ha).2
      rw [LF.mem_ids a hG.fac, h1] at hb
      cases hb
  refine ⟨ids.flatMap key, ?_, ?_, ?_⟩
  · have : ∀ l : List Nat, l.Nodup → (l.flatMap key).Nodup := by
      intro l
      induction l with
      | nil => intro _; exact List.nodup_nil
      | cons i l ih =>
        intro hl
        rw [List.nodup_cons] at hl
        rw [List.flatMap_cons, List.nodup_append]
        refine ⟨?_, ih hl.2, ?_⟩
        · simp only [key]
          cases Fa.entry s'.fac i <;> simp
        · intro a ha b hb hab
          subst hab
          rw [List.mem_flatMap] at hb
          obtain ⟨j, hj, hb⟩ := hb
          simp only [key, List.mem_map, Option.mem_toList] at ha hb
          obtain ⟨e, he, rfl⟩ := ha
          obtain ⟨e', he', hk⟩ := hb
          have := hG'.uniq i j e e' he he' hk.symm
          subst this
          exact hl.1 hj
    exact this ids ((LF.ids_nodup hG'.fac).filter _)
  · intro k
    simp only [List.mem_flatMap, key, List.mem_map, Option.mem_toList]
    constructor
    · rintro ⟨i, hi, e, he, rfl⟩
      refine ⟨⟨i, e, he, rfl⟩, ?_⟩
      rintro ⟨j, e', he', hk⟩
      have := hG'.uniq j i e' e (h.keep j e' he') he hk
      subst this
      rw [((hmem j).1 hi).2] at he'
      cases he'
    · rintro ⟨⟨i, e, he, rfl⟩, hno⟩
      refine ⟨i, (hmem i).2 ⟨⟨e, he⟩, ?_⟩, e, he, rfl⟩
      cases hs : Fa.entry s.fac i with
      | none => rfl
      | some e' =>
        have := h.keep i e' hs
        rw [he] at this
        cases this
        exact absurd ⟨i, e, hs, rfl⟩ hno
  · have h1 := hperm.length_eq
    rw [List.length_append] at h1
    have h2 := h.count
    rw [hlen]
    omega

/-- One request of the program. -/
theorem get_spec {D : K → Prop} {rank : K → Nat} {n : Nat}
    (heq : ∀ e e', eqv e e' ↔ e.rep.key = e'.rep.key) (hS : Sound body val D rank)
    {k : K} {s : St (PRep K V) F} (hD : D k) (hr : rank k < n) (hG : Good LF body val [] s) :
    Triple (· = s) (do
        let h ← request (PRep.policy u) Fa .noTracking body n k
        M.scope (valueOf Fa h) (Core.handleDtor (PRep.policy u) Fa .noTracking h))
      (fun v s' => v = val k ∧ Good LF body val [] s' ∧ Ext Fa (Needs body val k) s s' ∧
        Stored Fa s' k)
      (fun s' => Good LF body val [] s' ∧ Ext Fa (Needs body val k) s s' ∧
        ∃ n, s.env.faults n = true) := by
  refine Triple.bind ((request_spec (u := u) heq hS n [] k s hD hr (by
    intro i hi; cases hi) hG).conseq (fun _ h => h) (fun _ _ h => h) ?_) fun h => ?_
  · intro s' hf; exact ⟨hf.good, hf.ext, hf.faulty⟩
  refine Triple.at ?_
  intro s' hd
  obtain ⟨e, he, rfl⟩ := hd.entry
  rw [nodtor]
  refine Triple.scope (R := fun v s'' => v = val e.rep.key ∧ s'' = s') (RE := fun _ => False)
    (.ofOk (valueOf_ok hd.good hd.ini he (by simp)) ⟨rfl, rfl⟩) (fun v => ?_) ?_
  · refine Triple.ret ?_
    rintro s'' ⟨rfl, rfl⟩
    exact ⟨rfl, hd.good, hd.ext, h, e, he, rfl⟩
  · exact fun _ h => h.elim

/-- Requests of the program, one after another. -/
theorem requests_spec {D : K → Prop} {rank : K → Nat} {n : Nat}
    (heq : ∀ e e', eqv e e' ↔ e.rep.key = e'.rep.key) (hS : Sound body val D rank) :
    ∀ (ks : List K) (s : St (PRep K V) F), (∀ k ∈ ks, D k ∧ rank k < n) →
      Good LF body val [] s →
      ∃ outs s', requests (PRep.policy u) Fa .noTracking body n ks s = some (outs, s') ∧
        Good LF body val [] s' ∧ Ext Fa (fun x => ∃ k ∈ ks, Needs body val k x) s s' ∧
        outs.length = ks.length ∧
        (∀ (i : Nat) (k : K), ks[i]? = some k →
          (outs[i]? = some (some (val k)) ∧ Stored Fa s' k) ∨
          (outs[i]? = some none ∧ ∃ n, s.env.faults n = true)) := by
  intro ks
  induction ks with
  | nil =>
    intro s _ hG
    exact ⟨[], s, rfl, hG, Ext.same rfl ⟨rfl, rfl, rfl⟩ rfl rfl rfl rfl id, rfl, by simp⟩
  | cons k ks ih =>
    intro s hk hG
    obtain ⟨hD, hr⟩ := hk k (by simp)
    have ht := get_spec (u := u) heq hS hD hr hG s rfl
    rw [requests]
    generalize hm : (do
        let h ← request (PRep.policy u) Fa .noTracking body n k
        M.scope (valueOf Fa h) (Core.handleDtor (PRep.policy u) Fa .noTracking h) :
          M (St (PRep K V) F) V) s = r at ht
    cases r with
    | ok v s1 =>
      obtain ⟨rfl, hG1, hE1, hs1⟩ := ht
      obtain ⟨outs, s', h1, h2, h3, h4, h5⟩ := ih s1 (fun k' hk' => hk k' (by simp [hk'])) hG1
      refine ⟨some (val k) :: outs, s', ?_, h2, ?_, by simp [h4], ?_⟩
      · simp only [h1]; rfl
      · exact (hE1.mono fun x hx => ⟨k, by simp, hx⟩).trans
          (h3.mono fun x ⟨k', hk', hx⟩ => ⟨k', by simp [hk'], hx⟩)
      · intro i k' hi
        cases i with
        | zero =>
          simp only [List.getElem?_cons_zero, Option.some.injEq] at hi
          subst hi
          exact .inl ⟨rfl, h3.stored hs1⟩
        | succ i =>
          simp only [List.getElem?_cons_succ] at hi ⊢
          rw [← hE1.faults]
          exact h5 i k' hi
    | exc s1 =>
      obtain ⟨hG1, hE1, hf⟩ := ht
      obtain ⟨outs, s', h1, h2, h3, h4, h5⟩ := ih s1 (fun k' hk' => hk k' (by simp [hk'])) hG1
      refine ⟨none :: outs, s', ?_, h2, ?_, by simp [h4], ?_⟩
      · simp only [h1]; rfl
      · exact (hE1.mono fun x hx => ⟨k, by simp, hx⟩).trans
          (h3.mono fun x ⟨k', hk', hx⟩ => ⟨k', by simp [hk'], hx⟩)
      · intro i k' hi
        cases i with
        | zero => exact .inr ⟨rfl, hf⟩
        | succ i =>
          simp only [List.getElem?_cons_succ] at hi ⊢
          rw [← hE1.faults]
          exact h5 i k' hi
    | ub => exact ht.elim

theorem start_good (faults : Nat → Bool) (alloc : Nat → List Nat → Nat) :
    Good LF body val [] (Core.start Fa faults alloc) := by
  have h := LF.entry_empty
  constructor
  · exact LF.inv_empty
  · intro i hi; simp [Core.start, h] at hi
  · intro i e he; simp [Core.start, h] at he
  · intro i hi; cases hi
  · intro i j e e' he; simp [Core.start, h] at he
  · intro i e he; simp [Core.start, h] at he

end Verif.Nested

import Verif.CoreHandle

/-!
# Sequential core: insertion
-/

set_option autoImplicit false

namespace Verif
namespace Setup
variable {K V Rep F : Type} {S : Setup K V Rep F}

/-- The innermost local has been replaced by an object with the same resources.  (No code of its
own: used in statements and proofs.) -/
def Loc (S : Setup K V Rep F) (s s' : St Rep F) : Prop :=
  ∃ r r' rest, s.locals = r :: rest ∧ s'.locals = r' :: rest ∧ S.L.Live r' ∧ S.L.res r' = S.L.res r

theorem Loc.trans {s s' s'' : St Rep F} (h : Loc S s s') (h' : Loc S s' s'') : Loc S s s'' := by
  obtain ⟨r, r', rest, h1, h2, h3, h4⟩ := h
  obtain ⟨q, q', rest', g1, g2, g3, g4⟩ := h'
  rw [h2] at g1
  cases g1
  exact ⟨r, q', rest, h1, g2, g3, g4.trans h4⟩

theorem Loc.sum {s s' : St Rep F} (h : Loc S s s') (g : Int × Int → Int) :
    (s'.locals.map fun r => g (S.L.res r)).sum = (s.locals.map fun r => g (S.L.res r)).sum := by
  obtain ⟨r, r', rest, h1, h2, h3, h4⟩ := h
  rw [h1, h2]
  simp [h4]

/-- The state after an insertion has failed: same contents as before.  (No code of its own: used
in statements and proofs.) -/
structure Rolled (S : Setup K V Rep F) (ext : Nat → Nat) (s s' : St Rep F) : Prop where
  inv : S.Inv ext s'
  loc : Loc S s s'
  objs : s'.objs = s.objs
  depth : s'.depth = s.depth
  faults : s'.env.faults = s.env.faults
  ini : s.inited = true → s'.inited = true
  at_ : ∀ i b, S.At s' i b ↔ S.At s i b

/-- An exception can only come from a user operation that throws.  (No code of its own: used in
statements and proofs.) -/
def Faulty (s : St Rep F) : Prop := ∃ n, s.env.faults n = true

/-- The state after a new, not yet visited, entry `h` has been linked.  (No code of its own:
used in statements and proofs.) -/
structure Linked (S : Setup K V Rep F) (src : Src K V) (s : St Rep F) (h : Nat) (r : Rep)
    (s' : St Rep F) : Prop where
  id : h = s.nextId
  next : s'.nextId = s.nextId + 1
  fresh : S.Fa.entry s.fac h = none
  inv : S.LF.Inv s'.fac
  view : ∀ i, S.Fa.entry s'.fac i = if i = h then some ⟨r, 0, 0⟩ else S.Fa.entry s.fac i
  rep : S.L.Fresh src r
  loc : Loc S s s'
  addr : ∀ i, s'.addr i = if i = h then s'.addr h else s.addr i
  naddr : ∀ i, (S.Fa.entry s.fac i).isSome → s.addr i ≠ s'.addr h
  source : ∃ l, s'.addr h = s.alloc h l
  alloc : s'.alloc = s.alloc
  objs : s'.objs = s.objs
  depth : s'.depth = s.depth
  ini : s'.inited = s.inited
  shift : s.env.Shift s'.env (S.L.res r)
  none_eqv : ∀ i b, S.At s i b → S.keq b.key (S.sp.key0 src) = false

theorem Inv.setEnv {ext : Nat → Nat} {s : St Rep F} (hI : S.Inv ext s) {e : Env}
    (h : s.env.Shift e (0, 0)) : S.Inv ext { s with env := e } :=
  hI.congr hI.fac (fun _ => rfl) rfl (fun _ _ => rfl) rfl (Nat.le_refl _) (fun h => h)
    (by have := hI.keys; have := h.keys; simp_all [tot])
    (by have := hI.vals; have := h.vals; simp_all [tot])

theorem Inv.setFac {ext : Nat → Nat} {s : St Rep F} (hI : S.Inv ext s) {f : F}
    (hf : S.LF.Inv f) (hv : ∀ i, S.Fa.entry f i = S.Fa.entry s.fac i) :
    S.Inv ext { s with fac := f } :=
  hI.congr hf hv rfl (fun _ _ => rfl) rfl (Nat.le_refl _) (fun h => h)
    (hI.keys.trans (tot_congr (S := S) (s := s) (s' := { s with fac := f }) Prod.fst hv rfl rfl).symm)
    (hI.vals.trans (tot_congr (S := S) (s := s) (s' := { s with fac := f }) Prod.snd hv rfl rfl).symm)

theorem Inv.setInited {ext : Nat → Nat} {s : St Rep F} (hI : S.Inv ext s) :
    S.Inv ext { s with inited := true } :=
  hI.congr hI.fac (fun _ => rfl) rfl (fun _ _ => rfl) rfl (Nat.le_refl _) (fun _ => rfl)
    hI.keys hI.vals

theorem Inv.setDepth {ext : Nat → Nat} {s : St Rep F} (hI : S.Inv ext s) (n : Nat) :
    S.Inv ext { s with depth := n } :=
  hI.congr hI.fac (fun _ => rfl) rfl (fun _ _ => rfl) rfl (Nat.le_refl _) (fun h => h)
    hI.keys hI.vals

/-- The equivalence of stored entries with a fresh one, in terms of keys. -/
theorem eqv_iff {s : St Rep F} {i : Nat} {e : Ent Rep} {b : Bind K V} {src : Src K V} {r : Rep}
    {a c : Int} (hb : S.At s i b) (he : S.Fa.entry s.fac i = some e) (hr : S.L.Fresh src r) :
    S.eqv e ⟨r, a, c⟩ ↔ S.keq b.key (S.sp.key0 src) = true := by
  obtain ⟨e', he', hf, _⟩ := hb
  rw [he] at he'
  cases he'
  exact S.hkey e ⟨r, a, c⟩ _ _ (S.L.full_key hf) (S.L.fresh_key hr)

/-- Making the entry of a node leaves the argument live and one more fresh object. -/
theorem makeNode_law {P : Policy K V Rep} {sp : SrcSpec K V} (L : P.Lawful sp) (take : Take) (src : Src K V) (r : Rep) (e : Env) (hr : L.Fresh src r) :
    Triple (· = e) (Core.makeNode P take r)
      (fun p e' => L.Fresh src p.1 ∧ L.Live p.2 ∧ L.res p.2 = L.res r ∧ e.Shift e' (L.res p.1))
      (fun e' => e.Failed e') := by
  have alloc : ∀ e0 : Env, Triple (· = e0) mayThrow (fun _ e' => e0.Shift e' (0, 0)) (fun e' => e0.Failed e') :=
    fun e0 => (mayThrow_triple e0).conseq (fun _ h => h)
      (fun _ _ h => by rw [h]; exact ⟨rfl, Nat.le_succ _, by simp, by simp⟩)
      (fun _ h => by rw [h.1]; exact failed_tick h.2)
  have fail : ∀ {e0 e1 e2 : Env}, e0.Shift e1 (0, 0) → e1.Failed e2 → e0.Failed e2 := fun h h' =>
    ⟨(h.trans h'.shift).cast (by simp) (by simp), by rw [← h.faults]; exact h'.fault⟩
  cases take with
  | moves =>
    refine (alloc e).bind fun _ => .at fun e1 h1 => (L.move src r e1 hr).conseq (fun _ h => h) ?_
      fun _ h => fail h1 h
    rintro p e2 ⟨a, b, c, d⟩
    exact ⟨a, b, c, (h1.trans d).cast (by simp) (by simp)⟩
  | copies =>
    refine (alloc e).bind fun _ => .at fun e1 h1 => ?_
    refine ((L.copy src r e1 hr).conseq (fun _ h => h) (fun _ _ h => h) fun _ h => fail h1 h).bind fun r' => ?_
    refine .ret ?_
    rintro e2 ⟨a, d⟩
    exact ⟨a, L.fresh_live hr, rfl, (h1.trans d).cast (by simp) (by simp)⟩
  | copiesMoves =>
    refine (L.copy src r e hr).bind fun x => .at ?_
    rintro e1 ⟨hx, h1⟩
    have hmove : Triple (· = e1) (mayThrow >>= fun _ => P.move x)
        (fun p e' => L.Fresh src p.1 ∧ L.Live p.2 ∧ L.res p.2 = L.res x ∧ e1.Shift e' (L.res p.1))
        (fun e' => e1.Failed e') := by
      refine (alloc e1).bind fun _ => .at fun e2 h2 => (L.move src x e2 hx).conseq (fun _ h => h) ?_
        fun _ h => fail h2 h
      rintro p e3 ⟨a, b, c, d⟩
      exact ⟨a, b, c, (h2.trans d).cast (by simp) (by simp)⟩
    refine Triple.bind (hmove.onExc (E := fun e' => e.Failed e') (.at fun e2 h2 => ?_)) fun p => .at ?_
    · refine (L.destroy x e2 (L.fresh_live hx)).conseq (fun _ h => h) (fun _ e3 h3 => ?_) (fun _ h => h.elim)
      refine ⟨((h1.trans h2.shift).trans h3).cast ?_ ?_, by rw [← h1.faults]; exact h2.fault⟩ <;> simp
      all_goals omega
    · rintro e2 ⟨a, b, c, d⟩
      refine ((L.destroy p.2 e2 b).conseq (fun _ h => h) (fun _ _ h => h) (fun _ h => h.elim)).bind fun _ => .ret ?_
      intro e3 h3
      refine ⟨a, L.fresh_live hr, rfl, ((h1.trans d).trans h3).cast ?_ ?_⟩ <;> simp [c]
      all_goals omega

/-- Insertion in the factory: an equivalent entry is found, or a new one linked. -/
theorem facInsert_spec {ext : Nat → Nat} {s : St Rep F} (hI : S.Inv ext s) {src : Src K V}
    {r : Rep} {rest : List Rep} (hi : s.inited = true) (hl : s.locals = r :: rest)
    (hr : S.L.Fresh src r) :
    Triple (· = s) (Core.facInsert S.P S.Fa)
      (fun h s' => (Rolled S ext s s' ∧ ∃ b, S.At s h b ∧ S.keq b.key (S.sp.key0 src) = true) ∨
        ∃ r', Linked S src s h r' s')
      (fun s' => Rolled S ext s s' ∧ Faulty s) := by
  have hloc : ∀ s' : St Rep F, s'.locals = s.locals → Loc S s s' := fun s' h =>
    ⟨r, r, rest, hl, h.trans hl, S.L.fresh_live hr, rfl⟩
  unfold Core.facInsert
  -- deref
  refine Triple.bind (R := fun _ s' => s' = s) ?_ fun _ => ?_
  · exact .ofOk (a := ()) (by simp [Core.deref, bind, M.bind, M.read, hi]; rfl) rfl
  -- topLocal
  refine Triple.bind (R := fun e s' => e = r ∧ s' = s) ?_ fun e => ?_
  · exact .ofOk (a := r) (e₂ := s) (by simp [Core.topLocal, bind, M.bind, M.read, hl]; rfl) ⟨rfl, rfl⟩
  refine Triple.pull fun he => ?_
  subst he
  -- keys can be read
  refine Triple.bind (R := fun _ s' => s' = s) ?_ fun _ => ?_
  · have hall : ((S.P.toKey e).isSome && (S.Fa.ids s.fac).all fun i =>
        match S.Fa.entry s.fac i with
        | none => false
        | some x => (S.P.toKey x.rep).isSome) = true := by
      rw [Bool.and_eq_true]
      refine ⟨by rw [S.L.fresh_key hr]; rfl, ?_⟩
      rw [List.all_eq_true]
      intro i hi
      rw [S.LF.mem_ids i hI.fac] at hi
      obtain ⟨x, hx⟩ := Option.isSome_iff_exists.1 hi
      obtain ⟨k, v, hf⟩ := hI.full i x hx
      rw [hx]
      simp only [S.L.full_key hf]
      rfl
    refine .ofOk (a := ()) (e₂ := s) ?_ rfl
    show (if ((S.P.toKey e).isSome && (S.Fa.ids s.fac).all fun i =>
        match S.Fa.entry s.fac i with
        | none => false
        | some x => (S.P.toKey x.rep).isSome) = true then (pure () : M (St Rep F) Unit)
      else M.undef) s = _
    rw [if_pos hall]
    rfl
  -- hash and comparison
  refine Triple.bind (env_triple (mayThrow_triple s.env)|>.conseq (fun _ h => h) (fun _ _ h => h) ?_)
    fun _ => ?_
  · rintro s' ⟨e', ⟨rfl, hf⟩, rfl⟩
    have hF := (failed_tick hf).shift
    exact ⟨⟨hI.setEnv hF, hloc _ rfl, rfl, rfl, rfl, id, fun i b => Iff.rfl⟩, _, hf⟩
  refine Triple.at ?_
  rintro s1 ⟨e1, rfl, rfl⟩
  have hsh1 : s.env.Shift { s.env with tick := s.env.tick + 1 } (0, 0) :=
    ⟨rfl, Nat.le_succ _, by simp, by simp⟩
  have hI1 := hI.setEnv hsh1
  refine Triple.bind (Triple.read (Q := fun a s' => a = s' ∧
    s' = { s with env := { s.env with tick := s.env.tick + 1 } }) fun s' h => ⟨rfl, h⟩) fun sr => ?_
  refine Triple.at ?_
  rintro s1 ⟨rfl, rfl⟩
  simp only
  have hlk := S.LF.lookup_entry (f := s.fac) ⟨e, 0, 0⟩
  have hlinv := S.LF.lookup_inv (f := s.fac) ⟨e, 0, 0⟩ hI.fac
  cases hlook : S.Fa.lookup s.fac ⟨e, 0, 0⟩ with
  | mk f o =>
  rw [hlook] at hlinv
  have hvf : ∀ i, S.Fa.entry f i = S.Fa.entry s.fac i := fun i => by
    have := hlk i hI.fac
    rw [hlook] at this
    exact this
  cases o with
  | some i =>
    -- found
    have hs := S.LF.lookup_some (f := s.fac) ⟨e, 0, 0⟩ i hI.fac (by rw [hlook])
    obtain ⟨e', he', hev⟩ := hs
    obtain ⟨b, hb⟩ := hI.at_some (i := i) (by simp [he'])
    refine .ofOk (a := i) rfl (Or.inl ⟨⟨hI1.setFac hlinv hvf, hloc _ rfl, rfl, rfl, rfl, id, ?_⟩,
      b, hb, (eqv_iff hb he' hr).1 hev⟩)
    exact At.congr (S := S) (s := s) (s' := { s with env := _, fac := f }) hvf (fun _ _ => rfl)
  | none =>
    have hs := S.LF.lookup_none (f := s.fac) ⟨e, 0, 0⟩ hI.fac (by rw [hlook])
    have hne : ∀ i b, S.At s i b → S.keq b.key (S.sp.key0 src) = false := by
      intro i b hb
      obtain ⟨e', he', _⟩ := id hb
      have := hs i e' he'
      rw [eqv_iff hb he' hr] at this
      simpa using this
    simp only
    refine Triple.bind (Triple.update (Q := fun _ s' => s' = { s with
      env := { s.env with tick := s.env.tick + 1 }, fac := f }) fun s' h => by rw [h]) fun _ => ?_
    have hI2 := hI1.setFac hlinv hvf
    -- allocation and construction of the node's entry
    refine Triple.bind (R := fun (p : Rep × Rep) s' => ∃ e1, (S.L.Fresh src p.1 ∧ S.L.Live p.2 ∧
        S.L.res p.2 = S.L.res e ∧ s.env.Shift e1 (S.L.res p.1)) ∧
        s' = { s with env := e1, fac := f }) ?_ fun p => ?_
    · refine (env_triple (makeNode_law S.L S.Fa.take src e _ hr)).conseq (fun _ h => h) ?_ ?_
      · rintro p s' ⟨e', ⟨h1, h2, h3, h4⟩, rfl⟩
        refine ⟨e', ⟨h1, h2, h3, ?_⟩, rfl⟩
        exact ⟨h4.faults, Nat.le_trans (Nat.le_succ _) h4.tick,
          h4.keys, h4.vals⟩
      · rintro s' ⟨e', hf, rfl⟩
        have hsh : s.env.Shift e' (0, 0) :=
          ⟨hf.shift.faults, Nat.le_trans (Nat.le_succ _) hf.shift.tick,
            hf.shift.keys, hf.shift.vals⟩
        refine ⟨⟨(hI.setEnv hsh).setFac hlinv hvf, hloc _ rfl, rfl, rfl, hsh.faults, id, ?_⟩,
          hf.fault⟩
        exact At.congr (S := S) (s := s) (s' := { s with env := _, fac := f }) hvf (fun _ _ => rfl)
    refine Triple.at ?_
    rintro s2 ⟨e1, ⟨hp1, hp2, hp3, hp4⟩, rfl⟩
    have hfresh : S.Fa.entry s.fac s.nextId = none := by
      cases he' : S.Fa.entry s.fac s.nextId with
      | none => rfl
      | some e' => exact absurd (hI.lt s.nextId (by simp [he'])) (Nat.lt_irrefl _)
    have hkeysome : ∀ j e', S.Fa.entry f j = some e' → ¬ S.eqv e' ⟨p.1, 0, 0⟩ := by
      intro j e' he'
      rw [hvf] at he'
      obtain ⟨b, hb⟩ := hI.at_some (i := j) (by simp [he'])
      rw [eqv_iff hb he' hp1, hne j b hb]
      simp
    refine .ofOk (a := s.nextId) rfl (Or.inr ⟨p.1, ?_⟩)
    constructor
    · rfl
    · rfl
    · exact hfresh
    · exact S.LF.link_inv _ _ hlinv (by rw [hvf]; exact hfresh) hkeysome
    · intro i
      have := S.LF.link_entry (f := f) s.nextId ⟨p.1, 0, 0⟩ i hlinv (by rw [hvf]; exact hfresh)
      simp only [this, hvf]
    · exact hp1
    · exact ⟨e, p.2, rest, hl, by simp [hl], hp2, hp3⟩
    · intro i
      by_cases h : i = s.nextId <;> simp [h]
    · intro i hi'
      simp only [if_true]
      have hmem : s.addr i ∈ (S.Fa.ids f).map s.addr := by
        apply List.mem_map_of_mem
        rw [S.LF.mem_ids i hlinv, hvf]
        exact hi'
      intro heq
      exact hI.alloc s.nextId _ (heq ▸ hmem)
    · exact ⟨_, if_pos rfl⟩
    · rfl
    · rfl
    · rfl
    · rfl
    · exact hp4
    · exact hne

/-- From a linked entry, the totals of live objects. -/
theorem Linked.tot {ext : Nat → Nat} {s s' : St Rep F} {src : Src K V} {h : Nat} {r : Rep}
    (hI : S.Inv ext s) (hL : Linked S src s h r s') (g : Int × Int → Int) (s'' : St Rep F)
    (e : Ent Rep)
    (hv : ∀ i, S.Fa.entry s''.fac i = if i = h then some e else S.Fa.entry s.fac i)
    (hn : s''.nextId = s.nextId + 1) (hl : Loc S s s'') :
    S.tot g s'' = S.tot g s + g (S.L.res e.rep) := by
  have hid := hL.id
  unfold Setup.tot
  rw [hn, hl.sum]
  simp only [rsum]
  rw [rsum_congr (f := fun i => S.cnt g (S.Fa.entry s''.fac i))
    (g := fun i => S.cnt g (S.Fa.entry s.fac i))]
  · rw [hv, ← hid]
    simp only [if_true, cnt]
    omega
  · intro i hi
    rw [hv, if_neg (by omega)]

/-- How a creation changes the contents of the factory.  (No code of its own: used in statements
and proofs.) -/
def Created (S : Setup K V Rep F) (s : St Rep F) (src : Src K V) (h : Nat) (s' : St Rep F) : Prop :=
  (∃ b, S.At s h b ∧ S.keq b.key (S.sp.key0 src) = true ∧ ∀ i c, S.At s' i c ↔ S.At s i c) ∨
  ((∀ i b, S.At s i b → S.keq b.key (S.sp.key0 src) = false) ∧ S.Fa.entry s.fac h = none ∧
    ∃ a, (∃ n l, a = s.alloc n l) ∧ (∀ i b, S.At s i b → b.addr ≠ a) ∧
      ∀ i c, S.At s' i c ↔ S.At s i c ∨ (i = h ∧ c = ⟨a, S.sp.key1 src, S.sp.val src⟩))

/-- The state after an insertion has succeeded and a handle has been built.  (No code of its
own: used in statements and proofs.) -/
structure Inserted (S : Setup K V Rep F) (ext : Nat → Nat) (s : St Rep F) (src : Src K V) (h : Nat)
    (s' : St Rep F) : Prop where
  inv : S.Inv (plus ext h) s'
  loc : Loc S s s'
  objs : s'.objs = s.objs
  depth : s'.depth = s.depth
  faults : s'.env.faults = s.env.faults
  ini : s.inited = true → s'.inited = true
  created : Created S s src h s'

/-- A visited new entry with its first handle satisfies the invariant. -/
theorem Linked.inserted {ext : Nat → Nat} {s s' : St Rep F} {src : Src K V} {h : Nat} {r : Rep}
    (hI : S.Inv ext s) (hL : Linked S src s h r s') (s'' : St Rep F) (e : Ent Rep)
    (hi : s.inited = true)
    (hf : S.LF.Inv s''.fac)
    (hv : ∀ i, S.Fa.entry s''.fac i = if i = h then some e else S.Fa.entry s.fac i)
    (hfull : S.L.Full e.rep (S.sp.key1 src) (S.sp.val src))
    (hcnt : S.trk = .refcounted → e.ref = 1 ∧ e.del = 1)
    (hn : s''.nextId = s'.nextId) (hl : Loc S s s'') (ha : s''.addr = s'.addr)
    (hal : s''.alloc = s'.alloc) (ho : s''.objs = s'.objs) (hd : s''.depth = s'.depth)
    (hini : s''.inited = s'.inited) (hsh : s.env.Shift s''.env (S.L.res e.rep)) :
    Inserted S ext s src h s'' := by
  have hid := hL.id
  have hext0 : ext h = 0 := by
    cases hx : ext h with
    | zero => rfl
    | succ n =>
      have := hI.ext h (by omega)
      rw [hL.fresh] at this
      simp at this
  have href0 : refs s h = 0 := by
    unfold refs
    rw [List.countP_eq_zero]
    intro p hp hp2
    have := hI.objs p hp
    simp at hp2
    rw [hp2, hL.fresh] at this
    simp at this
  have hr : ∀ i, refs s'' i = refs s i := fun i => by unfold refs; rw [ho, hL.objs]
  have hsome : ∀ i, (S.Fa.entry s''.fac i).isSome → i = h ∨ (i ≠ h ∧ (S.Fa.entry s.fac i).isSome) := by
    intro i hi'
    rw [hv] at hi'
    by_cases hj : i = h
    · exact Or.inl hj
    · simp [hj] at hi'
      exact Or.inr ⟨hj, hi'⟩
  have haddr : ∀ i, i ≠ h → s''.addr i = s.addr i := fun i hj => by rw [ha, hL.addr, if_neg hj]
  have hini' : s''.inited = true := by rw [hini, hL.ini]; exact hi
  refine ⟨⟨hf, ?_, ?_, ?_, ?_, ?_, fun _ _ => hini', ?_, ?_, ?_, ?_⟩, hl, ho.trans hL.objs,
    hd.trans hL.depth, hsh.faults, fun _ => hini', ?_⟩
  · rw [hal, hL.alloc]; exact hI.alloc
  · intro i e' he'
    rw [hv] at he'
    by_cases hj : i = h
    · simp [hj] at he'
      subst he'
      exact ⟨_, _, hfull⟩
    · simp [hj] at he'
      exact hI.full i e' he'
  · intro ht i e' he'
    rw [hv] at he'
    rw [hr]
    by_cases hj : i = h
    · simp [hj] at he'
      subst he'
      subst hj
      rw [plus_self, href0, hext0]
      exact ⟨(hcnt ht).1, by omega, (hcnt ht).2⟩
    · simp [hj] at he'
      rw [plus_ne _ hj]
      exact hI.counts ht i e' he'
  · intro p hp
    rw [ho, hL.objs] at hp
    have := hI.objs p hp
    rw [hv]
    by_cases hj : p.2 = h
    · simp [hj]
    · simp [hj, this]
  · intro i hx
    rw [hv]
    by_cases hj : i = h
    · simp [hj]
    · rw [plus_ne _ hj] at hx
      simp [hj, hI.ext i hx]
  · intro i hx
    rw [hn, hL.next]
    rcases hsome i hx with rfl | ⟨_, h2⟩
    · omega
    · have := hI.lt i h2; omega
  · intro i j hi' hj' hij
    rcases hsome i hi' with rfl | ⟨h1, h2⟩ <;> rcases hsome j hj' with rfl | ⟨g1, g2⟩
    · rfl
    · exfalso
      rw [haddr j g1, ha] at hij
      exact hL.naddr j g2 hij.symm
    · exfalso
      rw [haddr i h1, ha] at hij
      exact hL.naddr i h2 hij
    · rw [haddr i h1, haddr j g1] at hij
      exact hI.inj i j h2 g2 hij
  · rw [hsh.keys, hL.tot hI Prod.fst s'' e hv (hn.trans hL.next) hl, hI.keys]
  · rw [hsh.vals, hL.tot hI Prod.snd s'' e hv (hn.trans hL.next) hl, hI.vals]
  · refine Or.inr ⟨hL.none_eqv, hL.fresh, s''.addr h, ⟨h, by rw [ha]; exact hL.source⟩, ?_, ?_⟩
    · rintro i b ⟨e', he', _, hb⟩
      rw [← hb, ha]
      exact hL.naddr i (by simp [he'])
    · intro i c
      by_cases hj : i = h
      · subst hj
        constructor
        · rintro ⟨e', he', hf', hc⟩
          refine Or.inr ⟨rfl, ?_⟩
          rw [hv, if_pos rfl] at he'
          cases he'
          have h1 := (S.L.full_key hf').symm.trans (S.L.full_key hfull)
          have h2 := (S.L.full_val hf').symm.trans (S.L.full_val hfull)
          cases c
          simp at h1 h2 hc
          simp [h1, h2, hc]
        · rintro (⟨e', he', _⟩ | ⟨_, rfl⟩)
          · rw [hL.fresh] at he'; cases he'
          · exact ⟨e, by rw [hv, if_pos rfl], hfull, rfl⟩
      · simp only [hj, false_and, or_false]
        unfold At
        rw [hv, if_neg hj, haddr i hj]

/-- Removing the new entry again restores the contents. -/
theorem Linked.rolled {ext : Nat → Nat} {s s' : St Rep F} {src : Src K V} {h : Nat} {r : Rep}
    (hI : S.Inv ext s) (hL : Linked S src s h r s') (s'' : St Rep F)
    (hi : s.inited = true)
    (hf : S.LF.Inv s''.fac)
    (hv : ∀ i, S.Fa.entry s''.fac i = S.Fa.entry s.fac i)
    (hn : s''.nextId = s'.nextId) (hl : Loc S s s'') (ha : s''.addr = s'.addr)
    (hal : s''.alloc = s'.alloc) (ho : s''.objs = s'.objs) (hd : s''.depth = s'.depth)
    (hini : s''.inited = s'.inited) (hsh : s.env.Shift s''.env (0, 0)) :
    Rolled S ext s s'' := by
  have haddr : ∀ i, (S.Fa.entry s.fac i).isSome → s''.addr i = s.addr i := by
    intro i hi'
    rw [ha, hL.addr, if_neg]
    intro hj
    subst hj
    rw [hL.fresh] at hi'
    simp at hi'
  have hini' : s''.inited = true := by rw [hini, hL.ini]; exact hi
  have hle : s.nextId ≤ s''.nextId := by rw [hn, hL.next]; omega
  refine ⟨hI.congr hf hv (hal.trans hL.alloc) haddr (ho.trans hL.objs) hle (fun _ => hini') ?_ ?_,
    hl, ho.trans hL.objs, hd.trans hL.depth, hsh.faults, fun _ => hini', At.congr hv haddr⟩
  · rw [hI.tot_grow Prod.fst hv hle, hl.sum, hsh.keys, hI.keys]; simp
  · rw [hI.tot_grow Prod.snd hv hle, hl.sum, hsh.vals, hI.vals]; simp

/-- A handle to an entry that already has one, or that needs no tracking. -/
theorem handleCtor_hit {ext : Nat → Nat} {s : St Rep F} (hI : S.Inv ext s) {h : Nat}
    (hs : (S.Fa.entry s.fac h).isSome) :
    ∃ s', Core.handleCtor S.Fa S.trk h s = .ok () s' ∧ S.Inv (plus ext h) s' ∧ Frame s s' ∧
      ∀ i b, S.At s' i b ↔ S.At s i b := by
  obtain ⟨s', h1, h2, h3, _, _, h6⟩ := handleCopy_spec hI hs
  refine ⟨s', ?_, h2, h3, h6⟩
  rw [← h1]
  cases ht : S.trk with
  | noTracking => rfl
  | refcounted =>
    obtain ⟨e, he⟩ := Option.isSome_iff_exists.1 hs
    obtain ⟨hr, hp, _⟩ := hI.counts ht h e he
    have hne : (e.ref + 1 == 1) = false := by simp; omega
    simp only [Core.handleCtor, Core.handleCopy, bind, M.bind, addRef_ok (hI.ini h hs) he, hne]
    rfl

/-- Visitation of an entry that has a value does nothing. -/
theorem visit_hit {ext : Nat → Nat} {s : St Rep F} (hI : S.Inv ext s) {h : Nat} (src : Src K V)
    (hs : (S.Fa.entry s.fac h).isSome) :
    ∃ s', Core.visitEntry S.P S.Fa src h s = .ok () s' ∧ S.Inv ext s' ∧ Frame s s' ∧
      ∀ i b, S.At s' i b ↔ S.At s i b := by
  obtain ⟨e, he⟩ := Option.isSome_iff_exists.1 hs
  obtain ⟨k, v, hf⟩ := hI.full h e he
  refine ⟨{ s with fac := S.Fa.update s.fac h { e with ref := e.ref, del := e.del } }, ?_,
    hI.setCounts he e.ref e.del (fun ht => hI.counts ht h e he) (fun _ _ => rfl),
    ⟨rfl, rfl, rfl, rfl, id⟩, hI.at_setCounts he e.ref e.del⟩
  simp only [Core.visitEntry, bind, M.bind, entry_ok (hI.ini h hs) he, Core.env,
    S.L.visit_full src e.rep k v s.env hf]
  rfl

theorem Rolled.frame {ext ext' : Nat → Nat} {s s' s'' : St Rep F} (h : Rolled S ext s s')
    (hI : S.Inv ext' s'') (hf : Frame s' s'') (ha : ∀ i b, S.At s'' i b ↔ S.At s' i b) :
    Rolled S ext' s s'' := by
  refine ⟨hI, ?_, hf.objs.trans h.objs, hf.depth.trans h.depth, hf.faults.trans h.faults,
    fun hi => hf.ini (h.ini hi), fun i b => (ha i b).trans (h.at_ i b)⟩
  obtain ⟨r, r', rest, h1, h2, h3, h4⟩ := h.loc
  exact ⟨r, r', rest, h1, hf.locals.trans h2, h3, h4⟩

/-- Equations for the visitation and tracking of a newly linked entry. -/
theorem new_entry {s : St Rep F} (hf : S.LF.Inv s.fac) {h : Nat} {e e' : Ent Rep}
    (he : S.Fa.entry s.fac h = some e) (h1 : S.eqv e e') (h2 : S.eqv e' e) :
    S.LF.Inv (S.Fa.update s.fac h e') ∧ ∀ i, S.Fa.entry (S.Fa.update s.fac h e') i =
      if i = h then some e' else S.Fa.entry s.fac i :=
  ⟨S.LF.update_inv h e e' hf he h1 h2, fun i => S.LF.update_entry h e e' i hf he h1 h2⟩

/-- Insertion, visitation and construction of the handle. -/
theorem insertVisit_spec {ext : Nat → Nat} {s : St Rep F} (hI : S.Inv ext s) {src : Src K V}
    {r : Rep} {rest : List Rep} (hsup : S.sp.supports src = true) (hi : s.inited = true)
    (hl : s.locals = r :: rest) (hr : S.L.Fresh src r) :
    Triple (· = s) (do
        let h ← Core.insertAndVisit S.P S.Fa src
        Core.handleCtor S.Fa S.trk h
        pure h)
      (fun h s' => Inserted S ext s src h s') (fun s' => Rolled S ext s s' ∧ Faulty s) := by
  refine Triple.bind (R := fun h s' =>
      (Rolled S ext s s' ∧ ∃ b, S.At s h b ∧ S.keq b.key (S.sp.key0 src) = true) ∨
      ∃ r' s1 r1, Linked S src s h r1 s1 ∧ S.L.Full r' (S.sp.key1 src) (S.sp.val src) ∧
        S.LF.Inv s'.fac ∧
        (∀ i, S.Fa.entry s'.fac i = if i = h then some ⟨r', 0, 0⟩ else S.Fa.entry s.fac i) ∧
        s.env.Shift s'.env (S.L.res r') ∧
        s' = { s1 with fac := s'.fac, env := s'.env }) ?_ fun h => ?_
  · unfold Core.insertAndVisit
    refine Triple.bind (facInsert_spec hI hi hl hr) fun h => ?_
    refine Triple.at ?_
    rintro s1 (⟨hR, b, hb, hk⟩ | ⟨r1, hL⟩)
    · have hs : (S.Fa.entry s1.fac h).isSome := ((hR.at_ h b).2 hb).some
      obtain ⟨s2, h1, h2, h3, h4⟩ := visit_hit hR.inv src hs
      refine .ofOk (a := h) (e₂ := s2) ?_ (Or.inl ⟨hR.frame h2 h3 h4, b, hb, hk⟩)
      simp only [bind, M.bind, M.onExc, h1]
      rfl
    · have hi1 : s1.inited = true := by rw [hL.ini]; exact hi
      have he1 : S.Fa.entry s1.fac h = some ⟨r1, 0, 0⟩ := by rw [hL.view, if_pos rfl]
      have hvis := S.L.visit_fresh src r1 s1.env hsup hL.rep s1.env rfl
      cases hm : S.P.visit src r1 s1.env with
      | ok r' e' =>
        rw [hm] at hvis
        obtain ⟨hfull, hsh⟩ := hvis
        have hk0 := S.L.fresh_key hL.rep
        have hk1 := S.L.full_key hfull
        have hcon := S.LS.contract src hsup
        obtain ⟨hf2, hv2⟩ := new_entry (S := S) hL.inv he1 (e' := ⟨r', 0, 0⟩)
          ((S.hkey ⟨r1, 0, 0⟩ ⟨r', 0, 0⟩ _ _ hk0 hk1).2 (S.LS.symm _ _ hcon))
          ((S.hkey ⟨r', 0, 0⟩ ⟨r1, 0, 0⟩ _ _ hk1 hk0).2 hcon)
        refine .ofOk (a := h)
          (e₂ := { s1 with env := e', fac := S.Fa.update s1.fac h ⟨r', 0, 0⟩ }) ?_
          (Or.inr ⟨r', s1, r1, hL, hfull, hf2, ?_, ?_, rfl⟩)
        · simp only [bind, M.bind, M.onExc, Core.visitEntry, entry_ok hi1 he1, Core.env, hm]
          rfl
        · intro i
          rw [hv2, hL.view]
          by_cases hj : i = h <;> simp [hj]
        · exact (hL.shift.trans hsh).cast (by simp; omega) (by simp; omega)
      | exc e' =>
        rw [hm] at hvis
        obtain ⟨e2, hsh2, hfe⟩ := facErase_spec (S := S) (s := { s1 with env := e' }) hL.inv hi1 he1
          (S.L.fresh_live hL.rep)
        have hsh : s.env.Shift e2 (0, 0) :=
          (hL.shift.trans (hvis.shift.trans hsh2)).cast (by simp; omega) (by simp; omega)
        intro s' hs'
        subst hs'
        simp only [bind, M.bind, M.onExc, Core.visitEntry, entry_ok hi1 he1, Core.env, hm, hfe]
        refine ⟨hL.rolled hI _ hi (S.LF.erase_inv h hL.inv) ?_ rfl ?_ rfl rfl rfl rfl rfl hsh, ?_⟩
        · intro i
          show S.Fa.entry (S.Fa.erase s'.fac h) i = _
          rw [S.LF.erase_entry h i hL.inv, hL.view]
          by_cases hj : i = h
          · simp [hj, hL.fresh]
          · simp [hj]
        · obtain ⟨q, q', rest', g1, g2, g3, g4⟩ := hL.loc
          exact ⟨q, q', rest', g1, g2, g3, g4⟩
        · obtain ⟨n, hn⟩ := hvis.fault
          exact ⟨n, by rw [← hL.shift.faults]; exact hn⟩
      | ub => rw [hm] at hvis; exact hvis.elim
  · refine Triple.at ?_
    rintro s1 (⟨hR, b, hb, hk⟩ | ⟨r', s0, r1, hL, hfull, hf1, hv1, hsh, hs1⟩)
    · have hs : (S.Fa.entry s1.fac h).isSome := ((hR.at_ h b).2 hb).some
      obtain ⟨s2, h1, h2, h3, h4⟩ := handleCtor_hit hR.inv hs
      have hR2 := hR.frame h2 h3 h4
      refine .ofOk (a := h) (e₂ := s2) (by simp only [bind, M.bind, h1]; rfl) ?_
      exact ⟨hR2.inv, hR2.loc, hR2.objs, hR2.depth, hR2.faults, hR2.ini,
        Or.inl ⟨b, hb, hk, hR2.at_⟩⟩
    · have hi1 : s1.inited = true := by rw [hs1]; exact hL.ini.trans hi
      have hloc : Loc S s s1 := by
        obtain ⟨q, q', rest', g1, g2, g3, g4⟩ := hL.loc
        exact ⟨q, q', rest', g1, by rw [hs1]; exact g2, g3, g4⟩
      have he1 : S.Fa.entry s1.fac h = some ⟨r', 0, 0⟩ := by rw [hv1, if_pos rfl]
      have hk1 := S.L.full_key hfull
      cases ht : S.trk with
      | noTracking =>
        refine .ofOk (a := h) (e₂ := s1) rfl ?_
        exact hL.inserted hI s1 ⟨r', 0, 0⟩ hi hf1 hv1 hfull (fun h' => by rw [ht] at h'; cases h')
          (by rw [hs1]) hloc (by rw [hs1]) (by rw [hs1]) (by rw [hs1]) (by rw [hs1]) (by rw [hs1]) hsh
      | refcounted =>
        have hee : ∀ a b c d : Int, S.eqv ⟨r', a, b⟩ ⟨r', c, d⟩ := fun a b c d =>
          S.eqv_same_rep hk1 hk1
        obtain ⟨hf2, hv2⟩ := new_entry (S := S) hf1 he1 (e' := ⟨r', 1, 0⟩) (hee ..) (hee ..)
        have he2 : S.Fa.entry (S.Fa.update s1.fac h ⟨r', 1, 0⟩) h = some ⟨r', 1, 0⟩ := by
          rw [hv2, if_pos rfl]
        obtain ⟨hf3, hv3⟩ := new_entry (S := S)
          (s := { s1 with fac := S.Fa.update s1.fac h ⟨r', 1, 0⟩ }) hf2 he2 (e' := ⟨r', 1, 1⟩)
          (hee ..) (hee ..)
        let s3 : St Rep F := { s1 with
          fac := S.Fa.update (S.Fa.update s1.fac h ⟨r', 1, 0⟩) h ⟨r', 1, 1⟩ }
        refine .ofOk (a := h) (e₂ := s3) ?_ ?_
        · have ha : Core.addRef S.Fa h s1 =
              .ok 1 { s1 with fac := S.Fa.update s1.fac h ⟨r', 1, 0⟩ } := addRef_ok hi1 he1
          have hd : Core.addDeleter S.Fa h { s1 with fac := S.Fa.update s1.fac h ⟨r', 1, 0⟩ } =
              .ok () s3 := addDeleter_ok (S := S)
                (s := { s1 with fac := S.Fa.update s1.fac h ⟨r', 1, 0⟩ }) hi1 he2
          simp only [Core.handleCtor, bind, M.bind, ha]
          simp only [beq_self_eq_true, if_true, hd]
          rfl
        · refine hL.inserted hI s3 ⟨r', 1, 1⟩ hi hf3 ?_ hfull (fun _ => ⟨rfl, rfl⟩)
            (by simp only [s3]; rw [hs1]) hloc (by simp only [s3]; rw [hs1])
            (by simp only [s3]; rw [hs1]) (by simp only [s3]; rw [hs1])
            (by simp only [s3]; rw [hs1]) (by simp only [s3]; rw [hs1]) hsh
          intro i
          show S.Fa.entry (S.Fa.update (S.Fa.update s1.fac h ⟨r', 1, 0⟩) h ⟨r', 1, 1⟩) i = _
          rw [hv3]
          simp only
          rw [hv2, hv1]
          by_cases hj : i = h <;> simp [hj]

/-- The critical section of an insertion. -/
theorem insertLocked_spec {ext : Nat → Nat} {s : St Rep F} (hI : S.Inv ext s) {src : Src K V}
    {r : Rep} {rest : List Rep} (hsup : S.sp.supports src = true) (hi : s.inited = true)
    (hl : s.locals = r :: rest) (hr : S.L.Fresh src r) :
    Triple (· = s) (Core.insertLocked S.P S.Fa S.trk src)
      (fun h s' => Inserted S ext s src h s') (fun s' => Rolled S ext s s' ∧ Faulty s) := by
  unfold Core.insertLocked
  refine Triple.bind (R := fun _ s' => s' = { s with depth := s.depth + 1 }) ?_ fun _ => ?_
  · exact .ofOk (lock_ok hi) rfl
  refine Triple.scope (insertVisit_spec (hI.setDepth (s.depth + 1)) hsup hi hl hr) (fun h => ?_) ?_
  · refine Triple.at ?_
    intro s1 h1
    refine .ofOk (unlock_ok h1.depth) ?_
    refine ⟨h1.inv.setDepth s.depth, ?_, h1.objs, rfl, h1.faults, h1.ini, ?_⟩
    · obtain ⟨q, q', rest', g1, g2, g3, g4⟩ := h1.loc
      exact ⟨q, q', rest', g1, g2, g3, g4⟩
    · exact h1.created
  · refine Triple.at ?_
    rintro s1 ⟨h1, hf⟩
    refine .ofOk (unlock_ok h1.depth) ⟨?_, hf⟩
    refine ⟨h1.inv.setDepth s.depth, ?_, h1.objs, rfl, h1.faults, h1.ini, h1.at_⟩
    obtain ⟨q, q', rest', g1, g2, g3, g4⟩ := h1.loc
    exact ⟨q, q', rest', g1, g2, g3, g4⟩

theorem Inv.push {ext : Nat → Nat} {s : St Rep F} (hI : S.Inv ext s) {e : Env} {r : Rep}
    (h : s.env.Shift e (S.L.res r)) : S.Inv ext { s with env := e, locals := r :: s.locals } :=
  hI.congr hI.fac (fun _ => rfl) rfl (fun _ _ => rfl) rfl (Nat.le_refl _) (fun h => h)
    (by
      have h1 := hI.keys
      have h2 := h.keys
      simp only [tot, List.map_cons, List.sum_cons] at h1 ⊢
      omega)
    (by
      have h1 := hI.vals
      have h2 := h.vals
      simp only [tot, List.map_cons, List.sum_cons] at h1 ⊢
      omega)

theorem Inv.pop {ext : Nat → Nat} {s : St Rep F} (hI : S.Inv ext s) {e : Env} {r : Rep}
    {rest : List Rep} (hl : s.locals = r :: rest)
    (h : s.env.Shift e (-(S.L.res r).1, -(S.L.res r).2)) :
    S.Inv ext { s with env := e, locals := rest } :=
  hI.congr hI.fac (fun _ => rfl) rfl (fun _ _ => rfl) rfl (Nat.le_refl _) (fun h => h)
    (by
      have h1 := hI.keys
      have h2 := h.keys
      simp only [tot, hl, List.map_cons, List.sum_cons] at h1 h2 ⊢
      omega)
    (by
      have h1 := hI.vals
      have h2 := h.vals
      simp only [tot, hl, List.map_cons, List.sum_cons] at h1 h2 ⊢
      omega)

/-- Replacing the innermost local by its moved-from version, and adding the new one. -/
theorem Inv.moved {ext : Nat → Nat} {s : St Rep F} (hI : S.Inv ext s) {e : Env} {r r' : Rep}
    {rest : List Rep} (hl : s.locals = r :: rest) (hr : S.L.res r' = S.L.res r)
    (h : s.env.Shift e (0, 0)) :
    S.Inv ext { s with env := e, locals := r' :: rest } :=
  hI.congr hI.fac (fun _ => rfl) rfl (fun _ _ => rfl) rfl (Nat.le_refl _) (fun h => h)
    (by
      have h1 := hI.keys
      have h2 := h.keys
      simp only [tot, hl, hr, List.map_cons, List.sum_cons] at h1 h2 ⊢
      omega)
    (by
      have h1 := hI.vals
      have h2 := h.vals
      simp only [tot, hl, hr, List.map_cons, List.sum_cons] at h1 h2 ⊢
      omega)

/-- The scope of a local object. -/
theorem withLocal_triple {α : Type} {s : St Rep F} {r : Rep} {m : M (St Rep F) α}
    {R : α → St Rep F → Prop} {RE : St Rep F → Prop} {Q : α → St Rep F → Prop}
    {E : St Rep F → Prop}
    (hm : Triple (· = { s with locals := r :: s.locals }) m R RE)
    (hQ : ∀ a s', R a s' → ∃ q rest, s'.locals = q :: rest ∧ S.L.Live q ∧
      ∀ e, s'.env.Shift e (-(S.L.res q).1, -(S.L.res q).2) → Q a { s' with env := e, locals := rest })
    (hE : ∀ s', RE s' → ∃ q rest, s'.locals = q :: rest ∧ S.L.Live q ∧
      ∀ e, s'.env.Shift e (-(S.L.res q).1, -(S.L.res q).2) → E { s' with env := e, locals := rest }) :
    Triple (· = s) (Core.withLocal S.P r m) Q E := by
  have hd : ∀ s' : St Rep F, ∀ q rest (T : Unit → St Rep F → Prop), s'.locals = q :: rest → S.L.Live q →
      (∀ e, s'.env.Shift e (-(S.L.res q).1, -(S.L.res q).2) →
        T () { s' with env := e, locals := rest }) →
      Triple (· = s') (do
        let s ← M.read
        match s.locals with
        | [] => M.undef
        | r :: rest => do
          M.update fun s => { s with locals := rest }
          Core.env (S.P.destroy r)) T (fun _ => False) := by
    intro s' q rest T hl hq hT
    have hde := S.L.destroy q s'.env hq s'.env rfl
    cases hm : S.P.destroy q s'.env with
    | ok a e' =>
      rw [hm] at hde
      refine .ofOk (a := ()) ?_ (hT e' hde)
      simp [bind, M.bind, M.read, hl, M.update, Core.env, hm]
    | exc e' => rw [hm] at hde; exact hde.elim
    | ub => rw [hm] at hde; exact hde.elim
  unfold Core.withLocal
  refine Triple.bind (R := fun _ s' => s' = { s with locals := r :: s.locals })
    (.ofOk rfl rfl) fun _ => ?_
  refine Triple.scope hm (fun a => ?_) ?_
  · refine Triple.at ?_
    intro s' h
    obtain ⟨q, rest, hl, hq, hQ'⟩ := hQ a s' h
    exact hd s' q rest _ hl hq hQ'
  · refine Triple.at ?_
    intro s' h
    obtain ⟨q, rest, hl, hq, hE'⟩ := hE s' h
    exact hd s' q rest _ hl hq hE'

/-- A successful insertion: the new handle, and how the contents have changed.  (No code of its
own: used in statements and proofs.) -/
structure InsertOk (S : Setup K V Rep F) (ext : Nat → Nat) (s : St Rep F) (src : Src K V) (h : Nat)
    (s' : St Rep F) : Prop where
  inv : S.Inv (plus ext h) s'
  frame : Frame s s'
  created : Created S s src h s'

/-- A failed insertion has no effect.  (No code of its own: used in statements and proofs.) -/
structure InsertFail (S : Setup K V Rep F) (ext : Nat → Nat) (s : St Rep F) (s' : St Rep F) :
    Prop where
  inv : S.Inv ext s'
  frame : Frame s s'
  at_ : ∀ i b, S.At s' i b ↔ S.At s i b
  faulty : Faulty s

/-- The inner scope of `insert`: entry `e` is local. -/
theorem insertEntry_spec {ext : Nat → Nat} {s : St Rep F} {e : Env} (hI : S.Inv ext s) {src : Src K V}
    {r : Rep} (hsup : S.sp.supports src = true) (hi : s.inited = true)
    (hr : S.L.Fresh src r) (hsh : s.env.Shift e (S.L.res r)) :
    Triple (· = { s with env := e }) (Core.withLocal S.P r (Core.insertLocked S.P S.Fa S.trk src))
      (fun h s' => InsertOk S ext s src h s') (fun s' => InsertFail S ext s s') := by
  refine withLocal_triple (S := S)
    (insertLocked_spec (s := { s with env := e, locals := r :: s.locals }) (hI.push hsh) hsup hi rfl hr)
    ?_ ?_
  · intro h s1 h1
    obtain ⟨q, q', rest', g1, g2, g3, g4⟩ := h1.loc
    cases g1
    refine ⟨q', s.locals, g2, g3, fun e' he' => ?_⟩
    exact ⟨h1.inv.pop g2 he', ⟨h1.objs, rfl, h1.depth, he'.faults.trans (h1.faults.trans hsh.faults),
      h1.ini⟩, h1.created⟩
  · rintro s1 ⟨h1, n, hn⟩
    obtain ⟨q, q', rest', g1, g2, g3, g4⟩ := h1.loc
    cases g1
    refine ⟨q', s.locals, g2, g3, fun e' he' => ?_⟩
    exact ⟨h1.inv.pop g2 he', ⟨h1.objs, rfl, h1.depth, he'.faults.trans (h1.faults.trans hsh.faults),
      h1.ini⟩, h1.at_, n, by rw [← hsh.faults]; exact hn⟩

/-- `insert`. -/
theorem insert_spec {ext : Nat → Nat} {s : St Rep F} (hI : S.Inv ext s) {src : Src K V}
    (hsup : S.sp.supports src = true) :
    Triple (· = s) (Core.insert S.P S.Fa S.trk src)
      (fun h s' => InsertOk S ext s src h s' ∧ s'.inited = true)
      (fun s' => InsertFail S ext s s') := by
  have key : Triple (· = s) (do
      let x ← Core.env (S.P.ofSrc src)
      Core.withLocal S.P x (do
        Core.init
        let p ← Core.env (S.P.move x)
        Core.setTop p.2
        Core.withLocal S.P p.1 (Core.insertLocked S.P S.Fa S.trk src)))
      (fun h s' => InsertOk S ext s src h s' ∧ s'.inited = true)
      (fun s' => InsertFail S ext s s') := by
    refine Triple.bind (R := fun x s' => ∃ e, (S.L.Fresh src x ∧ s.env.Shift e (S.L.res x)) ∧
      s' = { s with env := e }) ((env_triple (S.L.ofSrc src s.env hsup)).conseq (fun _ h => h)
        (fun _ _ h => h) ?_) fun x => ?_
    · rintro s' ⟨e, hf, rfl⟩
      exact ⟨hI.setEnv hf.shift, ⟨rfl, rfl, rfl, hf.shift.faults, id⟩, fun _ _ => Iff.rfl, hf.fault⟩
    · refine Triple.at ?_
      rintro s1 ⟨e, ⟨hx, hsh⟩, rfl⟩
      refine withLocal_triple (S := S)
        (R := fun h s' => ∃ q, S.L.Live q ∧ S.Inv (plus ext h) s' ∧
          s'.locals = q :: s.locals ∧ Frame { s with locals := q :: s.locals } s' ∧
          s'.inited = true ∧ Created S s src h s')
        (RE := fun s' => ∃ q, S.L.Live q ∧ S.L.res q = S.L.res x ∧ S.Inv ext s' ∧
          s'.locals = q :: s.locals ∧ Frame { s with locals := q :: s.locals } s' ∧
          (∀ i b, S.At s' i b ↔ S.At s i b) ∧ Faulty s) ?_ ?_ ?_
      · refine Triple.bind (R := fun _ s' => s' = { s with env := e, locals := x :: s.locals, inited := true })
          (.ofOk rfl rfl) fun _ => ?_
        refine Triple.bind (R := fun p s' => ∃ e1, (S.L.Fresh src p.1 ∧ S.L.Live p.2 ∧
          S.L.res p.2 = S.L.res x ∧ e.Shift e1 (S.L.res p.1)) ∧
          s' = { s with env := e1, locals := x :: s.locals, inited := true })
          ((env_triple (S.L.move src x _ hx)).conseq (fun _ h => h) (fun _ _ h => h) ?_) fun p => ?_
        · rintro s' ⟨e1, hf, rfl⟩
          refine ⟨x, S.L.fresh_live hx, rfl, ?_, rfl, ⟨rfl, rfl, rfl, ?_, fun _ => rfl⟩,
            fun _ _ => Iff.rfl, ?_⟩
          · have := (hI.push hsh).setInited.setEnv hf.shift
            exact this
          · exact hf.shift.faults.trans hsh.faults
          · obtain ⟨n, hn⟩ := hf.fault
            exact ⟨n, by rw [← hsh.faults]; exact hn⟩
        · refine Triple.at ?_
          rintro s2 ⟨e1, ⟨hp1, hp2, hp3, hp4⟩, rfl⟩
          refine Triple.bind (R := fun _ s' => s' = { s with env := e1, locals := p.2 :: s.locals, inited := true })
            (.ofOk rfl rfl) fun _ => ?_
          have hI2 : S.Inv ext { s with env := e, locals := p.2 :: s.locals, inited := true } :=
            (hI.push hsh).setInited.moved (r := x) rfl hp3 (Env.Shift.refl _)
          refine (insertEntry_spec hI2 hsup rfl hp1 hp4).conseq (fun _ h => h) ?_ ?_
          · intro h s' h1
            exact ⟨p.2, hp2, h1.inv, h1.frame.locals, ⟨h1.frame.objs, h1.frame.locals,
              h1.frame.depth, h1.frame.faults.trans hsh.faults, fun _ => h1.frame.ini rfl⟩,
              h1.frame.ini rfl, h1.created⟩
          · intro s' h1
            refine ⟨p.2, hp2, hp3, h1.inv, h1.frame.locals, ⟨h1.frame.objs, h1.frame.locals,
              h1.frame.depth, h1.frame.faults.trans hsh.faults, fun _ => h1.frame.ini rfl⟩, h1.at_, ?_⟩
            obtain ⟨n, hn⟩ := h1.faulty
            exact ⟨n, by rw [← hsh.faults]; exact hn⟩
      · rintro h s' ⟨q, h1, h2, h3, h4, h5, h6⟩
        refine ⟨q, s.locals, h3, h1, fun e' he' => ?_⟩
        exact ⟨⟨h2.pop h3 he', ⟨h4.objs, rfl, h4.depth, he'.faults.trans h4.faults, h4.ini⟩, h6⟩, h5⟩
      · rintro s' ⟨q, h1, h2, h3, h4, h5, h6, h7⟩
        refine ⟨q, s.locals, h4, h1, fun e' he' => ?_⟩
        exact ⟨h3.pop h4 he', ⟨h5.objs, rfl, h5.depth, he'.faults.trans h5.faults, h5.ini⟩, h6, h7⟩
  have value : Triple (· = s) (do
      Core.init
      let e ← Core.entryOf S.P S.trk src
      Core.withLocal S.P e (Core.insertLocked S.P S.Fa S.trk src))
      (fun h s' => InsertOk S ext s src h s' ∧ s'.inited = true)
      (fun s' => InsertFail S ext s s') := by
    refine Triple.bind (R := fun _ s' => s' = { s with inited := true }) (.ofOk rfl rfl) fun _ => ?_
    have first : Triple (· = { s with inited := true }) (Core.env (S.P.ofSrc src)) (fun x s' =>
        ∃ e, (S.L.Fresh src x ∧ s.env.Shift e (S.L.res x)) ∧ s' = { s with env := e, inited := true })
        (fun s' => InsertFail S ext s s') := by
      refine (env_triple (s := { s with inited := true }) (S.L.ofSrc src s.env hsup)).conseq
        (fun _ h => h) (fun _ _ h => h) ?_
      rintro s' ⟨e, hf, rfl⟩
      exact ⟨(hI.setEnv hf.shift).setInited, ⟨rfl, rfl, rfl, hf.shift.faults, fun _ => rfl⟩,
        fun _ _ => Iff.rfl, hf.fault⟩
    refine Triple.bind (R := fun x' s' => ∃ e1, (S.L.Fresh src x' ∧ s.env.Shift e1 (S.L.res x')) ∧
      s' = { s with env := e1, inited := true }) ?_ fun x' => ?_
    · unfold Core.entryOf
      cases S.trk
      case noTracking => exact first
      refine Triple.bind first fun x => ?_
      refine Triple.at ?_
      rintro s1 ⟨e, ⟨hx, hsh⟩, rfl⟩
      refine withLocal_triple (S := S)
        (R := fun x' s' => ∃ e1 q, (S.L.Fresh src x' ∧ S.L.Live q ∧
          S.L.res q = S.L.res x ∧ e.Shift e1 (S.L.res x')) ∧
          s' = { s with env := e1, locals := q :: s.locals, inited := true })
        (RE := fun s' => ∃ e1, e.Failed e1 ∧
          s' = { s with env := e1, locals := x :: s.locals, inited := true }) ?_ ?_ ?_
      · refine Triple.bind (R := fun p s' => ∃ e1, (S.L.Fresh src p.1 ∧ S.L.Live p.2 ∧
          S.L.res p.2 = S.L.res x ∧ e.Shift e1 (S.L.res p.1)) ∧
          s' = { s with env := e1, locals := x :: s.locals, inited := true })
          ((env_triple (S.L.move src x _ hx)).conseq (fun _ h => h) (fun _ _ h => h)
            (fun _ h => h)) fun p => ?_
        refine Triple.at ?_
        rintro s2 ⟨e1, hp, rfl⟩
        exact .ofOk (a := p.1) rfl ⟨e1, p.2, hp, rfl⟩
      · rintro x' s' ⟨e1, q, ⟨h1, h2, h3, h4⟩, rfl⟩
        refine ⟨q, s.locals, rfl, h2, fun e2 he2 => ⟨e2, ⟨h1, ?_⟩, rfl⟩⟩
        refine ((hsh.trans h4).trans he2).cast ?_ ?_ <;> simp only [h3] <;> omega
      · rintro s' ⟨e1, hf, rfl⟩
        refine ⟨x, s.locals, rfl, S.L.fresh_live hx, fun e2 he2 => ?_⟩
        have hs0 : s.env.Shift e2 (0, 0) := by
          refine ((hsh.trans hf.shift).trans he2).cast ?_ ?_ <;> simp only [] <;> omega
        refine ⟨(hI.setEnv hs0).setInited, ⟨rfl, rfl, rfl, hs0.faults, fun _ => rfl⟩,
          fun _ _ => Iff.rfl, ?_⟩
        obtain ⟨n, hn⟩ := hf.fault
        exact ⟨n, by rw [← hsh.faults]; exact hn⟩
    · refine Triple.at ?_
      rintro s2 ⟨e1, ⟨h1, h2⟩, rfl⟩
      refine (insertEntry_spec (s := { s with inited := true }) hI.setInited hsup rfl h1 h2).conseq
        (fun _ h => h) ?_ ?_
      · intro h s' h3
        exact ⟨⟨h3.inv, ⟨h3.frame.objs, h3.frame.locals, h3.frame.depth, h3.frame.faults,
          fun _ => h3.frame.ini rfl⟩, h3.created⟩, h3.frame.ini rfl⟩
      · intro s' h3
        exact ⟨h3.inv, ⟨h3.frame.objs, h3.frame.locals, h3.frame.depth, h3.frame.faults,
          fun _ => h3.frame.ini rfl⟩, h3.at_, h3.faulty⟩
  cases src with
  | key k => exact key
  | copy v => exact value
  | move v => exact value

end Setup
end Verif

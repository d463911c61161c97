import Verif.TrackerSim

/-!
# Tracking policies of the user's own: creation of flyweights
-/

set_option autoImplicit false

namespace Verif
open Setup

theorem Triple.both {σ α : Type} {P : σ → Prop} {m : M σ α} {Q Q' : α → σ → Prop} {E E' : σ → Prop}
    (h : Triple P m Q E) (h' : Triple P m Q' E') :
    Triple P m (fun a s => Q a s ∧ Q' a s) (fun s => E s ∧ E' s) := by
  intro s hs
  have g := h s hs
  have g' := h' s hs
  cases hm : m s with
  | ok a s' => rw [hm] at g g'; exact ⟨g, g'⟩
  | exc s' => rw [hm] at g g'; exact ⟨g, g'⟩
  | ub => rw [hm] at g; exact g

namespace Track
variable {K V Rep F T : Type} {S : Setup K V Rep F} {tr : Tracker T}
  {J : T → (Nat → Nat) → (Nat → Bool) → Prop} {N : Nat → T → (Nat → Nat) → (Nat → Bool) → Prop}

/-- What `insert` of the factory does to the policy's data.  (No code of its own: used in statements and proofs.) -/
def Linking (S : Setup K V Rep F) (tr : Tracker T) (s : St Rep (F × T)) (h : Nat) (s' : St Rep (F × T)) : Prop :=
  (s'.fac.2 = s.fac.2 ∧ (S.Fa.entry s.fac.1 h).isSome) ∨ (h = s.nextId ∧ s'.fac.2 = tr.made s.fac.2 h)

theorem keysReadable_cases {Fa : Factory F (Ent Rep)} {P : Policy K V Rep} (e : Rep) (s : St Rep F) :
    Core.keysReadable P Fa e s = .ok () s ∨ Core.keysReadable P Fa e s = .ub := by
  simp only [Core.keysReadable, bind, M.bind, M.read]
  split
  · exact .inl rfl
  · exact .inr rfl

theorem facInsert_data {s : St Rep (F × T)} (hf : S.LF.Inv s.fac.1) :
    match Core.facInsert S.P (tr.factory S.Fa) s with
    | .ok h s' => Linking S tr s h s'
    | .exc s' => s'.fac.2 = s.fac.2
    | .ub => True := by
  simp only [Core.facInsert, bind, M.bind, Core.deref, M.read]
  by_cases hi : s.inited = true
  · simp only [hi, if_true, pure, M.ret, Core.topLocal, bind, M.bind, M.read]
    cases hl : s.locals with
    | nil => simp [M.undef]
    | cons r rest =>
      simp only [M.ret]
      rcases keysReadable_cases (P := S.P) (Fa := tr.factory S.Fa) r s with hk | hk
      · simp only [hk, Core.env]
        cases hm : mayThrow s.env with
        | ok a e =>
          simp only
          cases hlk : S.Fa.lookup s.fac.1 ⟨r, 0, 0⟩ with
          | mk f o =>
            cases o with
            | some i =>
              have hfac : (tr.factory S.Fa).lookup s.fac ⟨r, 0, 0⟩ = ((f, s.fac.2), some i) := by
                simp only [Tracker.factory, hlk]
              simp only [hfac]
              obtain ⟨e', he', _⟩ := S.LF.lookup_some (f := s.fac.1) ⟨r, 0, 0⟩ i hf (by rw [hlk])
              exact .inl ⟨rfl, by simp [he']⟩
            | none =>
              have hfac : (tr.factory S.Fa).lookup s.fac ⟨r, 0, 0⟩ = ((f, s.fac.2), Option.none) := by
                simp only [Tracker.factory, hlk]
              simp only [hfac, M.update, M.bind, Core.env]
              cases hn : Core.makeNode S.P (tr.factory S.Fa).take r e with
              | ok p e1 => exact .inr ⟨rfl, rfl⟩
              | exc e1 => rfl
              | ub => trivial
        | exc e => rfl
        | ub => trivial
      · simp only [hk]
  · simp [hi, M.undef]

/-- What `insert_and_visit` does to the policy's data. -/
theorem insertAndVisit_data {ext : Nat → Nat} {s : St Rep (F × T)} (hI : (tr.setup S).Inv ext s) {src : Src K V}
    {r : Rep} {rest : List Rep} (hsup : S.sp.supports src = true) (hi : s.inited = true)
    (hl : s.locals = r :: rest) (hr : S.L.Fresh src r) :
    Triple (· = s) (Core.insertAndVisit S.P (tr.factory S.Fa) src) (fun h s' => Linking S tr s h s')
      (fun s' => s'.fac.2 = s.fac.2 ∨
        (s'.fac.2 = tr.gone (tr.made s.fac.2 s.nextId) s.nextId ∧ (S.Fa.entry s.fac.1 s.nextId).isSome = false)) := by
  have hins := facInsert_spec hI hi hl hr
  have hdat : Triple (· = s) (Core.facInsert S.P (tr.factory S.Fa)) (fun h s' =>
      ((Rolled (tr.setup S) ext s s' ∧ ∃ b, (tr.setup S).At s h b ∧ (tr.setup S).keq b.key ((tr.setup S).sp.key0 src) = true) ∨
        ∃ r, Linked (tr.setup S) src s h r s') ∧ Linking S tr s h s')
      (fun s' => s'.fac.2 = s.fac.2) := by
    intro s0 hs0
    subst hs0
    have g := hins s0 rfl
    have g' := facInsert_data (S := S) (tr := tr) hI.fac
    have hEq : Core.facInsert (tr.setup S).P (tr.setup S).Fa s0 = Core.facInsert S.P (tr.factory S.Fa) s0 := rfl
    rw [hEq] at g
    cases hm : Core.facInsert S.P (tr.factory S.Fa) s0 with
    | ok h s' => rw [hm] at g g'; exact ⟨g, g'⟩
    | exc s' => rw [hm] at g'; exact g'
    | ub => rw [hm] at g; exact g.elim
  unfold Core.insertAndVisit
  refine Triple.bind (hdat.conseq (fun _ h => h) (fun _ _ h => h) fun _ h => .inl h) fun h => ?_
  refine Triple.at ?_
  rintro s1 ⟨⟨hR, b, hb, hk⟩ | ⟨r1, hL⟩, hlink⟩
  · have hs : ((tr.setup S).Fa.entry s1.fac h).isSome := ((hR.at_ h b).2 hb).some
    obtain ⟨e, he⟩ := Option.isSome_iff_exists.1 hs
    obtain ⟨k, v, hf⟩ := hR.inv.full h e he
    refine .ofOk (a := h) (e₂ := { s1 with fac := (tr.factory S.Fa).update s1.fac h { e with rep := e.rep } }) ?_ ?_
    · have hent : Core.entry (tr.factory S.Fa) h s1 = .ok e s1 := entry_ok (S := tr.setup S) (hR.inv.ini h hs) he
      simp only [bind, M.bind, M.onExc, Core.visitEntry, hent, Core.env,
        S.L.visit_full src e.rep k v s1.env hf]
      rfl
    · rcases hlink with ⟨g1, g2⟩ | ⟨g1, g2⟩
      · exact .inl ⟨g1, g2⟩
      · exact .inr ⟨g1, g2⟩
  · have hi1 : s1.inited = true := by rw [hL.ini]; exact hi
    have he1 : (tr.setup S).Fa.entry s1.fac h = some ⟨r1, 0, 0⟩ := by rw [hL.view, if_pos rfl]
    have hent : Core.entry (tr.factory S.Fa) h s1 = .ok ⟨r1, 0, 0⟩ s1 := entry_ok (S := tr.setup S) hi1 he1
    have hvis := S.L.visit_fresh src r1 s1.env hsup hL.rep s1.env rfl
    have hd : h = s.nextId ∧ s1.fac.2 = tr.made s.fac.2 h := by
      rcases hlink with ⟨_, g2⟩ | g
      · have hfr : S.Fa.entry s.fac.1 h = Option.none := hL.fresh
        rw [hfr] at g2
        cases g2
      · exact g
    cases hm : S.P.visit src r1 s1.env with
    | ok r' e' =>
      refine .ofOk (a := h) (e₂ := { s1 with env := e', fac := (tr.factory S.Fa).update s1.fac h ⟨r', 0, 0⟩ }) ?_
        (.inr hd)
      simp only [bind, M.bind, M.onExc, Core.visitEntry, hent, Core.env, hm]
      rfl
    | exc e' =>
      obtain ⟨e2, hsh2, hfe⟩ := facErase_spec (S := tr.setup S) (s := { s1 with env := e' }) hL.inv hi1 he1
        (S.L.fresh_live hL.rep)
      have hfe' : Core.facErase S.P (tr.factory S.Fa) h ({ s1 with env := e' } : St Rep (F × T)) = _ := hfe
      intro s' hs'
      subst hs'
      simp only [bind, M.bind, M.onExc, Core.visitEntry, hent, Core.env, hm, hfe']
      refine .inr ⟨?_, ?_⟩
      · show tr.gone s'.fac.2 h = _
        rw [hd.2, hd.1]
      · have hfr : S.Fa.entry s.fac.1 h = Option.none := hL.fresh
        rw [← hd.1, hfr]
        rfl
    | ub => rw [hm] at hvis; exact hvis.elim

/-- How a creation has changed the contents of the factory, and the policy's data: values that nobody
has may be gone.  (No code of its own: used in statements and proofs.) -/
def Made (S : Setup K V Rep F) (tr : Tracker T) (J : T → (Nat → Nat) → (Nat → Bool) → Prop) (ext : Nat → Nat)
    (s : St Rep (F × T)) (src : Src K V) (h : Nat) (s' : St Rep (F × T)) : Prop :=
  J s'.fac.2 (held s' (plus ext h)) (stored S s') ∧
  ∃ s1 : St Rep (F × T), Created (tr.setup S) s src h s1 ∧
    (∀ i b, (tr.setup S).At s' i b → (tr.setup S).At s1 i b) ∧
    ∀ i b, (tr.setup S).At s1 i b → 0 < held s (plus ext h) i → (tr.setup S).At s' i b

/-- A creation has thrown: nothing has changed, or the value has been stored but no handle could be made, and values that
nobody has may be gone.  (No code of its own: used in statements and proofs.) -/
def Unmade (S : Setup K V Rep F) (tr : Tracker T) (J : T → (Nat → Nat) → (Nat → Bool) → Prop) (ext : Nat → Nat)
    (s : St Rep (F × T)) (src : Src K V) (s' : St Rep (F × T)) : Prop :=
  J s'.fac.2 (held s' ext) (stored S s') ∧
  (((∀ i b, (tr.setup S).At s' i b ↔ (tr.setup S).At s i b) ∧ Faulty s) ∨
    tr.Throws ∧ ∃ (h : Nat) (s1 : St Rep (F × T)), Created (tr.setup S) s src h s1 ∧
      (∀ i b, (tr.setup S).At s' i b → (tr.setup S).At s1 i b) ∧
      (∀ i b, (tr.setup S).At s1 i b → 0 < held s ext i → (tr.setup S).At s' i b) ∧
      (tr.Leaves → Created (tr.setup S) s src h s'))

/-- Only faults and contents matter. -/
theorem Unmade.reenv {ext : Nat → Nat} {s0 s s' : St Rep (F × T)} {src : Src K V} (h : Unmade S tr J ext s0 src s')
    (hf : s0.env.faults = s.env.faults) (hat : ∀ i b, (tr.setup S).At s0 i b ↔ (tr.setup S).At s i b)
    (hfac : s0.fac = s.fac) (hal : s0.alloc = s.alloc) (ho : s0.objs = s.objs) : Unmade S tr J ext s src s' := by
  obtain ⟨h1, ⟨h2, n, hn⟩ | ⟨ht, i, s1, hc, h3, h4, h5⟩⟩ := h
  · exact ⟨h1, .inl ⟨fun i b => (h2 i b).trans (hat i b), n, by rw [← hf]; exact hn⟩⟩
  · refine ⟨h1, .inr ⟨ht, i, s1, ?_, h3, fun j b hb hp => h4 j b hb (by rw [held_frame ho]; exact hp),
      fun hl => ?_⟩⟩
    · simpa only [Created, hat, hfac, hal] using hc
    · simpa only [Created, hat, hfac, hal] using h5 hl

/-- The critical section of an insertion. -/
theorem insertLocked_ok (hJ : tr.Sound J N) {ext : Nat → Nat} {s : St Rep (F × T)} (hI : (tr.setup S).Inv ext s)
    (hj : J s.fac.2 (held s ext) (stored S s)) {src : Src K V}
    {r : Rep} {rest : List Rep} (hsup : S.sp.supports src = true) (hi : s.inited = true)
    (hl : s.locals = r :: rest) (hr : S.L.Fresh src r) :
    Triple (· = s) (insertLocked S.P (tr.factory S.Fa) tr src)
      (fun h s' => (tr.setup S).Inv (plus ext h) s' ∧ Loc (tr.setup S) s s' ∧ s'.objs = s.objs ∧ s'.depth = s.depth ∧
        s'.env.faults = s.env.faults ∧ s'.inited = true ∧ Made S tr J ext s src h s')
      (fun s' => (tr.setup S).Inv ext s' ∧ Loc (tr.setup S) s s' ∧ s'.objs = s.objs ∧ s'.depth = s.depth ∧
        s'.env.faults = s.env.faults ∧ s'.inited = true ∧ Unmade S tr J ext s src s') := by
  unfold insertLocked
  refine Triple.bind (R := fun _ s' => s' = { s with depth := s.depth + 1 }) ?_ fun _ => ?_
  · exact .ofOk (lock_ok hi) rfl
  have hI0 := hI.setDepth (s.depth + 1)
  have hbody : Triple (· = ({ s with depth := s.depth + 1 } : St Rep (F × T)))
      (Core.insertAndVisit S.P (tr.factory S.Fa) src)
      (fun h s' => Inserted (tr.setup S) ext { s with depth := s.depth + 1 } src h s' ∧
        Linking S tr { s with depth := s.depth + 1 } h s')
      (fun s' => (Rolled (tr.setup S) ext { s with depth := s.depth + 1 } s' ∧ Faulty s) ∧
        (s'.fac.2 = s.fac.2 ∨ (s'.fac.2 = tr.gone (tr.made s.fac.2 s.nextId) s.nextId ∧
          (S.Fa.entry s.fac.1 s.nextId).isSome = false))) := by
    refine Triple.both ?_ (insertAndVisit_data hI0 hsup hi hl hr)
    have h := insertVisit_spec (S := tr.setup S) hI0 hsup hi hl hr
    intro s0 hs0
    have h0 := h s0 hs0
    simp only [bind, M.bind] at h0
    have hEq : Core.insertAndVisit (tr.setup S).P (tr.setup S).Fa src s0 =
      Core.insertAndVisit S.P (tr.factory S.Fa) src s0 := rfl
    rw [hEq] at h0
    cases hm : Core.insertAndVisit S.P (tr.factory S.Fa) src s0 with
    | ok a s' => rw [hm] at h0; exact h0
    | exc s' => rw [hm] at h0; exact h0
    | ub => rw [hm] at h0; exact h0
  have hfresh : ∀ h, (S.Fa.entry s.fac.1 h).isSome = false → held s ext h = 0 := by
    intro h hf
    cases hz : held s ext h with
    | zero => rfl
    | succ n =>
      exfalso
      have : (S.Fa.entry s.fac.1 h).isSome = true := by
        by_cases he : 0 < ext h
        · exact hI.ext h he
        · have hr : 0 < refs s h := by simp only [held] at hz; omega
          obtain ⟨p, hp, rfl⟩ := of_refs_pos hr
          exact hI.objs p hp
      rw [hf] at this
      cases this
  refine Triple.scope (R := fun h s' => (tr.setup S).Inv (plus ext h) s' ∧ Loc (tr.setup S) s s' ∧
      s'.objs = s.objs ∧ s'.depth = s.depth + 1 ∧ s'.env.faults = s.env.faults ∧ s'.inited = true ∧
      Made S tr J ext s src h s')
    (RE := fun s' => (tr.setup S).Inv ext s' ∧ Loc (tr.setup S) s s' ∧ s'.objs = s.objs ∧ s'.depth = s.depth + 1 ∧
      s'.env.faults = s.env.faults ∧ s'.inited = true ∧ Unmade S tr J ext s src s') ?_ (fun h => ?_) ?_
  · refine Triple.bind (hbody.conseq (fun _ h => h) (fun _ _ h => h) ?_) fun h => ?_
    · rintro s' ⟨⟨hR, hF⟩, hd⟩
      have hst : stored S s' = stored S s := stored_congr hI hR.inv hR.at_
      refine ⟨hR.inv, ?_, hR.objs, hR.depth, hR.faults, hR.ini hi, ⟨?_, .inl ⟨hR.at_, hF⟩⟩⟩
      · obtain ⟨q, q', rest', g1, g2, g3, g4⟩ := hR.loc
        exact ⟨q, q', rest', g1, g2, g3, g4⟩
      · rw [held_frame (s := s) (by exact hR.objs), hst]
        rcases hd with hd | ⟨hd, hfr⟩
        · rw [hd]; exact hj
        · rw [hd]
          have h1 := hJ.gone _ _ _ _ (hJ.made _ _ _ s.nextId hj hfr (hfresh _ hfr))
          have h2 : removing (storing (stored S s) s.nextId) s.nextId = stored S s := by
            funext i
            simp only [removing, storing]
            by_cases hi : i = s.nextId
            · simp only [hi, if_true]; exact hfr.symm
            · simp [hi]
          rw [h2] at h1
          exact h1
    · refine Triple.at ?_
      rintro s1 ⟨hO, hlk⟩
      have hheld : held s1 (plus ext h) = more (held s ext) h := by
        rw [held_frame (s := s) (by exact hO.objs), held_plus]
      have hheld0 : held s1 ext = held s ext := held_frame (s := s) (by exact hO.objs) ext
      have hcode : (tr.fails s1.fac.2 h = Option.none → (tr.ctor s1.fac.2 h).Ok tr J (held s1 (plus ext h)) (stored S s1)) ∧
          ∀ c, tr.fails s1.fac.2 h = some c → c.Ok tr J (held s1 ext) (stored S s1) := by
        rw [hheld, hheld0]
        rcases hlk with ⟨g1, g2⟩ | ⟨g1, g2⟩
        · rcases hO.created with ⟨b, hb, _, hat⟩ | ⟨_, hfr, _⟩
          · rw [stored_congr hI hO.inv hat, g1]
            exact ⟨hJ.ctor _ _ _ _ hj g2, fun c => hJ.fails _ _ _ _ c hj g2⟩
          · have hfr' : S.Fa.entry s.fac.1 h = Option.none := hfr
            have g2' : (S.Fa.entry s.fac.1 h).isSome = true := g2
            rw [hfr'] at g2'
            cases g2'
        · rcases hO.created with ⟨b, hb, _, hat⟩ | ⟨_, hfr, a, _, _, hat⟩
          · have := hI.lt h hb.some
            have g1' : h = s.nextId := g1
            omega
          · have hfr' : (S.Fa.entry s.fac.1 h).isSome = false := by
              have : S.Fa.entry s.fac.1 h = Option.none := hfr
              rw [this]; rfl
            have hst : stored S s1 = storing (stored S s) h := by
              funext i
              rw [Bool.eq_iff_iff, stored_at hO.inv]
              simp only [hat, storing]
              by_cases hi : i = h
              · subst hi
                simp
              · simp only [hi, false_and, or_false, if_false]
                exact (stored_at hI i).symm
            rw [hst, g2]
            exact ⟨hJ.first _ _ _ _ (hJ.made _ _ _ h hj hfr' (hfresh _ hfr')) (by simp [storing]) (hfresh _ hfr'),
              fun c => hJ.firstFails _ _ _ _ c (hJ.made _ _ _ h hj hfr' (hfresh _ hfr')) (by simp [storing]) (hfresh _ hfr')⟩
      cases hf : tr.fails s1.fac.2 h with
      | some c =>
        obtain ⟨s2, h1, h2⟩ := runCode_ok (S := S) (tr := tr) (J := J) c (inv_minus hO.inv) (hcode.2 c hf)
        intro s0 hs0
        subst hs0
        simp only [bind, M.bind, construct, M.read, hf, h1, raise]
        refine ⟨h2.inv, ?_, h2.frame.objs.trans hO.objs, h2.frame.depth.trans hO.depth,
          h2.frame.faults.trans hO.faults, h2.frame.ini (hO.ini hi), h2.data,
          .inr ⟨⟨_, _, by rw [hf]; rfl⟩, h, s0, hO.created, h2.sub, fun i b hb hp => h2.keep i b hb ?_, fun hl => ?_⟩⟩
        · obtain ⟨q, q', rest', g1, g2, g3, g4⟩ := hO.loc
          exact ⟨q, q', rest', g1, h2.frame.locals.trans g2, g3, g4⟩
        · rw [hheld0]
          exact hp
        · obtain ⟨t', rfl⟩ := hl _ _ _ hf
          cases h1
          exact hO.created
      | none =>
      obtain ⟨s2, h1, h2⟩ := runCode_ok (S := S) (tr := tr) (J := J) (tr.ctor s1.fac.2 h) hO.inv (hcode.1 hf)
      refine .ofOk (a := h) (e₂ := s2) (by simp only [bind, M.bind, construct, M.read, hf, h1]; rfl) ?_
      refine ⟨h2.inv, ?_, h2.frame.objs.trans hO.objs, h2.frame.depth.trans hO.depth,
        h2.frame.faults.trans hO.faults, h2.frame.ini (hO.ini hi), h2.data, s1, ?_, h2.sub, ?_⟩
      · obtain ⟨q, q', rest', g1, g2, g3, g4⟩ := hO.loc
        exact ⟨q, q', rest', g1, h2.frame.locals.trans g2, g3, g4⟩
      · exact hO.created
      · intro i b hb hp
        refine h2.keep i b hb ?_
        rw [held_frame (s := s) (by exact hO.objs)]
        exact hp
  · refine Triple.at ?_
    rintro s1 ⟨h1, h2, h3, h4, h5, h6, h7⟩
    refine .ofOk (unlock_ok h4) ?_
    refine ⟨h1.setDepth s.depth, ?_, h3, rfl, h5, h6, ?_⟩
    · obtain ⟨q, q', rest', g1, g2, g3, g4⟩ := h2
      exact ⟨q, q', rest', g1, g2, g3, g4⟩
    · exact h7
  · refine Triple.at ?_
    rintro s1 ⟨h1, h2, h3, h4, h5, h6, h7⟩
    refine .ofOk (unlock_ok h4) ?_
    refine ⟨h1.setDepth s.depth, ?_, h3, rfl, h5, h6, ?_⟩
    · obtain ⟨q, q', rest', g1, g2, g3, g4⟩ := h2
      exact ⟨q, q', rest', g1, g2, g3, g4⟩
    · exact h7

/-- A successful creation.  (No code of its own: used in statements and proofs.) -/
structure MadeOk (S : Setup K V Rep F) (tr : Tracker T) (J : T → (Nat → Nat) → (Nat → Bool) → Prop) (ext : Nat → Nat)
    (s : St Rep (F × T)) (src : Src K V) (h : Nat) (s' : St Rep (F × T)) : Prop where
  inv : (tr.setup S).Inv (plus ext h) s'
  frame : Frame s s'
  made : Made S tr J ext s src h s'

/-- A failed creation.  (No code of its own: used in statements and proofs.) -/
structure MadeFail (S : Setup K V Rep F) (tr : Tracker T) (J : T → (Nat → Nat) → (Nat → Bool) → Prop) (ext : Nat → Nat)
    (s : St Rep (F × T)) (src : Src K V) (s' : St Rep (F × T)) : Prop where
  inv : (tr.setup S).Inv ext s'
  frame : Frame s s'
  unmade : Unmade S tr J ext s src s'

/-- The inner scope of `insert`: entry `e` is local. -/
theorem insertEntry_ok (hJ : tr.Sound J N) {ext : Nat → Nat} {s : St Rep (F × T)} {e : Env}
    (hI : (tr.setup S).Inv ext s) (hj : J s.fac.2 (held s ext) (stored S s)) {src : Src K V}
    {r : Rep} (hsup : S.sp.supports src = true) (hi : s.inited = true)
    (hr : S.L.Fresh src r) (hsh : s.env.Shift e (S.L.res r)) :
    Triple (· = ({ s with env := e } : St Rep (F × T)))
      (Core.withLocal S.P r (insertLocked S.P (tr.factory S.Fa) tr src))
      (fun h s' => MadeOk S tr J ext s src h s') (fun s' => MadeFail S tr J ext s src s') := by
  refine withLocal_triple (S := tr.setup S)
    (insertLocked_ok hJ (s := { s with env := e, locals := r :: s.locals }) (hI.push hsh) hj hsup hi rfl hr)
    ?_ ?_
  · rintro h s1 ⟨h1, h2, h3, h4, h5, h6, h7⟩
    obtain ⟨q, q', rest', g1, g2, g3, g4⟩ := h2
    cases g1
    refine ⟨q', s.locals, g2, g3, fun e' he' => ?_⟩
    exact ⟨h1.pop g2 he', ⟨h3, rfl, h4, he'.faults.trans (h5.trans hsh.faults), fun _ => h6⟩, h7⟩
  · rintro s1 ⟨h1, h2, h3, h4, h5, h6, h7⟩
    obtain ⟨q, q', rest', g1, g2, g3, g4⟩ := h2
    cases g1
    refine ⟨q', s.locals, g2, g3, fun e' he' => ?_⟩
    exact ⟨h1.pop g2 he', ⟨h3, rfl, h4, he'.faults.trans (h5.trans hsh.faults), fun _ => h6⟩,
      h7.reenv (by exact hsh.faults) (fun _ _ => Iff.rfl) rfl rfl rfl⟩

/-- `insert`. -/
theorem insert_ok (hJ : tr.Sound J N) {ext : Nat → Nat} {s : St Rep (F × T)} (hI : (tr.setup S).Inv ext s)
    (hj : J s.fac.2 (held s ext) (stored S s)) {src : Src K V} (hsup : S.sp.supports src = true) :
    Triple (· = s) (insert S.P (tr.factory S.Fa) tr src)
      (fun h s' => MadeOk S tr J ext s src h s' ∧ s'.inited = true)
      (fun s' => MadeFail S tr J ext s src s') := by
  have key : Triple (· = s) (do
      let x ← Core.env (S.P.ofSrc src)
      Core.withLocal S.P x (do
        Core.init
        let p ← Core.env (S.P.move x)
        Core.setTop p.2
        Core.withLocal S.P p.1 (insertLocked S.P (tr.factory S.Fa) tr src)))
      (fun h s' => MadeOk S tr J ext s src h s' ∧ s'.inited = true)
      (fun s' => MadeFail S tr J ext s src s') := by
    refine Triple.bind (R := fun x s' => ∃ e, (S.L.Fresh src x ∧ s.env.Shift e (S.L.res x)) ∧
      s' = { s with env := e }) ((env_triple (S.L.ofSrc src s.env hsup)).conseq (fun _ h => h)
        (fun _ _ h => h) ?_) fun x => ?_
    · rintro s' ⟨e, hf, rfl⟩
      exact ⟨hI.setEnv hf.shift, ⟨rfl, rfl, rfl, hf.shift.faults, id⟩, ⟨hj, .inl ⟨fun _ _ => Iff.rfl, hf.fault⟩⟩⟩
    · refine Triple.at ?_
      rintro s1 ⟨e, ⟨hx, hsh⟩, rfl⟩
      refine withLocal_triple (S := tr.setup S)
        (R := fun h s' => ∃ q, S.L.Live q ∧ (tr.setup S).Inv (plus ext h) s' ∧
          s'.locals = q :: s.locals ∧ Frame { s with locals := q :: s.locals } s' ∧
          s'.inited = true ∧ Made S tr J ext s src h s')
        (RE := fun s' => ∃ q, S.L.Live q ∧ S.L.res q = S.L.res x ∧ (tr.setup S).Inv ext s' ∧
          s'.locals = q :: s.locals ∧ Frame { s with locals := q :: s.locals } s' ∧
          Unmade S tr J ext s src s') ?_ ?_ ?_
      · refine Triple.bind (R := fun _ s' => s' = { s with env := e, locals := x :: s.locals, inited := true })
          (.ofOk rfl rfl) fun _ => ?_
        refine Triple.bind (R := fun p s' => ∃ e1, (S.L.Fresh src p.1 ∧ S.L.Live p.2 ∧
          S.L.res p.2 = S.L.res x ∧ e.Shift e1 (S.L.res p.1)) ∧
          s' = { s with env := e1, locals := x :: s.locals, inited := true })
          ((env_triple (S.L.move src x _ hx)).conseq (fun _ h => h) (fun _ _ h => h) ?_) fun p => ?_
        · rintro s' ⟨e1, hf, rfl⟩
          refine ⟨x, S.L.fresh_live hx, rfl, ?_, rfl, ⟨rfl, rfl, rfl, ?_, fun _ => rfl⟩,
            ⟨hj, .inl ⟨fun _ _ => Iff.rfl, ?_⟩⟩⟩
          · have := (hI.push hsh).setInited.setEnv hf.shift
            exact this
          · exact hf.shift.faults.trans hsh.faults
          · obtain ⟨n, hn⟩ := hf.fault
            exact ⟨n, by rw [← hsh.faults]; exact hn⟩
        · refine Triple.at ?_
          rintro s2 ⟨e1, ⟨hp1, hp2, hp3, hp4⟩, rfl⟩
          refine Triple.bind (R := fun _ s' => s' = { s with env := e1, locals := p.2 :: s.locals, inited := true })
            (.ofOk rfl rfl) fun _ => ?_
          have hI2 : (tr.setup S).Inv ext { s with env := e, locals := p.2 :: s.locals, inited := true } :=
            (hI.push hsh).setInited.moved (r := x) rfl hp3 (Env.Shift.refl _)
          refine (insertEntry_ok hJ hI2 hj hsup rfl hp1 hp4).conseq (fun _ h => h) ?_ ?_
          · intro h s' h1
            exact ⟨p.2, hp2, h1.inv, h1.frame.locals, ⟨h1.frame.objs, h1.frame.locals,
              h1.frame.depth, h1.frame.faults.trans hsh.faults, fun _ => h1.frame.ini rfl⟩,
              h1.frame.ini rfl, h1.made⟩
          · intro s' h1
            refine ⟨p.2, hp2, hp3, h1.inv, h1.frame.locals, ⟨h1.frame.objs, h1.frame.locals,
              h1.frame.depth, h1.frame.faults.trans hsh.faults, fun _ => h1.frame.ini rfl⟩,
              h1.unmade.reenv (by exact hsh.faults) (fun _ _ => Iff.rfl) rfl rfl rfl⟩
      · rintro h s' ⟨q, h1, h2, h3, h4, h5, h6⟩
        refine ⟨q, s.locals, h3, h1, fun e' he' => ?_⟩
        exact ⟨⟨h2.pop h3 he', ⟨h4.objs, rfl, h4.depth, he'.faults.trans h4.faults, h4.ini⟩, h6⟩, h5⟩
      · rintro s' ⟨q, h1, h2, h3, h4, h5, h6⟩
        refine ⟨q, s.locals, h4, h1, fun e' he' => ?_⟩
        exact ⟨h3.pop h4 he', ⟨h5.objs, rfl, h5.depth, he'.faults.trans h5.faults, h5.ini⟩, h6⟩
  have value : Triple (· = s) (do
      Core.init
      let e ← Core.entryOf S.P (if tr.wraps then .refcounted else .noTracking) src
      Core.withLocal S.P e (insertLocked S.P (tr.factory S.Fa) tr src))
      (fun h s' => MadeOk S tr J ext s src h s' ∧ s'.inited = true)
      (fun s' => MadeFail S tr J ext s src s') := by
    refine Triple.bind (R := fun _ s' => s' = { s with inited := true }) (.ofOk rfl rfl) fun _ => ?_
    have first : Triple (· = { s with inited := true }) (Core.env (S.P.ofSrc src)) (fun x s' =>
        ∃ e, (S.L.Fresh src x ∧ s.env.Shift e (S.L.res x)) ∧ s' = { s with env := e, inited := true })
        (fun s' => MadeFail S tr J ext s src s') := by
      refine (env_triple (s := { s with inited := true }) (S.L.ofSrc src s.env hsup)).conseq
        (fun _ h => h) (fun _ _ h => h) ?_
      rintro s' ⟨e, hf, rfl⟩
      exact ⟨(hI.setEnv hf.shift).setInited, ⟨rfl, rfl, rfl, hf.shift.faults, fun _ => rfl⟩,
        ⟨hj, .inl ⟨fun _ _ => Iff.rfl, hf.fault⟩⟩⟩
    refine Triple.bind (R := fun x' s' => ∃ e1, (S.L.Fresh src x' ∧ s.env.Shift e1 (S.L.res x')) ∧
      s' = { s with env := e1, inited := true }) ?_ fun x' => ?_
    · unfold Core.entryOf
      cases tr.wraps
      case false => exact first
      refine Triple.bind first fun x => ?_
      refine Triple.at ?_
      rintro s1 ⟨e, ⟨hx, hsh⟩, rfl⟩
      refine withLocal_triple (S := tr.setup S)
        (R := fun x' s' => ∃ e1 q, (S.L.Fresh src x' ∧ S.L.Live q ∧
          S.L.res q = S.L.res x ∧ e.Shift e1 (S.L.res x')) ∧
          s' = { s with env := e1, locals := q :: s.locals, inited := true })
        (RE := fun s' => ∃ e1, e.Failed e1 ∧
          s' = { s with env := e1, locals := x :: s.locals, inited := true }) ?_ ?_ ?_
      · refine Triple.bind (R := fun p s' => ∃ e1, (S.L.Fresh src p.1 ∧ S.L.Live p.2 ∧
          S.L.res p.2 = S.L.res x ∧ e.Shift e1 (S.L.res p.1)) ∧
          s' = { s with env := e1, locals := x :: s.locals, inited := true })
          ((env_triple (S.L.move src x _ hx)).conseq (fun _ h => h) (fun _ _ h => h)
            (fun _ h => h)) fun p => ?_
        refine Triple.at ?_
        rintro s2 ⟨e1, hp, rfl⟩
        exact .ofOk (a := p.1) rfl ⟨e1, p.2, hp, rfl⟩
      · rintro x' s' ⟨e1, q, ⟨h1, h2, h3, h4⟩, rfl⟩
        refine ⟨q, s.locals, rfl, h2, fun e2 he2 => ⟨e2, ⟨h1, ?_⟩, rfl⟩⟩
        refine ((hsh.trans h4).trans he2).cast ?_ ?_ <;> simp only [Tracker.setup, h3] <;> omega
      · rintro s' ⟨e1, hf, rfl⟩
        refine ⟨x, s.locals, rfl, S.L.fresh_live hx, fun e2 he2 => ?_⟩
        have hs0 : s.env.Shift e2 (0, 0) := by
          refine ((hsh.trans hf.shift).trans he2).cast ?_ ?_ <;> simp only [Tracker.setup] <;> omega
        refine ⟨(hI.setEnv hs0).setInited, ⟨rfl, rfl, rfl, hs0.faults, fun _ => rfl⟩,
          ⟨hj, .inl ⟨fun _ _ => Iff.rfl, ?_⟩⟩⟩
        obtain ⟨n, hn⟩ := hf.fault
        exact ⟨n, by rw [← hsh.faults]; exact hn⟩
    · refine Triple.at ?_
      rintro s2 ⟨e1, ⟨h1, h2⟩, rfl⟩
      refine (insertEntry_ok hJ (s := { s with inited := true }) hI.setInited hj hsup rfl h1 h2).conseq
        (fun _ h => h) ?_ ?_
      · intro h s' h3
        exact ⟨⟨h3.inv, ⟨h3.frame.objs, h3.frame.locals, h3.frame.depth, h3.frame.faults,
          fun _ => h3.frame.ini rfl⟩, h3.made⟩, h3.frame.ini rfl⟩
      · intro s' h3
        exact ⟨h3.inv, ⟨h3.frame.objs, h3.frame.locals, h3.frame.depth, h3.frame.faults,
          fun _ => h3.frame.ini rfl⟩,
          h3.unmade.reenv rfl (fun _ _ => Iff.rfl) rfl rfl rfl⟩
  cases src with
  | key k => exact key
  | copy v => exact value
  | move v => exact value

end Track
end Verif

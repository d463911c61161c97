import Verif.Tracker

/-!
# Tracking policies of the user's own: lemmas
-/

set_option autoImplicit false

namespace Verif
open Setup

/-- The factory with the policy's entries is as lawful as it was.  (No code of its own: used in statements and proofs.) -/
def Tracker.lawful {T F E : Type} (tr : Tracker T) {Fa : Factory F E} {eqv : E → E → Prop} (L : Fa.Lawful eqv) :
    (tr.factory Fa).Lawful eqv where
  Inv f := L.Inv f.1
  inv_empty := L.inv_empty
  entry_empty := L.entry_empty
  lookup_inv := fun e h => L.lookup_inv e h
  lookup_entry := fun e i h => L.lookup_entry e i h
  lookup_some := fun e i h hl => L.lookup_some e i h hl
  lookup_none := fun e h hl => L.lookup_none e h hl
  link_inv := fun i e h h1 h2 => L.link_inv i e h h1 h2
  link_entry := fun i e j h h1 => L.link_entry i e j h h1
  erase_inv := fun i h => L.erase_inv i h
  erase_entry := fun i j h => L.erase_entry i j h
  update_inv := fun i e e' h h1 h2 h3 => L.update_inv i e e' h h1 h2 h3
  update_entry := fun i e e' j h h1 h2 h3 => L.update_entry i e e' j h h1 h2 h3
  ids_nodup := fun h => L.ids_nodup h
  mem_ids := fun i h => L.mem_ids i h

/-- The flyweight type with a tracking policy of the user's own.  (No code of its own: used in statements and proofs.) -/
def Tracker.setup {K V Rep F T : Type} (tr : Tracker T) (S : Setup K V Rep F) : Setup K V Rep (F × T) where
  P := S.P
  Fa := tr.factory S.Fa
  trk := .noTracking
  sp := S.sp
  keq := S.keq
  eqv := S.eqv
  L := S.L
  LF := tr.lawful S.LF
  LS := S.LS
  hkey := S.hkey

namespace Track
variable {K V Rep F T : Type} {S : Setup K V Rep F} {tr : Tracker T}
  {J : T → (Nat → Nat) → (Nat → Bool) → Prop} {N : Nat → T → (Nat → Nat) → (Nat → Bool) → Prop}

/-- The values stored.  (No code of its own: used in statements and proofs.) -/
def stored (S : Setup K V Rep F) (s : St Rep (F × T)) : Nat → Bool := fun i => (S.Fa.entry s.fac.1 i).isSome

/-- Handles to each value: those of flyweights and `ext`.  (No code of its own: used in statements and proofs.) -/
def held (s : St Rep (F × T)) (ext : Nat → Nat) : Nat → Nat := fun i => refs s i + ext i

theorem held_plus (s : St Rep (F × T)) (ext : Nat → Nat) (h : Nat) :
    held s (plus ext h) = more (held s ext) h := by
  funext i
  simp only [held, plus, more]
  split <;> omega

theorem held_frame {s s' : St Rep (F × T)} (h : s'.objs = s.objs) (ext : Nat → Nat) : held s' ext = held s ext := by
  funext i
  simp only [held, refs, h]

theorem stored_at {ext : Nat → Nat} {s : St Rep (F × T)} (hI : (tr.setup S).Inv ext s) (i : Nat) :
    stored S s i = true ↔ ∃ b, (tr.setup S).At s i b :=
  ⟨fun h => hI.at_some h, fun ⟨_, hb⟩ => hb.some⟩

theorem stored_congr {ext ext' : Nat → Nat} {s s' : St Rep (F × T)} (hI : (tr.setup S).Inv ext s)
    (hI' : (tr.setup S).Inv ext' s') (h : ∀ i b, (tr.setup S).At s' i b ↔ (tr.setup S).At s i b) :
    stored S s' = stored S s := by
  funext i
  rw [Bool.eq_iff_iff, stored_at hI', stored_at hI]
  exact exists_congr (h i)

/-- A handle more or less in code in progress makes no difference to the invariant of the library. -/
theorem inv_plus {ext : Nat → Nat} {s : St Rep (F × T)} (hI : (tr.setup S).Inv ext s) {h : Nat}
    (hs : stored S s h = true) : (tr.setup S).Inv (plus ext h) s := by
  obtain ⟨s', h1, h2, _⟩ := handleCopy_spec hI hs
  cases h1
  exact h2

theorem inv_minus {ext : Nat → Nat} {s : St Rep (F × T)} {h : Nat} (hI : (tr.setup S).Inv (plus ext h) s) :
    (tr.setup S).Inv ext s := by
  obtain ⟨s', h1, h2, _⟩ := handleDtor_spec hI
  cases h1
  exact h2

theorem setData_inv {ext : Nat → Nat} {s : St Rep (F × T)} (hI : (tr.setup S).Inv ext s) (t : T) :
    (tr.setup S).Inv ext { s with fac := (s.fac.1, t) } :=
  hI.setFac (f := (s.fac.1, t)) hI.fac fun _ => rfl

theorem setData_at (s : St Rep (F × T)) (t : T) (i : Nat) (b : Bind K V) :
    (tr.setup S).At { s with fac := (s.fac.1, t) } i b ↔ (tr.setup S).At s i b := Iff.rfl

/-- `TrackingHelper::erase`. -/
theorem helperErase_ok {ext : Nat → Nat} {s : St Rep (F × T)} (hI : (tr.setup S).Inv ext s) (h : Nat)
    (chk : T → T × Bool)
    (hc : (chk s.fac.2).2 = true → stored S s h = true ∧ held s ext h = 0) :
    ∃ s', helperErase S.P (tr.factory S.Fa) h chk s = .ok () s' ∧ (tr.setup S).Inv ext s' ∧ Frame s s' ∧
      s'.inited = true ∧
      ((chk s.fac.2).2 = true → s'.fac.2 = tr.gone (chk s.fac.2).1 h ∧
        ∀ i b, (tr.setup S).At s' i b ↔ (tr.setup S).At s i b ∧ i ≠ h) ∧
      ((chk s.fac.2).2 = false → s'.fac.2 = (chk s.fac.2).1 ∧
        ∀ i b, (tr.setup S).At s' i b ↔ (tr.setup S).At s i b) := by
  have hI1 : (tr.setup S).Inv ext { s with inited := true } := hI.setInited
  have hI2 := setData_inv (hI1.setDepth (s.depth + 1)) (chk s.fac.2).1
  have hl : Core.lock ({ s with inited := true } : St Rep (F × T)) =
      .ok () { s with inited := true, depth := s.depth + 1 } := lock_ok rfl
  cases hb : (chk s.fac.2).2 with
  | false =>
    refine ⟨{ s with inited := true, fac := (s.fac.1, (chk s.fac.2).1) }, ?_, setData_inv hI1 _,
      ⟨rfl, rfl, rfl, rfl, fun _ => rfl⟩, rfl, fun h => by (cases h), fun _ => ⟨rfl, fun _ _ => Iff.rfl⟩⟩
    simp only [helperErase, M.bind, Core.init, M.update, bind, hl]
    simp only [M.scope, M.bind, M.read, setData, M.update, hb, Bool.false_eq_true, if_false, pure, M.ret]
    rw [unlock_ok (n := s.depth) rfl]
  | true =>
    obtain ⟨h1, h2⟩ := hc hb
    obtain ⟨e, he⟩ := Option.isSome_iff_exists.1 h1
    obtain ⟨k, v, hfull⟩ := hI.full h e he
    obtain ⟨e', hsh, hfe⟩ := facErase_spec (S := tr.setup S) (h := h) (e := e)
      (s := { s with inited := true, depth := s.depth + 1, fac := (s.fac.1, (chk s.fac.2).1) })
      hI2.fac rfl he (S.L.full_live hfull)
    have hv : ∀ i, S.Fa.entry (S.Fa.erase s.fac.1 h) i = if i = h then Option.none else S.Fa.entry s.fac.1 i :=
      fun i => S.LF.erase_entry h i hI.fac
    have h0 : refs s h = 0 ∧ ext h = 0 := by simp only [held] at h2; omega
    refine ⟨{ s with inited := true, env := e', fac := (S.Fa.erase s.fac.1 h, tr.gone (chk s.fac.2).1 h) }, ?_, ?_,
      ⟨rfl, rfl, rfl, hsh.faults, fun _ => rfl⟩, rfl, fun _ => ⟨rfl, ?_⟩, fun h => by (cases h)⟩
    · simp only [helperErase, M.bind, Core.init, M.update, bind, hl]
      simp only [M.scope, M.bind, M.read, setData, M.update, hb, if_true]
      have hfe' : Core.facErase S.P (tr.factory S.Fa) h
        ({ s with inited := true, depth := s.depth + 1, fac := (s.fac.1, (chk s.fac.2).1) } : St Rep (F × T)) = _ := hfe
      rw [hfe']
      simp only
      rw [unlock_ok (n := s.depth) rfl]
      rfl
    · exact hI.erased (S := tr.setup S) (e := e) he (S.LF.erase_inv h hI.fac) hv rfl rfl rfl rfl (fun _ => rfl) rfl hsh
        h0.1 h0.2 fun _ _ => rfl
    · exact Inv.at_erased (S := tr.setup S) (s := s)
        (s' := { s with inited := true, env := e', fac := (S.Fa.erase s.fac.1 h, tr.gone (chk s.fac.2).1 h) }) hv rfl

/-- The effect of a member function of the handle type.  (No code of its own: used in statements and proofs.) -/
structure Ran (S : Setup K V Rep F) (tr : Tracker T) (J : T → (Nat → Nat) → (Nat → Bool) → Prop) (ext : Nat → Nat)
    (s s' : St Rep (F × T)) : Prop where
  inv : (tr.setup S).Inv ext s'
  frame : Frame s s'
  data : J s'.fac.2 (held s' ext) (stored S s')
  sub : ∀ i b, (tr.setup S).At s' i b → (tr.setup S).At s i b
  keep : ∀ i b, (tr.setup S).At s i b → 0 < held s ext i → (tr.setup S).At s' i b

theorem runCode_ok {ext : Nat → Nat} (c : Code T) {s : St Rep (F × T)} (hI : (tr.setup S).Inv ext s)
    (hc : c.Ok tr J (held s ext) (stored S s)) :
    ∃ s', runCode S.P (tr.factory S.Fa) c s = .ok () s' ∧ Ran S tr J ext s s' := by
  induction c generalizing s with
  | ret t =>
    exact ⟨{ s with fac := (s.fac.1, t) }, rfl, setData_inv hI t, ⟨rfl, rfl, rfl, rfl, id⟩, hc,
      fun _ _ h => h, fun _ _ h _ => h⟩
  | erase t h chk next ih =>
    have hI1 := setData_inv hI t
    simp only [Code.Ok] at hc
    obtain ⟨s1, h1, h2, h3, h3', h4, h5⟩ := helperErase_ok (s := { s with fac := (s.fac.1, t) }) hI1 h chk (by
      intro hb
      have hb' : (chk t).2 = true := hb
      rw [if_pos hb'] at hc
      exact ⟨hc.1, hc.2.1⟩)
    have hheld : held s1 ext = held s ext := held_frame h3.objs ext
    have run : ∀ s', runCode S.P (tr.factory S.Fa) (next s1.fac.2) s1 = .ok () s' →
        runCode S.P (tr.factory S.Fa) (.erase t h chk next) s = .ok () s' := by
      intro s' hs'
      simp only [runCode, M.bind, setData, M.update, bind, h1, M.read]
      exact hs'
    cases hb : (chk t).2 with
    | true =>
      obtain ⟨g1, g2⟩ := h4 hb
      rw [if_pos hb] at hc
      have hst : stored S s1 = removing (stored S s) h := by
        funext i
        rw [Bool.eq_iff_iff, stored_at h2]
        simp only [g2, removing]
        by_cases hi : i = h
        · simp [hi]
        · simp only [hi, not_false_eq_true, and_true, ne_eq, if_false]
          exact (stored_at hI i).symm
      obtain ⟨s', k1, k2⟩ := ih s1.fac.2 (s := s1) h2 (by
        rw [hheld, hst, g1]
        exact hc.2.2)
      refine ⟨s', run s' k1, k2.inv, ⟨k2.frame.objs.trans h3.objs, k2.frame.locals.trans h3.locals,
        k2.frame.depth.trans h3.depth, k2.frame.faults.trans h3.faults, fun hi => k2.frame.ini (h3.ini hi)⟩, k2.data,
        fun i b hb => ((g2 i b).1 (k2.sub i b hb)).1, fun i b hb hp => k2.keep i b ((g2 i b).2 ⟨hb, ?_⟩)
          (by rw [hheld]; exact hp)⟩
      intro hi
      subst hi
      omega
    | false =>
      obtain ⟨g1, g2⟩ := h5 hb
      rw [if_neg (by simp [hb])] at hc
      have hst : stored S s1 = stored S s := stored_congr hI h2 g2
      obtain ⟨s', k1, k2⟩ := ih s1.fac.2 (s := s1) h2 (by
        rw [hheld, hst, g1]
        exact hc)
      exact ⟨s', run s' k1, k2.inv, ⟨k2.frame.objs.trans h3.objs, k2.frame.locals.trans h3.locals,
        k2.frame.depth.trans h3.depth, k2.frame.faults.trans h3.faults, fun hi => k2.frame.ini (h3.ini hi)⟩, k2.data,
        fun i b hb => (g2 i b).1 (k2.sub i b hb), fun i b hb hp => k2.keep i b ((g2 i b).2 hb)
          (by rw [hheld]; exact hp)⟩

theorem call_ok {ext : Nat → Nat} (c : T → Code T) {s : St Rep (F × T)} (hI : (tr.setup S).Inv ext s)
    (hc : (c s.fac.2).Ok tr J (held s ext) (stored S s)) :
    ∃ s', call S.P (tr.factory S.Fa) c s = .ok () s' ∧ Ran S tr J ext s s' :=
  runCode_ok (c s.fac.2) hI hc

end Track
end Verif

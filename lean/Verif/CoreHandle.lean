import Verif.CoreInv

/-!
# Sequential core: handles
-/

set_option autoImplicit false

namespace Verif
namespace Setup
variable {K V Rep F : Type} {S : Setup K V Rep F}

/-- Parts of the state that handle operations leave alone.  (No code of its own: used in
statements and proofs.) -/
structure Frame (s s' : St Rep F) : Prop where
  objs : s'.objs = s.objs
  locals : s'.locals = s.locals
  depth : s'.depth = s.depth
  faults : s'.env.faults = s.env.faults
  ini : s.inited = true → s'.inited = true

theorem Frame.refl (s : St Rep F) : Frame s s := ⟨rfl, rfl, rfl, rfl, id⟩

theorem Frame.trans {s s' s'' : St Rep F} (h : Frame s s') (h' : Frame s' s'') : Frame s s'' :=
  ⟨h'.objs.trans h.objs, h'.locals.trans h.locals, h'.depth.trans h.depth,
    h'.faults.trans h.faults, h'.ini ∘ h.ini⟩

theorem plus_self (ext : Nat → Nat) (h : Nat) : plus ext h h = ext h + 1 := by simp [plus]

theorem plus_ne (ext : Nat → Nat) {h i : Nat} (hi : i ≠ h) : plus ext h i = ext i := by
  simp [plus, hi]

/-- Copying a handle. -/
theorem handleCopy_spec {ext : Nat → Nat} {s : St Rep F} (hI : S.Inv ext s) {h : Nat}
    (hs : (S.Fa.entry s.fac h).isSome) :
    ∃ s', Core.handleCopy S.Fa S.trk h s = .ok () s' ∧ S.Inv (plus ext h) s' ∧ Frame s s' ∧
      s'.env = s.env ∧ s'.nextId = s.nextId ∧ ∀ i b, S.At s' i b ↔ S.At s i b := by
  obtain ⟨e, he⟩ := Option.isSome_iff_exists.1 hs
  have hi := hI.ini h hs
  cases ht : S.trk with
  | noTracking =>
    refine ⟨s, rfl, ?_, Frame.refl s, rfl, rfl, fun _ _ => Iff.rfl⟩
    constructor
    · exact hI.fac
    · exact hI.alloc
    · exact hI.full
    · intro h'; rw [ht] at h'; cases h'
    · exact hI.objs
    · intro i hx
      by_cases hj : i = h
      · subst hj; exact hs
      · rw [plus_ne _ hj] at hx; exact hI.ext i hx
    · exact hI.ini
    · exact hI.lt
    · exact hI.inj
    · exact hI.keys
    · exact hI.vals
  | refcounted =>
    obtain ⟨hr, hp, hd⟩ := hI.counts ht h e he
    refine ⟨{ s with fac := S.Fa.update s.fac h { e with ref := e.ref + 1 } }, ?_, ?_, ?_, rfl, rfl, ?_⟩
    · show M.bind (Core.addRef S.Fa h) _ s = _
      simp only [M.bind, addRef_ok hi he]
      rfl
    · refine hI.setCounts he (e.ref + 1) e.del ?_ fun i hx => plus_ne _ hx
      intro _
      rw [plus_self]
      refine ⟨?_, by omega, hd⟩
      rw [hr]; omega
    · exact ⟨rfl, rfl, rfl, rfl, id⟩
    · intro i b
      exact hI.at_setCounts he (e.ref + 1) e.del i b

/-- Removing an entry to which there is no handle. -/
theorem Inv.erased {ext ext' : Nat → Nat} {s s' : St Rep F} (hI : S.Inv ext s) {h : Nat} {e : Ent Rep}
    (he : S.Fa.entry s.fac h = some e) (hf : S.LF.Inv s'.fac)
    (hv : ∀ i, S.Fa.entry s'.fac i = if i = h then none else S.Fa.entry s.fac i)
    (ha : s'.alloc = s.alloc) (hd : s'.addr = s.addr) (ho : s'.objs = s.objs)
    (hn : s'.nextId = s.nextId) (hini : s.inited = true → s'.inited = true)
    (hl : s'.locals = s.locals)
    (hsh : s.env.Shift s'.env (-(S.L.res e.rep).1, -(S.L.res e.rep).2))
    (h0 : refs s h = 0) (hx0 : ext' h = 0) (hx : ∀ i, i ≠ h → ext' i = ext i) :
    S.Inv ext' s' := by
  have hr : ∀ i, refs s' i = refs s i := fun i => by unfold refs; rw [ho]
  have hsome : ∀ i, (S.Fa.entry s'.fac i).isSome → i ≠ h ∧ (S.Fa.entry s.fac i).isSome := by
    intro i hi
    rw [hv] at hi
    by_cases hj : i = h
    · simp [hj] at hi
    · simp [hj] at hi
      exact ⟨hj, hi⟩
  have htot : ∀ g : Int × Int → Int, S.tot g s' = S.tot g s - g (S.L.res e.rep) := by
    intro g
    unfold tot
    rw [hn, hl]
    have := rsum_change (f := fun i => S.cnt g (S.Fa.entry s.fac i))
      (g := fun i => S.cnt g (S.Fa.entry s'.fac i)) (n := s.nextId) (i := h)
      (hI.lt h (by simp [he])) (fun j hj => by simp [hv, hj])
    rw [this]
    simp only [he, hv, cnt, if_true]
    omega
  constructor
  · exact hf
  · rw [ha]; exact hI.alloc
  · intro i e' hi
    obtain ⟨hj, _⟩ := hsome i (by simp [hi])
    rw [hv, if_neg hj] at hi
    exact hI.full i e' hi
  · intro ht i e' hi
    obtain ⟨hj, _⟩ := hsome i (by simp [hi])
    rw [hv, if_neg hj] at hi
    rw [hr, hx i hj]
    exact hI.counts ht i e' hi
  · intro p hp
    rw [ho] at hp
    have hj : p.2 ≠ h := by
      intro hj
      have h0' := h0
      unfold refs at h0'
      rw [List.countP_eq_zero] at h0'
      exact h0' p hp (by simp [hj])
    rw [hv, if_neg hj]
    exact hI.objs p hp
  · intro i hi
    have hj : i ≠ h := by
      intro hj
      subst hj
      omega
    rw [hv, if_neg hj]
    rw [hx i hj] at hi
    exact hI.ext i hi
  · intro i hi
    exact hini (hI.ini i (hsome i hi).2)
  · intro i hi
    rw [hn]
    exact hI.lt i (hsome i hi).2
  · intro i j hi hj hij
    rw [hd] at hij
    exact hI.inj i j (hsome i hi).2 (hsome j hj).2 hij
  · rw [hsh.keys, htot, hI.keys]; simp; omega
  · rw [hsh.vals, htot, hI.vals]; simp; omega

theorem Inv.at_erased {s s' : St Rep F} {h : Nat}
    (hv : ∀ i, S.Fa.entry s'.fac i = if i = h then none else S.Fa.entry s.fac i)
    (hd : s'.addr = s.addr) (i : Nat) (b : Bind K V) :
    S.At s' i b ↔ S.At s i b ∧ i ≠ h := by
  unfold At
  rw [hv, hd]
  by_cases hj : i = h
  · simp [hj]
  · simp [hj]

/-- Destroying the erased entry and unlinking it. -/
theorem facErase_spec {s : St Rep F} (hf : S.LF.Inv s.fac) {h : Nat} {e : Ent Rep}
    (hi : s.inited = true) (he : S.Fa.entry s.fac h = some e) (hl : S.L.Live e.rep) :
    ∃ e', s.env.Shift e' (-(S.L.res e.rep).1, -(S.L.res e.rep).2) ∧
      Core.facErase S.P S.Fa h s = .ok () { s with env := e', fac := S.Fa.erase s.fac h } := by
  have hd := S.L.destroy e.rep s.env hl s.env rfl
  cases hm : S.P.destroy e.rep s.env with
  | ok a e' =>
    rw [hm] at hd
    refine ⟨e', hd, ?_⟩
    show M.bind (Core.entry S.Fa h) _ s = _
    simp only [M.bind, entry_ok hi he]
    simp [bind, M.bind, Core.env, hm, M.update]
  | exc e' => rw [hm] at hd; exact hd.elim
  | ub => rw [hm] at hd; exact hd.elim

/-- Destroying a handle. -/
theorem handleDtor_spec {ext : Nat → Nat} {s : St Rep F} {h : Nat} (hI : S.Inv (plus ext h) s) :
    ∃ s', Core.handleDtor S.P S.Fa S.trk h s = .ok () s' ∧ S.Inv ext s' ∧ Frame s s' ∧
      s'.nextId = s.nextId ∧ ∀ i b, S.At s' i b ↔
        S.At s i b ∧ (S.trk = .refcounted → i = h → 0 < refs s h + ext h) := by
  have hs : (S.Fa.entry s.fac h).isSome := hI.ext h (by rw [plus_self]; omega)
  obtain ⟨e, he⟩ := Option.isSome_iff_exists.1 hs
  have hi := hI.ini h hs
  cases ht : S.trk with
  | noTracking =>
    refine ⟨s, rfl, ?_, Frame.refl s, rfl, fun i b => by simp⟩
    constructor
    · exact hI.fac
    · exact hI.alloc
    · exact hI.full
    · intro h'; rw [ht] at h'; cases h'
    · exact hI.objs
    · intro i hx
      by_cases hj : i = h
      · subst hj; exact hs
      · apply hI.ext i; rw [plus_ne _ hj]; exact hx
    · exact hI.ini
    · exact hI.lt
    · exact hI.inj
    · exact hI.keys
    · exact hI.vals
  | refcounted =>
    obtain ⟨hr, hp, hd⟩ := hI.counts ht h e he
    rw [plus_self] at hr
    obtain ⟨k, v, hfull⟩ := hI.full h e he
    have hk := S.L.full_key hfull
    by_cases hz : refs s h + ext h = 0
    · -- last handle: the entry is erased
      have hz1 : (e.ref - 1 == 0) = true := by rw [hr]; simp; omega
      -- after release
      let s1 : St Rep F := { s with fac := S.Fa.update s.fac h { e with ref := e.ref - 1 } }
      have hf1 : S.LF.Inv s1.fac := S.LF.update_inv h e _ hI.fac he
        (S.eqv_same_rep hk hk) (S.eqv_same_rep hk hk)
      have hv1 : ∀ i, S.Fa.entry s1.fac i =
          if i = h then some { e with ref := e.ref - 1 } else S.Fa.entry s.fac i :=
        fun i => S.LF.update_entry h e _ i hI.fac he (S.eqv_same_rep hk hk) (S.eqv_same_rep hk hk)
      -- locked, after release_deleter
      let e2 : Ent Rep := { e with ref := e.ref - 1, del := e.del - 1 }
      let s2 : St Rep F := { s1 with depth := s.depth + 1, inited := true,
                                     fac := S.Fa.update s1.fac h e2 }
      have he1 : S.Fa.entry s1.fac h = some { e with ref := e.ref - 1 } := by rw [hv1]; simp
      have hf2 : S.LF.Inv s2.fac := S.LF.update_inv h { e with ref := e.ref - 1 } e2 hf1 he1
        (S.eqv_same_rep hk hk) (S.eqv_same_rep hk hk)
      have hv2 : ∀ i, S.Fa.entry s2.fac i = if i = h then some e2 else S.Fa.entry s1.fac i :=
        fun i => S.LF.update_entry h { e with ref := e.ref - 1 } e2 i hf1 he1
          (S.eqv_same_rep hk hk) (S.eqv_same_rep hk hk)
      have he2 : S.Fa.entry s2.fac h = some e2 := by rw [hv2]; simp
      obtain ⟨env', hsh, hfe⟩ := facErase_spec (S := S) hf2 (h := h) rfl he2
        (S.L.full_live hfull)
      let s3 : St Rep F := { s2 with env := env', fac := S.Fa.erase s2.fac h, depth := s.depth }
      have hv3 : ∀ i, S.Fa.entry s3.fac i = if i = h then none else S.Fa.entry s.fac i := by
        intro i
        show S.Fa.entry (S.Fa.erase s2.fac h) i = _
        rw [S.LF.erase_entry h i hf2]
        by_cases hj : i = h
        · simp [hj]
        · simp [hj, hv2, hv1]
      refine ⟨s3, ?_, ?_, ?_, rfl, ?_⟩
      · show M.bind (Core.release S.Fa h) _ s = _
        simp only [M.bind, release_ok hi he, hz1]
        show Core.trackingErase S.P S.Fa h s1 = _
        have hl1 : Core.lock { s1 with inited := true } =
            .ok () { s1 with inited := true, depth := s1.depth + 1 } := lock_ok rfl
        have hrd : Core.releaseDeleter S.Fa h { s1 with inited := true, depth := s1.depth + 1 } =
            .ok true s2 := by
          have := releaseDeleter_ok (S := S) (h := h)
            (s := { s1 with inited := true, depth := s1.depth + 1 }) rfl he1
          rw [this]
          have hd1 : (e.del - 1 == 0) = true := by rw [hd]; rfl
          simp only [hd1]
          rfl
        have hul : Core.unlock { s2 with env := env', fac := S.Fa.erase s2.fac h } = .ok () s3 :=
          unlock_ok rfl
        simp only [Core.trackingErase, bind, M.bind, Core.init, M.update, hl1, M.scope, hrd, hfe,
          if_true, hul]
      · exact hI.erased he (S.LF.erase_inv h hf2) hv3 rfl rfl rfl rfl (fun _ => rfl) rfl hsh
          (by omega) (by omega) fun i hj => (plus_ne _ hj).symm
      · exact ⟨rfl, rfl, rfl, hsh.faults, fun _ => rfl⟩
      · intro i b
        rw [Inv.at_erased hv3 rfl]
        constructor
        · rintro ⟨h1, h2⟩
          exact ⟨h1, fun _ h3 => (h2 h3).elim⟩
        · rintro ⟨h1, h2⟩
          refine ⟨h1, fun h3 => ?_⟩
          have := h2 rfl h3
          omega
    · have hz1 : (e.ref - 1 == 0) = false := by
        rw [hr]; simp; omega
      refine ⟨{ s with fac := S.Fa.update s.fac h { e with ref := e.ref - 1 } }, ?_, ?_, ?_, rfl, ?_⟩
      · show M.bind (Core.release S.Fa h) _ s = _
        simp only [M.bind, release_ok hi he, hz1]
        rfl
      · refine hI.setCounts he (e.ref - 1) e.del ?_ fun i hx => (plus_ne _ hx).symm
        intro _
        refine ⟨?_, by omega, hd⟩
        rw [hr]; omega
      · exact ⟨rfl, rfl, rfl, rfl, id⟩
      · intro i b
        have := hI.at_setCounts he (e.ref - 1) e.del i b
        rw [this]
        constructor
        · intro h1; exact ⟨h1, fun _ _ => by omega⟩
        · exact fun h1 => h1.1

end Setup
end Verif

import Verif.Transparent

/-!
# The number of values and the number of keys
-/

set_option autoImplicit false

namespace Verif
variable {K V Rep F : Type} {S : Setup K V Rep F} {fl : Nat → Bool} {s : St Rep F} {t : SSt K V}

namespace Setup

/-- As many values as inequivalent keys in the pool. -/
theorem distinct_pool (hS : Sim S fl s t) (hO : SOk S.trk S.keq t) {ks : List K}
    (hn : ks.Pairwise fun k l => S.keq k l = false) (h1 : ∀ b ∈ t.pool S.trk, ∃ k ∈ ks, S.keq b.key k = true)
    (h2 : ∀ k ∈ ks, ∃ b ∈ t.pool S.trk, S.keq b.key k = true) : s.env.vals = ks.length := by
  classical
  obtain ⟨f, hf⟩ : ∃ f : K → Nat, ∀ k ∈ ks, ∃ b ∈ t.pool S.trk, S.keq b.key k = true ∧ b.addr = f k := by
    refine ⟨fun k => if h : ∃ b ∈ t.pool S.trk, S.keq b.key k = true then h.choose.addr else 0, fun k hk => ?_⟩
    have h := h2 k hk
    refine ⟨h.choose, h.choose_spec.1, h.choose_spec.2, ?_⟩
    simp only [dif_pos h]
  obtain ⟨g1, g2⟩ := pool_addrs hS
  have hl : ((S.Fa.ids s.fac).map s.addr).length = (ks.map f).length := by
    refine length_of_same g1 ?_ fun a => ?_
    · unfold List.Nodup
      rw [List.pairwise_map]
      refine hn.imp_of_mem fun {k l} hk hl hne e => ?_
      obtain ⟨b, hb, hbk, hba⟩ := hf k hk
      obtain ⟨c, hc, hcl, hca⟩ := hf l hl
      have : b = c := hO.addr b hb c hc (by rw [hba, hca, e])
      subst this
      rw [S.LS.trans _ _ _ (S.LS.symm _ _ hbk) hcl] at hne
      cases hne
    · rw [g2 a, List.mem_map]
      constructor
      · rintro ⟨b, hb, rfl⟩
        obtain ⟨k, hk, hbk⟩ := h1 b hb
        obtain ⟨c, hc, hck, hca⟩ := hf k hk
        have : b = c := hO.key b hb c hc (S.LS.trans _ _ _ hbk (S.LS.symm _ _ hck))
        exact ⟨k, hk, by rw [this, hca]⟩
      · rintro ⟨k, hk, rfl⟩
        obtain ⟨b, hb, _, hba⟩ := hf k hk
        exact ⟨b, hb, hba⟩
  simp only [List.length_map] at hl
  rw [(live_count hS).2, hl]

end Setup

/-- Keys asked for are keys of sources of the operations. -/
theorem asked_creates {sp : SrcSpec K V} {ops : List (Op K V)} {outs : List (Out K V)} {k : K} (h : k ∈ asked sp ops outs) :
    ∃ o ∈ ops, ∃ src, o.creates = some src ∧ sp.key0 src = k := by
  induction ops generalizing outs with
  | nil => simp [asked] at h
  | cons o ops ih =>
    cases outs with
    | nil => simp [asked] at h
    | cons out outs =>
      have rest : k ∈ asked sp ops outs → ∃ o' ∈ o :: ops, ∃ src, o'.creates = some src ∧ sp.key0 src = k := by
        intro h
        obtain ⟨o', ho, h⟩ := ih h
        exact ⟨o', by simp [ho], h⟩
      unfold asked at h
      split at h
      · next src hc =>
        rcases List.mem_cons.1 h with rfl | h
        · exact ⟨o, by simp, src, hc, rfl⟩
        · exact rest h
      · exact rest h

namespace Client

/-- All operations of the program satisfy `Q`.  (No code of its own: used in statements and proofs.) -/
def Prog.All {α : Type} (Q : Op K V → Prop) : Prog K V α → Prop
  | .ret _ => True
  | .op o k => Q o ∧ ∀ r, (k r).All Q

/-- A run of a program is the execution of some of its operations. -/
theorem fly_ops {α : Type} {hp : Nat → Nat} {Q : Op K V → Prop} {p : Prog K V α} (h : p.All Q) {a : α} {s s' : St Rep F}
    (hf : p.fly S hp s = some (a, s')) : ∃ ops outs, S.resume hp s ops = some (outs, s') ∧ ∀ o ∈ ops, Q o := by
  induction p generalizing s with
  | ret b => cases hf; exact ⟨[], [], rfl, by simp⟩
  | op o k ih =>
    unfold Prog.fly at hf
    have next : ∀ {r s1} (out : Out K V), (k r).fly S hp s1 = some (a, s') →
        (∀ ops, S.resume hp s (o :: ops) = (S.resume hp s1 ops).map fun p => (out :: p.1, p.2)) →
        ∃ ops outs, S.resume hp s ops = some (outs, s') ∧ ∀ o ∈ ops, Q o := by
      intro r s1 out hf hs
      obtain ⟨ops, outs, h1, h2⟩ := ih r (h.2 r) hf
      refine ⟨o :: ops, out :: outs, by rw [hs, h1]; rfl, fun o' ho => ?_⟩
      rcases List.mem_cons.1 ho with rfl | ho
      · exact h.1
      · exact h2 o' ho
    cases hv : o.valid S.sp (s.objs.map Prod.fst) with
    | true =>
      rw [hv, if_pos rfl] at hf
      cases hm : Core.step S.P S.Fa S.trk hp o s with
      | ok out s1 =>
        rw [hm] at hf
        exact next out hf fun ops => by simp [Setup.resume, Core.exec, hv, hm]
      | exc s1 =>
        rw [hm] at hf
        exact next .threw hf fun ops => by simp [Setup.resume, Core.exec, hv, hm]
      | ub => rw [hm] at hf; cases hf
    | false =>
      rw [hv, if_neg (by simp)] at hf
      exact next .skipped hf fun ops => by simp [Setup.resume, Core.exec, hv]

end Client
end Verif

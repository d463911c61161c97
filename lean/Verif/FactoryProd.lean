import Verif.FactoryHom

/-!
# Product of two factories

Two factories operated in lockstep.  If both are lawful for the same
equivalence, they never disagree, and a run of the core with the product projects
to a run with either of them.
-/

set_option autoImplicit false

namespace Verif
variable {K V Rep F₁ F₂ E : Type}

/-- The two factories store the same entries under the same handles.  (No code of its own: used
in statements and proofs.) -/
def Agree (A : Factory F₁ E) (B : Factory F₂ E) (f : F₁) (g : F₂) : Prop :=
  (∀ i, B.entry g i = A.entry f i) ∧ ∀ i, i ∈ B.ids g ↔ i ∈ A.ids f

/-- Both factories in lockstep; the last component says that they have never
disagreed.  (A device for comparing factories, no code of its own.)  (No code of its own: used
in statements and proofs.) -/
def prodFactory (A : Factory F₁ E) (B : Factory F₂ E) : Factory (F₁ × F₂ × Prop) E where
  empty := (A.empty, B.empty, True)
  lookup f e := (((A.lookup f.1 e).1, (B.lookup f.2.1 e).1,
    f.2.2 ∧ Agree A B f.1 f.2.1 ∧ (B.lookup f.2.1 e).2 = (A.lookup f.1 e).2), (A.lookup f.1 e).2)
  link f i e := (A.link f.1 i e, B.link f.2.1 i e, f.2.2 ∧ Agree A B f.1 f.2.1)
  erase f i := (A.erase f.1 i, B.erase f.2.1 i, f.2.2 ∧ Agree A B f.1 f.2.1)
  entry f i := A.entry f.1 i
  update f i e := (A.update f.1 i e, B.update f.2.1 i e, f.2.2 ∧ Agree A B f.1 f.2.1)
  ids f := A.ids f.1
  take := A.take

/-- Never disagreed so far.  (No code of its own: used in statements and proofs.) -/
def prodGood (A : Factory F₁ E) (B : Factory F₂ E) (f : F₁ × F₂ × Prop) : Prop :=
  f.2.2 ∧ Agree A B f.1 f.2.1

/-- The equivalence that both factories use.  (No code of its own: used in statements and
proofs.) -/
structure EqvOk (eqv : E → E → Prop) : Prop where
  refl : ∀ a, eqv a a
  symm : ∀ a b, eqv a b → eqv b a
  trans : ∀ a b c, eqv a b → eqv b c → eqv a c

section
variable {A : Factory F₁ E} {B : Factory F₂ E} {eqv : E → E → Prop}

/-- The product of lawful factories is lawful.  (No code of its own: used in statements and
proofs.) -/
def prodLawful (LA : A.Lawful eqv) (LB : B.Lawful eqv) (ok : EqvOk eqv) :
    (prodFactory A B).Lawful eqv where
  Inv f := LA.Inv f.1 ∧ LB.Inv f.2.1 ∧ f.2.2 ∧ (∀ i, B.entry f.2.1 i = A.entry f.1 i) ∧
    ∀ i j e e', A.entry f.1 i = some e → A.entry f.1 j = some e' → eqv e e' → i = j
  inv_empty := by
    refine ⟨LA.inv_empty, LB.inv_empty, trivial, fun i => ?_, fun i j e e' h => ?_⟩
    · show B.entry B.empty i = A.entry A.empty i
      rw [LB.entry_empty, LA.entry_empty]
    · have h' : A.entry A.empty i = some e := h
      rw [LA.entry_empty] at h'
      cases h'
  entry_empty i := LA.entry_empty i
  lookup_inv := by
    rintro ⟨f, g, p⟩ e ⟨h1, h2, h3, h4, h5⟩
    refine ⟨LA.lookup_inv e h1, LB.lookup_inv e h2, ⟨h3, ⟨h4, fun i => ?_⟩, ?_⟩, fun i => ?_, fun i j a b => ?_⟩
    · rw [LA.mem_ids i h1, LB.mem_ids i h2, h4 i]
    · show (B.lookup g e).2 = (A.lookup f e).2
      cases hA : (A.lookup f e).2 with
      | none =>
        cases hB : (B.lookup g e).2 with
        | none => rfl
        | some i =>
          obtain ⟨e', h6, h7⟩ := LB.lookup_some e i h2 hB
          exact absurd h7 (LA.lookup_none e h1 hA i e' ((h4 i).symm.trans h6))
      | some i =>
        obtain ⟨e', h6, h7⟩ := LA.lookup_some e i h1 hA
        cases hB : (B.lookup g e).2 with
        | none => exact absurd h7 (LB.lookup_none e h2 hB i e' ((h4 i).trans h6))
        | some j =>
          obtain ⟨e'', h8, h9⟩ := LB.lookup_some e j h2 hB
          rw [h5 j i _ _ ((h4 j).symm.trans h8) h6 (ok.trans _ _ _ h9 (ok.symm _ _ h7))]
    · show B.entry (B.lookup g e).1 i = A.entry (A.lookup f e).1 i
      rw [LA.lookup_entry e i h1, LB.lookup_entry e i h2, h4 i]
    · show A.entry (A.lookup f e).1 i = _ → A.entry (A.lookup f e).1 j = _ → _
      rw [LA.lookup_entry e i h1, LA.lookup_entry e j h1]
      exact h5 i j a b
  lookup_entry e i h := LA.lookup_entry e i h.1
  lookup_some e i h := LA.lookup_some e i h.1
  lookup_none e h := LA.lookup_none e h.1
  link_inv := by
    rintro ⟨f, g, p⟩ i e ⟨h1, h2, h3, h4, h5⟩ hi hn
    have hi' : B.entry g i = none := (h4 i).trans hi
    have hn' : ∀ j e', B.entry g j = some e' → ¬ eqv e' e := fun j e' h => hn j e' ((h4 j).symm.trans h)
    refine ⟨LA.link_inv i e h1 hi hn, LB.link_inv i e h2 hi' hn', ⟨h3, h4, fun j => ?_⟩,
      fun j => ?_, fun j k a b hj hk hab => ?_⟩
    · rw [LA.mem_ids j h1, LB.mem_ids j h2, h4 j]
    · show B.entry (B.link g i e) j = A.entry (A.link f i e) j
      rw [LA.link_entry i e j h1 hi, LB.link_entry i e j h2 hi', h4 j]
    · have hj : (if j = i then some e else A.entry f j) = some a := by
        rw [← LA.link_entry i e j h1 hi]; exact hj
      have hk : (if k = i then some e else A.entry f k) = some b := by
        rw [← LA.link_entry i e k h1 hi]; exact hk
      by_cases hji : j = i <;> by_cases hki : k = i
      · rw [hji, hki]
      · rw [if_pos hji] at hj
        rw [if_neg hki] at hk
        cases hj
        exact absurd (ok.symm _ _ hab) (hn k b hk)
      · rw [if_neg hji] at hj
        rw [if_pos hki] at hk
        cases hk
        exact absurd hab (hn j a hj)
      · rw [if_neg hji] at hj
        rw [if_neg hki] at hk
        exact h5 j k a b hj hk hab
  link_entry i e j h he := LA.link_entry i e j h.1 he
  erase_inv := by
    rintro ⟨f, g, p⟩ i ⟨h1, h2, h3, h4, h5⟩
    refine ⟨LA.erase_inv i h1, LB.erase_inv i h2, ⟨h3, h4, fun j => ?_⟩, fun j => ?_, fun j k a b hj hk hab => ?_⟩
    · rw [LA.mem_ids j h1, LB.mem_ids j h2, h4 j]
    · show B.entry (B.erase g i) j = A.entry (A.erase f i) j
      rw [LA.erase_entry i j h1, LB.erase_entry i j h2, h4 j]
    · have hj : (if j = i then none else A.entry f j) = some a := by rw [← LA.erase_entry i j h1]; exact hj
      have hk : (if k = i then none else A.entry f k) = some b := by rw [← LA.erase_entry i k h1]; exact hk
      by_cases hji : j = i
      · rw [if_pos hji] at hj; cases hj
      · by_cases hki : k = i
        · rw [if_pos hki] at hk; cases hk
        · rw [if_neg hji] at hj
          rw [if_neg hki] at hk
          exact h5 j k a b hj hk hab
  erase_entry i j h := LA.erase_entry i j h.1
  update_inv := by
    rintro ⟨f, g, p⟩ i e e' ⟨h1, h2, h3, h4, h5⟩ he hee hee'
    have heB : B.entry g i = some e := (h4 i).trans he
    refine ⟨LA.update_inv i e e' h1 he hee hee', LB.update_inv i e e' h2 heB hee hee', ⟨h3, h4, fun j => ?_⟩,
      fun j => ?_, fun j k a b hj hk hab => ?_⟩
    · rw [LA.mem_ids j h1, LB.mem_ids j h2, h4 j]
    · show B.entry (B.update g i e') j = A.entry (A.update f i e') j
      rw [LA.update_entry i e e' j h1 he hee hee', LB.update_entry i e e' j h2 heB hee hee', h4 j]
    · have hj : (if j = i then some e' else A.entry f j) = some a := by
        rw [← LA.update_entry i e e' j h1 he hee hee']; exact hj
      have hk : (if k = i then some e' else A.entry f k) = some b := by
        rw [← LA.update_entry i e e' k h1 he hee hee']; exact hk
      by_cases hji : j = i <;> by_cases hki : k = i
      · rw [hji, hki]
      · rw [if_pos hji] at hj
        rw [if_neg hki] at hk
        cases hj
        rw [hji]
        exact h5 i k e b he hk (ok.trans _ _ _ hee hab)
      · rw [if_neg hji] at hj
        rw [if_pos hki] at hk
        cases hk
        rw [hki]
        exact h5 j i a e hj he (ok.trans _ _ _ hab hee')
      · rw [if_neg hji] at hj
        rw [if_neg hki] at hk
        exact h5 j k a b hj hk hab
  update_entry i e e' j h he := LA.update_entry i e e' j h.1 he
  ids_nodup h := LA.ids_nodup h.1
  mem_ids i h := LA.mem_ids i h.1

/-- Projection to the first factory.  (No code of its own: used in statements and proofs.) -/
def homFst (A : Factory F₁ E) (B : Factory F₂ E) : (prodFactory A B).Hom A where
  proj f := f.1
  Good _ := True
  empty := rfl
  good_empty := trivial
  lookup_good _ _ h := h
  lookup _ _ _ := rfl
  link_good _ _ _ h := h
  link _ _ _ := rfl
  erase_good _ _ h := h
  erase _ _ := rfl
  update_good _ _ _ h := h
  update _ _ _ := rfl
  entry _ _ _ := rfl
  ids _ _ _ := Iff.rfl
  take := rfl

/-- Projection to the second factory.  (No code of its own: used in statements and proofs.) -/
def homSnd (LA : A.Lawful eqv) (LB : B.Lawful eqv) (ht : B.take = A.take) : (prodFactory A B).Hom B where
  proj f := f.2.1
  Good := prodGood A B
  empty := rfl
  good_empty := by
    refine ⟨trivial, fun i => ?_, fun i => ?_⟩
    · show B.entry B.empty i = A.entry A.empty i
      rw [LB.entry_empty, LA.entry_empty]
    · show i ∈ B.ids B.empty ↔ i ∈ A.ids A.empty
      rw [LA.mem_ids i LA.inv_empty, LB.mem_ids i LB.inv_empty, LB.entry_empty, LA.entry_empty]
  lookup_good _ _ h := ⟨h.1.1, h.1.2.1⟩
  lookup f e h := Prod.ext rfl h.1.2.2
  link_good _ _ _ h := h.1
  link _ _ _ := rfl
  erase_good _ _ h := h.1
  erase _ _ := rfl
  update_good _ _ _ h := h.1
  update _ _ _ := rfl
  entry _ i h := h.2.1 i
  ids _ i h := h.2.2 i
  take := ht

end

namespace Setup
variable (S : Setup K V Rep F₁)

/-- The same flyweight type with another factory.  (No code of its own: used in statements and
proofs.) -/
def withFactory (B : Factory F₂ (Ent Rep)) (LB : B.Lawful S.eqv) : Setup K V Rep F₂ :=
  ⟨S.P, B, S.trk, S.sp, S.keq, S.eqv, S.L, LB, S.LS, S.hkey⟩

variable {S}

/-- `==` compares handles. -/
theorem eq_handles {fl : Nat → Bool} {s : St Rep F₁} {t : SSt K V} (hS : Sim S fl s t) (hp : Nat → Nat)
    {x y h h' : Nat} (hx : s.objs.lookup x = some h) (hy : s.objs.lookup y = some h') :
    S.perform hp (.eq x y) s = .ok (.bool (h == h')) s := by
  obtain ⟨b, hb, hat⟩ := hS.rel.vars.lookup hx
  obtain ⟨c, hc, hat'⟩ := hS.rel.vars.lookup hy
  rw [eq_ok hS hp hb hc]
  have : (b.addr == c.addr) = (h == h') := by
    obtain ⟨e, he, _, ha⟩ := hat
    obtain ⟨e', he', _, ha'⟩ := hat'
    rw [Bool.eq_iff_iff, beq_iff_eq, beq_iff_eq]
    constructor
    · intro hab
      exact hS.rel.inv.inj h h' (by rw [he]; rfl) (by rw [he']; rfl) (by rw [ha, ha', hab])
    · rintro rfl
      exact ha.symm.trans ha'
  rw [this]

/-- A run follows a run with another factory along a morphism. -/
theorem exec_follows {F F' : Type} {S : Setup K V Rep F} {S' : Setup K V Rep F'} (H : S.Fa.Hom S'.Fa)
    (hP : S'.P = S.P) (hT : S'.trk = S.trk) (hsp : S'.sp = S.sp)
    (hgood : ∀ f, S.LF.Inv f → H.Good f) (hp : Nat → Nat) (ops : List (Op K V)) {fl : Nat → Bool}
    {s : St Rep F} {t : SSt K V} {s' : St Rep F'} {t' : SSt K V} (h : Sim S fl s t) (h' : Sim S' fl s' t')
    (hp' : Hom.Proj H s s') :
    ∃ outs outs' r r', S.resume hp s ops = some (outs, r) ∧ S'.resume hp s' ops = some (outs', r') ∧
      outs.map Out.erase = outs'.map Out.erase ∧ Hom.Proj H r r' := by
  induction ops generalizing s t s' t' with
  | nil => exact ⟨[], [], s, s', rfl, rfl, rfl, hp'⟩
  | cons op ops ih =>
    have hn : s'.objs.map Prod.fst = s.objs.map Prod.fst := by rw [hp'.objs]
    simp only [resume, Core.exec]
    rw [hsp, hn]
    by_cases hv : op.valid S.sp (s.objs.map Prod.fst) = true
    · rw [if_pos hv, if_pos hv]
      have hv' : op.valid S'.sp (s'.objs.map Prod.fst) = true := by rw [hsp, hn]; exact hv
      -- one step
      have hstep : (∃ o o' s₁ s₁' t₁ t₁', S.perform hp op s = .ok o s₁ ∧ S'.perform hp op s' = .ok o' s₁' ∧
            o.erase = o'.erase ∧ Hom.Proj H s₁ s₁' ∧ Sim S fl s₁ t₁ ∧ Sim S' fl s₁' t₁') ∨
          (∃ s₁ s₁' t₁ t₁', S.perform hp op s = .exc s₁ ∧ S'.perform hp op s' = .exc s₁' ∧
            Hom.Proj H s₁ s₁' ∧ Sim S fl s₁ t₁ ∧ Sim S' fl s₁' t₁') := by
        by_cases heq : ∃ x y, op = .eq x y
        · obtain ⟨x, y, rfl⟩ := heq
          simp only [Op.valid, Bool.and_eq_true, List.contains_iff_mem] at hv
          obtain ⟨i, hi⟩ := Assoc.lookup_of_name hv.1
          obtain ⟨j, hj⟩ := Assoc.lookup_of_name hv.2
          exact .inl ⟨_, _, s, s', t, t', eq_handles h hp hi hj,
            eq_handles h' hp (by rw [hp'.objs]; exact hi) (by rw [hp'.objs]; exact hj), rfl, hp', h, h'⟩
        · have hf := Hom.follows_step (H := H) S.P S.trk hp op fun x y hxy => heq ⟨x, y, hxy⟩
          have h2 := hf.2 s s' hp'
          rcases perform_cases h hp hv with ⟨o, s₁, t₁, g1, g2, g3, g4⟩ | ⟨s₁, g1, g2, g4⟩
          · rw [show Core.step S.P S.Fa S.trk hp op s = .ok o s₁ from g1] at h2
            obtain ⟨o', s₁', e1, e2, e3⟩ := h2 (hgood _ g4.rel.inv.fac)
            have e1' : S'.perform hp op s' = .ok o' s₁' := by
              unfold perform; rw [hP, hT]; exact e1
            obtain ⟨t₁', _, e5⟩ := perform_ok h' hv' e1'
            exact .inl ⟨o, o', s₁, s₁', t₁, t₁', g1, e1', e2, e3, g4, e5⟩
          · obtain ⟨g4, _⟩ := g4
            rw [show Core.step S.P S.Fa S.trk hp op s = .exc s₁ from g1] at h2
            obtain ⟨s₁', e1, e3⟩ := h2 (hgood _ g4.rel.inv.fac)
            have e1' : S'.perform hp op s' = .exc s₁' := by
              unfold perform; rw [hP, hT]; exact e1
            have e5 := perform_exc h' hv' e1'
            exact .inr ⟨s₁, s₁', _, _, g1, e1', e3, g4, e5.2.1⟩
      rcases hstep with ⟨o, o', s₁, s₁', t₁, t₁', g1, g2, g3, g4, g5, g6⟩ | ⟨s₁, s₁', t₁, t₁', g1, g2, g4, g5, g6⟩
      · rw [show Core.step S.P S.Fa S.trk hp op s = .ok o s₁ from g1,
          show Core.step S'.P S'.Fa S'.trk hp op s' = .ok o' s₁' from g2]
        obtain ⟨outs, outs', r, r', k1, k2, k3, k4⟩ := ih g5 g6 g4
        refine ⟨o :: outs, o' :: outs', r, r', ?_, ?_, by simp [g3, k3], k4⟩
        · simp only [show Core.exec S.P S.Fa S.trk hp S.sp ops s₁ = some (outs, r) from k1]; rfl
        · simp only [show Core.exec S'.P S'.Fa S'.trk hp S.sp ops s₁' = some (outs', r') by
            have := k2; simp only [resume, hsp] at this; exact this]
          rfl
      · rw [show Core.step S.P S.Fa S.trk hp op s = .exc s₁ from g1,
          show Core.step S'.P S'.Fa S'.trk hp op s' = .exc s₁' from g2]
        obtain ⟨outs, outs', r, r', k1, k2, k3, k4⟩ := ih g5 g6 g4
        refine ⟨.threw :: outs, .threw :: outs', r, r', ?_, ?_, by simp [k3], k4⟩
        · simp only [show Core.exec S.P S.Fa S.trk hp S.sp ops s₁ = some (outs, r) from k1]; rfl
        · simp only [show Core.exec S'.P S'.Fa S'.trk hp S.sp ops s₁' = some (outs', r') by
            have := k2; simp only [resume, hsp] at this; exact this]
          rfl
    · rw [if_neg hv, if_neg hv]
      obtain ⟨outs, outs', r, r', k1, k2, k3, k4⟩ := ih h h' hp'
      refine ⟨.skipped :: outs, .skipped :: outs', r, r', ?_, ?_, by simp [k3], k4⟩
      · simp only [show Core.exec S.P S.Fa S.trk hp S.sp ops s = some (outs, r) from k1]; rfl
      · simp only [show Core.exec S'.P S'.Fa S'.trk hp S.sp ops s' = some (outs', r') by
          have := k2; simp only [resume, hsp] at this; exact this]
        rfl

end Setup
end Verif

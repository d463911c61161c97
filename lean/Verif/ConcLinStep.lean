import Verif.ConcLin

/-!
# The concurrent model refines the atomic specification: steps
-/

set_option autoImplicit false

namespace Verif.Conc
open Verif.Atomic (Val Call drops setVal)
variable {K : Type} {cfg : Cfg K}

theorem info_some {ents : Nat → Option (Ent K)} {L : List (Frame K)} {e : Nat} {x : Ent K} (h : ents e = some x) :
    info ents L e = some ⟨x.core, x.key, x.cted, x.kids,
      x.cted && (decide (0 < x.ref) || decide (0 < tot (pendF e) L))⟩ := by simp [info, h]

theorem info_none {ents : Nat → Option (Ent K)} {L : List (Frame K)} {e : Nat} (h : ents e = none) :
    info ents L e = none := by simp [info, h]

theorem of_info {ents : Nat → Option (Ent K)} {L : List (Frame K)} {e : Nat} {i : Info K} (h : info ents L e = some i) :
    ∃ x, ents e = some x ∧ i = ⟨x.core, x.key, x.cted, x.kids,
      x.cted && (decide (0 < x.ref) || decide (0 < tot (pendF e) L))⟩ := by
  cases hx : ents e with
  | none => simp [info, hx] at h
  | some x => exact ⟨x, rfl, by simpa [info, hx] using h.symm⟩

theorem live_iff {x : Ent K} {p : Nat} :
    (x.cted && (decide (0 < x.ref) || decide (0 < p))) = true ↔ x.cted = true ∧ (0 < x.ref ∨ 0 < p) := by simp

theorem kidsI_some {ents : Nat → Option (Ent K)} {L : List (Frame K)} {e : Nat} {x : Ent K} (h : ents e = some x) :
    kidsI (info ents L) e = x.kids := by simp [kidsI, info_some h]

/-- Values of live entries. -/
theorem absV_some {ents : Nat → Option (Ent K)} {L : List (Frame K)} {e : Nat} {x : Ent K} (h : ents e = some x)
    (hc : x.cted = true) (hl : 0 < x.ref ∨ 0 < tot (pendF e) L) :
    absV (info ents L) e = some ⟨x.core, x.key, x.kids⟩ := by
  unfold absV
  rw [info_some h, live_iff.2 ⟨hc, hl⟩]
  rfl

theorem absV_dead {ents : Nat → Option (Ent K)} {L : List (Frame K)} {e : Nat}
    (h : ∀ x, ents e = some x → x.cted = true → x.ref ≤ 0 ∧ tot (pendF e) L = 0) : absV (info ents L) e = none := by
  unfold absV
  cases hx : ents e with
  | none => rw [info_none hx]; rfl
  | some x =>
    rw [info_some hx]
    simp only [Option.bind_some]
    rw [if_neg]
    intro hl
    obtain ⟨h1, h2⟩ := live_iff.1 hl
    have := h x hx h1
    omega

theorem of_absV {ents : Nat → Option (Ent K)} {L : List (Frame K)} {e : Nat} {v : Val K}
    (h : absV (info ents L) e = some v) :
    ∃ x, ents e = some x ∧ x.cted = true ∧ (0 < x.ref ∨ 0 < tot (pendF e) L) ∧ v = ⟨x.core, x.key, x.kids⟩ := by
  unfold absV at h
  cases hx : ents e with
  | none => rw [info_none hx] at h; cases h
  | some x =>
    rw [info_some hx] at h
    simp only [Option.bind_some] at h
    split at h
    · rename_i hl
      obtain ⟨h1, h2⟩ := live_iff.1 hl
      cases h
      exact ⟨x, rfl, h1, h2, rfl⟩
    · cases h

theorem ite_pos {p : Prop} [Decidable p] (h : 0 < if p then 1 else 0) : p := by
  by_cases hp : p
  · exact hp
  · rw [if_neg hp] at h
    cases h

/-- Frames in charge of an entry without live value hold the flyweights inside it. -/
theorem kids_shown {I : Nat → Option (Info K)} {g : Frame K} {e : Nat} {i : Info K} (hi : I e = some i) (hl : i.live = false)
    (hg : 0 < claimF e g) (hp : pendF e g = 0) (hf : FitF I g) (hu : i.cted = false → 0 < ownF e g) {w : Fw K}
    (hw : w ∈ i.kids) : ∃ f ∈ absF I g, w.h ∈ f.refs := by
  have hk : kidsI I e = i.kids := by simp [kidsI, hi]
  have hd : ∃ f ∈ drops i.kids, w.h ∈ f.refs := ⟨.destroy w.h, List.mem_map.2 ⟨w, hw, rfl⟩, by simp [Call.refs]⟩
  have hm : w.h ∈ i.kids.map Fw.h := List.mem_map.2 ⟨w, hw, rfl⟩
  cases g with
  | insVisit c k h loc new =>
    have he : h = e := ite_pos hg
    subst he
    obtain ⟨j, h1, h2⟩ := hf
    rw [hi] at h1
    cases h1
    simp only [absF, hi]
    cases new with
    | false =>
      cases hc : i.cted with
      | false =>
        have := hu hc
        simp [ownF] at this
      | true =>
        have := h2 hc
        rw [hl] at this
        cases this
    | true =>
      rw [if_pos rfl]
      split
      · exact ⟨_, List.mem_singleton.2 rfl, hm⟩
      · exact ⟨_, List.mem_singleton.2 rfl, hm⟩
  | insUser c k h =>
    have he : h = e := ite_pos hg
    subst he
    exact ⟨_, List.mem_singleton.2 rfl, by rw [hk]; exact hm⟩
  | insDone c k h =>
    have he : h = e := ite_pos hg
    subst he
    exact ⟨_, List.mem_singleton.2 rfl, by rw [hk]; exact hm⟩
  | insCatch c h =>
    have he : h = e := ite_pos hg
    subst he
    simpa only [absF, hk] using hd
  | insAddRef c k h loc =>
    have he : h = e := ite_pos hg
    subst he
    simp only [absF, hi, hl]
    exact ⟨_, List.mem_singleton.2 rfl, hm⟩
  | relErase c h =>
    have he : h = e := ite_pos hg
    subst he
    simpa only [absF, hk] using hd
  | relLock c h => exact absurd (ite_pos hg) (by simpa [pendF] using hp)
  | relCheck c h => exact absurd (ite_pos hg) (by simpa [pendF] using hp)
  | _ => simp [claimF] at hg

theorem own_le_claim (e : Nat) (g : Frame K) : ownF e g ≤ claimF e g := by
  cases g <;> simp only [ownF, claimF] <;> first | omega | (split <;> split <;> simp_all)

theorem mem_absS {I : Nat → Option (Info K)} {thr : List (List (Frame K))} {h : Nat} :
    (∃ st ∈ thr.map (absS I), ∃ f ∈ st, h ∈ f.refs) ↔ ∃ g ∈ thr.flatten, ∃ f ∈ absF I g, h ∈ f.refs := by
  constructor
  · rintro ⟨st, h1, f, h2, h3⟩
    obtain ⟨st', h4, rfl⟩ := List.mem_map.1 h1
    obtain ⟨g, h5, h6⟩ := List.mem_flatMap.1 h2
    exact ⟨g, List.mem_flatten.2 ⟨st', h4, h5⟩, f, h6, h3⟩
  · rintro ⟨g, h1, f, h2, h3⟩
    obtain ⟨st', h4, h5⟩ := List.mem_flatten.1 h1
    exact ⟨_, List.mem_map.2 ⟨st', h4, rfl⟩, f, List.mem_flatMap.2 ⟨g, h5, h2⟩, h3⟩

theorem mem_hs {e : Nat} {l : List (Fw K)} (h : 0 < fwCount e l) : e ∈ l.map Fw.h := by
  obtain ⟨w, hw, he⟩ := exists_of_fwCount h
  exact List.mem_map.2 ⟨w, hw, he⟩

theorem hs_mem {e : Nat} {l : List (Fw K)} (h : e ∈ l.map Fw.h) : 0 < fwCount e l := by
  obtain ⟨w, hw, he⟩ := List.mem_map.1 h
  exact fwCount_pos hw he

theorem mem_drops {e : Nat} {l : List (Fw K)} : (∃ f ∈ drops l, e ∈ f.refs) ↔ e ∈ l.map Fw.h := by
  constructor
  · rintro ⟨f, h1, h2⟩
    obtain ⟨w, hw, rfl⟩ := List.mem_map.1 h1
    rw [Call.refs, List.mem_singleton] at h2
    exact List.mem_map.2 ⟨w, hw, h2.symm⟩
  · intro h
    obtain ⟨w, hw, he⟩ := List.mem_map.1 h
    exact ⟨_, List.mem_map.2 ⟨w, hw, rfl⟩, by rw [Call.refs, List.mem_singleton, he]⟩

/-- Being referred to is having a count, or waiting to be checked. -/
theorem refs_iff {s : St K} (h : Inv cfg s) (hF : Fit s) (e : Nat) :
    (abs s).Referenced e ↔ 0 < refOf s.ents e ∨ 0 < tot (pendF e) (frames s) := by
  have hkid : ∀ i x, s.ents i = some x → e ∈ x.kids.map Fw.h → 0 < refOf s.ents e := by
    intro i x hx hm
    obtain ⟨w, hw, he⟩ := List.mem_map.1 hm
    obtain ⟨y, hy, _, _, _, hr⟩ := h.core.kid_ent hx hw
    rw [he] at hy
    simpa [refOf, hy] using hr
  have hkidI : ∀ i, e ∈ (kidsI (info s.ents (frames s)) i).map Fw.h → 0 < refOf s.ents e := by
    intro i hm
    cases hx : s.ents i with
    | none => simp [kidsI, info_none hx] at hm
    | some x =>
      rw [kidsI_some hx] at hm
      exact hkid i x hx hm
  have href : ∀ g ∈ frames s, 0 < refF e g → 0 < refOf s.ents e := by
    intro g hg h1
    have := tot_le (g := refF e) hg
    have := h.core.refs e
    omega
  constructor
  · rintro (⟨w, hw, he⟩ | ⟨i, v, hv, w, hw, he⟩ | hst)
    · have := h.core.refs e
      have := fwCount_pos hw he
      simp only [abs] at this
      omega
    · obtain ⟨x, hx, _, _, rfl⟩ := of_absV hv
      exact Or.inl (hkid i x hx (List.mem_map.2 ⟨w, hw, he⟩))
    · obtain ⟨g, hg, f, hf, he⟩ := mem_absS.1 hst
      have hr := href g hg
      cases g with
      | insLock c k loc pre =>
        rw [List.mem_singleton.1 hf] at he
        exact Or.inl (hr (hs_mem he))
      | insFind c k loc pre =>
        rw [List.mem_singleton.1 hf] at he
        exact Or.inl (hr (hs_mem he))
      | insVisit c k i loc new =>
        cases new with
        | false =>
          rw [List.mem_singleton.1 hf] at he
          exact Or.inl (hr (hs_mem he))
        | true =>
          simp only [absF, if_true] at hf
          cases hx : s.ents i with
          | none => rw [info_none hx] at hf; cases hf
          | some x =>
            rw [info_some hx] at hf
            dsimp only at hf
            split at hf
            · rw [List.mem_singleton.1 hf] at he
              exact Or.inl (hkid i x hx he)
            · rw [List.mem_singleton.1 hf] at he
              exact Or.inl (hkid i x hx he)
      | insUser c k i =>
        rw [List.mem_singleton.1 hf] at he
        exact Or.inl (hkidI i he)
      | insDone c k i =>
        rw [List.mem_singleton.1 hf] at he
        exact Or.inl (hkidI i he)
      | insCatch c i => exact Or.inl (hkidI i (mem_drops.1 ⟨f, hf, he⟩))
      | insUnwind c loc => exact Or.inl (hr (hs_mem (mem_drops.1 ⟨f, hf, he⟩)))
      | insAddRef c k i loc =>
        simp only [absF] at hf
        cases hx : s.ents i with
        | none => rw [info_none hx] at hf; cases hf
        | some x =>
          rw [info_some hx] at hf
          dsimp only at hf
          split at hf
          · rw [List.mem_singleton.1 hf] at he
            exact Or.inl (hr (hs_mem he))
          · rw [List.mem_singleton.1 hf] at he
            exact Or.inl (hkid i x hx he)
      | insAddDel c k i loc =>
        rw [List.mem_singleton.1 hf] at he
        refine Or.inl (hr ?_)
        rcases List.mem_cons.1 he with he | he
        · simp [refF, he]
        · have := hs_mem he
          simp only [refF]
          omega
      | insUnlock c k i loc =>
        rw [List.mem_singleton.1 hf] at he
        refine Or.inl (hr ?_)
        rcases List.mem_cons.1 he with he | he
        · simp [refF, he]
        · have := hs_mem he
          simp only [refF]
          omega
      | relDec w =>
        rw [List.mem_singleton.1 hf, Call.refs, List.mem_singleton] at he
        exact Or.inl (hr (by simp [refF, he]))
      | relLock c i =>
        rw [List.mem_singleton.1 hf, Call.refs, List.mem_singleton] at he
        exact Or.inr (tot_pos hg (by simp [pendF, he]))
      | relCheck c i =>
        rw [List.mem_singleton.1 hf, Call.refs, List.mem_singleton] at he
        exact Or.inr (tot_pos hg (by simp [pendF, he]))
      | relErase c i => exact Or.inl (hkidI i (mem_drops.1 ⟨f, hf, he⟩))
      | relUnlock c => cases hf
  · have hthr : (∃ g ∈ frames s, ∃ f ∈ absF (info s.ents (frames s)) g, e ∈ f.refs) → (abs s).Referenced e :=
      fun hx => Or.inr (Or.inr (mem_absS.2 hx))
    rintro (h1 | h1)
    · have hr := h.core.refs e
      by_cases ho : 0 < fwCount e s.objs
      · exact Or.inl (exists_of_fwCount ho)
      by_cases hk : 0 < kidsTo s.ents s.next e
      · obtain ⟨i, _, hi⟩ := exists_of_nsum hk
        cases hx : s.ents i with
        | none => simp [hx, kidsOf] at hi
        | some x =>
          simp only [hx, kidsOf] at hi
          obtain ⟨w, hw, rfl⟩ := exists_of_fwCount hi
          cases hc : x.cted with
          | false =>
            obtain ⟨g, hg, ho⟩ := exists_of_tot (h.core.uncted i x hx hc)
            have hcl : 0 < claimF i g := Nat.lt_of_lt_of_le ho (own_le_claim i g)
            obtain ⟨f, hf, hm⟩ := kids_shown (info_some (L := frames s) hx) (by simp [hc]) hcl
              (by cases g <;> simp [ownF] at ho <;> rfl) (hF g hg) (fun _ => ho) hw
            exact hthr ⟨g, hg, f, hf, hm⟩
          | true =>
            by_cases hl : 0 < x.ref ∨ 0 < tot (pendF i) (frames s)
            · exact Or.inr (Or.inl ⟨i, _, absV_some hx hc hl, w, hw, rfl⟩)
            · have hnn := h.core.ref_nonneg i
              simp only [refOf, hx] at hnn
              obtain ⟨g, hg, hcl⟩ := exists_of_tot (h.core.claim i x hx (by omega))
              have := tot_le (g := pendF i) hg
              obtain ⟨f, hf, hm⟩ := kids_shown (info_some (L := frames s) hx)
                (by rw [Bool.eq_false_iff]; intro hl'; exact hl (live_iff.1 hl').2) hcl
                (by omega) (hF g hg) (fun h0 => by simp [hc] at h0) hw
              exact hthr ⟨g, hg, f, hf, hm⟩
      · obtain ⟨g, hg, hr⟩ := exists_of_tot (g := refF e) (l := frames s) (by omega)
        have hok := h.core.frames g hg
        have hfit := hF g hg
        refine hthr ⟨g, hg, ?_⟩
        cases g with
        | insLock c k loc pre => exact ⟨_, List.mem_singleton.2 rfl, mem_hs hr⟩
        | insFind c k loc pre => exact ⟨_, List.mem_singleton.2 rfl, mem_hs hr⟩
        | insVisit c k i loc new =>
          cases new with
          | false => exact ⟨_, List.mem_singleton.2 rfl, mem_hs hr⟩
          | true =>
            rw [hok.2.2 rfl] at hr
            simp [refF] at hr
        | insUnwind c loc => exact mem_drops.2 (mem_hs hr)
        | insAddRef c k i loc =>
          obtain ⟨j, h2, h3⟩ := hfit
          rcases h3 with h3 | ⟨_, h3⟩
          · simp only [absF, h2, h3, if_true]
            exact ⟨_, List.mem_singleton.2 rfl, mem_hs hr⟩
          · rw [h3] at hr
            simp [refF] at hr
        | insAddDel c k i loc =>
          refine ⟨_, List.mem_singleton.2 rfl, ?_⟩
          simp only [refF] at hr
          by_cases hi : i = e
          · simp [Call.refs, hi]
          · exact List.mem_cons_of_mem _ (mem_hs (by simpa [hi] using hr))
        | insUnlock c k i loc =>
          refine ⟨_, List.mem_singleton.2 rfl, ?_⟩
          simp only [refF] at hr
          by_cases hi : i = e
          · simp [Call.refs, hi]
          · exact List.mem_cons_of_mem _ (mem_hs (by simpa [hi] using hr))
        | relDec w =>
          refine ⟨_, List.mem_singleton.2 rfl, ?_⟩
          by_cases hi : w.h = e
          · simp [Call.refs, hi]
          · simp [refF, hi] at hr
        | _ => simp [refF] at hr
    · obtain ⟨g, hg, hp⟩ := exists_of_tot h1
      refine hthr ⟨g, hg, ?_⟩
      cases g with
      | relLock c i =>
        refine ⟨_, List.mem_singleton.2 rfl, ?_⟩
        by_cases hi : i = e
        · simp [Call.refs, hi]
        · simp [pendF, hi] at hp
      | relCheck c i =>
        refine ⟨_, List.mem_singleton.2 rfl, ?_⟩
        by_cases hi : i = e
        · simp [Call.refs, hi]
        · simp [pendF, hi] at hp
      | _ => simp [pendF] at hp

end Verif.Conc

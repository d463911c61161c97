import Verif.Linger
import Verif.ConcStep

/-!
# Flyweights with atomic operations whose values linger: what holds in all states
-/

set_option autoImplicit false

namespace Verif.Linger
open Verif.Conc (Fw pick tot tot_nil tot_cons tot_append tot_pos tot_le tot_perm tot_eq_zero exists_of_tot split pick_mem swap_mem)
open Verif.CFac (Act)
variable {K : Type} {eqv : Nat → K → K → Bool}

/-- A flyweight refers to a value of its type with an equivalent key.  (No code of its own: used in statements and proofs.) -/
def FwOk (eqv : Nat → K → K → Bool) (vals : Nat → Option (Val K)) (w : Fw K) : Prop :=
  ∃ v, vals w.h = some v ∧ v.full = true ∧ v.core = w.c ∧ eqv w.c v.key w.k = true

/-- The call is constructing value `h`.  (No code of its own: used in statements and proofs.) -/
def bldF (h : Nat) : Call K → Nat
  | .build _ _ i _ => if i = h then 1 else 0
  | .built _ _ i _ => if i = h then 1 else 0
  | _ => 0

/-- What holds of a call.  (No code of its own: used in statements and proofs.) -/
def CallOk (eqv : Nat → K → K → Bool) (vals : Nat → Option (Val K)) : Call K → Prop
  | .create _ _ loc => ∀ w ∈ loc, FwOk eqv vals w
  | .build c k h loc => (∃ v, vals h = some v ∧ v.full = false ∧ v.core = c ∧ eqv c v.key k = true) ∧ ∀ w ∈ loc, FwOk eqv vals w
  | .built c k h loc => (∃ v, vals h = some v ∧ v.full = false ∧ v.core = c ∧ eqv c v.key k = true) ∧ ∀ w ∈ loc, FwOk eqv vals w
  | .made w loc => FwOk eqv vals w ∧ ∀ w ∈ loc, FwOk eqv vals w
  | .destroy h => ∃ v, vals h = some v ∧ v.full = true
  | .collector _ => True

/-- What holds in all states.  (No code of its own: used in statements and proofs.) -/
structure Sound (eqv : Nat → K → K → Bool) (a : St K) : Prop where
  calls : ∀ f ∈ a.thr.flatten, CallOk eqv a.vals f
  objs : ∀ w ∈ a.objs, FwOk eqv a.vals w
  kids : ∀ i v, a.vals i = some v → ∀ w ∈ v.kids, FwOk eqv a.vals w
  one : ∀ i j u v, a.vals i = some u → a.vals j = some v → u.core = v.core → eqv u.core u.key v.key = true → i = j
  alone : ∀ h, tot (bldF h) a.thr.flatten ≤ 1

theorem setVal_same (f : Nat → Option (Val K)) (h : Nat) (v : Option (Val K)) : setVal f h v h = v := by simp [setVal]
theorem setVal_ne (f : Nat → Option (Val K)) {h i : Nat} (v : Option (Val K)) (hi : i ≠ h) : setVal f h v i = f i := by
  simp [setVal, hi]

@[simp] theorem bld_drops (h : Nat) (l : List (Fw K)) : tot (bldF h) (drops l) = 0 := tot_eq_zero fun f hf => by
  obtain ⟨w, _, rfl⟩ := List.mem_map.1 hf
  rfl

theorem bld_refs {h : Nat} {f : Call K} (hb : 0 < bldF h f) : h ∈ f.refs := by
  cases f <;> simp only [bldF] at hb <;> try omega
  all_goals
    split at hb
    · rename_i he; subst he; exact List.mem_cons_self
    · omega

/-- Values referred to stay as they are, or become complete.  (No code of its own: used in statements and proofs.) -/
def Keeps (vals vals' : Nat → Option (Val K)) (i : Nat) : Prop :=
  ∀ v, vals i = some v → ∃ v', vals' i = some v' ∧ v'.core = v.core ∧ v'.key = v.key ∧ (v.full = true → v'.full = true)

theorem FwOk.upd {vals vals' : Nat → Option (Val K)} {w : Fw K} (h : FwOk eqv vals w) (hk : Keeps vals vals' w.h) :
    FwOk eqv vals' w := by
  obtain ⟨v, h1, h2, h3, h4⟩ := h
  obtain ⟨v', g1, g2, g3, g4⟩ := hk v h1
  exact ⟨v', g1, g4 h2, g2.trans h3, g3 ▸ h4⟩

theorem CallOk.upd {vals vals' : Nat → Option (Val K)} {f : Call K} (h : CallOk eqv vals f)
    (hk : ∀ i ∈ f.refs, Keeps vals vals' i) (hb : ∀ i, 0 < bldF i f → ∀ v, vals i = some v → ∃ v', vals' i = some v' ∧ v'.full = v.full) :
    CallOk eqv vals' f := by
  have bld : ∀ {c i : Nat} {k : K}, i ∈ f.refs → 0 < bldF i f →
      (∃ v, vals i = some v ∧ v.full = false ∧ v.core = c ∧ eqv c v.key k = true) →
      ∃ v, vals' i = some v ∧ v.full = false ∧ v.core = c ∧ eqv c v.key k = true := by
    rintro c i k hi hp ⟨v, h1, h2, h3, h4⟩
    obtain ⟨v', g1, g2, g3, _⟩ := hk i hi v h1
    obtain ⟨v'', g5, g6⟩ := hb i hp v h1
    rw [g1] at g5
    cases g5
    exact ⟨v', g1, g6.trans h2, g2.trans h3, g3 ▸ h4⟩
  cases f with
  | create c k loc => exact fun w hw => (h w hw).upd (hk _ (List.mem_map.2 ⟨w, hw, rfl⟩))
  | build c k i loc =>
    exact ⟨bld List.mem_cons_self (by simp [bldF]) h.1,
      fun w hw => (h.2 w hw).upd (hk _ (List.mem_cons_of_mem _ (List.mem_map.2 ⟨w, hw, rfl⟩)))⟩
  | built c k i loc =>
    exact ⟨bld List.mem_cons_self (by simp [bldF]) h.1,
      fun w hw => (h.2 w hw).upd (hk _ (List.mem_cons_of_mem _ (List.mem_map.2 ⟨w, hw, rfl⟩)))⟩
  | made u loc =>
    exact ⟨h.1.upd (hk _ List.mem_cons_self),
      fun w hw => (h.2 w hw).upd (hk _ (List.mem_cons_of_mem _ (List.mem_map.2 ⟨w, hw, rfl⟩)))⟩
  | destroy i =>
    obtain ⟨v, h1, h2⟩ := h
    obtain ⟨v', g1, _, _, g2⟩ := hk i List.mem_cons_self v h1
    exact ⟨v', g1, g2 h2⟩
  | collector c => trivial

theorem calls_drops {vals : Nat → Option (Val K)} {l : List (Fw K)} (h : ∀ w ∈ l, FwOk eqv vals w) :
    ∀ f ∈ drops l, CallOk eqv vals f := by
  intro f hf
  obtain ⟨w, hw, rfl⟩ := List.mem_map.1 hf
  obtain ⟨v, h1, h2, _⟩ := h w hw
  exact ⟨v, h1, h2⟩

theorem thr_perm {thr : List (List (Call K))} {t : Nat} {st : List (Call K)} (h : thr[t]? = some st) :
    ∃ R : List (Call K), thr.flatten.Perm (st ++ R) ∧ ∀ new, (thr.set t new).flatten.Perm (new ++ R) := by
  obtain ⟨A, B, h1, h2, _⟩ := split h
  have hp : ∀ st' : List (Call K), (A ++ st' ++ B).Perm (st' ++ (A ++ B)) := fun st' => by
    rw [List.append_assoc]
    refine (List.perm_append_comm (l₁ := A) (l₂ := st' ++ B)).trans ?_
    rw [List.append_assoc]
    exact (List.perm_append_comm).append_left st'
  exact ⟨A ++ B, h1 ▸ hp st, fun new => h2 new ▸ hp new⟩

theorem mem_refs {a : St K} {f : Call K} (hf : f ∈ a.thr.flatten) {i : Nat} (hi : i ∈ f.refs) : a.Referenced i := by
  obtain ⟨st, h1, h2⟩ := List.mem_flatten.1 hf
  exact Or.inr (Or.inr ⟨st, h1, f, h2, hi⟩)

/-- What is referred to is there. -/
theorem Sound.there {a : St K} (h : Sound eqv a) {i : Nat} (hi : a.Referenced i) : ∃ v, a.vals i = some v := by
  have fw : ∀ {w : Fw K}, FwOk eqv a.vals w → ∃ v, a.vals w.h = some v := fun ⟨v, h1, _⟩ => ⟨v, h1⟩
  rcases hi with ⟨w, hw, rfl⟩ | ⟨j, u, hu, w, hw, rfl⟩ | ⟨st, hst, f, hf, hr⟩
  · exact fw (h.objs w hw)
  · exact fw (h.kids j u hu w hw)
  · have hc := h.calls f (List.mem_flatten.2 ⟨st, hst, hf⟩)
    have loc : ∀ {l : List (Fw K)}, (∀ w ∈ l, FwOk eqv a.vals w) → i ∈ l.map Fw.h → ∃ v, a.vals i = some v := by
      intro l hl hm
      obtain ⟨w, hw, rfl⟩ := List.mem_map.1 hm
      exact fw (hl w hw)
    cases f with
    | create c k l => exact loc hc hr
    | build c k h l =>
      rcases List.mem_cons.1 hr with rfl | hr
      · obtain ⟨⟨v, h1, _⟩, _⟩ := hc; exact ⟨v, h1⟩
      · exact loc hc.2 hr
    | built c k h l =>
      rcases List.mem_cons.1 hr with rfl | hr
      · obtain ⟨⟨v, h1, _⟩, _⟩ := hc; exact ⟨v, h1⟩
      · exact loc hc.2 hr
    | made w l =>
      rcases List.mem_cons.1 hr with rfl | hr
      · exact fw hc.1
      · exact loc hc.2 hr
    | destroy h =>
      rw [List.mem_singleton.1 hr]
      obtain ⟨v, h1, _⟩ := hc; exact ⟨v, h1⟩
    | collector c => cases hr

/-- General form of a step. -/
theorem Sound.of {a : St K} (h : Sound eqv a) {t : Nat} {old new rest : List (Call K)} (ht : a.thr[t]? = some (old ++ rest))
    {vals : Nat → Option (Val K)} {objs : List (Fw K)}
    (hk : ∀ i, a.Referenced i → Keeps a.vals vals i)
    (hb : ∀ R : List (Call K), a.thr.flatten.Perm (old ++ (rest ++ R)) → ∀ f ∈ rest ++ R, ∀ i, 0 < bldF i f → ∀ v, a.vals i = some v →
      ∃ v', vals i = some v' ∧ v'.full = v.full)
    (hnew : ∀ f ∈ new, CallOk eqv vals f) (hobjs : ∀ w ∈ objs, FwOk eqv vals w)
    (hkids : ∀ i v, vals i = some v → ∀ w ∈ v.kids, FwOk eqv vals w)
    (hone : ∀ i j u v, vals i = some u → vals j = some v → u.core = v.core → eqv u.core u.key v.key = true → i = j)
    (hal : ∀ i R, a.thr.flatten.Perm (old ++ (rest ++ R)) → tot (bldF i) new + tot (bldF i) (rest ++ R) ≤ 1) :
    Sound eqv ⟨vals, objs, a.thr.set t (new ++ rest)⟩ := by
  obtain ⟨R, h1, h2⟩ := thr_perm ht
  have h3 := h2 (new ++ rest)
  rw [List.append_assoc] at h1 h3
  refine ⟨fun f hf => ?_, hobjs, hkids, hone, fun i => ?_⟩
  · rcases List.mem_append.1 (h3.mem_iff.1 hf) with hf | hf
    · exact hnew f hf
    · have hm : f ∈ a.thr.flatten := h1.mem_iff.2 (List.mem_append.2 (.inr hf))
      exact (h.calls f hm).upd (fun i hi => hk i (mem_refs hm hi)) (hb R h1 f hf)
  · show tot (bldF i) (a.thr.set t (new ++ rest)).flatten ≤ 1
    rw [tot_perm h3, tot_append]
    exact hal i R h1

theorem Keeps.refl {vals : Nat → Option (Val K)} (i : Nat) : Keeps vals vals i := fun v hv => ⟨v, hv, rfl, rfl, id⟩

/-- Steps that change no value. -/
theorem Sound.plain {a : St K} (h : Sound eqv a) {t : Nat} {old new rest : List (Call K)} (ht : a.thr[t]? = some (old ++ rest))
    {objs : List (Fw K)} (hnew : ∀ f ∈ new, CallOk eqv a.vals f) (hobjs : ∀ w ∈ objs, FwOk eqv a.vals w)
    (hal : ∀ i, 0 < tot (bldF i) new → tot (bldF i) new ≤ tot (bldF i) old ∨ tot (bldF i) new ≤ 1 ∧ ¬ a.Referenced i) :
    Sound eqv ⟨a.vals, objs, a.thr.set t (new ++ rest)⟩ := by
  refine h.of ht (fun i _ => .refl i) (fun _ _ f hf i hi v hv => ⟨v, hv, rfl⟩) hnew hobjs h.kids h.one fun i R hp => ?_
  have h1 := h.alone i
  rw [tot_perm hp, tot_append] at h1
  rcases Nat.eq_zero_or_pos (tot (bldF i) new) with h2 | h2
  · omega
  · rcases hal i h2 with h3 | ⟨h3, h4⟩
    · omega
    · have : tot (bldF i) (rest ++ R) = 0 := tot_eq_zero fun f hf => by
        rcases Nat.eq_zero_or_pos (bldF i f) with h5 | h5
        · exact h5
        · exact absurd (mem_refs (hp.mem_iff.2 (List.mem_append.2 (.inr hf))) (bld_refs h5)) h4
      omega

theorem Sound.step (refl : ∀ c k, eqv c k k = true) (symm : ∀ c k l, eqv c k l = true → eqv c l k = true) {a a' : St K}
    (h : Sound eqv a) {t : Nat} {act : Act K} (hs : Step eqv a t act a') : Sound eqv a' := by
  have top : ∀ {f : Call K} {rest : List (Call K)}, a.thr[t]? = some (f :: rest) → CallOk eqv a.vals f := by
    intro f rest ht
    exact h.calls f (List.mem_flatten.2 ⟨_, List.mem_of_getElem? ht, List.mem_cons_self⟩)
  have one : ∀ {f g : Call K} {vals : Nat → Option (Val K)}, CallOk eqv vals f → g ∈ [f] → CallOk eqv vals g := by
    intro f g vals hf hg
    rwa [List.mem_singleton.1 hg]
  -- a new value, or key without value
  have add : ∀ {c k loc rest i b} {f : Call K}, a.thr[t]? = some (.create c k loc :: rest) → a.Free eqv c k → a.vals i = none →
      ¬ a.Referenced i → CallOk eqv (setVal a.vals i (some ⟨c, k, loc, b⟩)) f → (∀ j, bldF j f ≤ 1 ∧ (j ≠ i → bldF j f = 0)) →
      Sound eqv ⟨setVal a.vals i (some ⟨c, k, loc, b⟩), a.objs, a.thr.set t (f :: rest)⟩ := by
    intro c k loc rest i b f ht hfree hnone href hf hbf
    have stay : ∀ j v, a.vals j = some v → setVal a.vals i (some ⟨c, k, loc, b⟩) j = some v := by
      intro j v hv
      rw [setVal_ne _ _ ?_, hv]
      rintro rfl
      rw [hnone] at hv
      cases hv
    have keeps : ∀ j, Keeps a.vals (setVal a.vals i (some ⟨c, k, loc, b⟩)) j := fun j v hv => ⟨v, stay j v hv, rfl, rfl, id⟩
    refine h.of (old := [.create c k loc]) (new := [f]) ht (fun j _ => keeps j) (fun _ _ g _ j _ v hv => ⟨v, stay j v hv, rfl⟩)
      (fun g hg => one hf hg) (fun w hw => (h.objs w hw).upd (keeps _)) ?_ ?_ ?_
    · intro j v hv w hw
      by_cases hj : j = i
      · subst hj
        rw [setVal_same] at hv
        cases hv
        exact (top ht w hw).upd (keeps _)
      · rw [setVal_ne _ _ hj] at hv
        exact (h.kids j v hv w hw).upd (keeps _)
    · intro j l u v hu hv hc hk
      by_cases hj : j = i <;> by_cases hl : l = i
      · rw [hj, hl]
      · subst hj
        rw [setVal_same] at hu
        rw [setVal_ne _ _ hl] at hv
        cases hu
        have := hfree l v hv hc.symm
        rw [symm _ _ _ hk] at this
        cases this
      · subst hl
        rw [setVal_same] at hv
        rw [setVal_ne _ _ hj] at hu
        cases hv
        dsimp only at hc hk
        have := hfree j u hu hc
        rw [← hc, hk] at this
        cases this
      · rw [setVal_ne _ _ hj] at hu
        rw [setVal_ne _ _ hl] at hv
        exact h.one j l u v hu hv hc hk
    · intro j R hp
      have h1 := h.alone j
      rw [tot_perm hp, tot_append] at h1
      obtain ⟨h2, h3⟩ := hbf j
      simp only [tot_cons, tot_nil] at h1 ⊢
      by_cases hj : j = i
      · have : tot (bldF j) (rest ++ R) = 0 := tot_eq_zero fun g hg => by
          rcases Nat.eq_zero_or_pos (bldF j g) with h5 | h5
          · exact h5
          · rw [hj] at h5
            exact absurd (mem_refs (hp.mem_iff.2 (List.mem_append.2 (.inr hg))) (bld_refs h5)) href
        omega
      · rw [h3 hj]; omega
  -- a value under construction changes
  have chg : ∀ {f : Call K} {new rest : List (Call K)} {i : Nat} {v v' : Val K} {objs : List (Fw K)}, a.thr[t]? = some (f :: rest) → bldF i f = 1 →
      a.vals i = some v → v'.core = v.core → v'.key = v.key → (v.full = true → v'.full = true) →
      (∀ g ∈ new, CallOk eqv (setVal a.vals i (some v')) g) → (∀ w ∈ objs, FwOk eqv a.vals w) → (∀ w ∈ v'.kids, FwOk eqv a.vals w) →
      (∀ j, tot (bldF j) new ≤ bldF j f) →
      Sound eqv ⟨setVal a.vals i (some v'), objs, a.thr.set t (new ++ rest)⟩ := by
    intro f new rest i v v' objs ht hbi hv hc hk hfl hnew hobjs hkids hal
    have keeps : ∀ j, Keeps a.vals (setVal a.vals i (some v')) j := by
      intro j u hu
      by_cases hj : j = i
      · subst hj
        rw [hv] at hu
        cases hu
        exact ⟨v', setVal_same _ _ _, hc, hk, hfl⟩
      · exact ⟨u, by rw [setVal_ne _ _ hj, hu], rfl, rfl, id⟩
    have back : ∀ j u, setVal a.vals i (some v') j = some u → ∃ u', a.vals j = some u' ∧ u'.core = u.core ∧ u'.key = u.key := by
      intro j u hu
      by_cases hj : j = i
      · subst hj
        rw [setVal_same] at hu
        cases hu
        exact ⟨v, hv, hc.symm, hk.symm⟩
      · rw [setVal_ne _ _ hj] at hu
        exact ⟨u, hu, rfl, rfl⟩
    refine h.of (old := [f]) ht (fun j _ => keeps j) ?_ hnew (fun w hw => (hobjs w hw).upd (keeps _)) ?_ ?_ ?_
    · intro R hp g hg j hj u hu
      have hne : j ≠ i := by
        rintro rfl
        have h1 := h.alone j
        rw [tot_perm hp, tot_append] at h1
        have h2 := tot_pos (g := bldF j) hg hj
        simp only [tot_cons, tot_nil] at h1
        omega
      exact ⟨u, by rw [setVal_ne _ _ hne, hu], rfl⟩
    · intro j u hu w hw
      by_cases hj : j = i
      · subst hj
        rw [setVal_same] at hu
        cases hu
        exact (hkids w hw).upd (keeps _)
      · rw [setVal_ne _ _ hj] at hu
        exact (h.kids j u hu w hw).upd (keeps _)
    · intro j l u w hu hw hcc hkk
      obtain ⟨u', a1, a2, a3⟩ := back j u hu
      obtain ⟨w', b1, b2, b3⟩ := back l w hw
      exact h.one j l u' w' a1 b1 (by rw [a2, b2, hcc]) (by rw [a2, a3, b3]; exact hkk)
    · intro j R hp
      have h1 := h.alone j
      have h2 := hal j
      rw [tot_perm hp, tot_append] at h1
      simp only [tot_cons, tot_nil] at h1
      omega
  cases hs with
  | @share c k loc rest i v ht hv hf hc hk =>
    exact h.plain (old := [.create c k loc]) (new := [.made ⟨i, c, k⟩ loc]) ht
      (fun g hg => one (f := .made ⟨i, c, k⟩ loc) ⟨⟨v, hv, hf, hc, hk⟩, top ht⟩ hg) h.objs (fun j hj => by simp [bldF] at hj)
  | @keep c k loc rest i ht hfree hnone href =>
    exact add ht hfree hnone href ⟨⟨_, setVal_same _ _ _, rfl, rfl, refl c k⟩, by simp⟩ (by simp [bldF])
  | @start c k loc rest i ht hfree hnone href =>
    exact add ht hfree hnone href ⟨⟨_, setVal_same _ _ _, rfl, rfl, refl c k⟩, by simp⟩ fun j => by
      simp only [bldF]; exact ⟨by split <;> omega, fun hj => if_neg (Ne.symm hj)⟩
  | @resume c k loc rest i v ht hv hf href hc hk =>
    refine h.plain (old := [.create c k loc]) (new := [.build c k i loc]) ht
      (fun g hg => one (f := .build c k i loc) ⟨⟨v, hv, hf, hc, hk⟩, top ht⟩ hg) h.objs (fun j hj => .inr ?_)
    simp only [tot_cons, tot_nil, bldF] at hj ⊢
    split at hj
    · rename_i he; subst he; exact ⟨by simp, href⟩
    · omega
  | @store c k loc rest i v ht hv =>
    obtain ⟨⟨u, h1, h2, h3, h4⟩, h5⟩ := top ht
    rw [hv] at h1
    cases h1
    have keeps : ∀ w, FwOk eqv a.vals w → FwOk eqv (setVal a.vals i (some { v with full := true })) w := fun w hw =>
      hw.upd fun u hu => by
        by_cases hj : w.h = i
        · rw [hj] at hu ⊢
          rw [hv] at hu
          cases hu
          exact ⟨_, setVal_same _ _ _, rfl, rfl, fun _ => rfl⟩
        · exact ⟨u, by rw [setVal_ne _ _ hj, hu], rfl, rfl, id⟩
    exact chg (new := [.made ⟨i, c, k⟩ loc]) ht (by simp [bldF]) hv rfl rfl (fun _ => rfl)
      (fun g hg => one (f := .made ⟨i, c, k⟩ loc) ⟨⟨_, setVal_same _ _ _, rfl, h3, h4⟩, fun w hw => keeps w (h5 w hw)⟩ hg) h.objs (h.kids i v hv) (fun j => by simp [bldF])
  | @tidy w loc rest ht =>
    have := h.plain (old := [.made w loc]) (new := drops loc ++ [.made w []]) ht (objs := a.objs) (fun g hg => by
      rcases List.mem_append.1 hg with hg | hg
      · exact calls_drops (top ht).2 g hg
      · exact one (f := .made w []) ⟨(top ht).1, by simp⟩ hg) h.objs (fun j hj => by simp [bldF] at hj)
    rwa [List.append_assoc] at this
  | @ret w rest ht =>
    refine h.plain (old := [.made w []]) (new := []) ht (by simp) (fun u hu => ?_) (by simp)
    rcases List.mem_cons.1 hu with rfl | hu
    · exact (top ht).1
    · exact h.objs u hu
  | @drop i rest ht => exact h.plain (old := [.destroy i]) (new := []) ht (by simp) h.objs (by simp)
  | @collect c i v rest ht hv hc href =>
    have keeps : ∀ j, a.Referenced j → Keeps a.vals (setVal a.vals i none) j := by
      intro j hj u hu
      refine ⟨u, ?_, rfl, rfl, id⟩
      rw [setVal_ne _ _ ?_, hu]
      rintro rfl
      exact href hj
    have back : ∀ j u, setVal a.vals i none j = some u → a.vals j = some u := by
      intro j u hu
      by_cases hj : j = i
      · rw [hj, setVal_same] at hu; cases hu
      · rwa [setVal_ne _ _ hj] at hu
    have := h.of (old := [.collector c]) (new := drops v.kids ++ [.collector c]) (objs := a.objs) ht keeps ?_ ?_ ?_ ?_ ?_ ?_
    · rwa [List.append_assoc] at this
    · intro R hp g hg j hj u hu
      obtain ⟨u', h1, _⟩ := keeps j (mem_refs (hp.mem_iff.2 (List.mem_append.2 (.inr hg))) (bld_refs hj)) u hu
      have := back j u' h1
      rw [hu] at this
      cases this
      exact ⟨u, h1, rfl⟩
    · intro g hg
      rcases List.mem_append.1 hg with hg | hg
      · exact calls_drops (fun w hw => (h.kids i v hv w hw).upd (keeps _ (Or.inr (Or.inl ⟨i, v, hv, w, hw, rfl⟩)))) g hg
      · exact one (f := .collector c) trivial hg
    · exact fun w hw => (h.objs w hw).upd (keeps _ (Or.inl ⟨w, hw, rfl⟩))
    · intro j u hu w hw
      exact (h.kids j u (back j u hu) w hw).upd (keeps _ (Or.inr (Or.inl ⟨j, u, back j u hu, w, hw, rfl⟩)))
    · exact fun j l u w hu hw => h.one j l u w (back j u hu) (back l w hw)
    · intro j R hp
      have h1 := h.alone j
      rw [tot_perm hp, tot_append] at h1
      simp only [tot_cons, tot_nil, tot_append, bld_drops, bldF] at h1 ⊢
      omega
  | @create st c k mask pre ht hu =>
    exact h.plain (old := []) (new := [.create c k (pick mask a.objs).1]) ht
      (fun g hg => one (f := .create c k (pick mask a.objs).1) (fun w hw => h.objs w (pick_mem.2 (.inl hw))) hg)
      (fun w hw => h.objs w (pick_mem.2 (.inr hw))) (by simp [bldF])
  | @destroy st mask ht hu =>
    exact h.plain (old := []) (new := drops (pick mask a.objs).1) ht
      (calls_drops fun w hw => h.objs w (pick_mem.2 (.inl hw))) (fun w hw => h.objs w (pick_mem.2 (.inr hw))) (by simp)
  | @copy st i w v ht hu hi hv =>
    refine ⟨h.calls, fun u hu => ?_, h.kids, h.one, h.alone⟩
    rcases List.mem_cons.1 hu with rfl | hu
    · exact h.objs _ (List.mem_of_getElem? hi)
    · exact h.objs u hu
  | @copyKid st i j w v u ht hu hi hv hf hj =>
    refine ⟨h.calls, fun x hx => ?_, h.kids, h.one, h.alone⟩
    rcases List.mem_cons.1 hx with rfl | hx
    · exact h.kids _ v hv _ (List.mem_of_getElem? hj)
    · exact h.objs x hx
  | @swap st i j v w ht hu hi hj =>
    exact ⟨h.calls, fun x hx => h.objs x (swap_mem hi hj hx), h.kids, h.one, h.alone⟩
  | read => exact h
  | @finish c k i loc rest v mask dr ht hv =>
    obtain ⟨⟨u, h1, h2, h3, h4⟩, h5⟩ := top ht
    rw [hv] at h1
    cases h1
    have hp1 : ∀ w ∈ (pick mask a.objs).1, FwOk eqv a.vals w := fun w hw => h.objs w (pick_mem.2 (.inl hw))
    have keeps : ∀ kids w, FwOk eqv a.vals w → FwOk eqv (setVal a.vals i (some { v with kids := kids })) w := fun kids w hw =>
      hw.upd fun u hu => by
        by_cases hj : w.h = i
        · rw [hj] at hu ⊢
          rw [hv] at hu
          cases hu
          exact ⟨_, setVal_same _ _ _, rfl, rfl, id⟩
        · exact ⟨u, by rw [setVal_ne _ _ hj, hu], rfl, rfl, id⟩
    have := chg (new := (if dr then drops v.kids else []) ++ [.built c k i loc]) (objs := (pick mask a.objs).2)
      (v' := { v with kids := if dr then (pick mask a.objs).1 else v.kids ++ (pick mask a.objs).1 }) ht (by simp [bldF]) hv rfl rfl id ?_
      (fun w hw => h.objs w (pick_mem.2 (.inr hw))) ?_ ?_
    · rwa [List.append_assoc] at this
    · intro g hg
      rcases List.mem_append.1 hg with hg | hg
      · cases dr with
        | true => exact calls_drops (fun w hw => keeps _ w (h.kids i v hv w hw)) g hg
        | false => cases hg
      · exact one (f := .built c k i loc) ⟨⟨_, setVal_same _ _ _, h2, h3, h4⟩, fun w hw => keeps _ w (h5 w hw)⟩ hg
    · intro w hw
      cases dr with
      | true => exact hp1 w hw
      | false => exact (List.mem_append.1 hw).elim (h.kids i v hv w) (hp1 w)
    · intro j
      cases dr <;> simp [bldF]
  | @throwBuild c k i loc rest ht =>
    exact h.plain (old := [.build c k i loc]) (new := drops loc) ht (calls_drops (top ht).2) h.objs (by simp)
  | @throwFind c k loc rest ht =>
    exact h.plain (old := [.create c k loc]) (new := drops loc) ht (calls_drops (top ht)) h.objs (by simp)

theorem start_sound (n : Nat) (gcs : List Nat) : Sound eqv (start n gcs : St K) := by
  have hf : ∀ f ∈ (start n gcs : St K).thr.flatten, ∃ c, f = .collector c := by
    intro f hf
    obtain ⟨st, h1, h2⟩ := List.mem_flatten.1 hf
    rcases List.mem_append.1 h1 with h | h
    · rw [List.eq_of_mem_replicate h] at h2; cases h2
    · obtain ⟨c, _, rfl⟩ := List.mem_map.1 h
      exact ⟨c, List.mem_singleton.1 h2⟩
  refine ⟨fun f h => ?_, fun w hw => (nomatch hw), fun i v hv => (nomatch hv), fun i j u v hu => (nomatch hu), fun h => ?_⟩
  · obtain ⟨c, rfl⟩ := hf f h
    trivial
  · rw [tot_eq_zero fun f h => ?_]
    · omega
    · obtain ⟨c, rfl⟩ := hf f h
      rfl

theorem Run.sound (refl : ∀ c k, eqv c k k = true) (symm : ∀ c k l, eqv c k l = true → eqv c l k = true) {n : Nat} {gcs : List Nat}
    {l : List (Nat × Act K)} {a : St K} (h : Run eqv (start n gcs) l a) : Sound eqv a := by
  induction h with
  | nil => exact start_sound n gcs
  | snoc _ hs ih => exact ih.step refl symm hs

end Verif.Linger

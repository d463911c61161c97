import Verif.StaticHB

/-!
# Static data of a type that has been initialized

Once a flyweight type is initialized and nobody is initializing it again, the only write of its static data still to come
is that of `static_initializer` by its own dynamic initialization
(/repo/include/boost/flyweight/detail/flyweight_core.hpp:323-329).
-/

set_option autoImplicit false

namespace Verif.StaticHB
open HB
open Verif.Statics (set set_self set_ne)

/-- What a step does to an initialized type. -/
theorem act_class {c : Nat} {s s' : St} {t : Nat} {a : Act} (hi : Inv s) (hf : s.flag c = true)
    (hq : ∀ u, (s.pc u).type = some c → s.pc u = .store c true) (ha : act s t a = .ok s') :
    ∃ ev, s'.tr = s.tr ++ [ev] ∧ s'.flag c = true ∧
      ((s'.dyn c = s.dyn c ∧ (∀ u, (s'.pc u).type = some c → s'.pc u = s.pc u) ∧
          ∀ l k, l.type = c → (l, k) ∈ ev.accs → k = .read) ∨
        (s.dyn c = false ∧ s'.dyn c = true ∧ s'.pc = set s.pc t (.store c true) ∧
          ∀ l k, l.type = c → (l, k) ∈ ev.accs → k = .read) ∨
        (s.pc t = .store c true ∧ s'.dyn c = s.dyn c ∧ s'.pc = set s.pc t .idle ∧ ev.accs = [(.flag c, .write)])) := by
  obtain ⟨ev, p, hs⟩ := act_step hi ha
  refine ⟨ev, hs.tr, hs.flag c hf, ?_⟩
  -- the thread is not within `init()` of `c`, before or after
  have neutral : s'.dyn c = s.dyn c → (s.pc t).type ≠ some c → p.type ≠ some c →
      (s'.dyn c = s.dyn c ∧ (∀ u, (s'.pc u).type = some c → s'.pc u = s.pc u) ∧
        ∀ l k, l.type = c → (l, k) ∈ ev.accs → k = .read) := by
    intro h1 h2 h3
    refine ⟨h1, ?_, ?_⟩
    · intro u hu
      rw [hs.pc] at hu ⊢
      by_cases hut : u = t
      · subst hut; rw [set_self] at hu; exact absurd hu h3
      · rw [set_ne _ _ hut]
    · intro l k hl hm
      cases k with
      | read => rfl
      | write => exact absurd ((hs.write l hm).trans (by rw [hl])) h2
      | atomic => exact absurd hm (hs.atomic l)
  have hpt : s'.pc t = p := by rw [hs.pc, set_self]
  have htr := hs.tr
  have hpc := hs.pc
  unfold act at ha
  split at ha
  rotate_left
  · cases ha
  cases a with
  | run =>
    dsimp only at ha
    by_cases hc : (s.pc t).type = some c
    · have hst := hq t hc
      rw [hst] at ha
      cases ha
      have : ev = ⟨t, [.start t], [(.flag c, .write)], []⟩ := by
        have := List.append_cancel_left htr
        injection this with h1 _
        exact h1.symm
      exact .inr (.inr ⟨hst, rfl, rfl, by rw [this]⟩)
    · refine .inl (neutral ?_ hc ?_)
      · cases hp : s.pc t <;> rw [hp] at ha <;> cases ha <;> rfl
      · intro h
        rw [← hpt] at h
        cases hp : s.pc t with
        | idle => rw [hp] at ha; cases ha
        | get c' d =>
          rw [hp] at ha hc
          cases ha
          simp only [set_self] at h
          exact hc h
        | setF c' d =>
          rw [hp] at ha hc
          cases ha
          simp only [set_self] at h
          exact hc h
        | setM c' d =>
          rw [hp] at ha hc
          cases ha
          simp only [set_self] at h
          exact hc h
        | setFlag c' d =>
          rw [hp] at ha hc
          cases ha
          simp only [set_self] at h
          cases d with
          | true => exact hc h
          | false => cases h
        | store c' v =>
          rw [hp] at ha
          cases ha
          simp only [set_self] at h
          cases h
  | call c' =>
    dsimp only at ha
    split at ha
    · rename_i hp
      cases ha
      refine .inl (neutral rfl (by rw [hp]; intro h; cases h) ?_)
      intro h
      rw [← hpt] at h
      simp only [set_self] at h
      split at h
      · cases h
      · cases h
        rename_i hn
        exact hn hf
    · cases ha
  | dyn c' =>
    dsimp only at ha
    split at ha
    · rename_i hp
      split at ha
      · cases ha
      · rename_i hd
        cases ha
        by_cases hcc : c' = c
        · subst hcc
          refine .inr (.inl ⟨by simpa using hd, set_self _ _ _, by simp only [if_pos hf], ?_⟩)
          have : ev = ⟨t, [.start t], [(.flag c', .read)], []⟩ := by
            have := List.append_cancel_left htr
            injection this with h1 _
            exact h1.symm
          subst this
          intro l k _ hm
          simp only [List.mem_singleton, Prod.mk.injEq] at hm
          exact hm.2
        · refine .inl (neutral (set_ne _ _ (Ne.symm hcc)) (by rw [hp]; intro h; cases h) ?_)
          intro h
          rw [← hpt] at h
          simp only [set_self] at h
          split at h <;> (cases h; exact hcc rfl)
    · cases ha
  | _ =>
    dsimp only at ha
    split at ha
    · rename_i hp
      have hpi : p = .idle := by
        rw [← hpt]
        first
        | (cases ha; exact hp)
        | (split at ha
           · first
             | (cases ha; done)
             | (cases ha; exact hp)
           · first
             | (cases ha; done)
             | (cases ha; exact hp))
      refine .inl (neutral ?_ (by rw [hp]; intro h; cases h) (by rw [hpi]; intro h; cases h))
      first
      | (cases ha; rfl)
      | (split at ha
         · first
           | (cases ha; done)
           | (cases ha; rfl)
         · first
           | (cases ha; done)
           | (cases ha; rfl))
    · cases ha

/-- Type `c` is initialized, and of writes of its static data since event `n` there is, or will be, at most one: that of
`static_initializer` by its dynamic initialization.  (No code of its own: used in proofs.) -/
structure Quiet (c n : Nat) (s : St) : Prop where
  flag : s.flag c = true
  pc : ∀ u, (s.pc u).type = some c → s.pc u = .store c true
  one : ∀ t u, (s.pc t).type = some c → (s.pc u).type = some c → t = u
  dyn : ∀ u, (s.pc u).type = some c → s.dyn c = true
  acc : ∀ (j : Nat) (l : Loc) (k : Kind), l.type = c → n ≤ j → Acc s.tr j (l, k) →
    k = .read ∨ (k = .write ∧ l = .flag c ∧ s.dyn c = true ∧ ∀ u, (s.pc u).type ≠ some c)
  uniq : ∀ (i j : Nat) (l l' : Loc), l.type = c → l'.type = c → n ≤ i → n ≤ j → Acc s.tr i (l, .write) → Acc s.tr j (l', .write) → i = j

theorem Quiet.step {c n : Nat} {s s' : St} {t : Nat} {a : Act} (h : Quiet c n s) (hi : Inv s)
    (ha : act s t a = .ok s') : Quiet c n s' := by
  obtain ⟨ev, htr, hf, hc⟩ := act_class hi h.flag h.pc ha
  have split : ∀ (j : Nat) (l : Loc) (k : Kind), Acc s'.tr j (l, k) → Acc s.tr j (l, k) ∨ j = s.tr.length ∧ (l, k) ∈ ev.accs := by
    rintro j l k ⟨x, hx, hm⟩
    rw [htr] at hx
    rcases get_cases hx with hx | ⟨h1, rfl⟩
    · exact .inl ⟨x, hx, hm⟩
    · exact .inr ⟨h1, hm⟩
  rcases hc with ⟨hd, hp, hr⟩ | ⟨hd, hd', hp, hr⟩ | ⟨hst, hd, hp, he⟩
  · have back : ∀ u, (s'.pc u).type = some c → (s.pc u).type = some c := fun u hu => by rw [← hp u hu]; exact hu
    refine ⟨hf, fun u hu => by rw [hp u hu]; exact h.pc u (back u hu), fun t u ht hu => h.one t u (back t ht) (back u hu),
      fun u hu => by rw [hd]; exact h.dyn u (back u hu), ?_, ?_⟩
    · intro j l k hl hj hacc
      rcases split j l k hacc with h1 | ⟨_, h1⟩
      · rcases h.acc j l k hl hj h1 with h2 | ⟨h2, h3, h4, h5⟩
        · exact .inl h2
        · exact .inr ⟨h2, h3, by rw [hd]; exact h4, fun u hu => h5 u (back u hu)⟩
      · exact .inl (hr l k hl h1)
    · intro i j l l' hl hl' hin hjn h1 h2
      rcases split i l .write h1 with h1 | ⟨_, h1⟩
      · rcases split j l' .write h2 with h2 | ⟨_, h2⟩
        · exact h.uniq i j l l' hl hl' hin hjn h1 h2
        · cases hr l' _ hl' h2
      · cases hr l _ hl h1
  · have none : ∀ u, (s.pc u).type ≠ some c := fun u hu => by rw [h.dyn u hu] at hd; cases hd
    have only : ∀ u, (s'.pc u).type = some c → u = t := by
      intro u hu
      rw [hp] at hu
      by_cases hut : u = t
      · exact hut
      · rw [set_ne _ _ hut] at hu; exact absurd hu (none u)
    have nowr : ∀ (j : Nat) (l : Loc), l.type = c → n ≤ j → ¬ Acc s'.tr j (l, .write) := by
      intro j l hl hj hacc
      rcases split j l .write hacc with h1 | ⟨_, h1⟩
      · rcases h.acc j l _ hl hj h1 with h2 | ⟨_, _, h4, _⟩
        · cases h2
        · rw [hd] at h4; cases h4
      · cases hr l _ hl h1
    refine ⟨hf, ?_, fun t u ht hu => (only t ht).trans (only u hu).symm, fun _ _ => hd', ?_, ?_⟩
    · intro u hu
      rw [only u hu, hp, set_self]
    · intro j l k hl hj hacc
      rcases split j l k hacc with h1 | ⟨_, h1⟩
      · rcases h.acc j l k hl hj h1 with h2 | ⟨_, _, h4, _⟩
        · exact .inl h2
        · rw [hd] at h4; cases h4
      · exact .inl (hr l k hl h1)
    · intro i j l l' hl _ hin _ h1 _
      exact absurd h1 (nowr i l hl hin)
  · have hty : (s.pc t).type = some c := by rw [hst]; rfl
    have none : ∀ u, (s'.pc u).type ≠ some c := by
      intro u hu
      rw [hp] at hu
      by_cases hut : u = t
      · subst hut; rw [set_self] at hu; cases hu
      · rw [set_ne _ _ hut] at hu; exact hut (h.one u t hu hty)
    have nowr : ∀ (j : Nat) (l : Loc), l.type = c → n ≤ j → ¬ Acc s.tr j (l, .write) := by
      intro j l hl hj hacc
      rcases h.acc j l _ hl hj hacc with h2 | ⟨_, _, _, h5⟩
      · cases h2
      · exact h5 t hty
    refine ⟨hf, fun u hu => absurd hu (none u), fun t _ ht _ => absurd ht (none t), fun u hu => absurd hu (none u), ?_, ?_⟩
    · intro j l k hl hj hacc
      rcases split j l k hacc with h1 | ⟨_, h1⟩
      · rcases h.acc j l k hl hj h1 with h2 | ⟨_, _, _, h5⟩
        · exact .inl h2
        · exact absurd hty (h5 t)
      · rw [he] at h1
        simp only [List.mem_singleton, Prod.mk.injEq] at h1
        exact .inr ⟨h1.2, h1.1, by rw [hd]; exact h.dyn t hty, none⟩
    · intro i j l l' hl hl' hin hjn h1 h2
      rcases split i l .write h1 with h1 | ⟨h1, _⟩
      · exact absurd h1 (nowr i l hl hin)
      · rcases split j l' .write h2 with h2 | ⟨h2, _⟩
        · exact absurd h2 (nowr j l' hl' hjn)
        · rw [h1, h2]

theorem Quiet.exec {c n : Nat} : ∀ (l : List (Nat × Act)) (s : St), Inv s → Quiet c n s →
    Quiet c n (StaticHB.exec l s)
  | [], _, _, h => h
  | (t, a) :: l, s, hi, h => by
    unfold StaticHB.exec
    split
    · rename_i s' ha
      obtain ⟨_, _, hs⟩ := act_step hi ha
      exact Quiet.exec l s' (hs.inv hi) (h.step hi ha)
    · exact Quiet.exec l s hi h
    · exact h

end Verif.StaticHB

import Verif.Serial

/-!
# What is loaded of flyweights that contain flyweights of their own type

`f=hlp[n]` (/repo/include/boost/flyweight/serialize.hpp:90) uses the number read before the key: if the
key registered exemplars of the same type, the exemplar of this number is the first of these.
`reload` says what a program gets in all cases in which the serialization functions read the same
items whatever the flyweights are loaded as.
-/

set_option autoImplicit false

namespace Verif.Serial

variable {D σ : Type}

/-- The serialization function reads what it reads whatever the flyweights it has read are
loaded as: only the data and the types matter.  (No code of its own: used in statements and proofs.) -/
def Blind (nx : Key D → Want) : Prop := NextOk (fun _ _ _ => true) nx

/-- The same data, and flyweights of the same types.  (No code of its own: used in statements and
proofs.) -/
abbrev Key.Alike (k l : Key D) : Prop := k.Like (fun _ _ _ => true) l

theorem alike_refl (k : Key D) : k.Alike k := by
  induction k with
  | nil => trivial
  | dat d r ih => exact ⟨rfl, ih⟩
  | fw c k r _ ih => exact ⟨rfl, rfl, ih⟩

theorem all_true (k : Key D) : k.All fun _ _ => True := by
  induction k with
  | nil => trivial
  | dat d r ih => exact ih
  | fw c k r ih1 ih2 => exact ⟨trivial, ih1, ih2⟩

variable [DecidableEq D]

/-- What is loaded from the archive to which `q` has been saved with the exemplars `H`, when the exemplars
loaded for these are `T`: a flyweight saved before is the exemplar of its number; one saved for the first
time is the exemplar which has the number that was the next one before its key was loaded.
(No code of its own: used in statements and proofs.) -/
def reload : Key D → Tables D → Tables D → Key D × Tables D
  | .nil, _, T => (.nil, T)
  | .dat d r, H, T => (.dat d (reload r H T).1, (reload r H T).2)
  | .fw c k r, H, T =>
    if k ∈ H c then
      (.fw c ((T c).getD ((H c).idxOf k) .nil) (reload r H T).1, (reload r H T).2)
    else
      (.fw c ((pushLoad (reload k H T).2 c (reload k H T).1 c).getD (H c).length .nil)
          (reload r (pushSave (save k H).2 c k) (pushLoad (reload k H T).2 c (reload k H T).1)).1,
        (reload r (pushSave (save k H).2 c k) (pushLoad (reload k H T).2 c (reload k H T).1)).2)

/-- Data and types are those saved. -/
theorem reload_alike (q : Key D) : ∀ (H T : Tables D), q.Alike (reload q H T).1 := by
  induction q with
  | nil => intro H T; trivial
  | dat d r ih => intro H T; exact ⟨rfl, ih H T⟩
  | fw c k r _ ih2 =>
    intro H T
    rw [reload]
    split
    · exact ⟨rfl, rfl, ih2 H T⟩
    · exact ⟨rfl, rfl, ih2 _ _⟩

theorem push_len {H T : Tables D} (h : ∀ i, (T i).length = (H i).length) (c : Nat) (k l : Key D) (hk : k ∉ H c) (i : Nat) :
    (pushLoad T c l i).length = (pushSave H c k i).length := by
  simp only [pushLoad, pushSave, if_neg hk]
  split
  · simp [h]
  · exact h i

/-- A key is not among the exemplars saved with it. -/
theorem not_saved {H : Tables D} {c : Nat} {k : Key D} (hk : k ∉ H c) : k ∉ (save k H).2 c := fun h =>
  (save_parts k H h).elim hk (Nat.lt_irrefl _)

theorem reload_len (q : Key D) : ∀ {H T : Tables D}, (∀ i, (T i).length = (H i).length) →
    ∀ i, ((reload q H T).2 i).length = ((save q H).2 i).length := by
  induction q with
  | nil => intro H T h; exact h
  | dat d r ih => intro H T h; exact ih h
  | fw c k r ih1 ih2 =>
    intro H T h i
    rw [reload, save_fw]
    split
    · exact ih2 h i
    · rename_i hk
      exact ih2 (push_len (ih1 h) c k _ (not_saved hk)) i

theorem pushSave_prefix (H : Tables D) (c : Nat) (k : Key D) (i : Nat) : H i <+: pushSave H c k i := by
  simp only [pushSave]
  split
  · rename_i hi
    subst hi
    split
    · exact List.prefix_refl _
    · exact List.prefix_append _ _
  · exact List.prefix_refl _

/-- Exemplars stay. -/
theorem save_prefix (q : Key D) : ∀ (H : Tables D) (i : Nat), H i <+: (save q H).2 i := by
  induction q with
  | nil => intro H i; exact List.prefix_refl _
  | dat d r ih => intro H i; exact ih H i
  | fw c k r ih1 ih2 =>
    intro H i
    rw [save_fw]
    split
    · exact ih2 H i
    · exact (ih1 H i).trans ((pushSave_prefix _ c k i).trans (ih2 _ i))

theorem reload_prefix (q : Key D) : ∀ (H T : Tables D) (i : Nat), T i <+: (reload q H T).2 i := by
  induction q with
  | nil => intro H T i; exact List.prefix_refl _
  | dat d r ih => intro H T i; exact ih H T i
  | fw c k r ih1 ih2 =>
    intro H T i
    rw [reload]
    split
    · exact ih2 H T i
    · exact (ih1 H T i).trans ((pushLoad_prefix _ c _ i).trans (ih2 _ _ i))

/-- Loading gives what `reload` says. -/
theorem load_reload {fmt : Fmt D} (hb : ∀ c, Blind (fmt c)) {make : Nat → Key D → σ → Option (Key D) × σ} {I : σ → Prop}
    (hf : Faithful make (fun _ _ => True) I) (q : Key D) : ∀ {H T : Tables D} {nx : Key D → Want} {acc acc' : Key D},
    Blind nx → acc.Alike acc' → (∀ i, (T i).length = (H i).length) → q.Fits fmt nx acc → ∀ {w : σ}, I w →
    ∀ {fuel : Nat}, 2 * (save q H).1.length + 2 ≤ fuel → ∀ rest,
    ∃ w', I w' ∧ loadKey fmt make fuel nx acc' ⟨archive q H ++ rest, T, w⟩ =
      .ok (acc'.app (reload q H T).1) ⟨rest, (reload q H T).2, w'⟩ := by
  induction q with
  | nil =>
    intro H T nx acc acc' hn ha hlen hfit w hw fuel hfuel rest
    obtain ⟨m, rfl⟩ : ∃ m, fuel = m + 1 := ⟨fuel - 1, by omega⟩
    refine ⟨w, hw, ?_⟩
    have : nx acc' = .done := (hn _ _ ha).symm.trans hfit
    simp [loadKey, this, archive, save, app_nil, reload]
  | dat d r ih =>
    intro H T nx acc acc' hn ha hlen hfit w hw fuel hfuel rest
    obtain ⟨m, rfl⟩ : ∃ m, fuel = m + 1 := ⟨fuel - 1, by omega⟩
    have hl : (save (.dat d r) H).1.length = (save r H).1.length + 1 := rfl
    obtain ⟨w', h1, h2⟩ := ih (H := H) hn (ha.app (show (Key.dat d .nil).Alike (.dat d .nil) from ⟨rfl, trivial⟩)) hlen hfit.2 hw
      (fuel := m) (by omega) rest
    refine ⟨w', h1, ?_⟩
    have he : archive (.dat d r) H = .dat d :: archive r H := rfl
    rw [loadKey, (hn _ _ ha).symm.trans hfit.1, he]
    dsimp only [List.cons_append]
    rw [h2, app_assoc]
    rfl
  | fw c k r ih1 ih2 =>
    intro H T nx acc acc' hn ha hlen hfit w hw fuel hfuel rest
    obtain ⟨m, rfl⟩ : ∃ m, fuel = m + 1 := ⟨fuel - 1, by omega⟩
    obtain ⟨m, rfl⟩ : ∃ m', m = m' + 1 := ⟨m - 1, by omega⟩
    rw [loadKey, (hn _ _ ha).symm.trans hfit.1]
    dsimp only
    rw [loadFw]
    unfold archive
    rw [save_fw] at hfuel ⊢
    by_cases hk : k ∈ H c
    · simp only [if_pos hk] at hfuel ⊢
      have hlt : (H c).idxOf k < (T c).length := by rw [hlen]; exact List.idxOf_lt_length_of_mem hk
      obtain ⟨g, hget⟩ : ∃ g, (T c)[(H c).idxOf k]? = some g := ⟨_, List.getElem?_eq_getElem hlt⟩
      obtain ⟨w', h1, h2⟩ := ih2 (H := H) (acc := acc.app (.fw c k .nil)) (acc' := acc'.app (.fw c g .nil)) hn
        (ha.app ⟨rfl, rfl, trivial⟩) hlen hfit.2.2 hw
        (fuel := m + 1) (by simp only [List.length_cons] at hfuel; omega) rest
      refine ⟨w', h1, ?_⟩
      simp only [List.map_cons, Ev.tok, List.cons_append]
      rw [if_neg (by omega), if_neg (by omega), hget]
      dsimp only
      rw [archive] at h2
      rw [h2, app_assoc, reload, if_pos hk, List.getD_eq_getElem?_getD, hget]
      rfl
    · simp only [if_neg hk] at hfuel ⊢
      simp only [List.length_append, List.length_cons] at hfuel
      obtain ⟨w1, hw1, h1⟩ := ih1 (H := H) (T := T) (acc := .nil) (acc' := .nil) (hb c) trivial hlen hfit.2.1 hw (fuel := m)
        (by omega) ((save r (pushSave (save k H).2 c k)).1.map Ev.tok ++ rest)
      obtain ⟨w2, hm2, hw2⟩ := hf w1 c (reload k H T).1 hw1 trivial
      have hl1 := reload_len k hlen
      have hl2 := push_len hl1 c k (reload k H T).1 (not_saved hk)
      have hle : (H c).length ≤ ((save k H).2 c).length := (save_prefix k H c).length_le
      have hlt : (H c).length < (pushLoad (reload k H T).2 c (reload k H T).1 c).length := by
        simp only [pushLoad, if_true, List.length_append, List.length_cons, List.length_nil]
        rw [hl1]
        omega
      obtain ⟨g, hget⟩ : ∃ g, (pushLoad (reload k H T).2 c (reload k H T).1 c)[(H c).length]? = some g :=
        ⟨_, List.getElem?_eq_getElem hlt⟩
      obtain ⟨w3, hw3, h3⟩ := ih2 (H := pushSave (save k H).2 c k) (T := pushLoad (reload k H T).2 c (reload k H T).1)
        (acc := acc.app (.fw c k .nil)) (acc' := acc'.app (.fw c g .nil)) hn (ha.app ⟨rfl, rfl, trivial⟩) hl2
        hfit.2.2 hw2 (fuel := m + 1) (by omega) rest
      refine ⟨w3, hw3, ?_⟩
      simp only [List.map_cons, List.map_append, Ev.tok, List.cons_append, List.append_assoc]
      rw [if_neg (by rw [hlen]; omega), if_pos (hlen c).symm]
      rw [archive] at h1
      rw [h1]
      dsimp only
      rw [show Key.app .nil (reload k H T).1 = (reload k H T).1 from rfl, hm2]
      dsimp only
      rw [hget]
      dsimp only
      rw [archive] at h3
      rw [h3, app_assoc, reload, if_neg hk, List.getD_eq_getElem?_getD, hget]
      rfl

/-- Exemplars registered while `q` is saved are smaller than `q`. -/
theorem save_new (q : Key D) : ∀ (H : Tables D) {c n : Nat} {l : Key D}, (H c).length ≤ n →
    ((save q H).2 c)[n]? = some l → l.size < q.size := by
  induction q with
  | nil =>
    intro H c n l hn h
    rw [show (save .nil H).2 c = H c from rfl, List.getElem?_eq_none (by omega)] at h
    cases h
  | dat d r ih =>
    intro H c n l hn h
    have := ih H hn h
    simp only [Key.size]
    omega
  | fw c' k r ih1 ih2 =>
    intro H c n l hn h
    rw [save_fw] at h
    simp only [Key.size]
    split at h
    · have := ih2 H hn h
      omega
    · rename_i hk
      dsimp only at h
      by_cases hn2 : (pushSave (save k H).2 c' k c).length ≤ n
      · have := ih2 _ hn2 h
        omega
      · obtain ⟨m, hm⟩ := save_prefix r (pushSave (save k H).2 c' k) c
        rw [← hm, List.getElem?_append_left (by omega)] at h
        by_cases hn1 : n < ((save k H).2 c).length
        · obtain ⟨m, hm⟩ := pushSave_prefix (save k H).2 c' k c
          rw [← hm, List.getElem?_append_left hn1] at h
          have := ih1 H hn h
          omega
        · simp only [pushSave, if_neg (not_saved hk)] at h hn2
          split at h
          · rename_i hc
            subst hc
            rw [List.getElem?_append_right (by omega)] at h
            cases hz : n - ((save k H).2 c).length with
            | zero => rw [hz] at h; cases h; omega
            | succ j => rw [hz] at h; cases h
          · rename_i hc
            rw [if_neg hc] at hn2
            omega

/-- The exemplars loaded are no bigger than those saved.  (No code of its own: used in statements and
proofs.) -/
def Small (H T : Tables D) : Prop :=
  ∀ (c i : Nat) (k t : Key D), (H c)[i]? = some k → (T c)[i]? = some t → t.size ≤ k.size

theorem Small.push {H T : Tables D} (h : Small H T) (hlen : ∀ i, (T i).length = (H i).length) {c : Nat} {k t : Key D}
    (hk : k ∉ H c) (ht : t.size ≤ k.size) : Small (pushSave H c k) (pushLoad T c t) := by
  intro i n k' t' h1 h2
  simp only [pushSave, pushLoad, if_neg hk] at h1 h2
  split at h1
  · rename_i hi
    subst hi
    rw [if_pos rfl] at h2
    by_cases hn : n < (H i).length
    · rw [List.getElem?_append_left hn] at h1
      rw [List.getElem?_append_left (by rw [hlen]; exact hn)] at h2
      exact h i n k' t' h1 h2
    · rw [List.getElem?_append_right (by omega)] at h1
      rw [List.getElem?_append_right (by rw [hlen]; omega), hlen] at h2
      cases hm : n - (H i).length with
      | zero =>
        rw [hm] at h1 h2
        cases h1
        cases h2
        exact ht
      | succ j => rw [hm] at h1; cases h1
  · rename_i hi
    rw [if_neg hi] at h2
    exact h i n k' t' h1 h2

/-- What is loaded is no bigger than what was saved. -/
theorem reload_small (q : Key D) : ∀ {H T : Tables D}, (∀ i, (T i).length = (H i).length) → Small H T →
    (reload q H T).1.size ≤ q.size ∧ Small (save q H).2 (reload q H T).2 := by
  induction q with
  | nil => intro H T _ h; exact ⟨Nat.le_refl _, h⟩
  | dat d r ih =>
    intro H T hl h
    obtain ⟨h1, h2⟩ := ih hl h
    exact ⟨by simp only [reload, Key.size]; omega, h2⟩
  | fw c k r ih1 ih2 =>
    intro H T hl h
    rw [reload, save_fw]
    split
    · rename_i hk
      obtain ⟨h1, h2⟩ := ih2 hl h
      have hlt : (H c).idxOf k < (H c).length := List.idxOf_lt_length_of_mem hk
      have := h c ((H c).idxOf k) k ((T c).getD ((H c).idxOf k) .nil)
        (by rw [List.getElem?_eq_getElem hlt, List.getElem_idxOf])
        (by rw [List.getD_eq_getElem?_getD, List.getElem?_eq_getElem (by rw [hl]; exact hlt)]; rfl)
      exact ⟨by simp only [Key.size]; omega, h2⟩
    · rename_i hk
      obtain ⟨h1, h2⟩ := ih1 hl h
      have hl1 := reload_len k hl
      have hs := h2.push hl1 (not_saved hk) h1
      have hl2 := push_len hl1 c k (reload k H T).1 (not_saved hk)
      obtain ⟨h3, h4⟩ := ih2 hl2 hs
      refine ⟨?_, h4⟩
      have hlt : (H c).length < (pushSave (save k H).2 c k c).length := by
        simp only [pushSave, if_true, if_neg (not_saved hk), List.length_append, List.length_cons, List.length_nil]
        have := (save_prefix k H c).length_le
        omega
      have hg := hs c (H c).length _ ((pushLoad (reload k H T).2 c (reload k H T).1 c).getD (H c).length .nil)
        (List.getElem?_eq_getElem hlt)
        (by rw [List.getD_eq_getElem?_getD, List.getElem?_eq_getElem (by rw [hl2]; exact hlt)]; rfl)
      have hsz : (pushSave (save k H).2 c k c)[(H c).length].size ≤ k.size := by
        by_cases hlt' : (H c).length < ((save k H).2 c).length
        · have he : (pushSave (save k H).2 c k c)[(H c).length] = ((save k H).2 c)[(H c).length] := by
            simp only [pushSave, if_true, if_neg (not_saved hk)]
            rw [List.getElem_append_left hlt']
          rw [he]
          exact Nat.le_of_lt (save_new k H (Nat.le_refl _) (List.getElem?_eq_getElem hlt'))
        · have he : (pushSave (save k H).2 c k c)[(H c).length] = k := by
            simp only [pushSave, if_true, if_neg (not_saved hk)]
            rw [List.getElem_append_right (by omega)]
            simp
          rw [he]
          exact Nat.le_refl _
      simp only [Key.size]
      omega

/-- If what has been saved is loaded as it was, it is `Clean`. -/
theorem reload_clean (q : Key D) : ∀ {H : Tables D}, (reload q H H).1 = q →
    Clean q H ∧ (reload q H H).2 = (save q H).2 := by
  induction q with
  | nil => intro H _; exact ⟨trivial, rfl⟩
  | dat d r ih =>
    intro H h
    simp only [reload, Key.dat.injEq, true_and] at h
    exact ih h
  | fw c k r ih1 ih2 =>
    intro H h
    rw [reload] at h ⊢
    rw [save_fw]
    by_cases hk : k ∈ H c
    · simp only [if_pos hk, Key.fw.injEq, true_and] at h ⊢
      obtain ⟨h1, h2⟩ := ih2 h.2
      exact ⟨⟨fun hn => absurd hk hn, by rw [if_pos hk]; exact h1⟩, h2⟩
    · simp only [if_neg hk, Key.fw.injEq, true_and] at h ⊢
      obtain ⟨hg, hr⟩ := h
      have hl : ∀ i, (H i).length = (H i).length := fun _ => rfl
      have hsm : Small H H := fun c i k t h1 h2 => by rw [h1] at h2; cases h2; exact Nat.le_refl _
      have hl1 := reload_len k hl
      obtain ⟨hs1, hs2⟩ := reload_small k hl hsm
      by_cases hlt : (H c).length < ((save k H).2 c).length
      · have hlt' : (H c).length < ((reload k H H).2 c).length := by rw [hl1]; exact hlt
        have he : (pushLoad (reload k H H).2 c (reload k H H).1 c).getD (H c).length .nil =
            ((reload k H H).2 c)[(H c).length] := by
          simp only [pushLoad, if_true]
          rw [List.getD_eq_getElem?_getD, List.getElem?_append_left hlt', List.getElem?_eq_getElem hlt']
          rfl
        have h1 := hs2 c (H c).length _ _ (List.getElem?_eq_getElem hlt) (List.getElem?_eq_getElem hlt')
        have h2 := save_new k H (Nat.le_refl _) (List.getElem?_eq_getElem hlt)
        rw [← he, hg] at h1
        omega
      · have hle : ((reload k H H).2 c).length = (H c).length := by
          have := (save_prefix k H c).length_le
          rw [hl1]
          omega
        have he : (pushLoad (reload k H H).2 c (reload k H H).1 c).getD (H c).length .nil = (reload k H H).1 := by
          simp only [pushLoad, if_true]
          rw [List.getD_eq_getElem?_getD, List.getElem?_append_right (by omega), hle]
          simp
        rw [he] at hg
        obtain ⟨h1, h2⟩ := ih1 hg
        have hc : (save k H).2 c = H c := ((save_prefix k H c).eq_of_length (by rw [← hl1, hle])).symm
        have hp : pushLoad (reload k H H).2 c (reload k H H).1 = pushSave (save k H).2 c k := by
          funext i
          simp only [pushSave, pushLoad, if_neg (not_saved hk)]
          rw [hg, h2]
        rw [hp] at hr ⊢
        obtain ⟨h3, h4⟩ := ih2 hr
        exact ⟨⟨fun _ => ⟨h1, hc⟩, by rw [if_neg hk]; exact h3⟩, h4⟩

end Verif.Serial

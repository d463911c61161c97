import Verif.PlainHB
import Verif.ConcHBStep

/-!
# Flyweights without tracking, used by several threads: no data races
-/

set_option autoImplicit false

namespace Verif.Plain
open Verif.Conc (Fw Act Cfg CfgOk pick acquire unlock Sync excl mem_excl pick_length mem_pick_zip zip_left zip_get)
open HB
variable {K : Type} {cfg : Cfg K} {h h' : HSt K} {ev : Event} {st st' : List (Frame K)}

theorem mem_keysOf {s : St K} {c : Nat} {a : Loc × Kind} (h : a ∈ keysOf s c) :
    ∃ e x, a = (.body e, .read) ∧ s.ents e = some x ∧ x.core = c := by
  unfold keysOf at h
  obtain ⟨e, he, rfl⟩ := List.mem_map.1 h
  have := (List.mem_filter.1 he).2
  cases hx : s.ents e with
  | none => simp [hx] at this
  | some x =>
    simp only [hx, beq_iff_eq] at this
    exact ⟨e, x, rfl, hx, this⟩

/-- The thread holds the mutex.  (No code of its own: used in proofs.) -/
def Owns (h : HSt K) (t c : Nat) : Prop := ∃ d, h.s.lock c = some (t, d)

/-- Accesses that do not race.  (No code of its own: used in proofs.) -/
inductive Fine (h h' : HSt K) (ev : Event) : Loc × Kind → Prop
  | table (c : Nat) (k : Kind) : k ≠ .atomic → Owns h ev.thr c → Fine h h' ev (.table c, k)
  | lockRead (e : Nat) (x : Ent K) : h.s.ents e = some x → Owns h ev.thr x.core → Fine h h' ev (.body e, .read)
  | lockWrite (e : Nat) (x : Ent K) : h.s.ents e = some x → x.cted = false → Owns h ev.thr x.core → Fine h h' ev (.body e, .write)
  | fresh (e : Nat) (x : Ent K) : h.s.next ≤ e → e < h'.s.next → h'.s.ents e = some x → Owns h ev.thr x.core →
      Fine h h' ev (.body e, .write)
  | user (e : Nat) (P : Nat → Prop) : User h e P → (∀ i, P i → Know h'.tr ev.thr i) → Fine h h' ev (.body e, .read)

/-- Steps without accesses. -/
theorem HInv.sync (H : HInv cfg h) (htr : h'.tr = h.tr ++ [ev]) (hinv : Inv cfg h'.s)
    (hlen : h'.ids.length = h'.s.objs.length)
    (hst : h.s.thr[ev.thr]? = some st) (hst' : h'.s.thr = h.s.thr.set ev.thr st')
    (hents : h'.s.ents = h.s.ents) (hnext : h'.s.next = h.s.next) (hacc : ev.accs = [])
    (hlock : ∀ c t d, h'.s.lock c = some (t, d) →
      (∃ d', h.s.lock c = some (t, d')) ∨ t = ev.thr ∧ .mutex c ∈ ev.acqs)
    (hrel : ∀ c t d, h'.s.lock c = some (t, d) → .mutex c ∈ ev.rels → t = ev.thr)
    (hunl : ∀ c t d, h.s.lock c = some (t, d) →
      (∃ d', h'.s.lock c = some (t, d')) ∨ t = ev.thr ∧ .mutex c ∈ ev.rels)
    (hu1 : ∀ w o, (w, o) ∈ h'.s.objs.zip h'.ids →
      (w, o) ∈ h.s.objs.zip h.ids ∨ .owned o ∈ ev.rels ∧ Tk h h' ev w.h)
    (hu2 : ∀ e, ∀ g ∈ st', relies e g → Tk h h' ev e) : HInv cfg h' := by
  refine H.next htr hinv hlen hst hst' (by simp [hacc]) (by omega) (by simp [hacc]) hlock hrel hunl ?_ (by simp [hacc])
    (by simp [hacc]) (by simp [hacc]) hu1 hu2 ?_ (by simp [hacc])
  · rw [hents]
    exact fun e x hx => .inl ⟨x, hx, rfl, id⟩
  · rw [hents]
    exact fun e x v hx hv => .inl ⟨x, hx, hv⟩

/-- Steps with accesses. -/
theorem HInv.touch (H : HInv cfg h) (htr : h'.tr = h.tr ++ [ev]) (hinv : Inv cfg h'.s)
    (hlen : h'.ids.length = h'.s.objs.length)
    (hst : h.s.thr[ev.thr]? = some st) (hst' : h'.s.thr = h.s.thr.set ev.thr st')
    (hl : h'.s.lock = h.s.lock) (hnext : h.s.next ≤ h'.s.next)
    (hents : ∀ e x', h'.s.ents e = some x' →
      (∃ x, h.s.ents e = some x ∧ x.core = x'.core ∧ (x'.cted = false → x.cted = false)) ∨ h.s.next ≤ e)
    (hfine : ∀ a ∈ ev.accs, Fine h h' ev a) (hrel : ∀ c, .mutex c ∉ ev.rels)
    (hu1 : ∀ w o, (w, o) ∈ h'.s.objs.zip h'.ids →
      (w, o) ∈ h.s.objs.zip h.ids ∨ .owned o ∈ ev.rels ∧ Tk h h' ev w.h)
    (hu2 : ∀ e, ∀ g ∈ st', relies e g → Tk h h' ev e)
    (hu3 : ∀ e x v, h'.s.ents e = some x → v ∈ x.kids →
      (∃ y, h.s.ents e = some y ∧ v ∈ y.kids) ∨ (.body e, .write) ∈ ev.accs ∧ Tk h h' ev v.h) : HInv cfg h' := by
  have core_eq : ∀ {e x x'}, h.s.ents e = some x → h'.s.ents e = some x' → x.core = x'.core := by
    intro e x x' hx hx'
    rcases hents e x' hx' with ⟨y, hy, h1, _⟩ | h1
    · rw [hx] at hy
      cases hy
      exact h1
    · have := H.inv.core.lt_next hx
      omega
  refine H.next htr hinv hlen hst hst' ?_ hnext ?_ ?_ ?_ ?_ hents ?_ ?_ ?_ hu1 hu2 hu3 ?_
  · intro a ha
    cases hfine a ha <;> first | assumption | simp
  · intro e k ha
    cases hfine _ ha with
    | lockRead e x hx _ => exact Nat.lt_of_lt_of_le (H.inv.core.lt_next hx) hnext
    | lockWrite e x hx _ _ => exact Nat.lt_of_lt_of_le (H.inv.core.lt_next hx) hnext
    | fresh e x _ h1 _ _ => exact h1
    | user e P hu _ =>
      obtain ⟨x, hx, _⟩ := user_ok H.inv hu
      exact Nat.lt_of_lt_of_le (H.inv.core.lt_next hx) hnext
  · rw [hl]
    exact fun c t d h1 => .inl ⟨d, h1⟩
  · exact fun c t d _ h1 => absurd h1 (hrel c)
  · rw [hl]
    exact fun c t d h1 => .inl ⟨d, h1⟩
  · intro c k ha
    rw [hl]
    cases hfine _ ha with
    | table c k _ h1 => exact h1
  · intro e k x' ha hx' hk
    rw [hl]
    cases hfine _ ha with
    | lockRead e x hx h1 => rw [← core_eq hx hx']; exact h1
    | lockWrite e x hx _ h1 => rw [← core_eq hx hx']; exact h1
    | fresh e x _ _ hx h1 =>
      rw [hx'] at hx
      cases hx
      exact h1
    | user e P hu _ =>
      obtain ⟨x, hx, hc⟩ := user_ok H.inv hu
      rcases hk with hk | hk
      · cases hk
      · rcases hents e x' hx' with ⟨y, hy, _, h1⟩ | h1
        · rw [hx] at hy
          cases hy
          rw [h1 hk] at hc
          cases hc
        · have := H.inv.core.lt_next hx
          omega
  · intro e x ha hx
    cases hfine _ ha with
    | lockWrite e y hy h1 _ =>
      rw [hx] at hy
      cases hy
      exact h1
    | fresh e y h1 _ _ _ =>
      have := H.inv.core.lt_next hx
      omega
  · intro n l k k' ha hn hcf
    have old : ∀ {i}, Know h.tr ev.thr i → Know h'.tr ev.thr i := fun hk => by rw [htr]; exact hk.old
    have hat := H.kinds n _ hn
    cases hfine _ ha with
    | table c k' _ h1 =>
      obtain ⟨d, h1⟩ := h1
      exact old (H.locked h1 (H.table n c k hn))
    | lockRead e x hx h1 =>
      obtain ⟨d, h1⟩ := h1
      have : k = .write := by cases k <;> simp_all [Kind.conflict]
      subst this
      exact old (H.locked h1 (H.writes n e x hx hn))
    | lockWrite e x hx hc h1 =>
      obtain ⟨d, h1⟩ := h1
      exact old (H.locked h1 (H.half n e x k hx hc hn))
    | fresh e x h1 _ _ _ =>
      have := H.bound n e k hn
      omega
    | user e P hu h1 =>
      have : k = .write := by cases k <;> simp_all [Kind.conflict]
      subst this
      exact h1 n (H.user n e P hu hn)

section
variable {t : Nat} {s' : St K} {f : Frame K} {rest : List (Frame K)}

theorem lib_h (hlk : cfg.locking = true) (H : HInv cfg h)
    (ht : h.s.thr[t]? = some (f :: rest)) (hs : lib cfg h.s t f rest = .ok s') (hinv : Inv cfg s') :
    HInv cfg ⟨s', (label cfg h t (f :: rest) .run).2.1, (label cfg h t (f :: rest) .run).2.2,
      h.tr ++ [(label cfg h t (f :: rest) .run).1]⟩ := by
  have hfr : FrameOk cfg h.s.ents f :=
    H.inv.core.frames f (List.mem_flatten.2 ⟨_, List.mem_of_getElem? ht, List.mem_cons_self⟩)
  have own : ∀ {c}, holds f = some c → Owns h t c := fun hf => held H.inv ht hf
  have hrest : ∀ g ∈ rest, ∀ e, ¬ relies e g := by
    intro g hg e hr
    have := H.inv.locks.tails t _ ht g hg
    cases g <;> first | (cases this; done) | (cases hr; done)
  have same : ∀ {e x'}, h.s.ents e = some x' →
      (∃ x, h.s.ents e = some x ∧ x.core = x'.core ∧ (x'.cted = false → x.cted = false)) ∨ h.s.next ≤ e :=
    fun hx => .inl ⟨_, hx, rfl, id⟩
  have keep : ∀ {tr' : List Event} {s1 : St K} {ids : List Nat} {nid : Nat} {ev : Event}, ev.thr = t →
      tr' = h.tr ++ [ev] → ∀ e, relies e f → Tk h ⟨s1, ids, nid, tr'⟩ ev e := by
    rintro tr' s1 ids nid ev rfl rfl e hr
    exact .inl ⟨_, .frame _ _ f ht List.mem_cons_self hr, fun i hi => hi.old⟩
  cases f with
  | lock c k loc pre =>
    dsimp only [lib] at hs
    split at hs <;> cases hs
    rename_i l hl
    obtain ⟨h1, h2, _⟩ := acquire_facts hlk hl
    refine H.sync (ev := ⟨t, lockAcq cfg h.s.lock c, [], []⟩) rfl hinv H.len ht rfl rfl rfl rfl h1 (by simp)
      (fun c t d hc => .inl (h2 c t d hc)) (fun w o hw => .inl hw) ?_
    intro e g hg hr
    rcases List.mem_cons.1 hg with rfl | hg
    · exact keep rfl rfl e hr
    · exact absurd hr (hrest g hg e)
  | find c k loc pre =>
    dsimp only [lib] at hs
    cases hf : find cfg h.s c k with
    | some e =>
      rw [hf] at hs
      cases hs
      simp only [label, libEv, hf]
      refine H.touch (ev := ⟨t, [], (.table c, .read) :: keysOf h.s c, []⟩) rfl hinv H.len ht rfl rfl (Nat.le_refl _)
        (fun e x => same) ?_ (by simp) (fun w o hw => .inl hw) ?_ (fun e x v hx hv => .inl ⟨x, hx, hv⟩)
      · intro a ha
        rcases List.mem_cons.1 ha with rfl | ha
        · exact .table c _ (by simp) (own rfl)
        · obtain ⟨i, x, rfl, hx, rfl⟩ := mem_keysOf ha
          exact .lockRead i x hx (own rfl)
      · intro e g hg hr
        rcases List.mem_cons.1 hg with rfl | hg
        · cases hr
        · exact absurd hr (hrest g hg e)
    | none =>
      rw [hf] at hs
      cases hs
      simp only [label, libEv, hf]
      refine H.touch (ev := ⟨t, [], (.table c, .write) :: (.body h.s.next, .write) :: keysOf h.s c, []⟩) rfl hinv H.len ht rfl
        rfl (Nat.le_succ _) ?_ ?_ (by simp) (fun w o hw => .inl hw) ?_ ?_
      · intro e x' hx'
        by_cases he : e = h.s.next
        · exact .inr (by omega)
        · dsimp only at hx'
          rw [setEnt_ne _ _ he] at hx'
          exact same hx'
      · intro a ha
        rcases List.mem_cons.1 ha with rfl | ha
        · exact .table c _ (by simp) (own rfl)
        · rcases List.mem_cons.1 ha with rfl | ha
          · exact .fresh _ _ (Nat.le_refl _) (Nat.lt_succ_self _) (setEnt_same _ _ _) (own rfl)
          · obtain ⟨i, x, rfl, hx, rfl⟩ := mem_keysOf ha
            exact .lockRead i x hx (own rfl)
      · intro e g hg hr
        rcases List.mem_cons.1 hg with rfl | hg
        · cases hr
        · exact absurd hr (hrest g hg e)
      · intro e x v hx hv
        by_cases he : e = h.s.next
        · subst he
          dsimp only at hx
          rw [setEnt_same] at hx
          cases hx
          exact .inr ⟨by simp, keep rfl rfl v.h ⟨v, hv, rfl⟩⟩
        · dsimp only at hx
          rw [setEnt_ne _ _ he] at hx
          exact .inl ⟨x, hx, hv⟩
  | visit c k e loc new =>
    obtain ⟨x, hx, h1, _⟩ := hfr
    have hfin : ∀ h' : HSt K, ∀ a ∈ [((.body e, .read) : Loc × Kind)], Fine h h' ⟨t, [], [(.body e, .read)], []⟩ a := by
      intro h' a ha
      rw [List.mem_singleton.1 ha]
      refine .lockRead e x hx ?_
      rw [h1]
      exact own rfl
    dsimp only [lib] at hs
    rw [hx] at hs
    dsimp only at hs
    split at hs
    · rename_i hb
      cases hs
      refine H.touch (ev := ⟨t, [], [(.body e, .read)], []⟩) rfl hinv H.len ht rfl rfl (Nat.le_refl _) (fun e x => same) (hfin _)
        (by simp) (fun w o hw => .inl hw) ?_ (fun e x v hx hv => .inl ⟨x, hx, hv⟩)
      intro i g hg hr
      rcases List.mem_cons.1 hg with rfl | hg
      · cases hr
        obtain ⟨d, hd⟩ := own (c := c) rfl
        exact .inr ⟨x, d, hx, by rw [h1]; exact hd⟩
      · exact absurd hr (hrest g hg i)
    · split at hs <;> cases hs
      refine H.touch (ev := ⟨t, [], [(.body e, .read)], []⟩) rfl hinv H.len ht rfl rfl (Nat.le_refl _) (fun e x => same) (hfin _)
        (by simp) (fun w o hw => .inl hw) ?_ (fun e x v hx hv => .inl ⟨x, hx, hv⟩)
      intro i g hg hr
      rcases List.mem_cons.1 hg with rfl | hg
      · cases hr
      · exact absurd hr (hrest g hg i)
  | user c k e => cases hs
  | done c k e =>
    obtain ⟨x, hx, h1, _, h3, _⟩ := hfr
    dsimp only [lib] at hs
    rw [hx] at hs
    cases hs
    refine H.touch (ev := ⟨t, [], [(.body e, .write)], []⟩) rfl hinv H.len ht rfl rfl (Nat.le_refl _) ?_ ?_
      (by simp) (fun w o hw => .inl hw) ?_ ?_
    · intro i x' hx'
      by_cases hi : i = e
      · subst hi
        dsimp only at hx'
        rw [setEnt_same] at hx'
        cases hx'
        exact .inl ⟨x, hx, rfl, by simp⟩
      · dsimp only at hx'
        rw [setEnt_ne _ _ hi] at hx'
        exact same hx'
    · intro a ha
      rw [List.mem_singleton.1 ha]
      exact .lockWrite e x hx h3 (by rw [h1]; exact own rfl)
    · intro i g hg hr
      rcases List.mem_cons.1 hg with rfl | hg
      · cases hr
        obtain ⟨d, hd⟩ := own (c := c) rfl
        exact .inr ⟨_, d, setEnt_same _ _ _, by rw [← h1] at hd; exact hd⟩
      · exact absurd hr (hrest g hg i)
    · intro i x' v hx' hv
      by_cases hi : i = e
      · subst hi
        dsimp only at hx'
        rw [setEnt_same] at hx'
        cases hx'
        exact .inl ⟨x, hx, hv⟩
      · dsimp only at hx'
        rw [setEnt_ne _ _ hi] at hx'
        exact .inl ⟨x', hx', hv⟩
  | catch_ c e =>
    obtain ⟨x, hx, h1, h3⟩ := hfr
    dsimp only [lib] at hs
    rw [hx] at hs
    cases hs
    have sub : ∀ {i y}, setEnt h.s.ents e none i = some y → h.s.ents i = some y := by
      intro i y hy
      by_cases hi : i = e
      · subst hi
        rw [setEnt_same] at hy
        cases hy
      · rwa [setEnt_ne _ _ hi] at hy
    refine H.touch (ev := ⟨t, [], [(.table c, .write), (.body e, .write)], []⟩) rfl hinv H.len ht rfl rfl (Nat.le_refl _)
      (fun i x' hx' => same (sub hx')) ?_ (by simp) (fun w o hw => .inl hw) ?_ (fun i y v hy hv => .inl ⟨y, sub hy, hv⟩)
    · intro a ha
      simp only [List.mem_cons, List.not_mem_nil, or_false] at ha
      rcases ha with rfl | rfl
      · exact .table c _ (by simp) (own rfl)
      · exact .lockWrite e x hx h3 (by rw [h1]; exact own rfl)
    · intro i g hg hr
      rcases List.mem_cons.1 hg with rfl | hg
      · cases hr
      · exact absurd hr (hrest g hg i)
  | unwind c =>
    dsimp only [lib] at hs
    split at hs <;> cases hs
    rename_i l hl
    obtain ⟨h1, h2, h3⟩ := unlock_facts hlk hl
    refine H.sync (ev := ⟨t, [], [], lockRel cfg h.s.lock c⟩) (st' := rest) rfl hinv H.len ht rfl rfl rfl rfl
      (fun c t d hc => .inl (h1 c t d hc)) (fun c t d hc hr => absurd hr (h2 c t d hc)) h3 (fun w o hw => .inl hw) ?_
    exact fun e g hg hr => absurd hr (hrest g hg e)
  | unlock c k e =>
    dsimp only [lib] at hs
    split at hs <;> cases hs
    rename_i l hl
    obtain ⟨h1, h2, h3⟩ := unlock_facts hlk hl
    refine H.sync (ev := ⟨t, [], [], .owned h.nid :: lockRel cfg h.s.lock c⟩) (st' := rest) rfl hinv
      (by simpa [label] using H.len) ht rfl rfl rfl rfl (fun c t d hc => .inl (h1 c t d hc)) (fun c t d hc hr => ?_) ?_ ?_ ?_
    · rcases List.mem_cons.1 hr with hr | hr
      · cases hr
      · exact absurd hr (h2 c t d hc)
    · intro c t d hc
      rcases h3 c t d hc with h4 | ⟨h4, h5⟩
      · exact .inl h4
      · exact .inr ⟨h4, List.mem_cons_of_mem _ h5⟩
    · intro w o hw
      simp only [label, List.zip_cons_cons, List.mem_cons] at hw
      rcases hw with hw | hw
      · cases hw
        exact .inr ⟨by simp, keep rfl rfl e rfl⟩
      · exact .inl hw
    · exact fun e g hg hr => absurd hr (hrest g hg e)

theorem set_self {α : Type} {l : List α} {i : Nat} {a : α} (h : l[i]? = some a) : l.set i a = l := by
  have hlt : i < l.length := by
    rcases Nat.lt_or_ge i l.length with h' | h'
    · exact h'
    · rw [List.getElem?_eq_none h'] at h; cases h
  apply List.ext_getElem?
  intro j
  by_cases hj : i = j
  · subst hj
    rw [h, List.getElem?_set_self hlt]
  · rw [List.getElem?_set_ne hj]

theorem act_h (hcfg : CfgOk cfg) (hlk : cfg.locking = true) (H : HInv cfg h) {st : List (Frame K)} {a : Act K}
    (ht : h.s.thr[t]? = some st) (hs : act cfg h.s t st a = .ok s') :
    HInv cfg ⟨s', (label cfg h t st a).2.1, (label cfg h t st a).2.2, h.tr ++ [(label cfg h t st a).1]⟩ := by
  have hinv : Inv cfg s' := by
    have := act_good hcfg hlk H.inv ht a
    rwa [hs] at this
  have hself := (set_self ht).symm
  -- frames that stay
  have keep : ∀ {s1 : St K} {ids : List Nat} {nid : Nat} {ev : Event}, ev.thr = t → ∀ g ∈ st, ∀ e, relies e g →
      Tk h ⟨s1, ids, nid, h.tr ++ [ev]⟩ ev e := by
    rintro s1 ids nid ev rfl g hg e hr
    exact .inl ⟨_, .frame _ _ g ht hg hr, fun i hi => hi.old⟩
  -- an object the thread has acquired
  have got : ∀ {s1 : St K} {ids : List Nat} {nid : Nat} {ev : Event} {w : Fw K} {o : Nat}, (w, o) ∈ h.s.objs.zip h.ids →
      .owned o ∈ ev.acqs → Tk h ⟨s1, ids, nid, h.tr ++ [ev]⟩ ev w.h := by
    intro s1 ids nid ev w o hw ho
    exact .inl ⟨_, .obj w o hw rfl, fun i hi => know_acq ho hi⟩
  have same : ∀ {e x'}, h.s.ents e = some x' →
      (∃ x, h.s.ents e = some x ∧ x.core = x'.core ∧ (x'.cted = false → x.cted = false)) ∨ h.s.next ≤ e :=
    fun hx => .inl ⟨_, hx, rfl, id⟩
  have lk1 : ∀ {ev : Event} c t d, h.s.lock c = some (t, d) → (∃ d', h.s.lock c = some (t, d')) ∨ t = ev.thr ∧ .mutex c ∈ ev.acqs :=
    fun c t d h1 => .inl ⟨d, h1⟩
  have lk2 : ∀ {ev : Event} c t d, h.s.lock c = some (t, d) → (∃ d', h.s.lock c = some (t, d')) ∨ t = ev.thr ∧ .mutex c ∈ ev.rels :=
    fun c t d h1 => .inl ⟨d, h1⟩
  cases a with
  | run =>
    cases st with
    | nil => cases hs
    | cons f rest => exact lib_h hlk H ht hs hinv
  | create c k mask pre =>
    dsimp only [act] at hs
    split at hs <;> cases hs
    have hpl := pick_length H.len.symm mask
    refine H.sync (ev := ⟨t, excl (pick mask h.ids).1, [], []⟩) rfl hinv hpl.2.symm ht rfl rfl rfl rfl lk1 (by simp) lk2
      (fun w o hw => .inl ((mem_pick_zip H.len.symm mask _).2 (.inr hw))) ?_
    intro e g hg hr
    rcases List.mem_cons.1 hg with rfl | hg
    · obtain ⟨w, hw, rfl⟩ := hr
      obtain ⟨o, ho⟩ := zip_left hpl.1 hw
      exact got ((mem_pick_zip H.len.symm mask _).2 (.inl ho)) (mem_excl (List.of_mem_zip ho).2).1
    · exact keep rfl g hg e hr
  | destroy mask =>
    dsimp only [act] at hs
    split at hs <;> cases hs
    have hpl := pick_length H.len.symm mask
    refine H.sync (ev := ⟨t, excl (pick mask h.ids).1, [], []⟩) rfl hinv hpl.2.symm ht hself rfl rfl rfl lk1 (by simp) lk2
      (fun w o hw => .inl ((mem_pick_zip H.len.symm mask _).2 (.inr hw))) ?_
    exact fun e g hg hr => keep rfl g hg e hr
  | copy i =>
    dsimp only [act] at hs
    split at hs
    · cases hw : h.s.objs[i]? with
      | none => rw [hw] at hs; cases hs
      | some w =>
        rw [hw] at hs
        cases hs
        refine H.sync (ev := ⟨t, [.owned (h.ids.getD i 0)], [], [.shared (h.ids.getD i 0), .owned h.nid]⟩) rfl hinv
          (by simpa [label] using H.len) ht hself rfl rfl rfl lk1 (by simp) lk2 ?_ (fun e g hg hr => keep rfl g hg e hr)
        intro v o hv
        simp only [label, List.zip_cons_cons, List.mem_cons] at hv
        rcases hv with hv | hv
        · cases hv
          exact .inr ⟨by simp, got (zip_get H.len hw) List.mem_cons_self⟩
        · exact .inl hv
    · cases hs
  | copyKid i j =>
    dsimp only [act] at hs
    split at hs
    · cases hw : h.s.objs[i]? with
      | none => rw [hw] at hs; cases hs
      | some w =>
        obtain ⟨x, hx, hc, _⟩ := H.inv.core.objsOk w (List.mem_of_getElem? hw)
        rw [hw] at hs
        dsimp only at hs
        rw [hx] at hs
        simp only [hc, if_true] at hs
        cases hv : x.kids[j]? with
        | none => rw [hv] at hs; cases hs
        | some v =>
          rw [hv] at hs
          cases hs
          have hz := zip_get H.len hw
          have htg : target h.s i = w.h := by simp [target, hw]
          have hk : ∀ n, Past h.tr (.body w.h, .write) n → Rel h.tr (.owned (h.ids.getD i 0)) n := by
            rintro n ⟨m, h1, h2⟩
            exact (H.user m w.h _ (.obj w _ hz rfl) h1).trans h2
          simp only [label, htg]
          refine H.touch (ev := ⟨t, [.owned (h.ids.getD i 0)], [(.body w.h, .read)], [.shared (h.ids.getD i 0), .owned h.nid]⟩)
            rfl hinv (by simpa using H.len) ht hself rfl (Nat.le_refl _) (fun e x => same) ?_ (by simp) ?_
            (fun e g hg hr => keep rfl g hg e hr) (fun e x v hx hv => .inl ⟨x, hx, hv⟩)
          · intro a ha
            rw [List.mem_singleton.1 ha]
            exact .user _ _ (.obj w _ hz rfl) fun n hn => know_acq (by simp) hn
          · intro u o hu
            simp only [List.zip_cons_cons, List.mem_cons] at hu
            rcases hu with hu | hu
            · cases hu
              refine .inr ⟨by simp, .inl ⟨_, .kid w.h x v hx (List.mem_of_getElem? hv) rfl, fun n hn => ?_⟩⟩
              exact know_acq (by simp) (hk n hn)
            · exact .inl hu
    · cases hs
  | swap i j =>
    dsimp only [act] at hs
    split at hs
    · cases hv : h.s.objs[i]? with
      | none => rw [hv] at hs; cases hs
      | some v =>
        cases hw : h.s.objs[j]? with
        | none => rw [hv, hw] at hs; cases hs
        | some w =>
          rw [hv, hw] at hs
          cases hs
          have hzv := zip_get H.len hv
          have hzw := zip_get H.len hw
          have hlen : ((h.s.objs.set i w).set j v).length = h.s.objs.length := by simp
          have hi : i < h.s.objs.length := by
            rcases Nat.lt_or_ge i h.s.objs.length with h1 | h1
            · exact h1
            · rw [List.getElem?_eq_none h1] at hv; cases hv
          have hj : j < h.s.objs.length := by
            rcases Nat.lt_or_ge j h.s.objs.length with h1 | h1
            · exact h1
            · rw [List.getElem?_eq_none h1] at hw; cases hw
          have hget : ∀ {n : Nat} {o : Nat}, h.ids[n]? = some o → o = h.ids.getD n 0 := by
            intro n o ho
            rw [List.getD_eq_getElem?_getD, ho]
            rfl
          refine H.sync (ev := ⟨t, excl [h.ids.getD i 0, h.ids.getD j 0], [],
              [.owned (h.ids.getD i 0), .owned (h.ids.getD j 0)]⟩) rfl hinv (H.len.trans hlen.symm) ht hself rfl rfl rfl
            lk1 (by simp) lk2 ?_ (fun e g hg hr => keep rfl g hg e hr)
          intro u o hu
          obtain ⟨n, hn⟩ := List.mem_iff_getElem?.1 hu
          obtain ⟨h1, h2⟩ := List.getElem?_zip_eq_some.1 hn
          dsimp only at h1 h2
          by_cases hnj : j = n
          · subst hnj
            rw [List.getElem?_set_self (by simpa using hj)] at h1
            cases h1
            have := hget h2
            subst this
            exact .inr ⟨by simp, got hzv (mem_excl (by simp)).1⟩
          · rw [List.getElem?_set_ne hnj] at h1
            by_cases hni : i = n
            · subst hni
              rw [List.getElem?_set_self hi] at h1
              cases h1
              have := hget h2
              subst this
              exact .inr ⟨by simp, got hzw (mem_excl (by simp)).1⟩
            · rw [List.getElem?_set_ne hni] at h1
              exact .inl (List.mem_of_getElem? (List.getElem?_zip_eq_some.2 ⟨h1, h2⟩))
    · cases hs
  | read i =>
    dsimp only [act] at hs
    split at hs
    · cases hw : h.s.objs[i]? with
      | none => rw [hw] at hs; cases hs
      | some w =>
        obtain ⟨x, hx, hc, _⟩ := H.inv.core.objsOk w (List.mem_of_getElem? hw)
        rw [hw] at hs
        dsimp only at hs
        rw [hx] at hs
        simp only [hc, if_true] at hs
        cases hs
        have hz := zip_get H.len hw
        have htg : target h.s i = w.h := by simp [target, hw]
        simp only [label, htg]
        refine H.touch (ev := ⟨t, [.owned (h.ids.getD i 0)], [(.body w.h, .read)], [.shared (h.ids.getD i 0)]⟩)
          rfl hinv H.len ht hself rfl (Nat.le_refl _) (fun e x => same) ?_ (by simp) (fun w o hw => .inl hw)
          (fun e g hg hr => keep rfl g hg e hr) (fun e x v hx hv => .inl ⟨x, hx, hv⟩)
        intro a ha
        rw [List.mem_singleton.1 ha]
        exact .user _ _ (.obj w _ hz rfl) fun n hn => know_acq (by simp) hn
    · cases hs
  | finish mask drop =>
    dsimp only [act] at hs
    split at hs
    · rename_i c k e rest
      have hfr : FrameOk cfg h.s.ents (.user c k e) :=
        H.inv.core.frames _ (List.mem_flatten.2 ⟨_, List.mem_of_getElem? ht, List.mem_cons_self⟩)
      obtain ⟨x, hx, h1, _, h3, _⟩ := hfr
      rw [hx] at hs
      simp only [h3] at hs
      cases hs
      have hpl := pick_length H.len.symm mask
      have hown : Owns h t x.core := by rw [h1]; exact held H.inv ht rfl
      refine H.touch (ev := ⟨t, excl (pick mask h.ids).1, [(.body e, .write)], []⟩) rfl hinv hpl.2.symm ht rfl rfl
        (Nat.le_refl _) ?_ ?_ (by simp) (fun w o hw => .inl ((mem_pick_zip H.len.symm mask _).2 (.inr hw))) ?_ ?_
      · intro i x' hx'
        by_cases hi : i = e
        · subst hi
          dsimp only at hx'
          rw [setEnt_same] at hx'
          cases hx'
          exact .inl ⟨x, hx, rfl, fun _ => h3⟩
        · dsimp only at hx'
          rw [setEnt_ne _ _ hi] at hx'
          exact same hx'
      · intro a ha
        rw [List.mem_singleton.1 ha]
        exact .lockWrite e x hx h3 hown
      · intro i g hg hr
        rcases List.mem_cons.1 hg with rfl | hg
        · cases hr
        · exact keep rfl g (List.mem_cons_of_mem _ hg) i hr
      · intro i x' v hx' hv
        by_cases hi : i = e
        · subst hi
          dsimp only at hx'
          rw [setEnt_same] at hx'
          cases hx'
          have hnew : v ∈ (pick mask h.s.objs).1 → ∀ s1 ids nid, Tk h ⟨s1, ids, nid, h.tr ++ [⟨t, excl (pick mask h.ids).1, [(.body i, .write)], []⟩]⟩
              ⟨t, excl (pick mask h.ids).1, [(.body i, .write)], []⟩ v.h := by
            intro hv s1 ids nid
            obtain ⟨o, ho⟩ := zip_left hpl.1 hv
            exact got ((mem_pick_zip H.len.symm mask _).2 (.inl ho)) (mem_excl (List.of_mem_zip ho).2).1
          dsimp only at hv
          split at hv
          · exact .inr ⟨by simp, hnew hv _ _ _⟩
          · rcases List.mem_append.1 hv with hv | hv
            · exact .inl ⟨x, hx, hv⟩
            · exact .inr ⟨by simp, hnew hv _ _ _⟩
        · dsimp only at hx'
          rw [setEnt_ne _ _ hi] at hx'
          exact .inl ⟨x', hx', hv⟩
    · cases hs
  | throw_ =>
    dsimp only [act] at hs
    split at hs
    · rename_i c k e rest
      cases hs
      refine H.sync (ev := ⟨t, [], [], []⟩) rfl hinv H.len ht rfl rfl rfl rfl lk1 (by simp) lk2 (fun w o hw => .inl hw) ?_
      intro i g hg hr
      rcases List.mem_cons.1 hg with rfl | hg
      · cases hr
      · exact keep rfl g (List.mem_cons_of_mem _ hg) i hr
    · rename_i c k loc pre rest
      cases hs
      refine H.touch (ev := ⟨t, [], (.table c, .write) :: keysOf h.s c, []⟩) rfl hinv H.len ht rfl rfl (Nat.le_refl _)
        (fun e x => same) ?_ (by simp) (fun w o hw => .inl hw) ?_ (fun e x v hx hv => .inl ⟨x, hx, hv⟩)
      · intro a ha
        rcases List.mem_cons.1 ha with rfl | ha
        · exact .table c _ (by simp) (held H.inv ht rfl)
        · obtain ⟨i, x, rfl, hx, rfl⟩ := mem_keysOf ha
          exact .lockRead i x hx (held H.inv ht rfl)
      · intro i g hg hr
        rcases List.mem_cons.1 hg with rfl | hg
        · cases hr
        · exact keep rfl g (List.mem_cons_of_mem _ hg) i hr
    · cases hs

theorem hstart_h (n : Nat) : HInv cfg (hstart n : HSt K) where
  inv := start_inv n
  len := rfl
  kinds := by rintro n a ⟨ev, h, _⟩; simp [hstart] at h
  bound := by rintro n e k ⟨ev, h, _⟩; simp [hstart] at h
  hold := by rintro c t d i _ ⟨j, ev, h, _⟩; simp [hstart] at h
  table := by rintro n c k ⟨ev, h, _⟩; simp [hstart] at h
  writes := by rintro n e x _ ⟨ev, h, _⟩; simp [hstart] at h
  half := by rintro n e x k _ _ ⟨ev, h, _⟩; simp [hstart] at h
  user := by rintro n e P _ ⟨ev, h, _⟩; simp [hstart] at h
  race := raceFree_nil

theorem hexec_h (hcfg : CfgOk cfg) (hlk : cfg.locking = true) (H : HInv cfg h) (acts : List (Nat × Act K)) :
    HInv cfg (hexec cfg acts h) := by
  induction acts generalizing h with
  | nil => exact H
  | cons p acts ih =>
    obtain ⟨t, a⟩ := p
    unfold hexec
    cases ht : h.s.thr[t]? with
    | none => exact ih H
    | some st =>
      dsimp only
      cases hs : act cfg h.s t st a with
      | ok s' => exact ih (act_h hcfg hlk H ht hs)
      | no => exact ih H
      | ub => exact H
      | reentrant => exact H

end

end Verif.Plain

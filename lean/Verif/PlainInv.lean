import Verif.Plain
import Verif.ConcStep

/-!
# Flyweights without tracking, used by several threads: the invariant
-/

set_option autoImplicit false

namespace Verif.Plain
open Verif.Conc (Fw Act Cfg CfgOk pick acquire unlock tot tot_cons tot_append tot_nil tot_pos tot_le tot_perm exists_of_tot depthOf
  LockStep acquire_some unlock_some split depth_excl nsum)
variable {K : Type} {cfg : Cfg K}

/-- The frame is in charge of a new entry `e`.  (No code of its own: used in proofs.) -/
def ownF (e : Nat) : Frame K → Nat
  | .visit _ _ h _ new => if h = e ∧ new = true then 1 else 0
  | .user _ _ h => if h = e then 1 else 0
  | .done _ _ h => if h = e then 1 else 0
  | .catch_ _ h => if h = e then 1 else 0
  | _ => 0

/-- Type whose mutex the frame holds.  (No code of its own: used in statements and proofs.) -/
def holds : Frame K → Option Nat
  | .lock .. => none
  | .find c .. => some c
  | .visit c .. => some c
  | .user c .. => some c
  | .done c .. => some c
  | .catch_ c _ => some c
  | .unwind c => some c
  | .unlock c .. => some c

/-- How many times the frame holds the mutex of type `c`.  (No code of its own: used in proofs.) -/
def holdF (c : Nat) (f : Frame K) : Nat := if holds f = some c then 1 else 0

/-- A flyweight refers to an entry of its type, with a value, for an equivalent key.  (No code of its own: used in
proofs.) -/
def FwOk (cfg : Cfg K) (ents : Nat → Option (Ent K)) (w : Fw K) : Prop :=
  ∃ x, ents w.h = some x ∧ x.cted = true ∧ x.core = w.c ∧ cfg.eqv w.c x.key w.k = true

/-- What holds of a frame.  (No code of its own: used in proofs.) -/
def FrameOk (cfg : Cfg K) (ents : Nat → Option (Ent K)) : Frame K → Prop
  | .lock _ _ loc _ => ∀ w ∈ loc, FwOk cfg ents w
  | .find _ _ loc _ => ∀ w ∈ loc, FwOk cfg ents w
  | .visit c k e _ new => ∃ x, ents e = some x ∧ x.core = c ∧ cfg.eqv c x.key k = true ∧ (new = true → x.key = k)
  | .user c k e => ∃ x, ents e = some x ∧ x.core = c ∧ cfg.eqv c x.key k = true ∧ x.cted = false ∧ x.key = k
  | .done c k e => ∃ x, ents e = some x ∧ x.core = c ∧ cfg.eqv c x.key k = true ∧ x.cted = false ∧ x.key = k
  | .catch_ c e => ∃ x, ents e = some x ∧ x.core = c ∧ x.cted = false
  | .unwind _ => True
  | .unlock c k e => FwOk cfg ents ⟨e, c, k⟩

/-- Number of values among the first `n` entries.  (No code of its own: used in statements and proofs.) -/
def values (ents : Nat → Option (Ent K)) (n : Nat) : Nat :=
  nsum (fun e => match ents e with
    | some x => if x.cted then 1 else 0
    | none => 0) n

/-- The invariant on entries, objects and the frames `L` of all threads.  (No code of its own: used in proofs.) -/
structure Core (cfg : Cfg K) (ents : Nat → Option (Ent K)) (next : Nat) (objs : List (Fw K)) (clock : Nat)
    (L : List (Frame K)) : Prop where
  bound : ∀ e, next ≤ e → ents e = none
  frames : ∀ f ∈ L, FrameOk cfg ents f
  objsOk : ∀ w ∈ objs, FwOk cfg ents w
  kids : ∀ e x, ents e = some x → ∀ w ∈ x.kids, FwOk cfg ents w
  own : ∀ e, tot (ownF e) L ≤ 1
  uncted : ∀ e x, ents e = some x → x.cted = false → 0 < tot (ownF e) L
  uniq : ∀ e e' x x', ents e = some x → ents e' = some x' → x.core = x'.core →
    cfg.eqv x.core x.key x'.key = true → e = e'
  time : ∀ e x, ents e = some x → x.cted = true → x.stamp < clock ∧
    ∀ w ∈ x.kids, ∀ y, ents w.h = some y → y.stamp < x.stamp
  count : values ents next = clock

theorem Core.perm {ents : Nat → Option (Ent K)} {next clock : Nat} {objs : List (Fw K)} {L L' : List (Frame K)}
    (h : Core cfg ents next objs clock L) (hp : L.Perm L') : Core cfg ents next objs clock L' where
  bound := h.bound
  frames f hf := h.frames f (hp.mem_iff.2 hf)
  objsOk := h.objsOk
  kids := h.kids
  own e := by rw [← tot_perm hp]; exact h.own e
  uncted e x hx hc := by rw [← tot_perm hp]; exact h.uncted e x hx hc
  uniq := h.uniq
  time := h.time
  count := h.count

theorem setEnt_same (f : Nat → Option (Ent K)) (e : Nat) (x : Option (Ent K)) : setEnt f e x e = x := by simp [setEnt]

theorem setEnt_ne (f : Nat → Option (Ent K)) {e i : Nat} (x : Option (Ent K)) (h : i ≠ e) : setEnt f e x i = f i := by
  simp [setEnt, h]

theorem values_congr {ents ents' : Nat → Option (Ent K)} {n : Nat}
    (h : ∀ i, i < n → (ents' i).map Ent.cted = (ents i).map Ent.cted) : values ents' n = values ents n := by
  refine Conc.nsum_congr fun i hi => ?_
  have := h i hi
  cases h1 : ents' i <;> cases h2 : ents i <;> simp_all

section
variable {ents : Nat → Option (Ent K)} {next clock : Nat} {objs objs' : List (Fw K)} {oth : List (Frame K)}

theorem Core.lt_next {L : List (Frame K)} (h : Core cfg ents next objs clock L) {e : Nat} {x : Ent K} (hx : ents e = some x) :
    e < next := by
  rcases Nat.lt_or_ge e next with h' | h'
  · exact h'
  · rw [h.bound e h'] at hx; cases hx

/-- Steps that change neither entries nor the number of frames in charge. -/
theorem Core.same {old new : List (Frame K)} (h : Core cfg ents next objs clock (old ++ oth))
    (hf : ∀ f ∈ new, FrameOk cfg ents f) (ho : ∀ w ∈ objs', FwOk cfg ents w)
    (hown : ∀ e, tot (ownF e) new ≤ tot (ownF e) old)
    (hunc : ∀ e x, ents e = some x → x.cted = false → tot (ownF e) old ≤ tot (ownF e) new) :
    Core cfg ents next objs' clock (new ++ oth) where
  bound := h.bound
  frames f hm := by
    rcases List.mem_append.1 hm with h1 | h1
    · exact hf f h1
    · exact h.frames f (List.mem_append.2 (.inr h1))
  objsOk := ho
  kids := h.kids
  own e := by
    have h1 := h.own e
    have h2 := hown e
    rw [tot_append] at *
    omega
  uncted e x hx hc := by
    have h1 := h.uncted e x hx hc
    have h2 := hunc e x hx hc
    rw [tot_append] at *
    omega
  uniq := h.uniq
  time := h.time
  count := h.count

theorem FrameOk.fresh {f : Frame K} (h : FrameOk cfg ents f) {e : Nat} (he : ents e = none) : ownF e f = 0 := by
  cases f <;> simp only [FrameOk, ownF] at * <;> grind

/-- A new entry. -/
theorem Core.insert {c : Nat} {k : K} {loc : List (Fw K)} {pre : Bool} (hcfg : CfgOk cfg)
    (h : Core cfg ents next objs clock (.find c k loc pre :: oth))
    (hn : ∀ e x, ents e = some x → x.core = c → cfg.eqv c x.key k = false) :
    Core cfg (setEnt ents next (some ⟨c, k, pre, loc, clock⟩)) (next + 1) objs (if pre then clock + 1 else clock)
      (.visit c k next [] true :: oth) := by
  have hfree := h.bound next (Nat.le_refl _)
  have hne : ∀ e x, ents e = some x → e ≠ next := by
    rintro e x hx rfl
    rw [hfree] at hx
    cases hx
  have keep : ∀ e x, ents e = some x → setEnt ents next (some ⟨c, k, pre, loc, clock⟩) e = some x := fun e x hx => by
    rw [setEnt_ne _ _ (hne e x hx), hx]
  have hfw : ∀ w, FwOk cfg ents w → FwOk cfg (setEnt ents next (some ⟨c, k, pre, loc, clock⟩)) w := by
    rintro w ⟨x, hx, h1⟩
    exact ⟨x, keep _ x hx, h1⟩
  have hget : ∀ i y, setEnt ents next (some ⟨c, k, pre, loc, clock⟩) i = some y →
      (i = next ∧ y = ⟨c, k, pre, loc, clock⟩) ∨ (i ≠ next ∧ ents i = some y) := by
    intro i y hy
    by_cases hi : i = next
    · subst hi
      rw [setEnt_same] at hy
      cases hy
      exact .inl ⟨rfl, rfl⟩
    · rw [setEnt_ne _ _ hi] at hy
      exact .inr ⟨hi, hy⟩
  have hloc := h.frames _ List.mem_cons_self
  refine ⟨?_, ?_, fun w hw => hfw w (h.objsOk w hw), ?_, ?_, ?_, ?_, ?_, ?_⟩
  · intro i hi
    rw [setEnt_ne _ _ (by omega)]
    exact h.bound i (by omega)
  · intro f hf
    rcases List.mem_cons.1 hf with rfl | hf1
    · exact ⟨_, setEnt_same _ _ _, rfl, hcfg.refl c k, fun _ => rfl⟩
    · have := h.frames f (List.mem_cons_of_mem _ hf1)
      cases f <;> simp only [FrameOk] at * <;> grind
  · intro e x hx w hw
    rcases hget e x hx with ⟨_, rfl⟩ | ⟨_, hx'⟩
    · exact hfw w (hloc w hw)
    · exact hfw w (h.kids e x hx' w hw)
  · intro e
    have h1 := h.own e
    rw [tot_cons] at *
    by_cases he : next = e
    · subst he
      have : tot (ownF next) oth = 0 := by
        refine Conc.tot_eq_zero fun f hf => ?_
        exact (h.frames f (List.mem_cons_of_mem _ hf)).fresh hfree
      simp [ownF, this]
    · simp [ownF, he] at *
      exact h1
  · intro e x hx hc
    rw [tot_cons]
    rcases hget e x hx with ⟨rfl, rfl⟩ | ⟨_, hx'⟩
    · simp [ownF]
      omega
    · have := h.uncted e x hx' hc
      rw [tot_cons] at this
      simp only [ownF] at this
      omega
  · intro e e' x x' hx hx' hc hk
    rcases hget e x hx with ⟨rfl, rfl⟩ | ⟨_, hx1⟩ <;> rcases hget e' x' hx' with ⟨rfl, rfl⟩ | ⟨_, hx2⟩
    · rfl
    · have := hn e' x' hx2 hc.symm
      rw [hcfg.symm _ _ _ hk] at this
      cases this
    · have := hn e x hx1 hc
      have hc' : x.core = c := hc
      rw [hc'] at hk
      rw [hk] at this
      cases this
    · exact h.uniq e e' x x' hx1 hx2 hc hk
  · intro e x hx hc
    rcases hget e x hx with ⟨rfl, rfl⟩ | ⟨_, hx1⟩
    · simp only at hc
      subst hc
      refine ⟨by simp, fun w hw y hy => ?_⟩
      obtain ⟨z, hz, h1, _⟩ := hloc w hw
      rw [keep _ z hz, Option.some.injEq] at hy
      rw [← hy]
      exact (h.time _ z hz h1).1
    · obtain ⟨h1, h2⟩ := h.time e x hx1 hc
      refine ⟨by split <;> omega, fun w hw y hy => ?_⟩
      obtain ⟨z, hz, _⟩ := h.kids e x hx1 w hw
      rw [keep _ z hz, Option.some.injEq] at hy
      rw [← hy]
      exact h2 w hw z hz
  · have h1 : values (setEnt ents next (some ⟨c, k, pre, loc, clock⟩)) next = clock := by
      rw [← h.count]
      exact values_congr fun i hi => by rw [setEnt_ne _ _ (by omega)]
    unfold values at h1 ⊢
    rw [nsum, h1, setEnt_same]
    cases pre <;> simp

/-- The entry in charge of a frame is changed: its value gets flyweights or is there. -/
theorem Core.update {f f' : Frame K} {e : Nat} {x x' : Ent K} {clock' : Nat}
    (h : Core cfg ents next objs clock (f :: oth)) (hx : ents e = some x) (hxc : x.cted = false)
    (hf : ∀ i, ownF i f = if i = e then 1 else 0) (hf' : FrameOk cfg (setEnt ents e (some x')) f')
    (hown : ∀ i, ownF i f' ≤ if i = e then 1 else 0) (hown' : x'.cted = false → ownF e f' = 1)
    (hc : x'.core = x.core) (hk : x'.key = x.key)
    (hobjs : ∀ w ∈ objs', FwOk cfg ents w) (hkids : ∀ w ∈ x'.kids, FwOk cfg ents w)
    (hcl : clock' = if x'.cted then clock + 1 else clock) (hst : x'.cted = true → x'.stamp = clock) :
    Core cfg (setEnt ents e (some x')) next objs' clock' (f' :: oth) := by
  have hfw : ∀ w, FwOk cfg ents w → w.h ≠ e ∧ FwOk cfg (setEnt ents e (some x')) w := by
    rintro w ⟨y, hy, h1, h2⟩
    have hne : w.h ≠ e := by
      rintro rfl
      rw [hx] at hy
      cases hy
      rw [hxc] at h1
      cases h1
    exact ⟨hne, y, by rw [setEnt_ne _ _ hne, hy], h1, h2⟩
  have hoth : ∀ g ∈ oth, ownF e g = 0 := by
    intro g hg
    have h1 := h.own e
    have h2 := tot_le (g := ownF e) hg
    rw [tot_cons, hf] at h1
    simp at h1
    omega
  have hget : ∀ i y, setEnt ents e (some x') i = some y → (i = e ∧ y = x') ∨ (i ≠ e ∧ ents i = some y) := by
    intro i y hy
    by_cases hi : i = e
    · subst hi
      rw [setEnt_same] at hy
      cases hy
      exact .inl ⟨rfl, rfl⟩
    · rw [setEnt_ne _ _ hi] at hy
      exact .inr ⟨hi, hy⟩
  refine ⟨?_, ?_, fun w hw => (hfw w (hobjs w hw)).2, ?_, ?_, ?_, ?_, ?_, ?_⟩
  · intro i hi
    have := h.lt_next hx
    rw [setEnt_ne _ _ (by omega)]
    exact h.bound i hi
  · intro g hg
    rcases List.mem_cons.1 hg with rfl | hg1
    · exact hf'
    · have h1 := h.frames g (List.mem_cons_of_mem _ hg1)
      have h2 := hoth g hg1
      cases g with
      | lock c k loc pre => exact fun w hw => (hfw w (h1 w hw)).2
      | find c k loc pre => exact fun w hw => (hfw w (h1 w hw)).2
      | unwind c => trivial
      | unlock c k i => exact (hfw _ h1).2
      | visit c k i loc new =>
        obtain ⟨y, hy, h3, h4⟩ := h1
        by_cases hi : i = e
        · subst hi
          rw [hx] at hy
          cases hy
          exact ⟨x', setEnt_same _ _ _, by rw [hc, h3], by rw [hk]; exact h4.1, by rw [hk]; exact h4.2⟩
        · exact ⟨y, by rw [setEnt_ne _ _ hi, hy], h3, h4⟩
      | user c k i =>
        obtain ⟨y, hy, h3, h4⟩ := h1
        have hi : i ≠ e := by rintro rfl; simp [ownF] at h2
        exact ⟨y, by rw [setEnt_ne _ _ hi, hy], h3, h4⟩
      | done c k i =>
        obtain ⟨y, hy, h3, h4⟩ := h1
        have hi : i ≠ e := by rintro rfl; simp [ownF] at h2
        exact ⟨y, by rw [setEnt_ne _ _ hi, hy], h3, h4⟩
      | catch_ c i =>
        obtain ⟨y, hy, h3, h4⟩ := h1
        have hi : i ≠ e := by rintro rfl; simp [ownF] at h2
        exact ⟨y, by rw [setEnt_ne _ _ hi, hy], h3, h4⟩
  · intro i y hy w hw
    rcases hget i y hy with ⟨_, rfl⟩ | ⟨_, hy'⟩
    · exact (hfw w (hkids w hw)).2
    · exact (hfw w (h.kids i y hy' w hw)).2
  · intro i
    have h1 := h.own i
    have h2 := hown i
    rw [tot_cons] at *
    rw [hf] at h1
    omega
  · intro i y hy hyc
    rw [tot_cons]
    rcases hget i y hy with ⟨rfl, rfl⟩ | ⟨hi, hy'⟩
    · rw [hown' hyc]
      omega
    · have := h.uncted i y hy' hyc
      rw [tot_cons, hf, if_neg hi] at this
      omega
  · intro i j y y' hy hy' hcc hkk
    rcases hget i y hy with ⟨rfl, rfl⟩ | ⟨hi, h1⟩ <;> rcases hget j y' hy' with ⟨rfl, rfl⟩ | ⟨hj, h2⟩
    · rfl
    · exact h.uniq i j x y' hx h2 (by rw [← hc, hcc]) (by rw [← hc, ← hk]; exact hkk)
    · exact h.uniq i j y x h1 hx (by rw [← hc, hcc]) (by rw [← hk]; exact hkk)
    · exact h.uniq i j y y' h1 h2 hcc hkk
  · intro i y hy hyc
    have stamp : ∀ w, FwOk cfg ents w → ∀ z, setEnt ents e (some x') w.h = some z → z.stamp < clock ∧ ents w.h = some z := by
      intro w hw z hz
      rw [setEnt_ne _ _ (hfw w hw).1] at hz
      obtain ⟨z', hz', h1, _⟩ := hw
      rw [hz] at hz'
      cases hz'
      exact ⟨(h.time _ z hz h1).1, hz⟩
    rcases hget i y hy with ⟨rfl, rfl⟩ | ⟨hi, hy'⟩
    · rw [hst hyc, hcl, if_pos hyc]
      exact ⟨by omega, fun w hw z hz => (stamp w (hkids w hw) z hz).1⟩
    · obtain ⟨h1, h2⟩ := h.time i y hy' hyc
      refine ⟨by rw [hcl]; split <;> omega, fun w hw z hz => ?_⟩
      exact h2 w hw z (stamp w (h.kids i y hy' w hw) z hz).2
  · have h1 := Conc.nsum_change (f := fun i => match setEnt ents e (some x') i with
        | some x => if x.cted then 1 else 0
        | none => 0) (g := fun i => match ents i with
        | some x => if x.cted then 1 else 0
        | none => 0) (h.lt_next hx) fun j hj => by simp only [setEnt_ne _ _ hj]
    have h2 := h.count
    unfold values at h2 ⊢
    rw [h2] at h1
    simp only [hx, hxc, setEnt_same] at h1
    rw [hcl]
    cases hb : x'.cted <;> simp [hb] at h1 ⊢ <;> omega

/-- An entry without value is erased. -/
theorem Core.erase {c e : Nat} {x : Ent K} (h : Core cfg ents next objs clock (.catch_ c e :: oth)) (hx : ents e = some x)
    (hv : ∀ g ∈ oth, ∀ k loc new, g ≠ .visit c k e loc new) :
    Core cfg (setEnt ents e none) next objs clock (.unwind c :: oth) := by
  obtain ⟨y, hy, hcore, hyc⟩ := h.frames _ List.mem_cons_self
  rw [hx] at hy
  cases hy
  have hfw : ∀ w, FwOk cfg ents w → FwOk cfg (setEnt ents e none) w := by
    rintro w ⟨y, hy, h1, h2⟩
    have hne : w.h ≠ e := by
      rintro rfl
      rw [hx] at hy
      cases hy
      rw [hyc] at h1
      cases h1
    exact ⟨y, by rw [setEnt_ne _ _ hne, hy], h1, h2⟩
  have hoth : ∀ g ∈ oth, ownF e g = 0 := by
    intro g hg
    have h1 := h.own e
    have h2 := tot_le (g := ownF e) hg
    rw [tot_cons] at h1
    simp [ownF] at h1
    omega
  have hget : ∀ i y, setEnt ents e none i = some y → i ≠ e ∧ ents i = some y := by
    intro i y hy
    by_cases hi : i = e
    · subst hi
      rw [setEnt_same] at hy
      cases hy
    · rw [setEnt_ne _ _ hi] at hy
      exact ⟨hi, hy⟩
  refine ⟨?_, ?_, fun w hw => hfw w (h.objsOk w hw), ?_, ?_, ?_, ?_, ?_, ?_⟩
  · intro i hi
    have := h.lt_next hx
    rw [setEnt_ne _ _ (by omega)]
    exact h.bound i hi
  · intro g hg
    rcases List.mem_cons.1 hg with rfl | hg1
    · trivial
    · have h1 := h.frames g (List.mem_cons_of_mem _ hg1)
      have h2 := hoth g hg1
      cases g with
      | lock c k loc pre => exact fun w hw => hfw w (h1 w hw)
      | find c k loc pre => exact fun w hw => hfw w (h1 w hw)
      | unwind c => trivial
      | unlock c k i => exact hfw _ h1
      | visit c' k i loc new =>
        obtain ⟨y, hy, h3, h4⟩ := h1
        have hi : i ≠ e := by
          rintro rfl
          rw [hx] at hy
          cases hy
          exact hv _ hg1 k loc new (by rw [← h3, hcore])
        exact ⟨y, by rw [setEnt_ne _ _ hi, hy], h3, h4⟩
      | user c k i =>
        obtain ⟨y, hy, h3, h4⟩ := h1
        have hi : i ≠ e := by rintro rfl; simp [ownF] at h2
        exact ⟨y, by rw [setEnt_ne _ _ hi, hy], h3, h4⟩
      | done c k i =>
        obtain ⟨y, hy, h3, h4⟩ := h1
        have hi : i ≠ e := by rintro rfl; simp [ownF] at h2
        exact ⟨y, by rw [setEnt_ne _ _ hi, hy], h3, h4⟩
      | catch_ c i =>
        obtain ⟨y, hy, h3, h4⟩ := h1
        have hi : i ≠ e := by rintro rfl; simp [ownF] at h2
        exact ⟨y, by rw [setEnt_ne _ _ hi, hy], h3, h4⟩
  · intro i y hy w hw
    exact hfw w (h.kids i y (hget i y hy).2 w hw)
  · intro i
    have h1 := h.own i
    rw [tot_cons] at *
    simp only [ownF]
    omega
  · intro i y hy hyc
    obtain ⟨hi, hy'⟩ := hget i y hy
    have := h.uncted i y hy' hyc
    rw [tot_cons] at *
    simp [ownF, Ne.symm hi] at this ⊢
    omega
  · intro i j y y' hy hy'
    exact h.uniq i j y y' (hget i y hy).2 (hget j y' hy').2
  · intro i y hy hyc
    obtain ⟨h1, h2⟩ := h.time i y (hget i y hy).2 hyc
    exact ⟨h1, fun w hw z hz => h2 w hw z (hget _ z hz).2⟩
  · have h1 := Conc.nsum_change (f := fun i => match setEnt ents e none i with
        | some x => if x.cted then 1 else 0
        | none => 0) (g := fun i => match ents i with
        | some x => if x.cted then 1 else 0
        | none => 0) (h.lt_next hx) fun j hj => by simp only [setEnt_ne _ _ hj]
    have h2 := h.count
    unfold values at h2 ⊢
    rw [h2] at h1
    simp only [hx, hyc, setEnt_same] at h1
    simpa using h1

end

/-- The frame runs a value constructor.  (No code of its own: used in proofs.) -/
def waiting : Frame K → Bool
  | .user .. => true
  | _ => false

/-- Mutexes are held as the frames say; only constructors wait for others.  (No code of its own: used in statements and
proofs.) -/
structure Locks (lock : Nat → Option (Nat × Nat)) (thr : List (List (Frame K))) : Prop where
  depth : ∀ (t : Nat) (st : List (Frame K)), thr[t]? = some st → ∀ c, tot (holdF c) st = depthOf lock t c
  pos : ∀ c o d, lock c = some (o, d) → 0 < d ∧ o < thr.length
  tails : ∀ (t : Nat) (st : List (Frame K)), thr[t]? = some st → ∀ f ∈ st.tail, waiting f = true

theorem Locks.pos1 {lock : Nat → Option (Nat × Nat)} {thr : List (List (Frame K))} (h : Locks lock thr) :
    ∀ c o d, lock c = some (o, d) → 0 < d := fun c o d hl => (h.pos c o d hl).1

theorem Locks.refl {lock : Nat → Option (Nat × Nat)} {t : Nat} {thr : List (List (Frame K))} (h : Locks lock thr) :
    LockStep lock lock t := ⟨fun _ _ _ => rfl, fun c o d hl => ⟨(h.pos c o d hl).1, .inr ⟨d, hl⟩⟩⟩

/-- All frames of all threads.  (No code of its own: used in statements and proofs.) -/
def frames (s : St K) : List (Frame K) := s.thr.flatten

/-- The invariant.  (No code of its own: used in statements and proofs.) -/
structure Inv (cfg : Cfg K) (s : St K) : Prop where
  core : Core cfg s.ents s.next s.objs s.clock (frames s)
  locks : Locks s.lock s.thr

/-- What must hold of every outcome.  (No code of its own: used in statements and proofs.) -/
def Good (cfg : Cfg K) : Out K → Prop
  | .ok s => Inv cfg s
  | .no => True
  | .ub => False
  | .reentrant => True

/-- General form of a step of thread `t`. -/
theorem Inv.step_of {s : St K} (h : Inv cfg s) {t : Nat} {st st' : List (Frame K)} (ht : s.thr[t]? = some st)
    {ents : Nat → Option (Ent K)} {next clock : Nat} {objs : List (Fw K)} {lock : Nat → Option (Nat × Nat)}
    (hc : ∀ AB, Core cfg s.ents s.next s.objs s.clock (st ++ AB) →
      (∀ f ∈ AB, ∀ c, 0 < tot (holdF c) st → holdF c f = 0) → Core cfg ents next objs clock (st' ++ AB))
    (hl : LockStep s.lock lock t) (hd : ∀ c, tot (holdF c) st' = depthOf lock t c)
    (htl : ∀ f ∈ st'.tail, waiting f = true) :
    Inv cfg ⟨ents, next, lock, s.thr.set t st', objs, clock⟩ := by
  obtain ⟨A, B, h1, h2, h3⟩ := split ht
  have hlt : t < s.thr.length := by
    rcases Nat.lt_or_ge t s.thr.length with h' | h'
    · exact h'
    · rw [List.getElem?_eq_none h'] at ht; cases ht
  have hp : ∀ st'' : List (Frame K), (A ++ st'' ++ B).Perm (st'' ++ (A ++ B)) := fun st'' => by
    rw [List.append_assoc]
    refine (List.perm_append_comm (l₁ := A) (l₂ := st'' ++ B)).trans ?_
    rw [List.append_assoc]
    exact (List.perm_append_comm).append_left st''
  constructor
  · show Core cfg ents next objs clock (s.thr.set t st').flatten
    rw [h2]
    refine (hc (A ++ B) ?_ ?_).perm (hp st').symm
    · have := h.core
      unfold frames at this
      rw [h1] at this
      exact this.perm (hp st)
    · intro f hf c hpos
      obtain ⟨t', st'', h4, h5, h6⟩ := h3 f hf
      rw [h.locks.depth t st ht] at hpos
      have h7 := h.locks.depth t' st'' h5 c
      rw [depth_excl hpos h4] at h7
      have := tot_le (g := holdF c) h6
      omega
  · constructor
    · intro t' st'' ht' c
      by_cases he : t' = t
      · subst he
        rw [List.getElem?_set_self hlt] at ht'
        cases ht'
        exact hd c
      · rw [List.getElem?_set_ne (Ne.symm he)] at ht'
        rw [h.locks.depth t' st'' ht' c]
        exact (hl.other t' c he).symm
    · intro c o d ho
      obtain ⟨h4, h5⟩ := hl.pos c o d ho
      refine ⟨h4, ?_⟩
      rw [List.length_set]
      rcases h5 with rfl | ⟨d', h5⟩
      · exact hlt
      · exact (h.locks.pos c o d' h5).2
    · intro t' st'' ht' f hf
      by_cases he : t' = t
      · subst he
        rw [List.getElem?_set_self hlt] at ht'
        cases ht'
        exact htl f hf
      · rw [List.getElem?_set_ne (Ne.symm he)] at ht'
        exact h.locks.tails t' st'' ht' f hf

/-- General form of a step of the library. -/
theorem Inv.lib_of {s : St K} (h : Inv cfg s) {t : Nat} {f : Frame K} {rest new : List (Frame K)}
    (ht : s.thr[t]? = some (f :: rest))
    {ents : Nat → Option (Ent K)} {next clock : Nat} {objs : List (Fw K)} {lock : Nat → Option (Nat × Nat)}
    (hl : LockStep s.lock lock t)
    (hd : ∀ c, tot (holdF c) new + depthOf s.lock t c = depthOf lock t c + holdF c f)
    (htl : new.tail = [])
    (hc : ∀ oth, Core cfg s.ents s.next s.objs s.clock (f :: oth) →
      (∀ g ∈ oth, ∀ c, holds f = some c → holds g = some c → waiting g = true) →
      Core cfg ents next objs clock (new ++ oth)) :
    Inv cfg ⟨ents, next, lock, s.thr.set t (new ++ rest), objs, clock⟩ := by
  have hrest : ∀ g ∈ rest, waiting g = true := h.locks.tails t _ ht
  refine h.step_of ht (fun AB hcore hex => ?_) hl ?_ ?_
  · rw [List.append_assoc]
    refine hc (rest ++ AB) hcore fun g hg c h1 h2 => ?_
    rcases List.mem_append.1 hg with h3 | h3
    · exact hrest g h3
    · have := hex g h3 c (by simp only [tot_cons, holdF, h1, if_true]; omega)
      simp [holdF, h2] at this
  · intro c
    have h1 := h.locks.depth t _ ht c
    have h2 := hd c
    simp only [tot_cons, tot_append] at h1 ⊢
    omega
  · intro g hg
    cases new with
    | nil => exact hrest g (List.mem_of_mem_tail hg)
    | cons a new =>
      rw [List.tail_cons] at htl
      subst htl
      exact hrest g hg

theorem find_some {s : St K} {c : Nat} {k : K} {e : Nat} (h : find cfg s c k = some e) :
    ∃ x, s.ents e = some x ∧ x.core = c ∧ cfg.eqv c x.key k = true := by
  unfold find at h
  have := List.find?_some h
  cases hx : s.ents e with
  | none => simp [hx] at this
  | some x =>
    simp only [hx, Bool.and_eq_true, beq_iff_eq] at this
    exact ⟨x, rfl, this⟩

theorem find_none {s : St K} {c : Nat} {k : K} (hb : ∀ e, s.next ≤ e → s.ents e = none) (h : find cfg s c k = none) :
    ∀ e x, s.ents e = some x → x.core = c → cfg.eqv c x.key k = false := by
  intro e x hx hc
  unfold find at h
  rw [List.find?_eq_none] at h
  have hlt : e < s.next := by
    rcases Nat.lt_or_ge e s.next with h1 | h1
    · exact h1
    · rw [hb e h1] at hx; cases hx
  have := h e (List.mem_range.2 hlt)
  simpa [hx, hc] using this

theorem pick_mem {m : List Bool} {l : List (Fw K)} {w : Fw K} : w ∈ l ↔ w ∈ (pick m l).1 ∨ w ∈ (pick m l).2 := Conc.pick_mem

theorem top_depth {s : St K} (h : Inv cfg s) {t c : Nat} {f : Frame K} {rest : List (Frame K)}
    (ht : s.thr[t]? = some (f :: rest)) (hf : holds f = some c) : 0 < depthOf s.lock t c := by
  rw [← h.locks.depth t _ ht c, tot_cons, holdF, if_pos hf]
  omega

theorem lib_good (hcfg : CfgOk cfg) (hl : cfg.locking = true) {s : St K} (h : Inv cfg s) {t : Nat} {f : Frame K}
    {rest : List (Frame K)} (ht : s.thr[t]? = some (f :: rest)) : Good cfg (lib cfg s t f rest) := by
  have hfr : FrameOk cfg s.ents f := h.core.frames f (List.mem_flatten.2 ⟨_, List.mem_of_getElem? ht, List.mem_cons_self⟩)
  cases f with
  | lock c k loc pre =>
    simp only [lib]
    cases ha : acquire cfg s.lock t c with
    | none => trivial
    | some l =>
      obtain ⟨h1, h2⟩ := acquire_some hl h.locks.pos1 ha
      refine h.lib_of (new := [.find c k loc pre]) ht h1 (fun c' => ?_) rfl fun oth hc _ => ?_
      · have := h2 c'
        by_cases hcc : c = c' <;> simp [holdF, holds, hcc] at this ⊢ <;> omega
      · refine Core.same (old := [_]) hc ?_ h.core.objsOk ?_ ?_
        · simpa [FrameOk] using hfr
        · simp [ownF]
        · simp [ownF]
  | find c k loc pre =>
    simp only [lib]
    cases hf : find cfg s c k with
    | some e =>
      refine h.lib_of (new := [.visit c k e loc false]) ht h.locks.refl (fun c' => ?_) rfl fun oth hc _ => ?_
      · simp only [tot_cons, tot_nil, Nat.add_zero]
        exact Nat.add_comm _ _
      · refine Core.same (old := [_]) hc ?_ h.core.objsOk ?_ ?_
        · obtain ⟨x, hx, h1, h2⟩ := find_some hf
          simp only [List.mem_singleton, forall_eq, FrameOk]
          exact ⟨x, hx, h1, h2, by simp⟩
        · simp [ownF]
        · simp [ownF]
    | none =>
      refine h.lib_of (new := [.visit c k s.next [] true]) ht h.locks.refl (fun c' => ?_) rfl fun oth hc _ => ?_
      · simp only [tot_cons, tot_nil, Nat.add_zero]
        exact Nat.add_comm _ _
      · exact Core.insert hcfg hc (find_none h.core.bound hf)
  | visit c k e loc new =>
    obtain ⟨x, hx, h1, h2, hk⟩ := hfr
    simp only [lib, hx]
    cases hb : x.cted with
    | true =>
      refine h.lib_of (new := [.unlock c k e]) ht h.locks.refl (fun c' => ?_) rfl fun oth hc _ => ?_
      · simp only [tot_cons, tot_nil, Nat.add_zero]
        exact Nat.add_comm _ _
      · refine Core.same (old := [_]) hc ?_ h.core.objsOk ?_ ?_
        · simp only [List.mem_singleton, forall_eq, FrameOk]
          exact ⟨x, hx, hb, h1, h2⟩
        · simp [ownF]
        · intro i y hy hyc
          by_cases hi : e = i
          · subst hi
            rw [hx] at hy
            cases hy
            rw [hb] at hyc
            cases hyc
          · simp [ownF, hi]
    | false =>
      cases new with
      | false => trivial
      | true =>
        refine h.lib_of (new := [.user c k e]) ht h.locks.refl (fun c' => ?_) rfl fun oth hc _ => ?_
        · simp only [tot_cons, tot_nil, Nat.add_zero]
          exact Nat.add_comm _ _
        · refine Core.same (old := [_]) hc ?_ h.core.objsOk ?_ ?_
          · simp only [List.mem_singleton, forall_eq, FrameOk]
            exact ⟨x, hx, h1, h2, hb, hk rfl⟩
          · simp [ownF]
          · simp [ownF]
  | user c k e => trivial
  | done c k e =>
    obtain ⟨x, hx, h1, h2, h3, _⟩ := hfr
    simp only [lib, hx]
    refine h.lib_of (new := [.unlock c k e]) ht h.locks.refl (fun c' => ?_) rfl fun oth hc _ => ?_
    · simp only [tot_cons, tot_nil, Nat.add_zero]
      exact Nat.add_comm _ _
    · refine Core.update hc hx h3 (fun i => by simp [ownF, eq_comm]) ?_ (by simp [ownF]) (by simp) rfl rfl h.core.objsOk
        (h.core.kids e x hx) (by simp) (by simp)
      exact ⟨_, setEnt_same _ _ _, rfl, h1, h2⟩
  | catch_ c e =>
    obtain ⟨x, hx, h1, h2⟩ := hfr
    simp only [lib, hx]
    refine h.lib_of (new := [.unwind c]) ht h.locks.refl (fun c' => ?_) rfl fun oth hc hw => ?_
    · simp only [tot_cons, tot_nil, Nat.add_zero]
      exact Nat.add_comm _ _
    · refine Core.erase hc hx fun g hg k loc new he => ?_
      have := hw g hg c rfl (by rw [he]; rfl)
      rw [he] at this
      cases this
  | unwind c =>
    obtain ⟨l, h1, h2, h3⟩ := unlock_some hl h.locks.pos1 (top_depth h ht (c := c) rfl)
    simp only [lib, h1]
    refine h.lib_of (new := []) ht h2 (fun c' => ?_) rfl fun oth hc _ => ?_
    · have := h3 c'
      by_cases hcc : c = c' <;> simp [holdF, holds, hcc] at this ⊢ <;> omega
    · refine Core.same (old := [_]) (new := []) hc ?_ h.core.objsOk ?_ ?_ <;> simp [ownF]
  | unlock c k e =>
    obtain ⟨l, h1, h2, h3⟩ := unlock_some hl h.locks.pos1 (top_depth h ht (c := c) rfl)
    simp only [lib, h1]
    refine h.lib_of (new := []) ht h2 (fun c' => ?_) rfl fun oth hc _ => ?_
    · have := h3 c'
      by_cases hcc : c = c' <;> simp [holdF, holds, hcc] at this ⊢ <;> omega
    · refine Core.same (old := [_]) (new := []) hc ?_ ?_ ?_ ?_
      · simp
      · intro w hw
        rcases List.mem_cons.1 hw with rfl | hw
        · exact hfr
        · exact h.core.objsOk w hw
      · simp [ownF]
      · simp [ownF]

/-- Steps that only change the objects. -/
theorem Inv.objs_of {s : St K} (h : Inv cfg s) {objs : List (Fw K)} (ho : ∀ w ∈ objs, FwOk cfg s.ents w) :
    Inv cfg { s with objs := objs } :=
  ⟨⟨h.core.bound, h.core.frames, ho, h.core.kids, h.core.own, h.core.uncted, h.core.uniq, h.core.time, h.core.count⟩, h.locks⟩

theorem inUser_waiting {st : List (Frame K)} (h : inUser st = true) (htl : ∀ f ∈ st.tail, waiting f = true) :
    ∀ f ∈ st, waiting f = true := by
  intro f hf
  cases st with
  | nil => cases hf
  | cons a st =>
    rcases List.mem_cons.1 hf with rfl | h1
    · cases f <;> first | rfl | cases h
    · exact htl f h1

theorem act_good (hcfg : CfgOk cfg) (hl : cfg.locking = true) {s : St K} (h : Inv cfg s) {t : Nat} {st : List (Frame K)}
    (ht : s.thr[t]? = some st) (a : Act K) : Good cfg (act cfg s t st a) := by
  cases a with
  | run =>
    cases st with
    | nil => trivial
    | cons f rest => exact lib_good hcfg hl h ht
  | create c k mask pre =>
    dsimp only [act]
    split
    · rename_i hu
      refine h.step_of ht (fun AB hc _ => ?_) h.locks.refl (fun c' => ?_) ?_
      · refine Core.same (old := st) (new := .lock c k (pick mask s.objs).1 pre :: st) hc (fun f hf => ?_) (fun w hw => ?_) ?_ ?_
        · rcases List.mem_cons.1 hf with rfl | hf
          · exact fun w hw => h.core.objsOk w (pick_mem.2 (.inl hw))
          · exact hc.frames f (List.mem_append.2 (.inl hf))
        · exact h.core.objsOk w (pick_mem.2 (.inr hw))
        · simp [ownF]
        · simp [ownF]
      · have := h.locks.depth t st ht c'
        simp [holdF, holds, this]
      · exact inUser_waiting hu (h.locks.tails t st ht)
    · trivial
  | destroy mask =>
    dsimp only [act]
    split
    · exact h.objs_of fun w hw => h.core.objsOk w (pick_mem.2 (.inr hw))
    · trivial
  | copy i =>
    dsimp only [act]
    split
    · cases hw : s.objs[i]? with
      | none => trivial
      | some w =>
        refine h.objs_of fun v hv => ?_
        rcases List.mem_cons.1 hv with rfl | hv
        · exact h.core.objsOk _ (List.mem_of_getElem? hw)
        · exact h.core.objsOk v hv
    · trivial
  | copyKid i j =>
    dsimp only [act]
    split
    · cases hw : s.objs[i]? with
      | none => trivial
      | some w =>
        obtain ⟨x, hx, h1, _⟩ := h.core.objsOk w (List.mem_of_getElem? hw)
        simp only [hx, h1, if_true]
        cases hk : x.kids[j]? with
        | none => trivial
        | some v =>
          refine h.objs_of fun u hu => ?_
          rcases List.mem_cons.1 hu with rfl | hu
          · exact h.core.kids _ x hx _ (List.mem_of_getElem? hk)
          · exact h.core.objsOk u hu
    · trivial
  | swap i j =>
    dsimp only [act]
    split
    · split
      · rename_i v w hv hw
        refine h.objs_of fun u hu => ?_
        rcases List.mem_or_eq_of_mem_set hu with hu | rfl
        · rcases List.mem_or_eq_of_mem_set hu with hu | rfl
          · exact h.core.objsOk u hu
          · exact h.core.objsOk _ (List.mem_of_getElem? hw)
        · exact h.core.objsOk _ (List.mem_of_getElem? hv)
      · trivial
    · trivial
  | read i =>
    dsimp only [act]
    split
    · cases hw : s.objs[i]? with
      | none => trivial
      | some w =>
        obtain ⟨x, hx, h1, _⟩ := h.core.objsOk w (List.mem_of_getElem? hw)
        simp only [hx, h1, if_true]
        exact h
    · trivial
  | finish mask drop =>
    dsimp only [act]
    split
    · rename_i c k e rest
      have hfr : FrameOk cfg s.ents (.user c k e) :=
        h.core.frames _ (List.mem_flatten.2 ⟨_, List.mem_of_getElem? ht, List.mem_cons_self⟩)
      obtain ⟨x, hx, h1, h2, h3, hk⟩ := hfr
      simp only [hx, h3]
      refine h.lib_of (new := [.done c k e]) ht h.locks.refl (fun c' => ?_) rfl fun oth hc _ => ?_
      · simp only [tot_cons, tot_nil, Nat.add_zero]
        exact Nat.add_comm _ _
      · refine Core.update hc hx h3 (fun i => by simp [ownF, eq_comm]) ?_ (by simp [ownF, eq_comm]) (by simp [ownF]) rfl rfl
          (fun w hw => h.core.objsOk w (pick_mem.2 (.inr hw))) (fun w hw => ?_) (by simp) (by simp)
        · exact ⟨_, setEnt_same _ _ _, h1, h2, rfl, hk⟩
        · have h4 : ∀ w ∈ (pick mask s.objs).1, FwOk cfg s.ents w := fun w hw => h.core.objsOk w (pick_mem.2 (.inl hw))
          cases drop with
          | true => exact h4 w hw
          | false =>
            rcases List.mem_append.1 hw with hw | hw
            · exact h.core.kids e x hx w hw
            · exact h4 w hw
    · trivial
  | throw_ =>
    dsimp only [act]
    split
    · rename_i c k e rest
      have hfr : FrameOk cfg s.ents (.user c k e) :=
        h.core.frames _ (List.mem_flatten.2 ⟨_, List.mem_of_getElem? ht, List.mem_cons_self⟩)
      obtain ⟨x, hx, h1, h2, h3, _⟩ := hfr
      refine h.lib_of (new := [.catch_ c e]) ht h.locks.refl (fun c' => ?_) rfl fun oth hc _ => ?_
      · simp only [tot_cons, tot_nil, Nat.add_zero]
        exact Nat.add_comm _ _
      · refine Core.same (old := [_]) hc ?_ h.core.objsOk ?_ ?_
        · simp only [List.mem_singleton, forall_eq, FrameOk]
          exact ⟨x, hx, h1, h3⟩
        · simp [ownF]
        · simp [ownF]
    · rename_i c k loc pre rest
      refine h.lib_of (new := [.unwind c]) ht h.locks.refl (fun c' => ?_) rfl fun oth hc _ => ?_
      · simp only [tot_cons, tot_nil, Nat.add_zero]
        exact Nat.add_comm _ _
      · refine Core.same (old := [_]) hc ?_ h.core.objsOk ?_ ?_ <;> simp [FrameOk, ownF]
    · trivial

theorem step_good (hcfg : CfgOk cfg) (hl : cfg.locking = true) {s : St K} (h : Inv cfg s) (t : Nat) (a : Act K) :
    Good cfg (step cfg s t a) := by
  unfold step
  cases ht : s.thr[t]? with
  | none => trivial
  | some st => exact act_good hcfg hl h ht a

theorem exec_good (hcfg : CfgOk cfg) (hl : cfg.locking = true) {s : St K} (h : Inv cfg s) (acts : List (Nat × Act K)) :
    Good cfg (exec cfg acts s) := by
  induction acts generalizing s with
  | nil => exact h
  | cons p acts ih =>
    obtain ⟨t, a⟩ := p
    have hg := step_good hcfg hl h t a
    unfold exec
    cases hs : step cfg s t a with
    | ok s' => rw [hs] at hg; exact ih hg
    | no => exact ih h
    | ub => rw [hs] at hg; exact hg
    | reentrant => trivial

theorem start_inv (n : Nat) : Inv cfg (start n) := by
  have hnil : frames (start n : St K) = [] := by simp [frames, start]
  constructor
  · rw [hnil]
    refine ⟨fun _ _ => rfl, by simp, by simp [start], ?_, by simp, ?_, ?_, ?_, rfl⟩ <;> intro e <;> simp [start]
  · refine ⟨fun t st ht c => ?_, fun c o d h => ?_, fun t st ht f hf => ?_⟩
    · have : st = [] := by
        have := List.mem_of_getElem? ht
        simp only [start, List.mem_replicate] at this
        exact this.2
      subst this
      rfl
    · cases h
    · have : st = [] := by
        have := List.mem_of_getElem? ht
        simp only [start, List.mem_replicate] at this
        exact this.2
      subst this
      cases hf

end Verif.Plain

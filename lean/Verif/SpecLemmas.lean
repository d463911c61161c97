import Verif.History
import Verif.Assoc

/-!
# Lemmas about the specification
-/

set_option autoImplicit false

namespace Verif
variable {K V : Type}

theorem upd_self {α : Type} (g : Nat → α) (x : Nat) (a : α) : upd g x a x = a := by simp [upd]

theorem upd_ne {α : Type} (g : Nat → α) {x y : Nat} (a : α) (h : y ≠ x) : upd g x a y = g y := by
  simp [upd, h]

theorem mem_rebind {vars : List (Nat × Bind K V)} {x y : Nat} {b c : Bind K V} :
    (y, c) ∈ SSt.rebind vars x b ↔
      (y = x ∧ c = b ∧ x ∈ vars.map Prod.fst) ∨ (y ≠ x ∧ (y, c) ∈ vars) := by
  unfold SSt.rebind
  simp only [List.mem_map, Prod.exists]
  constructor
  · rintro ⟨z, d, hm, he⟩
    by_cases hz : z = x
    · simp only [hz, if_true, Prod.mk.injEq] at he
      exact Or.inl ⟨he.1.symm, he.2.symm, x, d, hz ▸ hm, rfl⟩
    · simp only [hz, if_false, Prod.mk.injEq] at he
      obtain ⟨rfl, rfl⟩ := he
      exact Or.inr ⟨hz, hm⟩
  · rintro (⟨rfl, rfl, z, d, hm, rfl⟩ | ⟨hy, hm⟩)
    · exact ⟨_, d, hm, by simp⟩
    · exact ⟨y, c, hm, by simp [hy]⟩

theorem rebind_names {vars : List (Nat × Bind K V)} {x : Nat} {b : Bind K V} :
    (SSt.rebind vars x b).map Prod.fst = vars.map Prod.fst := Assoc.setVar_names vars x b

/-- Two bindings of the same variable agree. -/
theorem bind_unique {vars : List (Nat × Bind K V)} (hn : (vars.map Prod.fst).Nodup) {x : Nat}
    {b c : Bind K V} (hb : (x, b) ∈ vars) (hc : (x, c) ∈ vars) : b = c := by
  have h1 := Assoc.lookup_of_mem hn hb
  have h2 := Assoc.lookup_of_mem hn hc
  rw [h1] at h2
  exact Option.some.inj h2

/-- Invariant of the specification: variables have one binding each, taken from
the pool, and the triples of the pool differ in address and in key. -/
structure SOk (trk : Tracking) (keq : K → K → Bool) (t : SSt K V) : Prop where
  nodup : t.names.Nodup
  sub : ∀ p ∈ t.vars, p.2 ∈ t.pool trk
  addr : ∀ b ∈ t.pool trk, ∀ c ∈ t.pool trk, b.addr = c.addr → b = c
  key : ∀ b ∈ t.pool trk, ∀ c ∈ t.pool trk, keq b.key c.key = true → b = c

theorem SOk.bound {trk : Tracking} {keq : K → K → Bool} {t : SSt K V} (h : SOk trk keq t) {x : Nat}
    {b : Bind K V} (hx : (x, b) ∈ t.vars) : b ∈ t.pool trk := h.sub (x, b) hx

theorem SOk.start (trk : Tracking) (keq : K → K → Bool) : SOk trk keq (SSt.start : SSt K V) := by
  constructor <;> cases trk <;> simp [SSt.start, SSt.names, SSt.pool]

/-- Fewer triples in the pool. -/
theorem SOk.shrink {trk : Tracking} {keq : K → K → Bool} {t t' : SSt K V} (h : SOk trk keq t)
    (hn : t'.names.Nodup) (hs : ∀ p ∈ t'.vars, p.2 ∈ t.pool trk) (hk : t'.kept = t.kept) :
    SOk trk keq t' := by
  have hp : ∀ b ∈ t'.pool trk, b ∈ t.pool trk := by
    intro b hb
    cases trk with
    | refcounted =>
      obtain ⟨p, hp, rfl⟩ := List.mem_map.1 hb
      exact hs p hp
    | noTracking =>
      have hb : b ∈ t'.kept := hb
      rw [hk] at hb
      exact hb
  refine ⟨hn, ?_, fun b hb c hc => h.addr b (hp b hb) c (hp c hc),
    fun b hb c hc => h.key b (hp b hb) c (hp c hc)⟩
  intro p hp'
  cases trk with
  | refcounted => exact List.mem_map.2 ⟨p, hp', rfl⟩
  | noTracking =>
    show p.2 ∈ t'.kept
    rw [hk]
    exact hs p hp'

/-- The triples available before, plus the one created, satisfy the invariant. -/
theorem SOk.create {trk : Tracking} {keq : K → K → Bool} {sp : SrcSpec K V} (L : sp.Lawful keq)
    {t t' : SSt K V} (h : SOk trk keq t) {src : Src K V} {b : Bind K V} (hsup : sp.supports src = true)
    (hc : Create trk keq sp t src b t') :
    t'.vars = t.vars ∧ keq b.key (sp.key0 src) = true ∧
    (∀ c ∈ t.pool trk, (c.addr = b.addr ∨ keq c.key b.key = true) → c = b) ∧
    (trk = .noTracking → ∀ c, c ∈ t'.kept ↔ c ∈ t.kept ∨ c = b) := by
  cases hc with
  | share _ hb hk =>
    refine ⟨rfl, hk, ?_, ?_⟩
    · rintro c hc (ha | hk')
      · exact h.addr c hc b hb ha
      · exact h.key c hc b hb hk'
    · intro ht c
      subst ht
      constructor
      · exact Or.inl
      · rintro (hc | rfl)
        · exact hc
        · exact hb
  | fresh a hk ha =>
    have hcon := L.contract src hsup
    refine ⟨rfl, hcon, ?_, ?_⟩
    · rintro c hc (h1 | h1)
      · exact absurd h1 (ha c hc)
      · have := hk c hc
        rw [L.trans _ _ _ h1 hcon] at this
        cases this
    · intro _ c
      simp [or_comm]

theorem SOk.add {trk : Tracking} {keq : K → K → Bool} {sp : SrcSpec K V} (L : sp.Lawful keq)
    {t t' : SSt K V} (h : SOk trk keq t) {src : Src K V} {b : Bind K V} (hsup : sp.supports src = true)
    (hc : Create trk keq sp t src b t') {vars : List (Nat × Bind K V)}
    (hn : (vars.map Prod.fst).Nodup) (hv : ∀ p ∈ vars, p ∈ t.vars ∨ p.2 = b) :
    SOk trk keq { t' with vars := vars } := by
  obtain ⟨h1, h2, h3, h4⟩ := h.create L hsup hc
  have hpool : ∀ c, c ∈ ({ t' with vars := vars } : SSt K V).pool trk → c ∈ t.pool trk ∨ c = b := by
    intro c hc'
    cases trk with
    | refcounted =>
      obtain ⟨p, hp, rfl⟩ := List.mem_map.1 hc'
      rcases hv p hp with hp | hp
      · exact Or.inl (h.sub p hp)
      · exact Or.inr hp
    | noTracking => exact (h4 rfl c).1 hc'
  refine ⟨hn, ?_, ?_, ?_⟩
  · intro p hp
    cases trk with
    | refcounted => exact List.mem_map.2 ⟨p, hp, rfl⟩
    | noTracking =>
      refine (h4 rfl p.2).2 ?_
      rcases hv p hp with hp | hp
      · exact Or.inl (h.sub p hp)
      · exact Or.inr hp
  · intro c hc' d hd he
    rcases hpool c hc' with hc1 | rfl <;> rcases hpool d hd with hd1 | rfl
    · exact h.addr c hc1 d hd1 he
    · exact h3 c hc1 (Or.inl he)
    · exact (h3 d hd1 (Or.inl he.symm)).symm
    · rfl
  · intro c hc' d hd he
    rcases hpool c hc' with hc1 | rfl <;> rcases hpool d hd with hd1 | rfl
    · exact h.key c hc1 d hd1 he
    · exact h3 c hc1 (Or.inr he)
    · exact (h3 d hd1 (Or.inr (L.symm _ _ he))).symm
    · rfl

theorem SStep.ok {trk : Tracking} {keq : K → K → Bool} {sp : SrcSpec K V} (L : sp.Lawful keq)
    {hp : Nat → Nat} {t t' : SSt K V} {op : Op K V} {out : Out K V}
    (h : SOk trk keq t) (hv : op.valid sp t.names = true) (hs : SStep trk keq sp hp t op out t') :
    SOk trk keq t' := by
  cases hs with
  | init => exact h
  | make x src b t₁ hc =>
    simp [Op.valid] at hv
    have h1 := (h.create L hv.2 hc).1
    refine h.add L hv.2 hc ?_ ?_
    · rw [h1, List.map_cons, List.nodup_cons]
      exact ⟨hv.1, h.nodup⟩
    · rw [h1]
      intro p hp
      rcases List.mem_cons.1 hp with rfl | hp
      · exact Or.inr rfl
      · exact Or.inl hp
  | makeThrow => exact h
  | copy x y b hb =>
    simp [Op.valid] at hv
    refine h.shrink ?_ ?_ rfl
    · simp only [SSt.names, List.map_cons, List.nodup_cons]
      exact ⟨hv.1, h.nodup⟩
    · intro p hp
      rcases List.mem_cons.1 hp with rfl | hp
      · exact h.bound hb
      · exact h.sub p hp
  | move x y b hb =>
    simp [Op.valid] at hv
    refine h.shrink ?_ ?_ rfl
    · simp only [SSt.names, List.map_cons, List.nodup_cons]
      exact ⟨hv.1, h.nodup⟩
    · intro p hp
      rcases List.mem_cons.1 hp with rfl | hp
      · exact h.bound hb
      · exact h.sub p hp
  | assign x y b hb =>
    refine h.shrink ?_ ?_ rfl
    · simp only [SSt.names, rebind_names]; exact h.nodup
    · rintro ⟨z, c⟩ hp
      rcases mem_rebind.1 hp with ⟨_, rfl, _⟩ | ⟨_, hp⟩
      · exact h.bound hb
      · exact h.sub _ hp
  | assignVal x src b t₁ hc =>
    simp [Op.valid] at hv
    have h1 := (h.create L hv.2 hc).1
    refine h.add L hv.2 hc ?_ ?_
    · rw [h1, rebind_names]; exact h.nodup
    · rw [h1]
      rintro ⟨z, c⟩ hp
      rcases mem_rebind.1 hp with ⟨_, rfl, _⟩ | ⟨_, hp⟩
      · exact Or.inr rfl
      · exact Or.inl hp
  | assignValThrow => exact h
  | swap x y b c hb hc =>
    refine h.shrink ?_ ?_ rfl
    · simp only [SSt.names, rebind_names]; exact h.nodup
    · rintro ⟨z, d⟩ hp
      rcases mem_rebind.1 hp with ⟨_, rfl, _⟩ | ⟨_, hp⟩
      · exact h.bound hb
      · rcases mem_rebind.1 hp with ⟨_, rfl, _⟩ | ⟨_, hp⟩
        · exact h.bound hc
        · exact h.sub _ hp
  | destroy x =>
    refine h.shrink ?_ ?_ rfl
    · exact h.nodup.sublist (List.filter_sublist.map _)
    · intro p hp
      exact h.sub p (List.mem_filter.1 hp).1
  | get => exact h
  | getKey => exact h
  | eq => exact h
  | hash => exact h

theorem SRun.ok {trk : Tracking} {keq : K → K → Bool} {sp : SrcSpec K V} (L : sp.Lawful keq)
    {hp : Nat → Nat} {t t' : SSt K V} {ops : List (Op K V)} {outs : List (Out K V)}
    (hr : SRun trk keq sp hp t ops outs t') (h : SOk trk keq t) : SOk trk keq t' := by
  induction hr with
  | nil => exact h
  | step hv hs _ ih => exact ih (hs.ok L h hv)
  | skip _ _ ih => exact ih h

/-- The keys of the bindings are those the variables were last given.  (No code of its own: used
in statements and proofs.) -/
def GivenOk (keq : K → K → Bool) (g : Nat → Option K) (t : SSt K V) : Prop :=
  (∀ x b, (x, b) ∈ t.vars → ∃ k, g x = some k ∧ keq b.key k = true) ∧
  ∀ x, x ∉ t.names → g x = none

theorem SStep.given {trk : Tracking} {keq : K → K → Bool} {sp : SrcSpec K V} (L : sp.Lawful keq)
    {hp : Nat → Nat} {t t' : SSt K V} {op : Op K V} {out : Out K V} {g : Nat → Option K}
    (h : SOk trk keq t) (hg : GivenOk keq g t) (hv : op.valid sp t.names = true)
    (hs : SStep trk keq sp hp t op out t') : GivenOk keq (givenStep sp g op out) t' := by
  have name : ∀ {x b}, (x, b) ∈ t.vars → x ∈ t.names := fun hb => List.mem_map.2 ⟨_, hb, rfl⟩
  have addVar : ∀ x b k, x ∉ t.names → keq b.key k = true → ∀ kept,
      GivenOk keq (upd g x (some k)) ⟨(x, b) :: t.vars, kept⟩ := by
    intro x b k hx hk kept
    refine ⟨?_, ?_⟩
    · intro z c hz
      by_cases hzx : z = x
      · subst hzx
        rw [upd_self]
        rcases List.mem_cons.1 hz with he | hz
        · cases he; exact ⟨k, rfl, hk⟩
        · exact absurd (name hz) hx
      · rw [upd_ne _ _ hzx]
        rcases List.mem_cons.1 hz with he | hz
        · cases he; exact absurd rfl hzx
        · exact hg.1 z c hz
    · intro z hz
      simp only [SSt.names, List.map_cons, List.mem_cons, not_or] at hz
      rw [upd_ne _ _ hz.1]
      exact hg.2 z hz.2
  have setVar : ∀ x b k, x ∈ t.names → keq b.key k = true → ∀ kept,
      GivenOk keq (upd g x (some k)) ⟨SSt.rebind t.vars x b, kept⟩ := by
    intro x b k hx hk kept
    refine ⟨?_, ?_⟩
    · intro z c hz
      rcases mem_rebind.1 hz with ⟨rfl, rfl, _⟩ | ⟨hzx, hz⟩
      · exact ⟨k, upd_self .., hk⟩
      · rw [upd_ne _ _ hzx]
        exact hg.1 z c hz
    · intro z hz
      simp only [SSt.names, rebind_names] at hz
      have hzx : z ≠ x := fun h => hz (h ▸ hx)
      rw [upd_ne _ _ hzx]
      exact hg.2 z hz
  cases hs with
  | init => exact hg
  | make x src b t₁ hc =>
    simp [Op.valid] at hv
    obtain ⟨h1, h2, _⟩ := h.create L hv.2 hc
    rw [h1]
    exact addVar x b _ hv.1 h2 _
  | makeThrow => exact hg
  | copy x y b hb =>
    simp [Op.valid] at hv
    obtain ⟨k, h1, h2⟩ := hg.1 y b hb
    simp only [givenStep, h1]
    exact addVar x b _ hv.1 h2 _
  | move x y b hb =>
    simp [Op.valid] at hv
    obtain ⟨k, h1, h2⟩ := hg.1 y b hb
    simp only [givenStep, h1]
    exact addVar x b _ hv.1 h2 _
  | assign x y b hb =>
    simp [Op.valid] at hv
    obtain ⟨k, h1, h2⟩ := hg.1 y b hb
    simp only [givenStep, h1]
    exact setVar x b _ hv.1 h2 _
  | assignVal x src b t₁ hc =>
    simp [Op.valid] at hv
    obtain ⟨h1, h2, _⟩ := h.create L hv.2 hc
    rw [h1]
    exact setVar x b _ hv.1 h2 _
  | assignValThrow => exact hg
  | swap x y b c hb hc =>
    obtain ⟨k, h1, h2⟩ := hg.1 x b hb
    obtain ⟨l, h3, h4⟩ := hg.1 y c hc
    simp only [givenStep, h1, h3]
    refine ⟨?_, ?_⟩
    · intro z d hz
      rcases mem_rebind.1 hz with ⟨rfl, rfl, _⟩ | ⟨hzy, hz⟩
      · exact ⟨k, upd_self .., h2⟩
      · rw [upd_ne _ _ hzy]
        rcases mem_rebind.1 hz with ⟨rfl, rfl, _⟩ | ⟨hzx, hz⟩
        · exact ⟨l, upd_self .., h4⟩
        · rw [upd_ne _ _ hzx]
          exact hg.1 z d hz
    · intro z hz
      simp only [SSt.names, rebind_names] at hz
      have hzy : z ≠ y := fun h => hz (h ▸ name hc)
      have hzx : z ≠ x := fun h => hz (h ▸ name hb)
      rw [upd_ne _ _ hzy, upd_ne _ _ hzx]
      exact hg.2 z hz
  | destroy x =>
    refine ⟨?_, ?_⟩
    · intro z c hz
      have := List.mem_filter.1 hz
      simp only [ne_eq, decide_not, Bool.not_eq_true', decide_eq_false_iff_not] at this
      simp only [givenStep]
      rw [upd_ne _ _ this.2]
      exact hg.1 z c this.1
    · intro z hz
      simp only [givenStep]
      by_cases hzx : z = x
      · rw [hzx, upd_self]
      · rw [upd_ne _ _ hzx]
        refine hg.2 z fun hin => hz ?_
        obtain ⟨p, hp, rfl⟩ := List.mem_map.1 hin
        exact List.mem_map.2 ⟨p, List.mem_filter.2 ⟨hp, by simpa using hzx⟩, rfl⟩
  | get => exact hg
  | getKey => exact hg
  | eq => exact hg
  | hash => exact hg

theorem SRun.given {trk : Tracking} {keq : K → K → Bool} {sp : SrcSpec K V} (L : sp.Lawful keq)
    {hp : Nat → Nat} {t t' : SSt K V} {ops : List (Op K V)} {outs : List (Out K V)}
    (hr : SRun trk keq sp hp t ops outs t') {g : Nat → Option K} (h : SOk trk keq t)
    (hg : GivenOk keq g t) : GivenOk keq (Verif.given sp g ops outs) t' := by
  induction hr generalizing g with
  | nil => exact hg
  | step hv hs _ ih => exact ih (hs.ok L h hv) (hs.given L h hg hv)
  | skip _ _ ih => exact ih h hg

/-- An operation that does not touch `x` keeps its binding. -/
theorem SStep.keep {trk : Tracking} {keq : K → K → Bool} {sp : SrcSpec K V}
    {hp : Nat → Nat} {t t' : SSt K V} {op : Op K V} {out : Out K V} {x : Nat} {b : Bind K V}
    (hs : SStep trk keq sp hp t op out t') (ht : op.touches x = false)
    (hx : (x, b) ∈ t.vars) : (x, b) ∈ t'.vars := by
  have hcv : ∀ {src c t₁}, Create trk keq sp t src c t₁ → t₁.vars = t.vars := by
    intro src c t₁ hc
    cases hc <;> rfl
  cases hs with
  | init => exact hx
  | make y src c t₁ hc => exact List.mem_cons_of_mem _ (by rw [hcv hc]; exact hx)
  | makeThrow => exact hx
  | copy y z c hc => exact List.mem_cons_of_mem _ hx
  | move y z c hc => exact List.mem_cons_of_mem _ hx
  | assign y z c hc =>
    simp [Op.touches] at ht
    exact mem_rebind.2 (Or.inr ⟨fun h => ht h.symm, hx⟩)
  | assignVal y src c t₁ hc =>
    simp [Op.touches] at ht
    refine mem_rebind.2 (Or.inr ⟨fun h => ht h.symm, ?_⟩)
    rw [hcv hc]; exact hx
  | assignValThrow => exact hx
  | swap y z c d hc hd =>
    simp [Op.touches] at ht
    exact mem_rebind.2 (Or.inr ⟨fun h => ht.2 h.symm, mem_rebind.2 (Or.inr ⟨fun h => ht.1 h.symm, hx⟩)⟩)
  | destroy y =>
    simp [Op.touches] at ht
    exact List.mem_filter.2 ⟨hx, by simpa using fun h => ht h.symm⟩
  | get => exact hx
  | getKey => exact hx
  | eq => exact hx
  | hash => exact hx

theorem SRun.keep {trk : Tracking} {keq : K → K → Bool} {sp : SrcSpec K V}
    {hp : Nat → Nat} {t t' : SSt K V} {ops : List (Op K V)} {outs : List (Out K V)} {x : Nat}
    {b : Bind K V} (hr : SRun trk keq sp hp t ops outs t') (ht : ∀ op ∈ ops, op.touches x = false)
    (hx : (x, b) ∈ t.vars) : (x, b) ∈ t'.vars := by
  induction hr with
  | nil => exact hx
  | step hv hs _ ih =>
    exact ih (fun op h => ht op (List.mem_cons_of_mem _ h))
      (hs.keep (ht _ (List.mem_cons_self ..)) hx)
  | skip _ _ ih => exact ih (fun op h => ht op (List.mem_cons_of_mem _ h)) hx

/-- Created triples are kept for ever. -/
theorem SStep.kept {trk : Tracking} {keq : K → K → Bool} {sp : SrcSpec K V}
    {hp : Nat → Nat} {t t' : SSt K V} {op : Op K V} {out : Out K V} {b : Bind K V}
    (hs : SStep trk keq sp hp t op out t') (hb : b ∈ t.kept) : b ∈ t'.kept := by
  have hcv : ∀ {src c t₁}, Create trk keq sp t src c t₁ → b ∈ t₁.kept := by
    intro src c t₁ hc
    cases hc with
    | share => exact hb
    | fresh => exact List.mem_cons_of_mem _ hb
  cases hs with
  | make y src c t₁ hc => exact hcv (t₁ := t₁) hc
  | assignVal y src c t₁ hc => exact hcv (t₁ := t₁) hc
  | _ => exact hb

theorem SRun.kept {trk : Tracking} {keq : K → K → Bool} {sp : SrcSpec K V}
    {hp : Nat → Nat} {t t' : SSt K V} {ops : List (Op K V)} {outs : List (Out K V)}
    {b : Bind K V} (hr : SRun trk keq sp hp t ops outs t') (hb : b ∈ t.kept) : b ∈ t'.kept := by
  induction hr with
  | nil => exact hb
  | step _ hs _ ih => exact ih (hs.kept hb)
  | skip _ _ ih => exact ih hb

/-- With `no_tracking` the triples kept are those asked for.  (No code of its own: used in
statements and proofs.) -/
def AskedOk (keq : K → K → Bool) (A : List K) (t : SSt K V) : Prop :=
  (∀ k ∈ A, ∃ b ∈ t.kept, keq b.key k = true) ∧ ∀ b ∈ t.kept, ∃ k ∈ A, keq b.key k = true

theorem AskedOk.create {keq : K → K → Bool} {sp : SrcSpec K V} (L : sp.Lawful keq) {A : List K}
    {t t' : SSt K V} (h : AskedOk keq A t) {src : Src K V} {b : Bind K V}
    (hsup : sp.supports src = true) (hc : Create .noTracking keq sp t src b t') :
    AskedOk keq (A ++ [sp.key0 src]) t' := by
  cases hc with
  | share _ hb hk =>
    refine ⟨fun k hkm => ?_, fun c hc => ?_⟩
    · rcases List.mem_append.1 hkm with h1 | h1
      · exact h.1 k h1
      · rw [List.mem_singleton.1 h1]; exact ⟨b, hb, hk⟩
    · obtain ⟨k, h1, h2⟩ := h.2 c hc
      exact ⟨k, List.mem_append_left _ h1, h2⟩
  | fresh a hk ha =>
    refine ⟨fun k hkm => ?_, fun c hc => ?_⟩
    · rcases List.mem_append.1 hkm with h1 | h1
      · obtain ⟨c, h2, h3⟩ := h.1 k h1
        exact ⟨c, List.mem_cons_of_mem _ h2, h3⟩
      · rw [List.mem_singleton.1 h1]
        exact ⟨_, List.mem_cons_self, L.contract _ hsup⟩
    · rcases List.mem_cons.1 hc with rfl | hc
      · exact ⟨sp.key0 src, by simp, L.contract _ hsup⟩
      · obtain ⟨k, h1, h2⟩ := h.2 c hc
        exact ⟨k, List.mem_append_left _ h1, h2⟩

theorem SRun.asked {keq : K → K → Bool} {sp : SrcSpec K V} (L : sp.Lawful keq)
    {hp : Nat → Nat} {t t' : SSt K V} {ops : List (Op K V)} {outs : List (Out K V)}
    (hr : SRun .noTracking keq sp hp t ops outs t') {A : List K} (h : AskedOk keq A t) :
    AskedOk keq (A ++ Verif.asked sp ops outs) t' := by
  induction hr generalizing A with
  | nil => simpa [Verif.asked] using h
  | @step t op out t₁ ops outs t₂ hv hs _ ih =>
    have key : ∀ B, AskedOk keq (A ++ B) t₁ → Verif.asked sp (op :: ops) (out :: outs) =
        B ++ Verif.asked sp ops outs → AskedOk keq (A ++ Verif.asked sp (op :: ops) (out :: outs)) t₂ := by
      intro B h1 h2
      rw [h2, ← List.append_assoc]
      exact ih h1
    cases hs with
    | make x src b t₁ hc =>
      simp [Op.valid] at hv
      have h' := h.create L hv.2 hc
      exact key [sp.key0 src] ⟨h'.1, h'.2⟩ rfl
    | assignVal x src b t₁ hc =>
      simp [Op.valid] at hv
      have h' := h.create L hv.2 hc
      exact key [sp.key0 src] ⟨h'.1, h'.2⟩ rfl
    | _ => exact key [] (by simpa [AskedOk] using h) rfl
  | @skip t op ops outs t₂ hv _ ih =>
    have : Verif.asked sp (op :: ops) (.skipped :: outs) = Verif.asked sp ops outs := by
      cases op <;> rfl
    rw [this]
    exact ih h

end Verif

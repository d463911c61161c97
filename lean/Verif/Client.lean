import Verif.Operators

/-!
# Programs that use flyweights, statement by statement

Programs with local flyweight variables, written as computations of the model,
and rules to reason about them.  `View` says what all flyweight variables are
bound to.
-/

set_option autoImplicit false

namespace Verif
namespace Client

section
variable {K V Rep F : Type}

/-- `Flyweight x(...);` followed by the rest of the block: `x` is destroyed at the end of the block and if an exception
leaves it.  (The user's program, no code of the library.) -/
def local' {α : Type} (S : Setup K V Rep F) (x : Nat) (ctor : M (St Rep F) Unit) (rest : M (St Rep F) α) :
    M (St Rep F) α := do
  ctor
  M.scope rest (Core.destroy S.P S.Fa S.trk x)

/-- A block with a stream of its own; the result includes the final state of the stream.  (The user's program, no code of
the library.) -/
def withStream {Str α : Type} (str : Str) (m : M (Str × St Rep F) α) : M (St Rep F) (α × Str) := fun s =>
  match m (str, s) with
  | .ok a p => .ok (a, p.1) p.2
  | .exc p => .exc p.2
  | .ub => .ub

/-- Made from some source.  (No code of its own: used in statements and proofs.) -/
def Made (sp : SrcSpec K V) (b : Bind K V) : Prop :=
  ∃ src, sp.supports src = true ∧ b.key = sp.key1 src ∧ b.val = sp.val src

/-- All triples are made from some source.  (No code of its own: used in statements and proofs.) -/
def AllMade (sp : SrcSpec K V) (t : SSt K V) : Prop :=
  (∀ p ∈ t.vars, Made sp p.2) ∧ ∀ b ∈ t.kept, Made sp b

theorem AllMade.create {trk : Tracking} {keq : K → K → Bool} {sp : SrcSpec K V} {t t' : SSt K V} {src : Src K V}
    {b : Bind K V} (h : AllMade sp t) (hs : sp.supports src = true) (hc : Create trk keq sp t src b t') :
    AllMade sp t' ∧ Made sp b := by
  cases hc with
  | share _ hb _ =>
    refine ⟨h, ?_⟩
    cases trk with
    | refcounted =>
      obtain ⟨p, hp, rfl⟩ := List.mem_map.1 hb
      exact h.1 p hp
    | noTracking => exact h.2 b hb
  | fresh a _ _ =>
    have hm : Made sp (⟨a, sp.key1 src, sp.val src⟩ : Bind K V) := ⟨src, hs, rfl, rfl⟩
    exact ⟨⟨h.1, fun c hc => (List.mem_cons.1 hc).elim (fun e => e ▸ hm) (h.2 c)⟩, hm⟩

theorem rebind_mem {vars : List (Nat × Bind K V)} {x : Nat} {b : Bind K V} {p : Nat × Bind K V}
    (h : p ∈ SSt.rebind vars x b) : p.2 = b ∨ p ∈ vars := by
  obtain ⟨q, hq, rfl⟩ := List.mem_map.1 h
  by_cases hx : q.1 = x
  · exact .inl (by simp [hx])
  · exact .inr (by simpa [hx] using hq)

theorem AllMade.step {trk : Tracking} {keq : K → K → Bool} {sp : SrcSpec K V} {hp : Nat → Nat} {t t' : SSt K V}
    {op : Op K V} {out : Out K V} (h : AllMade sp t) (hv : op.valid sp t.names = true)
    (hs : SStep trk keq sp hp t op out t') : AllMade sp t' := by
  cases hs with
  | make x src b t₁ hc =>
    simp [Op.valid] at hv
    obtain ⟨h1, h2⟩ := h.create hv.2 hc
    exact ⟨fun p hp => (List.mem_cons.1 hp).elim (fun e => e ▸ h2) (h1.1 p), h1.2⟩
  | assignVal x src b t₁ hc =>
    simp [Op.valid] at hv
    obtain ⟨h1, h2⟩ := h.create hv.2 hc
    exact ⟨fun p hp => (rebind_mem hp).elim (fun e => e ▸ h2) (h1.1 p), h1.2⟩
  | copy x y b hb => exact ⟨fun p hp => (List.mem_cons.1 hp).elim (fun e => e ▸ h.1 (y, b) hb) (h.1 p), h.2⟩
  | move x y b hb => exact ⟨fun p hp => (List.mem_cons.1 hp).elim (fun e => e ▸ h.1 (y, b) hb) (h.1 p), h.2⟩
  | assign x y b hb => exact ⟨fun p hp => (rebind_mem hp).elim (fun e => e ▸ h.1 _ hb) (h.1 p), h.2⟩
  | swap x y b c hx hy =>
    exact ⟨fun p hp => (rebind_mem hp).elim (fun e => e ▸ h.1 _ hx) fun hp =>
      (rebind_mem hp).elim (fun e => e ▸ h.1 _ hy) (h.1 p), h.2⟩
  | destroy x => exact ⟨fun p hp => h.1 p (List.mem_filter.1 hp).1, h.2⟩
  | _ => exact h

theorem AllMade.run {trk : Tracking} {keq : K → K → Bool} {sp : SrcSpec K V} {hp : Nat → Nat} {t t' : SSt K V}
    {ops : List (Op K V)} {outs : List (Out K V)} (hr : SRun trk keq sp hp t ops outs t') (h : AllMade sp t) :
    AllMade sp t' := by
  induction hr with
  | nil => exact h
  | step hv hs _ ih => exact ih (h.step hv hs)
  | skip _ _ ih => exact ih h

/-! ## Views -/

/-- The flyweight variables that exist, and their triples.  (No code of its own: used in
statements and proofs.) -/
abbrev Store (K V : Type) := Nat → Option (Bind K V)

/-- The state is sound and its variables are those of `w`.  (No code of its own: used in
statements and proofs.) -/
def View (S : Setup K V Rep F) (fl : Nat → Bool) (w : Store K V) (s : St Rep F) : Prop :=
  ∃ t, Setup.Sim S fl s t ∧ SOk S.trk S.keq t ∧ AllMade S.sp t ∧ ∀ x b, (x, b) ∈ t.vars ↔ w x = some b

variable {S : Setup K V Rep F} {fl : Nat → Bool} {w : Store K V} {s : St Rep F}

/-- What is seen is what the view says. -/
theorem View.sees (h : View S fl w s) (x a : Nat) (k : K) (v : V) : S.Sees s x a k v ↔ w x = some ⟨a, k, v⟩ := by
  obtain ⟨t, h1, _, _, h4⟩ := h
  rw [Setup.sees_iff h1, h4]

theorem View.get (h : View S fl w s) {x : Nat} {b : Bind K V} (hx : w x = some b) :
    Core.get S.P S.Fa x s = .ok (b.addr, b.val) s := ((h.sees x b.addr b.key b.val).2 hx).1

theorem View.getKey (h : View S fl w s) {x : Nat} {b : Bind K V} (hx : w x = some b) :
    Core.getKey S.P S.Fa x s = .ok b.key s := ((h.sees x b.addr b.key b.val).2 hx).2

/-- Triples with equivalent keys or equal addresses are the same. -/
theorem View.same (h : View S fl w s) {x y : Nat} {b c : Bind K V} (hx : w x = some b) (hy : w y = some c) :
    (b.addr = c.addr ↔ S.keq b.key c.key = true) ∧ (b.addr = c.addr → b = c) := by
  obtain ⟨t, _, h2, _, h4⟩ := h
  have hb := h2.bound ((h4 x b).2 hx)
  have hc := h2.bound ((h4 y c).2 hy)
  refine ⟨⟨fun e => ?_, fun e => by rw [h2.key b hb c hc e]⟩, h2.addr b hb c hc⟩
  rw [h2.addr b hb c hc e]
  exact S.LS.refl _

theorem View.made (h : View S fl w s) {x : Nat} {b : Bind K V} (hx : w x = some b) : Made S.sp b := by
  obtain ⟨t, _, _, h3, h4⟩ := h
  exact h3.1 _ ((h4 x b).2 hx)

/-- Every state a program reaches has a view. -/
theorem View.of_reach (h : S.Reach s) : ∃ fl w, View S fl w s := by
  obtain ⟨hp, fl, alloc, ops, outs, hal, hr⟩ := h
  obtain ⟨t, h1, h2, h3, _⟩ := Setup.run_sim hal hr
  refine ⟨fl, fun x => t.vars.lookup x, t, h2, h3, AllMade.run h1 ⟨fun _ h => (nomatch h), fun _ h => (nomatch h)⟩,
    fun x b => ?_⟩
  constructor
  · intro hx
    obtain ⟨c, hc⟩ := Assoc.lookup_of_name (l := t.vars) (x := x) (List.mem_map.2 ⟨_, hx, rfl⟩)
    have := bind_unique h3.nodup hx (Assoc.lookup_mem hc)
    exact this ▸ hc
  · exact Assoc.lookup_mem

/-- Names of variables. -/
theorem View.name {t : SSt K V} (h : ∀ x b, (x, b) ∈ t.vars ↔ w x = some b) (x : Nat) :
    t.names.contains x = (w x).isSome := by
  cases hw : w x with
  | some b => simpa [SSt.names] using ⟨b, (h x b).2 hw⟩
  | none =>
    have : x ∉ t.names := by
      intro hx
      obtain ⟨⟨y, b⟩, hb, rfl⟩ := List.mem_map.1 hx
      rw [(h y b).1 hb] at hw
      cases hw
    simpa using this

/-! ## Rules -/

/-- The conclusion of the operation, given how the variables changed. -/
theorem View.after {op : Op K V} {out : Out K V} {t t' : SSt K V} {s' : St Rep F} {w' : Store K V} {hp : Nat → Nat}
    (h2 : SOk S.trk S.keq t) (h3 : AllMade S.sp t) (hv : op.valid S.sp t.names = true)
    (hs : SStep S.trk S.keq S.sp hp t op out t') (hS : Setup.Sim S fl s' t')
    (h4 : ∀ x b, (x, b) ∈ t'.vars ↔ w' x = some b) : View S fl w' s' :=
  ⟨t', hS, hs.ok S.LS h2 hv, h3.step hv hs, h4⟩

theorem step_unit {m : M (St Rep F) Unit} {Q : Out K V → St Rep F → Prop} {E : St Rep F → Prop}
    (h : Triple (· = s) (m >>= fun _ => pure Out.done) Q E) : match m s with
      | .ok _ s' => Q .done s'
      | .exc s' => E s'
      | .ub => False := by
  have h := h s rfl
  simp only [bind, M.bind] at h
  cases hm : m s <;> rw [hm] at h <;> exact h

theorem cons_mem {x y : Nat} {b c : Bind K V} {vars : List (Nat × Bind K V)} (h4 : ∀ x b, (x, b) ∈ vars ↔ w x = some b)
    (hx : w x = none) : (y, c) ∈ (x, b) :: vars ↔ upd w x (some b) y = some c := by
  rw [List.mem_cons, h4]
  by_cases hy : y = x
  · subst hy
    rw [upd_self, hx]
    constructor
    · rintro (h | h)
      · cases h; rfl
      · cases h
    · intro h
      cases h
      exact .inl rfl
  · rw [upd_ne _ _ hy]
    exact ⟨fun h => h.elim (fun e => absurd (congrArg Prod.fst e) hy) id, .inr⟩

theorem rebind_iff {x y : Nat} {b c : Bind K V} {vars : List (Nat × Bind K V)} (h4 : ∀ x b, (x, b) ∈ vars ↔ w x = some b)
    {d : Bind K V} (hx : w x = some d) : (y, c) ∈ SSt.rebind vars x b ↔ upd w x (some b) y = some c := by
  by_cases hy : y = x
  · subst hy
    rw [upd_self]
    constructor
    · intro h
      obtain ⟨q, hq, he⟩ := List.mem_map.1 h
      by_cases hqx : q.1 = y
      · rw [if_pos hqx] at he
        cases he
        rfl
      · rw [if_neg hqx] at he
        subst he
        exact absurd rfl hqx
    · intro h
      cases h
      exact List.mem_map.2 ⟨(y, d), (h4 y d).2 hx, by simp⟩
  · rw [upd_ne _ _ hy, ← h4]
    constructor
    · intro h
      obtain ⟨q, hq, he⟩ := List.mem_map.1 h
      by_cases hqx : q.1 = x
      · rw [if_pos hqx] at he
        exact absurd (congrArg Prod.fst he).symm hy
      · rw [if_neg hqx] at he
        exact he ▸ hq
    · intro h
      exact List.mem_map.2 ⟨(y, c), h, by simp [hy]⟩

/-- A new flyweight. -/
theorem View.make (h : View S fl w s) {x : Nat} {src : Src K V} (hx : w x = none) (hs : S.sp.supports src = true) :
    match Core.make S.P S.Fa S.trk x src s with
    | .ok _ s' => ∃ b, View S fl (upd w x (some b)) s' ∧ S.keq b.key (S.sp.key0 src) = true
    | .exc s' => View S fl w s' ∧ ∃ n, fl n = true
    | .ub => False := by
  obtain ⟨t, h1, h2, h3, h4⟩ := h
  have hv : (Op.make x src : Op K V).valid S.sp t.names = true := by
    simp only [Op.valid, View.name h4, hx, hs]
    rfl
  have := step_unit (m := Core.make S.P S.Fa S.trk x src) (Setup.step_sim h1 id hv)
  cases hm : Core.make S.P S.Fa S.trk x src s with
  | ok a s' =>
    rw [hm] at this
    obtain ⟨_, t', g1, g2⟩ := this
    have g1' := g1
    cases g1 with
    | make _ _ b t₁ hc =>
      obtain ⟨c1, c2, _⟩ := h2.create S.LS hs hc
      refine ⟨b, View.after h2 h3 hv g1' g2 fun y c => ?_, c2⟩
      show (y, c) ∈ (x, b) :: t₁.vars ↔ _
      rw [c1]
      exact cons_mem h4 hx
  | exc s' =>
    rw [hm] at this
    exact ⟨⟨t, this.2.1, h2, h3, h4⟩, this.2.2⟩
  | ub => rw [hm] at this; exact this

/-- Assignment of a value. -/
theorem View.assignVal (h : View S fl w s) {x : Nat} {d : Bind K V} {src : Src K V} (hx : w x = some d)
    (hs : S.sp.supports src = true) :
    match Core.assignVal S.P S.Fa S.trk x src s with
    | .ok _ s' => ∃ b, View S fl (upd w x (some b)) s' ∧ S.keq b.key (S.sp.key0 src) = true
    | .exc s' => View S fl w s' ∧ ∃ n, fl n = true
    | .ub => False := by
  obtain ⟨t, h1, h2, h3, h4⟩ := h
  have hv : (Op.assignVal x src : Op K V).valid S.sp t.names = true := by
    simp only [Op.valid, View.name h4, hx, hs]
    rfl
  have := step_unit (m := Core.assignVal S.P S.Fa S.trk x src) (Setup.step_sim h1 id hv)
  cases hm : Core.assignVal S.P S.Fa S.trk x src s with
  | ok a s' =>
    rw [hm] at this
    obtain ⟨_, t', g1, g2⟩ := this
    have g1' := g1
    cases g1 with
    | assignVal _ _ b t₁ hc =>
      obtain ⟨c1, c2, _⟩ := h2.create S.LS hs hc
      refine ⟨b, View.after h2 h3 hv g1' g2 fun y c => ?_, c2⟩
      show (y, c) ∈ SSt.rebind t₁.vars x b ↔ _
      rw [c1]
      exact rebind_iff h4 hx
  | exc s' =>
    rw [hm] at this
    exact ⟨⟨t, this.2.1, h2, h3, h4⟩, this.2.2⟩
  | ub => rw [hm] at this; exact this

/-- The copy and move constructors. -/
theorem View.copy (h : View S fl w s) {x y : Nat} {b : Bind K V} (hx : w x = none) (hy : w y = some b) :
    ∃ s', Core.copy S.Fa S.trk x y s = .ok () s' ∧ View S fl (upd w x (some b)) s' := by
  obtain ⟨t, h1, h2, h3, h4⟩ := h
  have hv : (Op.copy x y : Op K V).valid S.sp t.names = true := by
    simp only [Op.valid, View.name h4, hx, hy]
    rfl
  have := step_unit (m := Core.copy S.Fa S.trk x y) (Setup.step_sim h1 id hv)
  cases hm : Core.copy S.Fa S.trk x y s with
  | ok a s' =>
    rw [hm] at this
    obtain ⟨_, t', g1, g2⟩ := this
    have g1' := g1
    cases g1 with
    | copy _ _ c hc =>
      have : c = b := Option.some.inj (((h4 y c).1 hc).symm.trans hy)
      subst this
      exact ⟨s', rfl, View.after h2 h3 hv g1' g2 fun z c => cons_mem h4 hx⟩
  | exc s' => rw [hm] at this; nomatch this.1
  | ub => rw [hm] at this; exact this.elim

/-- Assignment of a flyweight. -/
theorem View.assign (h : View S fl w s) {x y : Nat} {b d : Bind K V} (hx : w x = some d) (hy : w y = some b) :
    ∃ s', Core.assign S.P S.Fa S.trk x y s = .ok () s' ∧ View S fl (upd w x (some b)) s' := by
  obtain ⟨t, h1, h2, h3, h4⟩ := h
  have hv : (Op.assign x y : Op K V).valid S.sp t.names = true := by
    simp only [Op.valid, View.name h4, hx, hy]
    rfl
  have := step_unit (m := Core.assign S.P S.Fa S.trk x y) (Setup.step_sim h1 id hv)
  cases hm : Core.assign S.P S.Fa S.trk x y s with
  | ok a s' =>
    rw [hm] at this
    obtain ⟨_, t', g1, g2⟩ := this
    have g1' := g1
    cases g1 with
    | assign _ _ c hc =>
      have : c = b := Option.some.inj (((h4 y c).1 hc).symm.trans hy)
      subst this
      exact ⟨s', rfl, View.after h2 h3 hv g1' g2 fun z c => rebind_iff h4 hx⟩
  | exc s' => rw [hm] at this; nomatch this.1
  | ub => rw [hm] at this; exact this.elim

/-- Swapping. -/
theorem View.swap (h : View S fl w s) {x y : Nat} {b c : Bind K V} (hx : w x = some b) (hy : w y = some c) :
    ∃ s', (Core.swap x y : M (St Rep F) Unit) s = .ok () s' ∧ View S fl (upd (upd w x (some c)) y (some b)) s' := by
  obtain ⟨t, h1, h2, h3, h4⟩ := h
  have hv : (Op.swap x y : Op K V).valid S.sp t.names = true := by
    simp only [Op.valid, View.name h4, hx, hy]
    rfl
  have := step_unit (m := Core.swap x y) (Setup.step_sim h1 id hv)
  cases hm : (Core.swap x y : M (St Rep F) Unit) s with
  | ok a s' =>
    rw [hm] at this
    obtain ⟨_, t', g1, g2⟩ := this
    have g1' := g1
    cases g1 with
    | swap _ _ b' c' hb hc =>
      have : b' = b := Option.some.inj (((h4 x b').1 hb).symm.trans hx)
      subst this
      have : c' = c := Option.some.inj (((h4 y c').1 hc).symm.trans hy)
      subst this
      obtain ⟨d, hd⟩ : ∃ d, upd w x (some c') y = some d := by
        by_cases hyx : y = x
        · exact ⟨c', by rw [hyx, upd_self]⟩
        · exact ⟨c', by rw [upd_ne _ _ hyx, hy]⟩
      exact ⟨s', rfl, View.after h2 h3 hv g1' g2 fun z e => rebind_iff (fun z e => rebind_iff h4 hx) hd⟩
  | exc s' => rw [hm] at this; nomatch this.1
  | ub => rw [hm] at this; exact this.elim

/-- Destruction. -/
theorem View.destroy (h : View S fl w s) {x : Nat} {b : Bind K V} (hx : w x = some b) :
    ∃ s', Core.destroy S.P S.Fa S.trk x s = .ok () s' ∧ View S fl (upd w x none) s' := by
  obtain ⟨t, h1, h2, h3, h4⟩ := h
  have hv : (Op.destroy x : Op K V).valid S.sp t.names = true := by
    simp only [Op.valid, View.name h4, hx]
    rfl
  have := step_unit (m := Core.destroy S.P S.Fa S.trk x) (Setup.step_sim h1 id hv)
  cases hm : Core.destroy S.P S.Fa S.trk x s with
  | ok a s' =>
    rw [hm] at this
    obtain ⟨_, t', g1, g2⟩ := this
    have g1' := g1
    cases g1 with
    | destroy _ =>
      refine ⟨s', rfl, View.after h2 h3 hv g1' g2 fun z c => ?_⟩
      rw [List.mem_filter, h4]
      by_cases hz : z = x
      · subst hz
        simp [upd_self]
      · simp [upd_ne _ _ hz, hz]
  | exc s' => rw [hm] at this; nomatch this.1
  | ub => rw [hm] at this; exact this.elim

/-! ## Blocks -/

/-- A view in which the variables other than `L` are as in `w`, and those of `L` exist.  (No code of its own: used in
statements and proofs.) -/
def Within (S : Setup K V Rep F) (fl : Nat → Bool) (w : Store K V) (L : List Nat) (s : St Rep F) : Prop :=
  ∃ w', View S fl w' s ∧ (∀ y, y ∉ L → w' y = w y) ∧ ∀ y ∈ L, ∃ b, w' y = some b

theorem Within.nil {s : St Rep F} (h : Within S fl w [] s) : View S fl w s := by
  obtain ⟨w', h1, h2, _⟩ := h
  have : w' = w := funext fun y => h2 y (by simp)
  exact this ▸ h1

theorem Within.destroy {L : List Nat} {x : Nat} (hx : x ∉ L) (hw : w x = none) :
    Triple (Within S fl w (x :: L)) (Core.destroy S.P S.Fa S.trk x) (fun _ => Within S fl w L) (fun _ => False) := by
  rintro s ⟨w', h1, h2, h3⟩
  obtain ⟨b, hb⟩ := h3 x (by simp)
  obtain ⟨s', g1, g2⟩ := h1.destroy hb
  rw [g1]
  refine ⟨upd w' x none, g2, fun y hy => ?_, fun y hy => ?_⟩
  · by_cases hyx : y = x
    · rw [hyx, upd_self, hw]
    · rw [upd_ne _ _ hyx]
      exact h2 y (by simp [hyx, hy])
  · have hyx : y ≠ x := fun e => hx (e ▸ hy)
    rw [upd_ne _ _ hyx]
    exact h3 y (by simp [hy])

/-- A block with a local variable. -/
theorem local_rule {α : Type} {v : Store K V} {L : List Nat} {x : Nat} {ctor : M (St Rep F) Unit} {rest : M (St Rep F) α}
    {Q : α → Prop} {I : Bind K V → Prop} (hx : x ∉ L) (hw : w x = none)
    (h1 : Triple (View S fl v) ctor (fun _ s => ∃ b, I b ∧ View S fl (upd v x (some b)) s)
      (fun s => Within S fl w L s ∧ ∃ n, fl n = true))
    (h2 : ∀ b, I b → Triple (View S fl (upd v x (some b))) rest (fun r s => Q r ∧ Within S fl w (x :: L) s)
      (fun s => Within S fl w (x :: L) s ∧ ∃ n, fl n = true)) :
    Triple (View S fl v) (local' S x ctor rest) (fun r s => Q r ∧ Within S fl w L s)
      (fun s => Within S fl w L s ∧ ∃ n, fl n = true) := by
  refine Triple.bind h1 fun _ => ?_
  refine Triple.scope (R := fun r s => Q r ∧ Within S fl w (x :: L) s)
    (RE := fun s => Within S fl w (x :: L) s ∧ ∃ n, fl n = true) ?_ ?_ ?_
  · rintro s ⟨b, hb, hv⟩
    exact h2 b hb s hv
  · intro r s hs
    have := Within.destroy hx hw s hs.2
    cases hm : Core.destroy S.P S.Fa S.trk x s <;> rw [hm] at this
    · exact ⟨hs.1, this⟩
    · exact this
    · exact this
  · intro s hs
    have := Within.destroy hx hw s hs.1
    cases hm : Core.destroy S.P S.Fa S.trk x s <;> rw [hm] at this
    · exact ⟨this, hs.2⟩
    · exact this
    · exact this

/-- A flyweight type whose keys are compared by equality and whose values are determined by their keys.  (No code of its
own: used in statements and proofs.) -/
structure Regular (S : Setup K V Rep F) (mk : K → V) : Prop where
  keys : ∀ k l, S.keq k l = true ↔ k = l
  inj : ∀ k l, mk k = mk l → k = l
  fromKey : ∀ k, S.sp.supports (.key k) = true ∧ S.sp.key0 (.key k) = k
  vals : ∀ src, S.sp.supports src = true → S.sp.val src = mk (S.sp.key0 src)
  given : ∀ v, S.sp.val (.copy v) = v ∧ S.sp.val (.move v) = v

section
variable {mk : K → V} (R : Regular S mk)
include R

theorem Regular.val (h : View S fl w s) {x : Nat} {b : Bind K V} (hx : w x = some b) : b.val = mk b.key := by
  obtain ⟨src, h1, h2, h3⟩ := h.made hx
  have : b.key = S.sp.key0 src := h2.trans ((R.keys _ _).1 (S.LS.contract src h1))
  rw [h3, R.vals src h1, this]

theorem Regular.addr (h : View S fl w s) {x y : Nat} {b c : Bind K V} (hx : w x = some b) (hy : w y = some c) :
    b.addr = c.addr ↔ b.key = c.key := (h.same hx hy).1.trans (R.keys _ _)

theorem Regular.copied {k : K} (h : S.sp.supports (.copy (mk k)) = true) : S.sp.key0 (.copy (mk k)) = k :=
  (R.inj _ _ ((R.given (mk k)).1.symm.trans (R.vals _ h))).symm

theorem Regular.moved {k : K} (h : S.sp.supports (.move (mk k)) = true) : S.sp.key0 (.move (mk k)) = k :=
  (R.inj _ _ ((R.given (mk k)).2.symm.trans (R.vals _ h))).symm

/-- The triple of a new flyweight. -/
theorem Regular.bound {src : Src K V} {b : Bind K V} {x : Nat} (h : View S fl (upd w x (some b)) s)
    (hk : S.keq b.key (S.sp.key0 src) = true) : b = ⟨b.addr, S.sp.key0 src, mk (S.sp.key0 src)⟩ := by
  have h1 := (R.keys _ _).1 hk
  have h2 := R.val h (upd_self w x (some b))
  cases b
  simp only at h1 h2
  subst h1 h2
  rfl

theorem Regular.make {x : Nat} {src : Src K V} {k : K} (hx : w x = none) (hs : S.sp.supports src = true)
    (hk : S.sp.key0 src = k) :
    Triple (View S fl w) (Core.make S.P S.Fa S.trk x src)
      (fun _ s => ∃ a, View S fl (upd w x (some ⟨a, k, mk k⟩)) s) (fun s => View S fl w s ∧ ∃ n, fl n = true) := by
  intro s h
  have := h.make hx hs
  cases hm : Core.make S.P S.Fa S.trk x src s with
  | ok a s' =>
    rw [hm] at this
    obtain ⟨b, h1, h2⟩ := this
    refine ⟨b.addr, ?_⟩
    have := R.bound h1 h2
    rw [hk] at this
    exact this ▸ h1
  | exc s' => rw [hm] at this; exact this
  | ub => rw [hm] at this; exact this

theorem Regular.assignVal {x : Nat} {src : Src K V} {k : K} {d : Bind K V} (hx : w x = some d) (hs : S.sp.supports src = true)
    (hk : S.sp.key0 src = k) :
    Triple (View S fl w) (Core.assignVal S.P S.Fa S.trk x src)
      (fun _ s => ∃ a, View S fl (upd w x (some ⟨a, k, mk k⟩)) s) (fun s => View S fl w s ∧ ∃ n, fl n = true) := by
  intro s h
  have := h.assignVal hx hs
  cases hm : Core.assignVal S.P S.Fa S.trk x src s with
  | ok a s' =>
    rw [hm] at this
    obtain ⟨b, h1, h2⟩ := this
    refine ⟨b.addr, ?_⟩
    have := R.bound h1 h2
    rw [hk] at this
    exact this ▸ h1
  | exc s' => rw [hm] at this; exact this
  | ub => rw [hm] at this; exact this

end

/-! ## Statements followed by others -/

section
variable {α : Type} {Q : α → St Rep F → Prop} {E : St Rep F → Prop}

theorem get_then {f : Nat × V → M (St Rep F) α} {x : Nat} {b : Bind K V} (hx : w x = some b)
    (h : Triple (View S fl w) (f (b.addr, b.val)) Q E) : Triple (View S fl w) (Core.get S.P S.Fa x >>= f) Q E := by
  intro s hs
  have := h s hs
  simp only [bind, M.bind, hs.get hx]
  exact this

theorem getKey_then {f : K → M (St Rep F) α} {x : Nat} {b : Bind K V} (hx : w x = some b)
    (h : Triple (View S fl w) (f b.key) Q E) : Triple (View S fl w) (Core.getKey S.P S.Fa x >>= f) Q E := by
  intro s hs
  have := h s hs
  simp only [bind, M.bind, hs.getKey hx]
  exact this

theorem eq_then {f : Bool → M (St Rep F) α} {x y : Nat} {b c : Bind K V} (hx : w x = some b) (hy : w y = some c)
    (h : Triple (View S fl w) (f (b.addr == c.addr)) Q E) : Triple (View S fl w) (Core.eq S.P S.Fa x y >>= f) Q E := by
  intro s hs
  have := h s hs
  simp only [Core.eq, bind, M.bind, hs.get hx, hs.get hy]
  exact this

theorem hash_then {hp : Nat → Nat} {f : Nat → M (St Rep F) α} {x : Nat} {b : Bind K V} (hx : w x = some b)
    (h : Triple (View S fl w) (f (hp b.addr)) Q E) : Triple (View S fl w) (Core.hash S.P S.Fa hp x >>= f) Q E := by
  intro s hs
  have := h s hs
  simp only [Core.hash, bind, M.bind, hs.get hx]
  exact this

theorem assign_then {f : Unit → M (St Rep F) α} {x y : Nat} {b d : Bind K V} (hx : w x = some d) (hy : w y = some b)
    (h : Triple (View S fl (upd w x (some b))) (f ()) Q E) :
    Triple (View S fl w) (Core.assign S.P S.Fa S.trk x y >>= f) Q E := by
  intro s hs
  obtain ⟨s', h1, h2⟩ := hs.assign hx hy
  have := h s' h2
  simp only [bind, M.bind, h1]
  exact this

theorem swap_then {f : Unit → M (St Rep F) α} {x y : Nat} {b c : Bind K V} (hx : w x = some b) (hy : w y = some c)
    (h : Triple (View S fl (upd (upd w x (some c)) y (some b))) (f ()) Q E) :
    Triple (View S fl w) (Core.swap x y >>= f) Q E := by
  intro s hs
  obtain ⟨s', h1, h2⟩ := hs.swap hx hy
  have := h s' h2
  simp only [bind, M.bind, h1]
  exact this

theorem assignVal_then {mk : K → V} (R : Regular S mk) {f : Unit → M (St Rep F) α} {x : Nat} {src : Src K V} {k : K}
    {d : Bind K V} (hx : w x = some d) (hs : S.sp.supports src = true) (hk : S.sp.key0 src = k)
    (h : ∀ a, Triple (View S fl (upd w x (some ⟨a, k, mk k⟩))) (f ()) Q E)
    (hE : ∀ s, View S fl w s → (∃ n, fl n = true) → E s) :
    Triple (View S fl w) (Core.assignVal S.P S.Fa S.trk x src >>= f) Q E := by
  refine Triple.bind ((R.assignVal hx hs hk).conseq (fun _ h => h) (fun _ _ h => h) fun s h => hE s h.1 h.2) fun _ => ?_
  rintro s ⟨a, ha⟩
  exact h a s ha

end

end
end Client
end Verif

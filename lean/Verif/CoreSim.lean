import Verif.CoreInsert
import Verif.Assoc
import Batteries.Data.List.Basic

/-!
# Sequential core: simulation of the specification
-/

set_option autoImplicit false

namespace Verif
namespace Setup
open Assoc
variable {K V Rep F : Type} {S : Setup K V Rep F}

/-! ## Lists of variables -/

theorem setVar_count {l : List (Nat × Nat)} (hn : (l.map Prod.fst).Nodup) {x old : Nat} (h : Nat)
    (hx : l.lookup x = some old) (i : Nat) :
    (setVar l x h).countP (fun p => p.2 == i) + (if i = old then 1 else 0) =
      l.countP (fun p => p.2 == i) + (if i = h then 1 else 0) := by
  induction l with
  | nil => simp at hx
  | cons p l ih =>
    obtain ⟨y, b⟩ := p
    simp only [List.map_cons, List.nodup_cons] at hn
    by_cases hy : x = y
    · subst hy
      rw [lookup_head] at hx
      have hb := Option.some.inj hx
      subst hb
      have := setVar_fresh h hn.1
      have hc : setVar ((x, b) :: l) x h = (x, h) :: l := by
        show ((if x = x then (x, h) else (x, b)) :: setVar l x h) = _
        rw [this]; simp
      rw [hc, List.countP_cons, List.countP_cons]
      simp only [beq_iff_eq]
      by_cases h1 : h = i <;> by_cases h2 : b = i
      all_goals simp [h1, h2, eq_comm (a := i)]
    · rw [lookup_tail l b hy] at hx
      have := ih hn.2 hx
      have hc : setVar ((y, b) :: l) x h = (y, b) :: setVar l x h := by
        show ((if y = x then (x, h) else (y, b)) :: setVar l x h) = _
        simp [Ne.symm hy]
      rw [hc, List.countP_cons, List.countP_cons]
      omega

theorem filter_count {l : List (Nat × Nat)} (hn : (l.map Prod.fst).Nodup) {x h : Nat}
    (hx : l.lookup x = some h) (i : Nat) :
    (l.filter fun p => p.1 ≠ x).countP (fun p => p.2 == i) + (if i = h then 1 else 0) =
      l.countP (fun p => p.2 == i) := by
  induction l with
  | nil => simp at hx
  | cons p l ih =>
    obtain ⟨y, b⟩ := p
    simp only [List.map_cons, List.nodup_cons] at hn
    by_cases hy : x = y
    · subst hy
      rw [lookup_head] at hx
      have hb := Option.some.inj hx
      subst hb
      have := filter_fresh hn.1
      rw [List.filter_cons]
      simp only [ne_eq, not_true_eq_false, decide_false, Bool.false_eq_true, if_false]
      rw [show l.filter (fun p => decide ¬p.1 = x) = l from this, List.countP_cons]
      simp [eq_comm (a := i)]
    · rw [lookup_tail l b hy] at hx
      have := ih hn.2 hx
      rw [List.filter_cons]
      simp only [ne_eq, Ne.symm hy, not_false_eq_true, decide_true, if_true]
      rw [List.countP_cons, List.countP_cons]
      simp only [ne_eq] at this
      omega

/-! ## Pairs of related lists -/

/-- The variables of the model and those of the specification agree. -/
def Vars (S : Setup K V Rep F) (s : St Rep F) (objs : List (Nat × Nat)) (vars : List (Nat × Bind K V)) :
    Prop :=
  List.Forall₂ (fun p q => p.1 = q.1 ∧ S.At s p.2 q.2) objs vars

theorem Vars.names {s : St Rep F} {objs : List (Nat × Nat)} {vars : List (Nat × Bind K V)}
    (h : Vars S s objs vars) : vars.map Prod.fst = objs.map Prod.fst := by
  unfold Vars at h
  induction h with
  | nil => rfl
  | cons h _ ih => simp [ih, h.1]

theorem Vars.lookup {s : St Rep F} {objs : List (Nat × Nat)} {vars : List (Nat × Bind K V)}
    (h : Vars S s objs vars) {x i : Nat} (hx : objs.lookup x = some i) :
    ∃ b, (x, b) ∈ vars ∧ S.At s i b := by
  unfold Vars at h
  induction h with
  | nil => simp at hx
  | @cons p q l l' h _ ih =>
    obtain ⟨y, j⟩ := p
    obtain ⟨z, c⟩ := q
    simp only at h
    by_cases hy : x = y
    · subst hy
      rw [lookup_head] at hx
      have hb := Option.some.inj hx
      subst hb
      exact ⟨c, by rw [h.1]; exact List.mem_cons_self .., h.2⟩
    · rw [lookup_tail l j hy] at hx
      obtain ⟨b, hb, hat⟩ := ih hx
      exact ⟨b, List.mem_cons_of_mem _ hb, hat⟩

theorem Vars.of_obj {s : St Rep F} {objs : List (Nat × Nat)} {vars : List (Nat × Bind K V)}
    (h : Vars S s objs vars) {p : Nat × Nat} (hp : p ∈ objs) :
    ∃ q ∈ vars, S.At s p.2 q.2 := by
  unfold Vars at h
  induction h with
  | nil => cases hp
  | cons h _ ih =>
    rcases List.mem_cons.1 hp with rfl | hp
    · exact ⟨_, List.mem_cons_self .., h.2⟩
    · obtain ⟨q, hq, hat⟩ := ih hp
      exact ⟨q, List.mem_cons_of_mem _ hq, hat⟩

theorem Vars.of_var {s : St Rep F} {objs : List (Nat × Nat)} {vars : List (Nat × Bind K V)}
    (h : Vars S s objs vars) {q : Nat × Bind K V} (hq : q ∈ vars) :
    ∃ p ∈ objs, S.At s p.2 q.2 := by
  unfold Vars at h
  induction h with
  | nil => cases hq
  | cons h _ ih =>
    rcases List.mem_cons.1 hq with rfl | hq
    · exact ⟨_, List.mem_cons_self .., h.2⟩
    · obtain ⟨p, hp, hat⟩ := ih hq
      exact ⟨p, List.mem_cons_of_mem _ hp, hat⟩

theorem Vars.mono {s s' : St Rep F} {objs : List (Nat × Nat)} {vars : List (Nat × Bind K V)}
    (h : Vars S s objs vars) (hat : ∀ p ∈ objs, ∀ b, S.At s p.2 b → S.At s' p.2 b) :
    Vars S s' objs vars := by
  unfold Vars at h ⊢
  induction h with
  | nil => exact .nil
  | cons h _ ih =>
    exact .cons ⟨h.1, hat _ (List.mem_cons_self ..) _ h.2⟩
      (ih fun p hp => hat p (List.mem_cons_of_mem _ hp))

theorem Vars.set {s : St Rep F} {objs : List (Nat × Nat)} {vars : List (Nat × Bind K V)}
    (h : Vars S s objs vars) (x : Nat) {i : Nat} {b : Bind K V} (hat : S.At s i b) :
    Vars S s (setVar objs x i) (SSt.rebind vars x b) := by
  unfold Vars setVar SSt.rebind at *
  induction h with
  | nil => exact .nil
  | @cons p q l l' h _ ih =>
    refine .cons ?_ ih
    by_cases hp : p.1 = x
    · have hq : q.1 = x := h.1 ▸ hp
      simp [hp, hq, hat]
    · have hq : q.1 ≠ x := h.1 ▸ hp
      simp [hp, hq, h.1, h.2]

theorem Vars.filter {s : St Rep F} {objs : List (Nat × Nat)} {vars : List (Nat × Bind K V)}
    (h : Vars S s objs vars) (x : Nat) :
    Vars S s (objs.filter fun p => p.1 ≠ x) (vars.filter fun p => p.1 ≠ x) := by
  unfold Vars at *
  induction h with
  | nil => exact .nil
  | @cons p q l l' h _ ih =>
    rw [List.filter_cons, List.filter_cons, ← h.1]
    by_cases hp : p.1 = x
    · simp only [hp, ne_eq, not_true_eq_false, decide_false, Bool.false_eq_true, if_false]
      exact ih
    · simp only [hp, ne_eq, not_false_eq_true, decide_true, if_true]
      exact .cons h ih

/-! ## The simulation relation -/

/-- State of the model and state of the specification agree. -/
structure Rel (S : Setup K V Rep F) (ext : Nat → Nat) (s : St Rep F) (t : SSt K V) : Prop where
  inv : S.Inv ext s
  vars : Vars S s s.objs t.vars
  nodup : (s.objs.map Prod.fst).Nodup
  kept : S.trk = .noTracking → ∀ b, b ∈ t.kept ↔ ∃ i, S.At s i b

/-- No handles held by code in progress.  (No code of its own: used in statements and proofs.) -/
abbrev none : Nat → Nat := fun _ => 0

theorem refs_pos {s : St Rep F} {p : Nat × Nat} (hp : p ∈ s.objs) : 0 < refs s p.2 := by
  unfold refs
  rw [List.countP_pos_iff]
  exact ⟨p, hp, by simp⟩

theorem of_refs_pos {s : St Rep F} {i : Nat} (h : 0 < refs s i) : ∃ p ∈ s.objs, p.2 = i := by
  unfold refs at h
  rw [List.countP_pos_iff] at h
  obtain ⟨p, hp, hi⟩ := h
  exact ⟨p, hp, by simpa using hi⟩

/-- The triples available for sharing are those in the factory. -/
theorem Rel.pool {s : St Rep F} {t : SSt K V} (h : Rel S none s t) (b : Bind K V) :
    b ∈ t.pool S.trk ↔ ∃ i, S.At s i b := by
  cases ht : S.trk with
  | noTracking => exact h.kept ht b
  | refcounted =>
    simp only [SSt.pool, List.mem_map]
    constructor
    · rintro ⟨q, hq, rfl⟩
      obtain ⟨p, _, hat⟩ := h.vars.of_var hq
      exact ⟨_, hat⟩
    · rintro ⟨i, hat⟩
      obtain ⟨e, he, _⟩ := id hat
      obtain ⟨_, hp, _⟩ := h.inv.counts ht i e he
      obtain ⟨p, hp', rfl⟩ := of_refs_pos (i := i) (by simpa [none] using hp)
      obtain ⟨q, hq, hat'⟩ := h.vars.of_obj hp'
      exact ⟨q, hq, hat'.unique hat⟩

/-- Redistribute the handles between variables and code in progress. -/
theorem Inv.reobj {ext ext' : Nat → Nat} {s : St Rep F} (hI : S.Inv ext s) {objs : List (Nat × Nat)}
    (h : ∀ i, objs.countP (fun p => p.2 == i) + ext' i = refs s i + ext i) :
    S.Inv ext' { s with objs := objs } := by
  have hsome : ∀ i, 0 < refs s i + ext i → (S.Fa.entry s.fac i).isSome := by
    intro i hp
    by_cases he : 0 < ext i
    · exact hI.ext i he
    · have hr : 0 < refs s i := by omega
      obtain ⟨p, hp', rfl⟩ := of_refs_pos hr
      exact hI.objs p hp'
  constructor
  · exact hI.fac
  · exact hI.alloc
  · exact hI.full
  · intro ht i e he
    have := hI.counts ht i e he
    rw [← h i] at this
    exact this
  · intro p hp
    apply hsome
    rw [← h]
    have : 0 < objs.countP (fun q => q.2 == p.2) := by
      rw [List.countP_pos_iff]; exact ⟨p, hp, by simp⟩
    omega
  · intro i hi
    apply hsome
    rw [← h]
    omega
  · exact hI.ini
  · exact hI.lt
  · exact hI.inj
  · exact hI.keys
  · exact hI.vals

theorem Rel.frame {ext ext' : Nat → Nat} {s s' : St Rep F} {t : SSt K V} (h : Rel S ext s t)
    (hI : S.Inv ext' s') (ho : s'.objs = s.objs) (hat : ∀ i b, S.At s' i b ↔ S.At s i b) :
    Rel S ext' s' t :=
  ⟨hI, by rw [ho]; exact h.vars.mono fun p _ b => (hat p.2 b).2, by rw [ho]; exact h.nodup,
    fun ht b => by
      rw [h.kept ht b]
      exact exists_congr fun i => (hat i b).symm⟩

/-- The triples created: none, or one at an address that the allocator gave.  (No code of its
own: used in statements and proofs.) -/
def Grown (s : St Rep F) (t t' : SSt K V) : Prop :=
  t'.kept = t.kept ∨ ∃ b n l, t'.kept = b :: t.kept ∧ b.addr = s.alloc n l

/-- Creation. -/
theorem Rel.insert {s s' : St Rep F} {t : SSt K V} (h : Rel S none s t) {src : Src K V} {i : Nat}
    (hi : InsertOk S none s src i s') :
    ∃ b t', Create S.trk S.keq S.sp t src b t' ∧ Rel S (plus none i) s' t' ∧ S.At s' i b ∧
      t'.vars = t.vars ∧ Grown s t t' := by
  rcases hi.created with ⟨b, hb, hk, hat⟩ | ⟨hne, hfr, a, ⟨n, l, hal⟩, ha, hat⟩
  · exact ⟨b, t, .share t src b ((h.pool b).2 ⟨i, hb⟩) hk,
      h.frame hi.inv hi.frame.objs hat, (hat i b).2 hb, rfl, .inl rfl⟩
  · refine ⟨_, _, .fresh t src a ?_ ?_, ⟨hi.inv, ?_, ?_, ?_⟩, (hat i _).2 (Or.inr ⟨rfl, rfl⟩), rfl,
      .inr ⟨_, n, l, rfl, hal⟩⟩
    · intro b hb
      obtain ⟨j, hj⟩ := (h.pool b).1 hb
      exact hne j b hj
    · intro b hb
      obtain ⟨j, hj⟩ := (h.pool b).1 hb
      exact ha j b hj
    · rw [hi.frame.objs]
      exact h.vars.mono fun p _ b hb => (hat p.2 b).2 (Or.inl hb)
    · rw [hi.frame.objs]; exact h.nodup
    · intro ht b
      simp only [List.mem_cons, h.kept ht b]
      constructor
      · rintro (rfl | ⟨j, hj⟩)
        · exact ⟨i, (hat i _).2 (Or.inr ⟨rfl, rfl⟩)⟩
        · exact ⟨j, (hat j b).2 (Or.inl hj)⟩
      · rintro ⟨j, hj⟩
        rcases (hat j b).1 hj with hj | ⟨_, rfl⟩
        · exact Or.inr ⟨j, hj⟩
        · exact Or.inl rfl

/-- A new variable takes over a handle. -/
theorem Rel.newObj {ext : Nat → Nat} {s : St Rep F} {t : SSt K V} {x i : Nat} {b : Bind K V}
    (h : Rel S (plus ext i) s t) (hx : x ∉ t.names) (hb : S.At s i b) :
    Rel S ext { s with objs := (x, i) :: s.objs } { t with vars := (x, b) :: t.vars } := by
  refine ⟨h.inv.reobj ?_, ?_, ?_, ?_⟩
  · intro j
    rw [List.countP_cons]
    unfold refs plus
    by_cases hj : i = j
    · simp [hj]; omega
    · simp [hj, Ne.symm hj]
  · exact List.Forall₂.cons ⟨rfl, hb⟩ h.vars
  · simp only [List.map_cons, List.nodup_cons]
    refine ⟨?_, h.nodup⟩
    rw [← h.vars.names]
    exact hx
  · exact h.kept

/-- A variable takes over a handle and gives up its own. -/
theorem Rel.setHandle {ext : Nat → Nat} {s : St Rep F} {t : SSt K V} {x i old : Nat} {b : Bind K V}
    (h : Rel S (plus ext i) s t) (hx : s.objs.lookup x = some old) (hb : S.At s i b) :
    Rel S (plus ext old) { s with objs := setVar s.objs x i }
      { t with vars := SSt.rebind t.vars x b } := by
  refine ⟨h.inv.reobj ?_, ?_, ?_, ?_⟩
  · intro j
    have := setVar_count h.nodup i hx j
    unfold refs plus
    split <;> split at this <;> (try split at this) <;> (try split) <;> omega
  · exact h.vars.set x hb
  · show ((setVar s.objs x i).map Prod.fst).Nodup
    rw [setVar_names]; exact h.nodup
  · exact h.kept

/-- A handle is destroyed. -/
theorem Rel.handleDtor {ext : Nat → Nat} {s : St Rep F} {t : SSt K V} {h : Nat}
    (hR : Rel S (plus ext h) s t) :
    ∃ s', Core.handleDtor S.P S.Fa S.trk h s = .ok () s' ∧ Rel S ext s' t ∧ Frame s s' ∧
      ∀ i b, S.At s i b → 0 < refs s i + ext i → S.At s' i b := by
  obtain ⟨s', h1, h2, h3, _, h5⟩ := handleDtor_spec hR.inv
  refine ⟨s', h1, ⟨h2, ?_, by rw [h3.objs]; exact hR.nodup, ?_⟩, h3, ?_⟩
  · rw [h3.objs]
    refine hR.vars.mono fun p hp b hb => (h5 p.2 b).2 ⟨hb, fun _ hph => ?_⟩
    have := refs_pos hp
    rw [hph] at this
    omega
  · intro ht b
    rw [hR.kept ht b]
    refine exists_congr fun i => ?_
    rw [h5]
    simp [ht]
  · intro i b hb hp
    refine (h5 i b).2 ⟨hb, fun _ hi => ?_⟩
    subst hi
    exact hp

theorem handleOf_ok {s : St Rep F} {x h : Nat} (hx : s.objs.lookup x = some h) :
    Core.handleOf x s = .ok h s := by
  simp [Core.handleOf, bind, M.bind, M.read, hx, pure, M.ret]

/-- Assignment of a handle. -/
theorem Rel.assignHandle {ext : Nat → Nat} {s : St Rep F} {t : SSt K V} (hR : Rel S ext s t)
    {x h : Nat} {b : Bind K V} (hx : x ∈ t.names) (hb : S.At s h b) :
    ∃ s', Core.assignHandle S.P S.Fa S.trk x h s = .ok () s' ∧
      Rel S ext s' { t with vars := SSt.rebind t.vars x b } ∧ s'.locals = s.locals ∧
      s'.depth = s.depth ∧ s'.env.faults = s.env.faults := by
  obtain ⟨s1, h1, h2, h3, _, _, h6⟩ := handleCopy_spec hR.inv hb.some
  have hR1 : Rel S (plus ext h) s1 t := hR.frame h2 h3.objs h6
  obtain ⟨old, hold⟩ := lookup_of_name (l := s1.objs) (x := x)
    (by rw [← hR1.vars.names]; exact hx)
  have hR2 := hR1.setHandle hold ((h6 h b).2 hb)
  obtain ⟨s3, g1, g2, g3, _⟩ := hR2.handleDtor
  refine ⟨s3, ?_, g2, g3.locals.trans h3.locals, g3.depth.trans h3.depth,
    g3.faults.trans h3.faults⟩
  show M.bind (Core.handleCopy S.Fa S.trk h) _ s = _
  simp only [M.bind, h1]
  show M.bind (Core.handleOf x) _ s1 = _
  simp only [M.bind, handleOf_ok hold]
  exact g1

theorem get_ok {ext : Nat → Nat} {s : St Rep F} (hI : S.Inv ext s) {x h : Nat} {b : Bind K V}
    (hx : s.objs.lookup x = some h) (hb : S.At s h b) :
    Core.get S.P S.Fa x s = .ok (b.addr, b.val) s := by
  obtain ⟨e, he, hf, ha⟩ := id hb
  show M.bind (Core.handleOf x) _ s = _
  simp only [M.bind, handleOf_ok hx]
  show M.bind (Core.entry S.Fa h) _ s = _
  simp only [M.bind, entry_ok (hI.ini h hb.some) he]
  simp [bind, M.bind, M.read, S.L.full_val hf, pure, M.ret, ha]

theorem getKey_ok {ext : Nat → Nat} {s : St Rep F} (hI : S.Inv ext s) {x h : Nat} {b : Bind K V}
    (hx : s.objs.lookup x = some h) (hb : S.At s h b) :
    Core.getKey S.P S.Fa x s = .ok b.key s := by
  obtain ⟨e, he, hf, ha⟩ := id hb
  show M.bind (Core.handleOf x) _ s = _
  simp only [M.bind, handleOf_ok hx]
  show M.bind (Core.entry S.Fa h) _ s = _
  simp only [M.bind, entry_ok (hI.ini h hb.some) he]
  simp [S.L.full_key hf, pure, M.ret]

/-- Outside of any operation.  (No code of its own: used in statements and proofs.) -/
structure Idle (s : St Rep F) : Prop where
  locals : s.locals = []
  depth : s.depth = 0

/-- Between operations: related states, at rest, with the given faults.  (No code of its own:
used in statements and proofs.) -/
structure Sim (S : Setup K V Rep F) (faults : Nat → Bool) (s : St Rep F) (t : SSt K V) : Prop where
  rel : Rel S none s t
  idle : Idle s
  faults : s.env.faults = faults

/-- One operation, also saying where the address of a new value comes from. -/
theorem step_sim_grown {fl : Nat → Bool} {s : St Rep F} {t : SSt K V} (hS : Sim S fl s t) (hp : Nat → Nat)
    {op : Op K V} (hv : op.valid S.sp t.names = true) :
    Triple (· = s) (Core.step S.P S.Fa S.trk hp op)
      (fun out s' => out ≠ .threw ∧ ∃ t', SStep S.trk S.keq S.sp hp t op out t' ∧ Grown s t t' ∧ Sim S fl s' t')
      (fun s' => SStep S.trk S.keq S.sp hp t op .threw t ∧ Sim S fl s' t ∧ ∃ n, fl n = true) := by
  obtain ⟨hR, hid, hfl⟩ := hS
  have hlk : ∀ x, t.names.contains x = true → ∃ h b, s.objs.lookup x = some h ∧ (x, b) ∈ t.vars ∧
      S.At s h b := by
    intro x hx
    obtain ⟨h, hh⟩ := lookup_of_name (l := s.objs) (x := x)
      (by rw [← hR.vars.names]; simpa [SSt.names] using hx)
    obtain ⟨b, hb, hat⟩ := hR.vars.lookup hh
    exact ⟨h, b, hh, hb, hat⟩
  have hfail : ∀ s', InsertFail S none s s' → Sim S fl s' t ∧ ∃ n, fl n = true := by
    intro s' hF
    refine ⟨⟨hR.frame hF.inv hF.frame.objs hF.at_, ⟨hF.frame.locals.trans hid.locals,
      hF.frame.depth.trans hid.depth⟩, hF.frame.faults.trans hfl⟩, ?_⟩
    obtain ⟨n, hn⟩ := hF.faulty
    exact ⟨n, by rw [← hfl]; exact hn⟩
  have copy : ∀ x y, t.names.contains x = false → t.names.contains y = true →
      ∃ s' b, Core.copy S.Fa S.trk x y s = .ok () s' ∧ (y, b) ∈ t.vars ∧
        Sim S fl s' { t with vars := (x, b) :: t.vars } := by
    intro x y hx hy
    obtain ⟨h, b, hh, hb, hat⟩ := hlk y hy
    obtain ⟨s1, h1, h2, h3, _, _, h6⟩ := handleCopy_spec hR.inv hat.some
    have hR1 : Rel S (plus none h) s1 t := hR.frame h2 h3.objs h6
    refine ⟨{ s1 with objs := (x, h) :: s1.objs }, b, ?_, hb,
      hR1.newObj (by simpa using hx) ((h6 h b).2 hat),
      ⟨h3.locals.trans hid.locals, h3.depth.trans hid.depth⟩, h3.faults.trans hfl⟩
    show M.bind (Core.handleOf y) _ s = _
    simp only [M.bind, handleOf_ok hh]
    show M.bind (Core.handleCopy S.Fa S.trk h) _ s = _
    simp only [M.bind, h1]
    rfl
  cases op with
  | init =>
    refine .ofOk (a := .done) (e₂ := { s with inited := true }) rfl ⟨by simp, t, .init t, (by exact .inl rfl), ?_, ⟨hid.locals, hid.depth⟩, hfl⟩
    exact hR.frame hR.inv.setInited rfl fun _ _ => Iff.rfl
  | make x src =>
    simp [Op.valid] at hv
    refine Triple.bind (R := fun _ s' => ∃ t', SStep S.trk S.keq S.sp hp t (.make x src) .done t' ∧
      Grown s t t' ∧ Sim S fl s' t') ?_ fun _ => .ret fun s' h => ⟨by simp, h⟩
    refine Triple.bind ((insert_spec hR.inv hv.2).conseq (fun _ h => h) (fun _ _ h => h) ?_) fun h => ?_
    · intro s' hF
      exact ⟨.makeThrow t x src, hfail s' hF⟩
    · refine Triple.at ?_
      rintro s1 ⟨hO, _⟩
      obtain ⟨b, t', h1, h2, h3, h4, h5⟩ := hR.insert hO
      refine .ofOk (a := ()) rfl ⟨_, .make t x src b t' h1, h5, h2.newObj ?_ h3, ?_, ?_⟩
      · unfold SSt.names; rw [h4]; exact hv.1
      · exact ⟨hO.frame.locals.trans hid.locals, hO.frame.depth.trans hid.depth⟩
      · exact hO.frame.faults.trans hfl
  | copy x y =>
    simp [Op.valid] at hv
    obtain ⟨s', b, h1, h2, h3⟩ := copy x y (by simpa using hv.1) (by simpa using hv.2)
    refine .ofOk (a := .done) (e₂ := s') ?_ ⟨by simp, _, .copy t x y b h2, (by exact .inl rfl), h3⟩
    show M.bind (Core.copy S.Fa S.trk x y) _ s = _
    simp only [M.bind, h1]; rfl
  | move x y =>
    simp [Op.valid] at hv
    obtain ⟨s', b, h1, h2, h3⟩ := copy x y (by simpa using hv.1) (by simpa using hv.2)
    refine .ofOk (a := .done) (e₂ := s') ?_ ⟨by simp, _, .move t x y b h2, (by exact .inl rfl), h3⟩
    show M.bind (Core.copy S.Fa S.trk x y) _ s = _
    simp only [M.bind, h1]; rfl
  | assign x y =>
    simp [Op.valid] at hv
    obtain ⟨h, b, hh, hb, hat⟩ := hlk y (by simpa using hv.2)
    obtain ⟨s', g1, g2, g3, g4, g5⟩ := hR.assignHandle hv.1 hat
    refine .ofOk (a := .done) (e₂ := s') ?_ ⟨by simp, _, .assign t x y b hb, (by exact .inl rfl), g2,
      ⟨g3.trans hid.locals, g4.trans hid.depth⟩, g5.trans hfl⟩
    simp only [Core.step, Core.assign, bind, M.bind, handleOf_ok hh, g1]
    rfl
  | assignVal x src =>
    simp [Op.valid] at hv
    refine Triple.bind (R := fun _ s' => ∃ t', SStep S.trk S.keq S.sp hp t (.assignVal x src) .done t' ∧
      Grown s t t' ∧ Sim S fl s' t') ?_ fun _ => .ret fun s' h => ⟨by simp, h⟩
    refine Triple.bind ((insert_spec hR.inv hv.2).conseq (fun _ h => h) (fun _ _ h => h) ?_) fun h => ?_
    · intro s' hF
      exact ⟨.assignValThrow t x src, hfail s' hF⟩
    · refine Triple.at ?_
      rintro s1 ⟨hO, _⟩
      obtain ⟨b, t', h1, h2, h3, h4, h5⟩ := hR.insert hO
      have hx' : x ∈ t'.names := by unfold SSt.names; rw [h4]; exact hv.1
      obtain ⟨s2, g1, g2, g3, g4, g5⟩ := h2.assignHandle hx' h3
      obtain ⟨s3, k1, k2, k3, _⟩ := g2.handleDtor
      refine .ofOk (a := ()) (e₂ := s3) ?_ ⟨_, .assignVal t x src b t' h1, h5, k2, ?_, ?_⟩
      · simp only [bind, M.bind, g1, k1]
      · exact ⟨k3.locals.trans (g3.trans (hO.frame.locals.trans hid.locals)),
          k3.depth.trans (g4.trans (hO.frame.depth.trans hid.depth))⟩
      · exact k3.faults.trans (g5.trans (hO.frame.faults.trans hfl))
  | swap x y =>
    simp [Op.valid] at hv
    obtain ⟨h, b, hh, hb, hat⟩ := hlk x (by simpa using hv.1)
    obtain ⟨h', b', hh', hb', hat'⟩ := hlk y (by simpa using hv.2)
    have hn1 : ((setVar s.objs x h').map Prod.fst).Nodup := by rw [setVar_names]; exact hR.nodup
    have hl1 : (setVar s.objs x h').lookup y = some h' := by
      apply lookup_of_mem hn1
      unfold setVar
      refine List.mem_map.2 ⟨(y, h'), lookup_mem hh', ?_⟩
      by_cases hyx : y = x <;> simp [hyx]
    refine .ofOk (a := .done) (e₂ := { s with objs := setVar (setVar s.objs x h') y h }) ?_
      ⟨by simp, _, .swap t x y b b' hb hb', (by exact .inl rfl), ⟨hR.inv.reobj ?_, ?_, ?_, hR.kept⟩,
        ⟨hid.locals, hid.depth⟩, hfl⟩
    · simp only [Core.step, Core.swap, bind, M.bind, handleOf_ok hh, handleOf_ok hh']
      rfl
    · intro i
      have e1 := setVar_count hR.nodup h' hh i
      have e2 := setVar_count hn1 h hl1 i
      unfold refs
      omega
    · exact (hR.vars.set x hat').set y hat
    · show ((setVar (setVar s.objs x h') y h).map Prod.fst).Nodup
      rw [setVar_names]; exact hn1
  | destroy x =>
    simp [Op.valid] at hv
    obtain ⟨h, b, hh, hb, hat⟩ := hlk x (by simpa using hv)
    have hR1 : Rel S (plus none h) { s with objs := s.objs.filter fun p => p.1 ≠ x }
        { t with vars := t.vars.filter fun p => p.1 ≠ x } := by
      refine ⟨hR.inv.reobj ?_, hR.vars.filter x, ?_, hR.kept⟩
      · intro i
        have := filter_count hR.nodup hh i
        unfold refs plus
        by_cases hi : i = h <;> simp [hi] at this ⊢ <;> omega
      · exact hR.nodup.sublist (List.filter_sublist.map _)
    obtain ⟨s', k1, k2, k3, _⟩ := hR1.handleDtor
    refine .ofOk (a := .done) (e₂ := s') ?_ ⟨by simp, _, .destroy t x, (by exact .inl rfl), k2,
      ⟨k3.locals.trans hid.locals, k3.depth.trans hid.depth⟩, k3.faults.trans hfl⟩
    simp only [Core.step, Core.destroy, bind, M.bind, handleOf_ok hh, M.update, k1]
    rfl
  | get x =>
    simp [Op.valid] at hv
    obtain ⟨h, b, hh, hb, hat⟩ := hlk x (by simpa using hv)
    refine .ofOk (a := .val b.addr b.val) (e₂ := s) ?_ ⟨by simp, t, .get t x b hb, (by exact .inl rfl), hR, hid, hfl⟩
    simp only [Core.step, bind, M.bind, get_ok hR.inv hh hat]
    rfl
  | getKey x =>
    simp [Op.valid] at hv
    obtain ⟨h, b, hh, hb, hat⟩ := hlk x (by simpa using hv)
    refine .ofOk (a := .key b.key) (e₂ := s) ?_ ⟨by simp, t, .getKey t x b hb, (by exact .inl rfl), hR, hid, hfl⟩
    simp only [Core.step, bind, M.bind, getKey_ok hR.inv hh hat]
    rfl
  | eq x y =>
    simp [Op.valid] at hv
    obtain ⟨h, b, hh, hb, hat⟩ := hlk x (by simpa using hv.1)
    obtain ⟨h', b', hh', hb', hat'⟩ := hlk y (by simpa using hv.2)
    refine .ofOk (a := .bool (b.addr == b'.addr)) (e₂ := s) ?_
      ⟨by simp, t, .eq t x y b b' hb hb', (by exact .inl rfl), hR, hid, hfl⟩
    simp only [Core.step, Core.eq, bind, M.bind, get_ok hR.inv hh hat, get_ok hR.inv hh' hat']
    rfl
  | hash x =>
    simp [Op.valid] at hv
    obtain ⟨h, b, hh, hb, hat⟩ := hlk x (by simpa using hv)
    refine .ofOk (a := .num (hp b.addr)) (e₂ := s) ?_ ⟨by simp, t, .hash t x b hb, (by exact .inl rfl), hR, hid, hfl⟩
    simp only [Core.step, Core.hash, bind, M.bind, get_ok hR.inv hh hat]
    rfl

/-- One operation: no undefined behaviour, the outcome is allowed by the
specification, and exceptions only occur if something throws. -/
theorem step_sim {fl : Nat → Bool} {s : St Rep F} {t : SSt K V} (hS : Sim S fl s t) (hp : Nat → Nat)
    {op : Op K V} (hv : op.valid S.sp t.names = true) :
    Triple (· = s) (Core.step S.P S.Fa S.trk hp op)
      (fun out s' => out ≠ .threw ∧ ∃ t', SStep S.trk S.keq S.sp hp t op out t' ∧ Sim S fl s' t')
      (fun s' => SStep S.trk S.keq S.sp hp t op .threw t ∧ Sim S fl s' t ∧ ∃ n, fl n = true) :=
  (step_sim_grown hS hp hv).conseq (fun _ h => h) (fun _ _ h => ⟨h.1, h.2.choose, h.2.choose_spec.1, h.2.choose_spec.2.2⟩)
    fun _ h => h

theorem sim_start (S : Setup K V Rep F) (fl : Nat → Bool) {alloc : Nat → List Nat → Nat}
    (hal : ∀ n l, alloc n l ∉ l) : Sim S fl (Core.start S.Fa fl alloc) SSt.start := by
  have he : ∀ i, S.Fa.entry S.Fa.empty i = Option.none := S.LF.entry_empty
  refine ⟨⟨?_, .nil, List.nodup_nil, ?_⟩, ⟨rfl, rfl⟩, rfl⟩
  · constructor
    · exact S.LF.inv_empty
    · exact hal
    all_goals simp [Core.start, he, tot, rsum]
  · intro _ b
    simp [SSt.start, At, Core.start, he]

/-- Every program runs without undefined behaviour, and its outcomes are allowed
by the specification. -/
theorem exec_sim (hp : Nat → Nat) (ops : List (Op K V)) {fl : Nat → Bool} {s : St Rep F} {t : SSt K V}
    (hS : Sim S fl s t) :
    ∃ outs s' t', Core.exec S.P S.Fa S.trk hp S.sp ops s = some (outs, s') ∧
      SRun S.trk S.keq S.sp hp t ops outs t' ∧ Sim S fl s' t' ∧
      (.threw ∈ outs → ∃ n, fl n = true) := by
  induction ops generalizing s t with
  | nil => exact ⟨[], s, t, rfl, .nil t, hS, by simp⟩
  | cons op ops ih =>
    have hn : s.objs.map Prod.fst = t.names := hS.rel.vars.names.symm
    unfold Core.exec
    rw [hn]
    by_cases hv : op.valid S.sp t.names = true
    · rw [if_pos hv]
      have h := step_sim hS hp hv s rfl
      cases hm : Core.step S.P S.Fa S.trk hp op s with
      | ok out s1 =>
        rw [hm] at h
        obtain ⟨hne, t1, h1, h2⟩ := h
        obtain ⟨outs, s', t', g1, g2, g3, g4⟩ := ih h2
        refine ⟨out :: outs, s', t', by simp [g1], .step hv h1 g2, g3, fun hm => ?_⟩
        rcases List.mem_cons.1 hm with hm | hm
        · exact absurd hm.symm hne
        · exact g4 hm
      | exc s1 =>
        rw [hm] at h
        obtain ⟨h1, h2, h3⟩ := h
        obtain ⟨outs, s', t', g1, g2, g3, g4⟩ := ih h2
        exact ⟨.threw :: outs, s', t', by simp [g1], .step hv h1 g2, g3, fun _ => h3⟩
      | ub => rw [hm] at h; exact h.elim
    · rw [if_neg hv]
      obtain ⟨outs, s', t', g1, g2, g3, g4⟩ := ih hS
      refine ⟨.skipped :: outs, s', t', by simp [g1], .skip (by simpa using hv) g2, g3, fun hm => ?_⟩
      rcases List.mem_cons.1 hm with hm | hm
      · cases hm
      · exact g4 hm

end Setup
end Verif

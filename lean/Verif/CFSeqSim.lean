import Verif.CFSeqIns
import Verif.CoreSim
import Verif.SpecLemmas

/-!
# Flyweights with `concurrent_factory`, in detail: simulation of the specification
-/

set_option autoImplicit false

namespace Verif.CFSeq
open Verif.CFSpec (on LSt Ev)
open Assoc
variable {K V Rep : Type} {P : Policy K V Rep} {sp : SrcSpec K V} {L : P.Lawful sp} {X : L.Leaves} {keq : K → K → Bool} {ext : Nat → Nat}

/-- The variables of the model and those of the specification agree.  (No code of its own: used in statements and proofs.) -/
def Vars (L : P.Lawful sp) (s : St Rep) (objs : List (Nat × Nat)) (vars : List (Nat × Bind K V)) : Prop :=
  List.Forall₂ (fun p q => p.1 = q.1 ∧ At L s p.2 q.2) objs vars

section
variable {s s' : St Rep} {objs : List (Nat × Nat)} {vars : List (Nat × Bind K V)}

theorem Vars.names (h : Vars L s objs vars) : vars.map Prod.fst = objs.map Prod.fst := by
  unfold Vars at h
  induction h with
  | nil => rfl
  | cons h _ ih => simp [ih, h.1]

theorem Vars.lookup (h : Vars L s objs vars) {x i : Nat} (hx : objs.lookup x = some i) : ∃ b, (x, b) ∈ vars ∧ At L s i b := by
  unfold Vars at h
  induction h with
  | nil => simp at hx
  | @cons p q l l' h _ ih =>
    obtain ⟨y, j⟩ := p
    obtain ⟨z, c⟩ := q
    simp only at h
    by_cases hy : x = y
    · subst hy
      rw [lookup_head] at hx
      have hb := Option.some.inj hx
      subst hb
      exact ⟨c, by rw [h.1]; exact List.mem_cons_self .., h.2⟩
    · rw [lookup_tail l j hy] at hx
      obtain ⟨b, hb, hat⟩ := ih hx
      exact ⟨b, List.mem_cons_of_mem _ hb, hat⟩

theorem Vars.mono (h : Vars L s objs vars) (hat : ∀ p ∈ objs, ∀ b, At L s p.2 b → At L s' p.2 b) : Vars L s' objs vars := by
  unfold Vars at h ⊢
  induction h with
  | nil => exact .nil
  | cons h _ ih =>
    exact .cons ⟨h.1, hat _ (List.mem_cons_self ..) _ h.2⟩ (ih fun p hp => hat p (List.mem_cons_of_mem _ hp))

theorem Vars.set (h : Vars L s objs vars) (x : Nat) {i : Nat} {b : Bind K V} (hat : At L s i b) :
    Vars L s (setVar objs x i) (SSt.rebind vars x b) := by
  unfold Vars setVar SSt.rebind at *
  induction h with
  | nil => exact .nil
  | @cons p q l l' h _ ih =>
    refine .cons ?_ ih
    by_cases hp : p.1 = x
    · have hq : q.1 = x := h.1 ▸ hp
      simp [hp, hq, hat]
    · have hq : q.1 ≠ x := h.1 ▸ hp
      simp only [if_neg hp, if_neg hq]; exact h

theorem Vars.filter (h : Vars L s objs vars) (x : Nat) : Vars L s (objs.filter fun p => p.1 ≠ x) (vars.filter fun p => p.1 ≠ x) := by
  unfold Vars at *
  induction h with
  | nil => exact .nil
  | @cons p q l l' h _ ih =>
    rw [List.filter_cons, List.filter_cons, ← h.1]
    by_cases hp : p.1 = x
    · simp only [hp, ne_eq, not_true_eq_false, decide_false, Bool.false_eq_true, if_false]
      exact ih
    · simp only [hp, ne_eq, not_false_eq_true, decide_true, if_true]
      exact .cons h ih

end

/-- State of the model and state of the specification agree.  (No code of its own: used in statements and proofs.) -/
structure Rel (X : L.Leaves) (keq : K → K → Bool) (ext : Nat → Nat) (s : St Rep) (t : LSt K V) : Prop where
  inv : Inv X keq ext s
  bal : Bal L 0 0 s
  vars : Vars L s s.objs t.vars
  pool : ∀ b, t.pool b ↔ ∃ i, At L s i b
  left : ∀ k, t.left k ↔ LeftAt X s k

/-- No handles held by code in progress.  (No code of its own: used in statements and proofs.) -/
def zero : Nat → Nat := fun _ => 0

section
variable {s s' : St Rep} {t : LSt K V}

/-- Handles change hands between variables and the code in progress. -/
theorem Inv.reobj (hI : Inv X keq ext s) {objs : List (Nat × Nat)} {ext' : Nat → Nat}
    (h : ∀ i, objs.countP (fun p => p.2 == i) + ext' i = refs s i + ext i) (hn : (objs.map Prod.fst).Nodup) :
    Inv X keq ext' { s with objs := objs } := by
  have some : ∀ i, 0 < objs.countP (fun p => p.2 == i) + ext' i → ∃ n ∈ s.cont, n.id = i := by
    intro i hi
    rw [h i] at hi
    obtain ⟨n, hn, e, _⟩ := hI.held hi
    exact ⟨n, hn, e⟩
  refine ⟨hI.alloc, hI.ids, hI.addrs, hI.lt, hI.good, hI.keys, ?_, ?_, ?_, hI.ini, hn⟩
  · intro n hn
    rw [hI.cnt n hn, ← h n.id]
    rfl
  · intro p hp
    refine some p.2 ?_
    have : 0 < objs.countP (fun q => q.2 == p.2) := List.countP_pos_iff.2 ⟨p, hp, by simp⟩
    omega
  · intro i hi
    exact some i (by omega)

theorem Rel.same (h : Rel X keq ext s t) {ext' : Nat → Nat} (hI : Inv X keq ext' s') (hS : Same X s s') : Rel X keq ext' s' t :=
  ⟨hI, hS.bal _ _ h.bal, by rw [hS.objs]; exact h.vars.mono fun _ _ b hb => (hS.at_ _ b).2 hb,
    fun b => (h.pool b).trans ⟨fun ⟨i, hi⟩ => ⟨i, (hS.at_ i b).2 hi⟩, fun ⟨i, hi⟩ => ⟨i, (hS.at_ i b).1 hi⟩⟩,
    fun k => (h.left k).trans (hS.left k).symm⟩

/-- A new variable takes over a handle. -/
theorem Rel.newObj {x i : Nat} {b : Bind K V} (h : Rel X keq (plus ext i) s t) (hx : x ∉ t.vars.map Prod.fst) (hb : At L s i b) :
    Rel X keq ext { s with objs := (x, i) :: s.objs } { t with vars := (x, b) :: t.vars } := by
  refine ⟨h.inv.reobj ?_ ?_, ⟨h.bal.keys, h.bal.vals⟩, ?_, h.pool, h.left⟩
  · intro j
    rw [List.countP_cons]
    unfold refs plus
    by_cases hj : i = j
    · simp [hj]; omega
    · simp [hj, Ne.symm hj]
  · simp only [List.map_cons, List.nodup_cons]
    refine ⟨?_, h.inv.names⟩
    rw [← h.vars.names]
    exact hx
  · exact List.Forall₂.cons ⟨rfl, hb⟩ h.vars

/-- A variable takes over a handle and gives up its own. -/
theorem Rel.setHandle {x i old : Nat} {b : Bind K V} (h : Rel X keq (plus ext i) s t) (hx : s.objs.lookup x = some old) (hb : At L s i b) :
    Rel X keq (plus ext old) { s with objs := setVar s.objs x i } { t with vars := SSt.rebind t.vars x b } := by
  refine ⟨h.inv.reobj ?_ ?_, ⟨h.bal.keys, h.bal.vals⟩, h.vars.set x hb, h.pool, h.left⟩
  · intro j
    have := Setup.setVar_count h.inv.names i hx j
    unfold refs plus
    split <;> split at this <;> (try split at this) <;> (try split) <;> omega
  · rw [setVar_names]; exact h.inv.names

theorem handleOf_ok {x h : Nat} (hx : s.objs.lookup x = some h) : handleOf x s = .ok h s := by
  simp [handleOf, bind, M.bind, M.read, hx, pure, M.ret]

theorem get_ok (hI : Inv X keq ext s) {x h : Nat} {b : Bind K V} (hx : s.objs.lookup x = some h) (hb : At L s h b) :
    get P x s = .ok (b.addr, b.val) s := by
  obtain ⟨n, hn, rfl, ha, hF⟩ := hb
  simp only [get, bind, M.bind, handleOf_ok hx, node_ok hI hn, L.full_val hF, ha, pure, M.ret]

theorem getKey_ok (hI : Inv X keq ext s) {x h : Nat} {b : Bind K V} (hx : s.objs.lookup x = some h) (hb : At L s h b) :
    getKey P x s = .ok b.key s := by
  obtain ⟨n, hn, rfl, ha, hF⟩ := hb
  simp only [getKey, bind, M.bind, handleOf_ok hx, node_ok hI hn, L.full_key hF, pure, M.ret]

theorem Rel.name (h : Rel X keq ext s t) {x : Nat} (hx : x ∈ t.vars.map Prod.fst) :
    ∃ i b, s.objs.lookup x = some i ∧ (x, b) ∈ t.vars ∧ At L s i b := by
  rw [h.vars.names] at hx
  obtain ⟨i, hi⟩ := lookup_of_name hx
  obtain ⟨b, hb, hat⟩ := h.vars.lookup hi
  exact ⟨i, b, hi, hb, hat⟩

theorem refs_pos {x i : Nat} (h : s.objs.lookup x = some i) : 0 < refs s i :=
  List.countP_pos_iff.2 ⟨(x, i), lookup_mem h, by simp⟩

/-- A variable takes over a copy of a handle. -/
theorem Rel.assignHandle (LS : sp.Lawful keq) (trk : Tracking) {x i old : Nat} {b : Bind K V} (h : Rel X keq ext s t) (hi : 0 < refs s i + ext i)
    (hx : s.objs.lookup x = some old) (hb : At L s i b) :
    ∃ s', assignHandle trk x i s = .ok () s' ∧ Rel X keq ext s' { t with vars := SSt.rebind t.vars x b } ∧ s'.env.faults = s.env.faults := by
  obtain ⟨s1, e1, hI1, hS1⟩ := handleCopy_ok LS trk h.inv hi
  have h1 := h.same hI1 hS1
  have hx1 : s1.objs.lookup x = some old := by rw [hS1.objs]; exact hx
  have h2 := h1.setHandle hx1 ((hS1.at_ i b).2 hb)
  obtain ⟨s3, e3, hI3, hS3⟩ := handleDtor_ok LS trk h2.inv
  refine ⟨s3, ?_, h2.same hI3 hS3, hS3.faults.trans hS1.faults⟩
  simp only [CFSeq.assignHandle, bind, M.bind, e1, handleOf_ok hx1]
  exact e3

/-- After a creation, in terms of the specification. -/
theorem Rel.created {src : Src K V} (h : Rel X keq ext s t) {i : Nat} (hd : Done X keq ext src s 0 0 i s') :
    ∃ b pool' left', CFSpec.Create keq sp t src b pool' ∧ (∀ k, left' k ↔ t.left k ∧ keq k (sp.key0 src) = false) ∧ At L s' i b ∧
      Rel X keq (plus ext i) s' ⟨t.vars, pool', left'⟩ := by
  have hl : ∀ k, LeftAt X s' k ↔ t.left k ∧ keq k (sp.key0 src) = false := fun k => (hd.created.1 k).trans (by rw [h.left])
  rcases hd.created.2 with ⟨b, g1, g2, g3⟩ | ⟨g1, a, src', g2, g3, g4⟩
  · refine ⟨b, t.pool, LeftAt X s', .share b _ ((h.pool b).2 ⟨i, g1⟩) g2 fun _ => .rfl, hl, (g3 i b).2 g1, hd.inv, hd.bal, ?_, ?_, fun _ => .rfl⟩
    · rw [hd.objs]
      exact h.vars.mono fun _ _ c hc => (g3 _ c).2 hc
    · intro c
      exact (h.pool c).trans ⟨fun ⟨j, hj⟩ => ⟨j, (g3 j c).2 hj⟩, fun ⟨j, hj⟩ => ⟨j, (g3 j c).1 hj⟩⟩
  · refine ⟨_, fun c => t.pool c ∨ c = ⟨a, sp.key1 src', sp.val src'⟩, LeftAt X s', .fresh a src' _ ?_ ?_ ?_ (fun _ => .rfl), hl,
      (g4 i _).2 (.inr ⟨rfl, rfl⟩), hd.inv, hd.bal, ?_, ?_, fun _ => .rfl⟩
    · intro c hc
      obtain ⟨j, hj⟩ := (h.pool c).1 hc
      exact g1 j c hj
    · intro c hc
      obtain ⟨j, hj⟩ := (h.pool c).1 hc
      exact g2 j c hj
    · rcases g3 with g3 | ⟨k, k1, k2, k3⟩
      · exact .inl ⟨g3.1, fun k hk => g3.2 k ((h.left k).1 hk)⟩
      · exact .inr ⟨k, (h.left k).2 k1, k2, k3⟩
    · rw [hd.objs]
      exact h.vars.mono fun _ _ c hc => (g4 _ c).2 (.inl hc)
    · intro c
      show t.pool c ∨ c = _ ↔ _
      rw [h.pool c]
      constructor
      · rintro (⟨j, hj⟩ | rfl)
        · exact ⟨j, (g4 j c).2 (.inl hj)⟩
        · exact ⟨i, (g4 i _).2 (.inr ⟨rfl, rfl⟩)⟩
      · rintro ⟨j, hj⟩
        rcases (g4 j c).1 hj with hj | ⟨_, hj⟩
        · exact .inl ⟨j, hj⟩
        · exact .inr hj

theorem Rel.threw {src : Src K V} (h : Rel X keq ext s t) (hd : Threw X keq ext src s 0 0 s') :
    ∃ pool' left', (∀ c, pool' c ↔ t.pool c) ∧ CFSpec.Leave keq sp t src left' ∧ Rel X keq ext s' ⟨t.vars, pool', left'⟩ := by
  refine ⟨t.pool, LeftAt X s', fun _ => .rfl, ?_, hd.inv, hd.bal, ?_, ?_, fun _ => .rfl⟩
  · rcases hd.cont with hc | ⟨n, hn, hc⟩
    · exact .inl fun k => (left_cont hc k).trans (h.left k).symm
    · have other : ∀ m ∈ s.cont, ∀ k, P.toKey m.rep = some k → keq k (sp.key0 src) = false := by
        intro m hm k hk
        refine hd.inv.keys m (by rw [hc]; exact .tail _ hm) n (by rw [hc]; exact .head _) (fun e => ?_) _ _ hk (X.key hn)
        have := hd.inv.ids
        rw [hc] at this
        simp only [List.map_cons, List.nodup_cons, List.mem_map, not_exists, not_and] at this
        exact this.1 m hm e
      refine .inr ⟨fun b hb => ?_, fun k hk => ?_, fun k => ?_⟩
      · obtain ⟨i, m, hm, _, _, hF⟩ := (h.pool b).1 hb
        exact other m hm _ (L.full_key hF)
      · obtain ⟨m, hm, hL⟩ := (h.left k).1 hk
        exact other m hm _ (X.key hL)
      · rw [h.left]
        constructor
        · rintro ⟨m, hm, hL⟩
          rw [hc] at hm
          rcases List.mem_cons.1 hm with rfl | hm
          · have := (X.key hL).symm.trans (X.key hn)
            cases this
            exact .inr rfl
          · exact .inl ⟨m, hm, hL⟩
        · rintro (⟨m, hm, hL⟩ | rfl)
          · exact ⟨m, by rw [hc]; exact .tail _ hm, hL⟩
          · exact ⟨n, by rw [hc]; exact .head _, hn⟩
  · rw [hd.objs]
    exact h.vars.mono fun _ _ c hc => (hd.at_ _ c).2 hc
  · intro c
    exact (h.pool c).trans ⟨fun ⟨j, hj⟩ => ⟨j, (hd.at_ j c).2 hj⟩, fun ⟨j, hj⟩ => ⟨j, (hd.at_ j c).1 hj⟩⟩

/-- What is known about an operation. (No code of its own: used in
statements and proofs.) -/
structure Stepped (X : L.Leaves) (keq : K → K → Bool) (hp : Nat → Nat) (o : Op K V) (out : Out K V) (s : St Rep) (t : LSt K V) (s' : St Rep) : Prop where
  spec : ∃ t', CFSpec.Step keq sp hp t o out t' ∧ Rel X keq zero s' t'
  faults : s'.env.faults = s.env.faults

theorem step_sim (LS : sp.Lawful keq) (trk : Tracking) (hp : Nat → Nat) {o : Op K V} (h : Rel X keq zero s t)
    (hv : o.valid sp (t.vars.map Prod.fst) = true) :
    Triple (· = s) (step P keq trk hp o) (fun out s' => Stepped X keq hp o out s t s')
      (fun s' => Stepped X keq hp o .threw s t s' ∧ (∃ n, s.env.faults n = true) ∧ ∃ x src, (o = .make x src ∨ o = .assignVal x src) ∧ Threw X keq zero src s 0 0 s') := by
  have ok : ∀ {m : M (St Rep) (Out K V)} {out : Out K V} {s' : St Rep} {E : St Rep → Prop}, m s = .ok out s' →
      (∃ t', CFSpec.Step keq sp hp t o out t' ∧ Rel X keq zero s' t') → s'.env.faults = s.env.faults →
      Triple (· = s) m (fun out s' => Stepped X keq hp o out s t s') E :=
    fun e h1 h2 => .ofOk e ⟨h1, h2⟩
  cases o with
  | init =>
    exact ok (s' := { s with inited := true }) rfl ⟨t, .init, h.inv.setInited, ⟨h.bal.keys, h.bal.vals⟩, h.vars, h.pool, h.left⟩ rfl
  | make x src =>
    simp [Op.valid] at hv
    have hI := insert_triple LS trk hv.2 h.inv h.bal
    refine Triple.bind (R := fun _ s1 => Stepped X keq hp (.make x src) .done s t s1) ?_ fun _ => .ret fun _ h => h
    refine (hI.conseq (fun _ h => h) (fun _ _ h => h) fun s1 h1 => ?_).bind fun i => .at fun s1 h1 => ?_
    · obtain ⟨pool', left', g1, g2, g3⟩ := h.threw h1
      exact ⟨⟨⟨_, .makeThrow x src pool' left' g1 g2, g3⟩, h1.faults⟩, h1.fault, x, src, .inl rfl, h1⟩
    · obtain ⟨b, pool', left', g1, g2, g3, g4⟩ := h.created h1
      exact .ofOk rfl ⟨⟨_, .make x src b pool' left' g1 g2, g4.newObj (by simpa using hv.1) g3⟩, h1.faults⟩
  | copy x y =>
    simp [Op.valid] at hv
    obtain ⟨i, b, hi, hb, hat⟩ := h.name (x := y) (by simpa using hv.2)
    obtain ⟨s1, e1, hI1, hS1⟩ := handleCopy_ok LS trk h.inv (i := i) (by have := refs_pos hi; omega)
    refine ok (out := .done) (s' := { s1 with objs := (x, i) :: s1.objs }) ?_
      ⟨_, .copy x y b hb, (h.same hI1 hS1).newObj (by simpa using hv.1) ((hS1.at_ i b).2 hat)⟩ hS1.faults
    simp only [step, copy, bind, M.bind, handleOf_ok hi, e1]
    rfl
  | move x y =>
    simp [Op.valid] at hv
    obtain ⟨i, b, hi, hb, hat⟩ := h.name (x := y) (by simpa using hv.2)
    obtain ⟨s1, e1, hI1, hS1⟩ := handleCopy_ok LS trk h.inv (i := i) (by have := refs_pos hi; omega)
    refine ok (out := .done) (s' := { s1 with objs := (x, i) :: s1.objs }) ?_
      ⟨_, .move x y b hb, (h.same hI1 hS1).newObj (by simpa using hv.1) ((hS1.at_ i b).2 hat)⟩ hS1.faults
    simp only [step, copy, bind, M.bind, handleOf_ok hi, e1]
    rfl
  | assign x y =>
    simp [Op.valid] at hv
    obtain ⟨i, b, hi, hb, hat⟩ := h.name (x := y) (by simpa using hv.2)
    obtain ⟨j, c, hj, _, _⟩ := h.name (x := x) (by simpa using hv.1)
    obtain ⟨s1, e1, h1, hf⟩ := h.assignHandle LS trk (i := i) (by have := refs_pos hi; omega) hj hat
    refine ok (out := .done) (s' := s1) ?_ ⟨_, .assign x y b hb, h1⟩ hf
    simp only [step, assign, bind, M.bind, handleOf_ok hi, e1]
    rfl
  | assignVal x src =>
    simp [Op.valid] at hv
    obtain ⟨j, c, hj, _, _⟩ := h.name (x := x) (by simpa using hv.1)
    have hI := insert_triple LS trk hv.2 h.inv h.bal
    refine Triple.bind (R := fun _ s1 => Stepped X keq hp (.assignVal x src) .done s t s1) ?_ fun _ => .ret fun _ h => h
    refine (hI.conseq (fun _ h => h) (fun _ _ h => h) fun s1 h1 => ?_).bind fun i => .at fun s1 h1 => ?_
    · obtain ⟨pool', left', g1, g2, g3⟩ := h.threw h1
      exact ⟨⟨⟨_, .assignValThrow x src pool' left' g1 g2, g3⟩, h1.faults⟩, h1.fault, x, src, .inr rfl, h1⟩
    · obtain ⟨b, pool', left', g1, g2, g3, g4⟩ := h.created h1
      obtain ⟨s2, e2, h2, hf2⟩ := g4.assignHandle LS trk (x := x) (i := i) (old := j) (by simp [plus]; omega) (by rw [h1.objs]; exact hj) g3
      obtain ⟨s3, e3, hI3, hS3⟩ := handleDtor_ok LS trk h2.inv
      refine .ofOk (a := ()) (e₂ := s3) ?_ ⟨⟨_, .assignVal x src b pool' left' g1 g2, h2.same hI3 hS3⟩, hS3.faults.trans (hf2.trans h1.faults)⟩
      simp only [bind, M.bind, e2]
      exact e3
  | swap x y =>
    simp [Op.valid] at hv
    obtain ⟨i, b, hi, hb, hat⟩ := h.name (x := x) (by simpa using hv.1)
    obtain ⟨j, c, hj, hc, hat'⟩ := h.name (x := y) (by simpa using hv.2)
    have hn1 : ((setVar s.objs x j).map Prod.fst).Nodup := by rw [setVar_names]; exact h.inv.names
    have hl1 : (setVar s.objs x j).lookup y = some j := by
      rw [lookup_setVar]
      by_cases e : y = x
      · subst e; simp [hi]
      · simp [e, hj]
    refine ok (out := .done) (s' := { s with objs := setVar (setVar s.objs x j) y i }) ?_
      ⟨_, .swap x y b c hb hc, h.inv.reobj ?_ ?_, ⟨h.bal.keys, h.bal.vals⟩, (h.vars.set x hat').set y hat, h.pool, h.left⟩ rfl
    · simp only [step, swap, bind, M.bind, handleOf_ok hi, handleOf_ok hj]
      rfl
    · intro k
      have e1 := Setup.setVar_count h.inv.names j hi k
      have e2 := Setup.setVar_count hn1 i hl1 k
      unfold refs
      omega
    · rw [setVar_names]; exact hn1
  | destroy x =>
    simp [Op.valid] at hv
    obtain ⟨i, b, hi, hb, hat⟩ := h.name (x := x) (by simpa using hv)
    have h1 : Rel X keq (plus zero i) { s with objs := s.objs.filter fun p => p.1 ≠ x } { t with vars := t.vars.filter fun p => p.1 ≠ x } := by
      refine ⟨h.inv.reobj ?_ ?_, ⟨h.bal.keys, h.bal.vals⟩, h.vars.filter x, h.pool, h.left⟩
      · intro k
        have := Setup.filter_count h.inv.names hi k
        unfold refs plus
        by_cases hk : k = i <;> simp [hk] at this ⊢ <;> omega
      · exact h.inv.names.sublist (List.filter_sublist.map _)
    obtain ⟨s2, e2, hI2, hS2⟩ := handleDtor_ok LS trk h1.inv
    refine ok (out := .done) (s' := s2) ?_ ⟨_, .destroy x, h1.same hI2 hS2⟩ hS2.faults
    simp only [step, destroy, bind, M.bind, handleOf_ok hi, M.update, e2]
    rfl
  | get x =>
    simp [Op.valid] at hv
    obtain ⟨i, b, hi, hb, hat⟩ := h.name (x := x) (by simpa using hv)
    refine ok (out := .val b.addr b.val) (s' := s) ?_ ⟨t, .get x b hb, h⟩ rfl
    simp only [step, bind, M.bind, get_ok h.inv hi hat]
    rfl
  | getKey x =>
    simp [Op.valid] at hv
    obtain ⟨i, b, hi, hb, hat⟩ := h.name (x := x) (by simpa using hv)
    refine ok (out := .key b.key) (s' := s) ?_ ⟨t, .getKey x b hb, h⟩ rfl
    simp only [step, bind, M.bind, getKey_ok h.inv hi hat]
    rfl
  | eq x y =>
    simp [Op.valid] at hv
    obtain ⟨i, b, hi, hb, hat⟩ := h.name (x := x) (by simpa using hv.1)
    obtain ⟨j, c, hj, hc, hat'⟩ := h.name (x := y) (by simpa using hv.2)
    refine ok (out := .bool (b.addr == c.addr)) (s' := s) ?_ ⟨t, .eq x y b c hb hc, h⟩ rfl
    simp only [step, eq, bind, M.bind, get_ok h.inv hi hat, get_ok h.inv hj hat']
    rfl
  | hash x =>
    simp [Op.valid] at hv
    obtain ⟨i, b, hi, hb, hat⟩ := h.name (x := x) (by simpa using hv)
    refine ok (out := .num (hp b.addr)) (s' := s) ?_ ⟨t, .hash x b hb, h⟩ rfl
    simp only [step, hash, bind, M.bind, get_ok h.inv hi hat]
    rfl

/-! ## The garbage collector -/

/-- What remains when the collector has looked at the elements in `l`. (No code of its own: used in
statements and proofs.) -/
structure Swept (X : L.Leaves) (keq : K → K → Bool) (l : List Nat) (s s' : St Rep) : Prop where
  inv : Inv X keq zero s'
  bal : Bal L 0 0 s'
  objs : s'.objs = s.objs
  faults : s'.env.faults = s.env.faults
  cont : s'.cont = s.cont.filter fun n => !(l.contains n.id && n.cnt == 0)

theorem collect_ok (hI : Inv X keq zero s) (hb : Bal L 0 0 s) (i : Nat) : ∃ s', collect P i s = .ok () s' ∧ Swept X keq [i] s s' := by
  cases hf : s.cont.find? (fun n => n.id == i) with
  | none =>
    refine ⟨s, by simp [collect, bind, M.bind, M.read, hf, pure, M.ret], hI, hb, rfl, rfl, ?_⟩
    rw [List.filter_eq_self.2]
    intro n hn
    have := List.find?_eq_none.1 hf n hn
    simp at this
    simp [this]
  | some n =>
    have hn := List.mem_of_find?_eq_some hf
    have hi : n.id = i := by simpa using List.find?_some hf
    subst hi
    by_cases h0 : n.cnt = 0
    · have hlive : L.Live n.rep := by
        rcases hI.good n hn with ⟨k, v, h⟩ | ⟨_, k, h⟩
        · exact L.full_live h
        · exact X.live h
      have hd := L.destroy n.rep s.env hlive s.env rfl
      cases hm : P.destroy n.rep s.env with
      | ub => rw [hm] at hd; exact hd.elim
      | exc e => rw [hm] at hd; exact hd.elim
      | ok u e =>
        rw [hm] at hd
        have hcont : (s.cont.filter fun m => m.id != n.id) = s.cont.filter fun m => !(([n.id] : List Nat).contains m.id && m.cnt == 0) := by
          refine List.filter_congr fun m hm' => ?_
          by_cases e : m.id = n.id
          · rw [uniq hI.ids hm' hn e]; simp [h0]
          · simp [e]
        have hz : refs s n.id = 0 := by
          have := hI.cnt n hn
          rw [h0] at this
          omega
        refine ⟨{ s with env := e, cont := s.cont.filter fun m => m.id != n.id }, ?_, ?_, ?_, rfl, hd.faults, hcont⟩
        · simp [collect, bind, M.bind, M.read, hf, h0, env, hm, M.update]
        · have mem : ∀ m, m ∈ s.cont.filter (fun m => m.id != n.id) ↔ m ∈ s.cont ∧ m.id ≠ n.id := fun m => by simp [List.mem_filter]
          refine ⟨hI.alloc, hI.ids.sublist (List.filter_sublist.map _), ?_, ?_, ?_, ?_, ?_, ?_, ?_, ?_, hI.names⟩
          · exact fun m h m' h' => hI.addrs m ((mem m).1 h).1 m' ((mem m').1 h').1
          · exact fun m h => hI.lt m ((mem m).1 h).1
          · exact fun m h => hI.good m ((mem m).1 h).1
          · exact fun m h m' h' => hI.keys m ((mem m).1 h).1 m' ((mem m').1 h').1
          · exact fun m h => hI.cnt m ((mem m).1 h).1
          · intro p hp
            obtain ⟨m, hm', e⟩ := hI.objs p hp
            refine ⟨m, (mem m).2 ⟨hm', fun e' => ?_⟩, e⟩
            have : 0 < refs s p.2 := List.countP_pos_iff.2 ⟨p, hp, by simp⟩
            rw [← e, e'] at this
            omega
          · exact fun i h => absurd h (by simp [zero])
          · exact fun _ => hI.ini fun e => by rw [e] at hn; cases hn
        · constructor
          · have h1 := hb.keys; have h2 := hd.keys
            simp only at h2 ⊢
            rw [remove_sum hI.ids hn]
            omega
          · have h1 := hb.vals; have h2 := hd.vals
            simp only at h2 ⊢
            rw [remove_sum hI.ids hn]
            omega
    · refine ⟨s, by simp [collect, bind, M.bind, M.read, hf, h0, pure, M.ret], hI, hb, rfl, rfl, ?_⟩
      rw [List.filter_eq_self.2]
      intro m hm
      by_cases e : m.id = n.id
      · rw [uniq hI.ids hm hn e]; simp [h0]
      · simp [e]

theorem forM_ok (l : List Nat) : ∀ {s : St Rep}, Inv X keq zero s → Bal L 0 0 s → ∃ s', l.forM (collect P) s = .ok () s' ∧ Swept X keq l s s' := by
  induction l with
  | nil =>
    intro s hI hb
    exact ⟨s, rfl, hI, hb, rfl, rfl, (List.filter_eq_self.2 fun _ _ => rfl).symm⟩
  | cons i l ih =>
    intro s hI hb
    obtain ⟨s1, e1, h1⟩ := collect_ok hI hb i
    obtain ⟨s2, e2, h2⟩ := ih h1.inv h1.bal
    refine ⟨s2, ?_, h2.inv, h2.bal, h2.objs.trans h1.objs, h2.faults.trans h1.faults, ?_⟩
    · show M.bind (collect P i) _ s = _
      simp only [M.bind, e1]
      exact e2
    · rw [h2.cont, h1.cont, List.filter_filter]
      refine List.filter_congr fun n _ => ?_
      by_cases e : n.id = i <;> by_cases e0 : n.cnt = 0 <;> simp [e, e0]

theorem pass_ok (hI : Inv X keq zero s) (hb : Bal L 0 0 s) : ∃ s', pass P s = .ok () s' ∧ Inv X keq zero s' ∧ Bal L 0 0 s' ∧
    s'.objs = s.objs ∧ s'.env.faults = s.env.faults ∧ s'.cont = s.cont.filter fun n => n.cnt != 0 := by
  obtain ⟨s', e, h⟩ := forM_ok (s.cont.map Node.id) hI hb
  refine ⟨s', e, h.inv, h.bal, h.objs, h.faults, h.cont.trans (List.filter_congr fun n hn => ?_)⟩
  have : (s.cont.map Node.id).contains n.id = true := by simpa using ⟨n, hn, rfl⟩
  rw [this]
  rfl

theorem kept (hI : Inv X keq zero s) {q : Node Rep → Bool} (hq : ∀ n ∈ s.cont, n.cnt ≠ 0 → q n = true) (hc : s'.cont = s.cont.filter q)
    {i : Nat} (hi : 0 < refs s i) (b : Bind K V) : At L s i b → At L s' i b := by
  rintro ⟨n, hn, e, ha, hF⟩
  refine ⟨n, ?_, e, ha, hF⟩
  rw [hc]
  refine List.mem_filter.2 ⟨hn, hq n hn fun h0 => ?_⟩
  have := hI.cnt n hn
  rw [h0, e] at this
  omega

theorem Rel.swept (h : Rel X keq zero s t) {q : Node Rep → Bool} (hq : ∀ n ∈ s.cont, n.cnt ≠ 0 → q n = true) (hc : s'.cont = s.cont.filter q)
    (hI : Inv X keq zero s') (hb : Bal L 0 0 s') (ho : s'.objs = s.objs) :
    ∃ t', CFSpec.Collect t t' ∧ Rel X keq zero s' t' := by
  have sub : ∀ n, n ∈ s'.cont → n ∈ s.cont := fun n hn => by rw [hc] at hn; exact (List.mem_filter.1 hn).1
  have hv : Vars L s' s'.objs t.vars := by
    rw [ho]
    exact h.vars.mono fun p hp b hb => kept h.inv hq hc (List.countP_pos_iff.2 ⟨p, hp, by simp⟩) b hb
  refine ⟨⟨t.vars, fun b => ∃ i, At L s' i b, LeftAt X s'⟩, ⟨rfl, ?_, ?_, ?_⟩, hI, hb, hv, fun _ => .rfl, fun _ => .rfl⟩
  · rintro b ⟨i, n, hn, g⟩
    exact (h.pool b).2 ⟨i, n, sub n hn, g⟩
  · intro x b hx _
    obtain ⟨i, c, hi, hc', hat⟩ := h.name (List.mem_map.2 ⟨_, hx, rfl⟩)
    have hn : (t.vars.map Prod.fst).Nodup := by rw [h.vars.names]; exact h.inv.names
    have := (lookup_of_mem hn hx).symm.trans (lookup_of_mem hn hc')
    cases this
    exact ⟨i, kept h.inv hq hc (refs_pos hi) _ hat⟩
  · rintro k ⟨n, hn, hl⟩
    exact (h.left k).2 ⟨n, sub n hn, hl⟩

/-! ## Runs -/

theorem exec_sim (LS : sp.Lawful keq) (trk : Tracking) (hp : Nat → Nat) (evs : List (Ev K V)) : ∀ {s : St Rep} {t : LSt K V}, Rel X keq zero s t →
    ∃ outs s' t', exec P keq trk hp sp evs s = some (outs, s') ∧ CFSpec.Run keq sp hp t evs outs t' ∧ Rel X keq zero s' t' ∧
      s'.env.faults = s.env.faults := by
  induction evs with
  | nil => exact fun {s t} h => ⟨[], s, t, rfl, .nil t, h, rfl⟩
  | cons ev evs ih =>
    intro s t h
    cases ev with
    | op o =>
      cases hv : o.valid sp (t.vars.map Prod.fst) with
      | false =>
        obtain ⟨outs, s', t', e, hr, hR, hf⟩ := ih h
        refine ⟨_, s', t', ?_, .skip hv hr, hR, hf⟩
        have hv' := h.vars.names ▸ hv
        simp only [exec, hv', e]
        rfl
      | true =>
        have hs := step_sim LS trk hp h hv s rfl
        have hv' := h.vars.names ▸ hv
        simp only [exec, hv', if_true]
        cases hm : step P keq trk hp o s with
        | ub => rw [hm] at hs; exact hs.elim
        | ok out s1 =>
          rw [hm] at hs
          obtain ⟨⟨t1, h1, h2⟩, h3⟩ := hs
          obtain ⟨outs, s', t', e, hr, hR, hf⟩ := ih h2
          exact ⟨out :: outs, s', t', by simp only [e]; rfl, .step hv h1 hr, hR, hf.trans h3⟩
        | exc s1 =>
          rw [hm] at hs
          obtain ⟨⟨⟨t1, h1, h2⟩, h3⟩, _⟩ := hs
          obtain ⟨outs, s', t', e, hr, hR, hf⟩ := ih h2
          exact ⟨.threw :: outs, s', t', by simp only [e]; rfl, .step hv h1 hr, hR, hf.trans h3⟩
    | collect i =>
      obtain ⟨s1, e1, h1⟩ := collect_ok h.inv h.bal i
      obtain ⟨t1, hC, h2⟩ := h.swept (q := fun n => !(([i] : List Nat).contains n.id && n.cnt == 0)) (fun n _ h0 => by simp [h0]) h1.cont h1.inv h1.bal h1.objs
      obtain ⟨outs, s', t', e, hr, hR, hf⟩ := ih h2
      refine ⟨outs, s', t', ?_, .collect hC hr, hR, hf.trans h1.faults⟩
      simp only [exec, e1]
      exact e

theorem start_rel (X : L.Leaves) (keq : K → K → Bool) (fl : Nat → Bool) {alloc : Nat → List Nat → Nat} (ha : ∀ n l, alloc n l ∉ l) :
    Rel X keq zero (start fl alloc) (LSt.start : LSt K V) := by
  refine ⟨⟨ha, .nil, ?_, ?_, ?_, ?_, ?_, ?_, ?_, ?_, .nil⟩, ⟨rfl, rfl⟩, .nil, ?_, ?_⟩
  · exact fun _ h => nomatch h
  · exact fun _ h => nomatch h
  · exact fun _ h => nomatch h
  · exact fun _ h => nomatch h
  · exact fun _ h => nomatch h
  · exact fun _ h => nomatch h
  · exact fun _ h => absurd h (by simp [zero])
  · exact fun h => absurd rfl h
  · exact fun b => ⟨False.elim, fun ⟨_, n, hn, _⟩ => nomatch hn⟩
  · exact fun k => ⟨False.elim, fun ⟨n, hn, _⟩ => nomatch hn⟩

/-- Variable `x` exists; `get()` returns a reference to `b.addr` holding `b.val` and `get_key()` returns `b.key`.  (No code of its own: used in
statements and proofs.) -/
def Sees (P : Policy K V Rep) (s : St Rep) (x : Nat) (b : Bind K V) : Prop := get P x s = .ok (b.addr, b.val) s ∧ getKey P x s = .ok b.key s

theorem Rel.sees (h : Rel X keq zero s t) (x : Nat) (b : Bind K V) : Sees P s x b ↔ (x, b) ∈ t.vars := by
  constructor
  · rintro ⟨h1, h2⟩
    cases hl : s.objs.lookup x with
    | none => simp [get, handleOf, bind, M.bind, M.read, hl, M.undef] at h1
    | some i =>
      obtain ⟨c, hc, hat⟩ := h.vars.lookup hl
      rw [get_ok h.inv hl hat] at h1
      rw [getKey_ok h.inv hl hat] at h2
      cases b; cases c
      simp only at *
      cases h1; cases h2
      exact hc
  · intro hx
    obtain ⟨i, c, hi, hc, hat⟩ := h.name (List.mem_map.2 ⟨_, hx, rfl⟩)
    have hn : (t.vars.map Prod.fst).Nodup := by rw [h.vars.names]; exact h.inv.names
    have := (lookup_of_mem hn hx).symm.trans (lookup_of_mem hn hc)
    cases this
    exact ⟨get_ok h.inv hi hat, getKey_ok h.inv hi hat⟩

end
end Verif.CFSeq

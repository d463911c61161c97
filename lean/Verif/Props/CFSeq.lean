import Verif.CFSeqLib
import Verif.Sample
import Verif.History

/-!
# Flyweights with `concurrent_factory`, in detail: C69
-/

set_option autoImplicit false

namespace Verif.Props
open CFSeq
open CFSpec (Ev LSt)
variable {K V Rep : Type} {P : Policy K V Rep} {sp : SrcSpec K V} {keq : K → K → Bool} {kd : Bool}

namespace CFS

theorem rel (h : LibPolicy P sp keq kd) (he : EquivOk keq) {trk : Tracking} {s : CFSeq.St Rep} (hr : CFSeq.Reach P keq trk sp s) :
    sp.Lawful keq ∧ ∃ (L : P.Lawful sp) (X : L.Leaves), (L.fullKeys = 0 ∨ L.fullKeys = 1) ∧ ∃ t, CFSeq.Rel X keq zero s t ∧ CFSpec.Ok keq sp t := by
  obtain ⟨LS, L, ⟨X⟩, hf⟩ := h.leaves he
  obtain ⟨t, h1, h2⟩ := hr.rel X LS
  exact ⟨LS, L, X, hf, t, h1, h2⟩

theorem names {L : P.Lawful sp} {X : L.Leaves} {s : CFSeq.St Rep} {t : LSt K V} (h : CFSeq.Rel X keq zero s t) :
    t.vars.map Prod.fst = s.objs.map Prod.fst := h.vars.names

/-- A creation that does not throw has nothing to say. -/
theorem step_out {trk : Tracking} {hp : Nat → Nat} {o : Op K V} {src : Src K V} (hc : o.creates = some src) {s s' : CFSeq.St Rep} {out : Out K V}
    (h : CFSeq.step P keq trk hp o s = .ok out s') : out = .done := by
  have aux : ∀ m : M (CFSeq.St Rep) Unit, M.bind m (fun _ => M.ret Out.done) s = .ok out s' → out = .done := by
    intro m h
    unfold M.bind at h
    split at h
    · cases h; rfl
    · cases h
    · cases h
  cases o with
  | make x src' => exact aux _ h
  | assignVal x src' => exact aux _ h
  | _ => cases hc

/-- Creations with equivalent keys, all of which throw. -/
theorem once {L : P.Lawful sp} {X : L.Leaves} (LS : sp.Lawful keq) (trk : Tracking) (hp : Nat → Nat) (k : K) (ops : List (Op K V)) :
    ∀ {s s' : CFSeq.St Rep} {t : LSt K V} {outs : List (Out K V)}, CFSeq.Rel X keq zero s t →
      (∀ o ∈ ops, ∃ src, o.creates = some src ∧ keq (sp.key0 src) k = true) →
      CFSeq.exec P keq trk hp sp (ops.map .op) s = some (outs, s') → (∀ o ∈ outs, o = .threw ∨ o = .skipped) →
      s'.objs = s.objs ∧ (∃ t', CFSeq.Rel X keq zero s' t' ∧ t'.vars = t.vars) ∧
        (s'.cont = s.cont ∨ ∃ n l, X.Left l n.rep ∧ keq l k = true ∧ s'.cont = n :: s.cont) := by
  induction ops with
  | nil =>
    intro s s' t outs h _ e _
    cases e
    exact ⟨rfl, ⟨t, h, rfl⟩, .inl rfl⟩
  | cons o ops ih =>
    intro s s' t outs h hops e hout
    obtain ⟨src, hc, hk⟩ := hops o (.head _)
    have hops' : ∀ o ∈ ops, ∃ src, o.creates = some src ∧ keq (sp.key0 src) k = true := fun o ho => hops o (.tail _ ho)
    simp only [List.map_cons, CFSeq.exec] at e
    split at e
    case isFalse hv =>
      obtain ⟨⟨outs', s1⟩, e1, e2⟩ := Option.map_eq_some_iff.1 e
      cases e2
      exact ih h hops' e1 fun o ho => hout o (.tail _ ho)
    case isTrue hv =>
      rw [← names h] at hv
      have hstep := step_sim LS trk hp h hv s rfl
      split at e
      case h_1 out s1 e0 =>
        obtain ⟨⟨outs', s2⟩, e1, e2⟩ := Option.map_eq_some_iff.1 e
        cases e2
        have := step_out hc e0
        subst this
        rcases hout .done (.head _) with h | h <;> cases h
      case h_2 s1 e0 =>
        obtain ⟨⟨outs', s2⟩, e1, e2⟩ := Option.map_eq_some_iff.1 e
        cases e2
        rw [e0] at hstep
        obtain ⟨⟨⟨t1, hs1, h1⟩, _⟩, _, x, src', ho, hT⟩ := hstep
        have hsrc : src' = src := by
          rcases ho with rfl | rfl
          · exact Option.some.inj hc
          · exact Option.some.inj hc
        subst hsrc
        obtain ⟨g1, ⟨t2, g2, g2'⟩, g3⟩ := ih h1 hops' e1 fun o ho => hout o (.tail _ ho)
        refine ⟨g1.trans hT.objs, ⟨t2, g2, g2'.trans hs1.threw⟩, ?_⟩
        rcases hT.cont with e3 | ⟨n, hn, e3⟩
        · rwa [e3] at g3
        · rcases g3 with g3 | ⟨m, l, hm, hl, g3⟩
          · exact .inr ⟨n, _, hn, hk, g3.trans e3⟩
          · exfalso
            rw [e3] at g3
            have hne : m.id ≠ n.id := by
              have := g2.inv.ids
              rw [g3] at this
              simp only [List.map_cons, List.nodup_cons, List.mem_cons, not_or] at this
              exact this.1.1
            have := g2.inv.keys m (by rw [g3]; exact .head _) n (by rw [g3]; exact .tail _ (.head _)) hne _ _ (X.key hm) (X.key hn)
            rw [LS.trans _ _ _ hl (LS.symm _ _ hk)] at this
            cases this
      case h_3 => cases e

theorem grown {L : P.Lawful sp} {X : L.Leaves} {s s' : CFSeq.St Rep} {t t' : LSt K V} (h : CFSeq.Rel X keq zero s t)
    (h' : CFSeq.Rel X keq zero s' t') (hc : s'.cont = s.cont ∨ ∃ n l, X.Left l n.rep ∧ s'.cont = n :: s.cont) :
    s'.env.vals = s.env.vals ∧ (s'.env.keys = s.env.keys ∨ s'.env.keys = s.env.keys + 1) := by
  have a := h.bal.keys
  have b := h.bal.vals
  have a' := h'.bal.keys
  have b' := h'.bal.vals
  rcases hc with hc | ⟨n, l, hn, hc⟩
  · rw [hc] at a' b'
    exact ⟨b'.trans b.symm, .inl (a'.trans a.symm)⟩
  · rw [hc] at a' b'
    simp only [List.map_cons, List.sum_cons, X.res hn] at a' b'
    exact ⟨by omega, .inr (by omega)⟩

theorem sees_of_vars {L : P.Lawful sp} {X : L.Leaves} {s s' : CFSeq.St Rep} {t t' : LSt K V} (h : CFSeq.Rel X keq zero s t)
    (h' : CFSeq.Rel X keq zero s' t') (e : t'.vars = t.vars) (x : Nat) (b : Bind K V) : CFSeq.Sees P s' x b ↔ CFSeq.Sees P s x b := by
  rw [h.sees, h'.sees, e]

end CFS

/-- `flyweight<key_value<int,V>,concurrent_factory<>>`.  (No code of its own: used to state a property or an example.) -/
def cfRun (trk : Tracking) (faults : Nat → Bool) (evs : List (Ev Nat (Nat × Nat))) :=
  CFSeq.exec (PRep.policy Sample.u) Sample.keq trk id (SrcSpec.product Sample.u) evs (CFSeq.start faults Sample.alloc)

theorem cf_lib : LibPolicy (PRep.policy Sample.u) (SrcSpec.product Sample.u) Sample.keq true := .product _ _

/-- The states of the examples below are reachable. -/
theorem cf_reach {trk : Tracking} {faults : Nat → Bool} {evs : List (Ev Nat (Nat × Nat))} {outs : List (Out Nat (Nat × Nat))}
    {s : CFSeq.St (PRep Nat (Nat × Nat))} (h : cfRun trk faults evs = some (outs, s)) :
    CFSeq.Reach (PRep.policy Sample.u) Sample.keq trk (SrcSpec.product Sample.u) s :=
  ⟨id, faults, Sample.alloc, evs, outs, Sample.alloc_ok, h⟩

deriving instance DecidableEq for Out

/-- What the program outputs, and how many keys and values there are at its end.  (No code of its own: used to state a property or an example.) -/
def cfShow (trk : Tracking) (faults : Nat → Bool) (evs : List (Ev Nat (Nat × Nat))) : Option (List (Out Nat (Nat × Nat)) × Int × Int) :=
  (cfRun trk faults evs).map fun p => (p.1, p.2.env.keys, p.2.env.vals)

/-- The same after a pass of the garbage collector.  (No code of its own: used to state a property or an example.) -/
def cfPass (trk : Tracking) (faults : Nat → Bool) (evs : List (Ev Nat (Nat × Nat))) : Option (List (Out Nat (Nat × Nat)) × Int × Int) :=
  match cfRun trk faults evs with
  | some (outs, s) => match CFSeq.pass (PRep.policy Sample.u) s with
    | .ok _ s' => some (outs, s'.env.keys, s'.env.vals)
    | _ => none
  | none => none

/-- A creation that throws after its key has been stored, one flyweight that shares, and one that is destroyed.  (No code of its own: used to state a
property or an example.) -/
def cfProg : List (Ev Nat (Nat × Nat)) :=
  [.op (.make 0 (.key 3)), .op (.make 1 (.key 4)), .op (.make 2 (.key 13)), .op (.make 3 (.key 5)), .op (.destroy 3)]

/-- **C69.**  With `concurrent_factory`, any library value policy and tracking policy, whatever the program does, whatever throws, and whenever the
garbage collector acts: no undefined behaviour, and outcomes and variables are as those of interned values that linger. -/
theorem C69_refines (h : LibPolicy P sp keq kd) (he : EquivOk keq) (trk : Tracking) (hp : Nat → Nat) (faults : Nat → Bool)
    (alloc : Nat → List Nat → Nat) (ha : ∀ n l, alloc n l ∉ l) (evs : List (Ev K V)) :
    ∃ outs s t, CFSeq.exec P keq trk hp sp evs (CFSeq.start faults alloc) = some (outs, s) ∧ CFSpec.Run keq sp hp .start evs outs t ∧
      (∀ x, x ∈ s.objs.map Prod.fst ↔ x ∈ t.vars.map Prod.fst) ∧ ∀ x b, CFSeq.Sees P s x b ↔ (x, b) ∈ t.vars := by
  obtain ⟨LS, L, ⟨X⟩, hf⟩ := h.leaves he
  obtain ⟨outs, s, t, e, hr, hR, _⟩ := exec_sim LS trk hp evs (start_rel X keq faults ha)
  exact ⟨outs, s, t, e, hr, fun x => by rw [CFS.names hR], hR.sees⟩

/-- The second creation throws in the value's constructor; the others succeed, and variables 0 and 2 have the same value. -/
example : cfShow .refcounted (Sample.failAt 13) (cfProg ++ [.op (.get 0), .op (.getKey 0), .op (.get 2), .op (.getKey 2)]) =
    some ([.done, .threw, .done, .done, .done, .val 1 (3, 9), .key 3, .val 1 (3, 9), .key 3], 3, 2) := by decide +kernel

/-- **C69.**  Flyweights compare equal, and have the same value object, if and only if their keys are equivalent. -/
theorem C69_equality (h : LibPolicy P sp keq kd) (he : EquivOk keq) (trk : Tracking) (s : CFSeq.St Rep) (hr : CFSeq.Reach P keq trk sp s)
    (x y : Nat) (b c : Bind K V) (hx : CFSeq.Sees P s x b) (hy : CFSeq.Sees P s y c) :
    CFSeq.eq P x y s = .ok (keq b.key c.key) s ∧ (keq b.key c.key = true → b = c) := by
  obtain ⟨LS, L, X, _, t, hR, hO⟩ := CFS.rel h he hr
  have hb := hO.bound x b ((hR.sees x b).1 hx)
  have hc := hO.bound y c ((hR.sees y c).1 hy)
  refine ⟨?_, hO.keys b c hb hc⟩
  have e : (b.addr == c.addr) = keq b.key c.key := by
    rw [Bool.eq_iff_iff, beq_iff_eq]
    constructor
    · intro e
      rw [hO.addrs b c hb hc e]
      exact LS.refl _
    · intro e
      rw [hO.keys b c hb hc e]
  simp only [CFSeq.eq, bind, M.bind, hx.1, hy.1, pure, M.ret, e]

/-- Keys 3 and 13 are equivalent, 3 and 5 are not. -/
example : cfShow .noTracking Sample.calm [.op (.make 0 (.key 3)), .op (.make 1 (.key 13)), .op (.make 2 (.key 5)), .op (.getKey 0), .op (.getKey 1),
      .op (.getKey 2), .op (.eq 0 1), .op (.eq 0 2)] =
    some ([.done, .done, .done, .key 3, .key 3, .key 5, .bool true, .bool false], 2, 2) := by decide +kernel

/-- **C69.**  A successful creation or assignment: the flyweight has a key equivalent to the one asked for, is the same as any that had such a key,
and the other variables are as before; if values of equivalent keys are equal, its value is the one asked for. -/
theorem C69_create (h : LibPolicy P sp keq kd) (he : EquivOk keq) (trk : Tracking) (hp : Nat → Nat) (s s' : CFSeq.St Rep)
    (hr : CFSeq.Reach P keq trk sp s) (x : Nat) (src : Src K V) (o : Op K V) (ho : o = .make x src ∨ o = .assignVal x src)
    (hv : o.valid sp (s.objs.map Prod.fst) = true) (out : Out K V) (hs : CFSeq.step P keq trk hp o s = .ok out s') :
    ∃ b, CFSeq.Sees P s' x b ∧ keq b.key (sp.key0 src) = true ∧
      (∀ y c, CFSeq.Sees P s y c → keq c.key (sp.key0 src) = true → b = c) ∧
      (∀ y c, y ≠ x → (CFSeq.Sees P s' y c ↔ CFSeq.Sees P s y c)) ∧
      ((∀ k l, sp.supports k = true → sp.supports l = true → keq (sp.key1 k) (sp.key1 l) = true → sp.val k = sp.val l) →
        b.val = sp.val src) := by
  obtain ⟨LS, L, X, _, t, hR, hO⟩ := CFS.rel h he hr
  rw [← CFS.names hR] at hv
  have hst := step_sim LS trk hp hR hv s rfl
  rw [hs] at hst
  obtain ⟨⟨t', hS, hR'⟩, _⟩ := hst
  have hsup : sp.supports src = true := by
    rcases ho with rfl | rfl <;> simp [Op.valid] at hv <;> exact hv.2
  have hd : out = .done := CFS.step_out (src := src) (by rcases ho with rfl | rfl <;> rfl) hs
  subst hd
  have key : ∃ b pool' left', CFSpec.Create keq sp t src b pool' ∧ t'.pool = pool' ∧ (x, b) ∈ t'.vars ∧ left' = t'.left ∧
      (∀ y c, y ≠ x → ((y, c) ∈ t'.vars ↔ (y, c) ∈ t.vars)) := by
    rcases ho with rfl | rfl
    · cases hS with
      | make _ _ b pool' left' hc _ =>
        refine ⟨b, pool', _, hc, rfl, .head _, rfl, fun y c hy => ?_⟩
        simp [hy]
    · cases hS with
      | assignVal _ _ b pool' left' hc _ =>
        refine ⟨b, pool', _, hc, rfl, ?_, rfl, fun y c hy => ?_⟩
        · simp [Op.valid] at hv
          obtain ⟨c, hc⟩ := hv.1
          exact List.mem_map.2 ⟨(x, c), hc, by simp⟩
        · simp only [SSt.rebind, List.mem_map]
          constructor
          · rintro ⟨p, hp, e⟩
            by_cases hpx : p.1 = x
            · rw [if_pos hpx] at e
              cases e
              exact absurd rfl hy
            · rw [if_neg hpx] at e
              exact e ▸ hp
          · exact fun hm => ⟨(y, c), hm, by simp [hy]⟩
  obtain ⟨b, pool', left', hc, hpl, hb, _, hoth⟩ := key
  obtain ⟨g1, g2, g3⟩ := hO.create LS X.supports X.key0 hsup hc left'
  refine ⟨b, (hR'.sees x b).2 hb, g2, fun y c hy hk => ?_, fun y c hy => ?_, fun hval => ?_⟩
  · have hcp : pool' c := g3.bound y c ((hR.sees y c).1 hy)
    exact g3.keys b c g1 hcp (LS.trans _ _ _ g2 (LS.symm _ _ hk))
  · rw [hR'.sees, hR.sees]
    exact hoth y c hy
  · obtain ⟨src', hs', e1, e2⟩ := g3.made b g1
    rw [e2]
    refine hval src' src hs' hsup ?_
    rw [← e1]
    exact LS.trans _ _ _ g2 (LS.symm _ _ (LS.contract src hsup))

/-- A new value, and assignment of an existing one. -/
example : cfShow .refcounted (Sample.failAt 13)
      (cfProg ++ [.op (.make 7 (.key 8)), .op (.get 7), .op (.get 0), .op (.assignVal 7 (.key 33)), .op (.get 7), .op (.get 0)]) =
    some ([.done, .threw, .done, .done, .done, .done, .val 8 (8, 64), .val 1 (3, 9), .done, .val 1 (3, 9), .val 1 (3, 9)], 4, 3) := by
  decide +kernel

/-- Values of equal keys are equal. -/
example (k l : Src Nat (Nat × Nat)) (hk : (SrcSpec.product Sample.u).supports k = true) (hl : (SrcSpec.product Sample.u).supports l = true)
    (h : (decide ((SrcSpec.product Sample.u).key1 k = (SrcSpec.product Sample.u).key1 l)) = true) :
    (SrcSpec.product Sample.u).val k = (SrcSpec.product Sample.u).val l := by
  cases k with
  | key k =>
    cases l with
    | key l =>
      have e : k = l := of_decide_eq_true h
      rw [e]
    | copy v => cases hl
    | move v => cases hl
  | copy v => cases hk
  | move v => cases hk

/-- **C69.**  An operation that throws leaves all variables and the number of values as they were; of the objects of the user at most one key
remains.  Only creation and assignment from a source can throw, and only because an operation of the user has. -/
theorem C69_strong (h : LibPolicy P sp keq kd) (he : EquivOk keq) (trk : Tracking) (hp : Nat → Nat) (s s' : CFSeq.St Rep)
    (hr : CFSeq.Reach P keq trk sp s) (o : Op K V) (hv : o.valid sp (s.objs.map Prod.fst) = true)
    (hs : CFSeq.step P keq trk hp o s = .exc s') :
    s'.objs.map Prod.fst = s.objs.map Prod.fst ∧ (∀ x b, CFSeq.Sees P s' x b ↔ CFSeq.Sees P s x b) ∧ s'.env.vals = s.env.vals ∧
      (s'.env.keys = s.env.keys ∨ s'.env.keys = s.env.keys + 1) ∧ (∃ n, s.env.faults n = true) ∧ ∃ src, o.creates = some src := by
  obtain ⟨LS, L, X, _, t, hR, hO⟩ := CFS.rel h he hr
  rw [← CFS.names hR] at hv
  have hst := step_sim LS trk hp hR hv s rfl
  rw [hs] at hst
  obtain ⟨⟨⟨t', hS, hR'⟩, _⟩, hf, x, src, ho, hT⟩ := hst
  obtain ⟨g1, g2⟩ := CFS.grown hR hR' (hT.cont.imp id fun ⟨n, hn, e⟩ => ⟨n, _, hn, e⟩)
  exact ⟨by rw [hT.objs], CFS.sees_of_vars hR hR' hS.threw, g1, g2, hf, src, by rcases ho with rfl | rfl <;> rfl⟩

/-- The constructor of the value throws: the key remains.  Something before it throws: nothing remains. -/
example : cfShow .refcounted (Sample.failAt 13) [.op (.make 0 (.key 3)), .op (.get 0)] = some ([.done, .val 1 (3, 9)], 1, 1) ∧
    cfShow .refcounted (Sample.failAt 13) [.op (.make 0 (.key 3)), .op (.make 1 (.key 4)), .op (.get 0)] =
      some ([.done, .threw, .val 1 (3, 9)], 2, 1) ∧
    cfShow .refcounted (Sample.failAt 12) [.op (.make 0 (.key 3)), .op (.assignVal 0 (.key 4)), .op (.get 0)] =
      some ([.done, .threw, .val 1 (3, 9)], 1, 1) :=
  ⟨by decide +kernel, by decide +kernel, by decide +kernel⟩

/-- **C69.**  However often creations with equivalent keys throw, one after the other: at most one key remains of all of them. -/
theorem C69_once (h : LibPolicy P sp keq kd) (he : EquivOk keq) (trk : Tracking) (hp : Nat → Nat) (s s' : CFSeq.St Rep)
    (hr : CFSeq.Reach P keq trk sp s) (k : K) (ops : List (Op K V)) (hops : ∀ o ∈ ops, ∃ src, o.creates = some src ∧ keq (sp.key0 src) k = true)
    (outs : List (Out K V)) (hrun : CFSeq.exec P keq trk hp sp (ops.map .op) s = some (outs, s'))
    (hout : ∀ o ∈ outs, o = .threw ∨ o = .skipped) :
    (∀ x b, CFSeq.Sees P s' x b ↔ CFSeq.Sees P s x b) ∧ s'.env.vals = s.env.vals ∧
      (s'.env.keys = s.env.keys ∨ s'.env.keys = s.env.keys + 1) := by
  obtain ⟨LS, L, X, _, t, hR, hO⟩ := CFS.rel h he hr
  obtain ⟨_, ⟨t', hR', e⟩, hc⟩ := CFS.once LS trk hp k ops hR hops hrun hout
  exact ⟨CFS.sees_of_vars hR hR' e, CFS.grown hR hR' (hc.imp id fun ⟨n, l, hn, _, e⟩ => ⟨n, l, hn, e⟩)⟩

/-- Three creations with equivalent keys throw: one key remains. -/
example : cfShow .noTracking (fun n => n == 6 || n == 11 || n == 16) ([.make 0 (.key 1), .make 0 (.key 11), .make 1 (.key 21)].map .op) =
    some ([.threw, .threw, .threw], 1, 0) := by
  decide +kernel

/-- **C69.**  What the garbage collector does with an element is not seen by any flyweight. -/
theorem C69_collect (h : LibPolicy P sp keq kd) (he : EquivOk keq) (trk : Tracking) (s : CFSeq.St Rep) (hr : CFSeq.Reach P keq trk sp s)
    (i : Nat) :
    ∃ s', CFSeq.collect P i s = .ok () s' ∧ s'.objs = s.objs ∧ (∀ x b, CFSeq.Sees P s' x b ↔ CFSeq.Sees P s x b) ∧
      s'.env.vals ≤ s.env.vals ∧ s'.env.keys ≤ s.env.keys := by
  obtain ⟨LS, L, X, hf, t, hR, hO⟩ := CFS.rel h he hr
  obtain ⟨s', e, hw⟩ := collect_ok hR.inv hR.bal i
  obtain ⟨t', hC, hR'⟩ := hR.swept (q := fun n => !([i].contains n.id && n.cnt == 0)) (fun n _ h0 => by simp [h0]) hw.cont hw.inv hw.bal hw.objs
  have nn : ∀ n ∈ s.cont, 0 ≤ (L.res n.rep).1 ∧ 0 ≤ (L.res n.rep).2 := by
    intro n hn
    rcases hR.inv.good n hn with ⟨k, v, hF⟩ | ⟨_, k, hl⟩
    · rw [L.full_res hF]
      rcases hf with e | e <;> rw [e] <;> simp
    · rw [X.res hl]
      simp
  have sums : ∀ (g : CFSeq.Node Rep → Int) (q : CFSeq.Node Rep → Bool) (l : List (CFSeq.Node Rep)), (∀ n ∈ l, 0 ≤ g n) →
      ((l.filter q).map g).sum ≤ (l.map g).sum := by
    intro g q l
    induction l with
    | nil => intro _; simp
    | cons n l ih =>
      intro hl
      have h1 := ih fun m hm => hl m (.tail _ hm)
      have h2 := hl n (.head _)
      rw [List.filter_cons]
      split
      · simp only [List.map_cons, List.sum_cons]; omega
      · simp only [List.map_cons, List.sum_cons]; omega
  refine ⟨s', e, hw.objs, CFS.sees_of_vars hR hR' hC.vars, ?_, ?_⟩
  · rw [hR'.bal.vals, hR.bal.vals, hw.cont]
    have := sums (fun n => (L.res n.rep).2) (fun n => !([i].contains n.id && n.cnt == 0)) s.cont fun n hn => (nn n hn).2
    omega
  · rw [hR'.bal.keys, hR.bal.keys, hw.cont]
    have := sums (fun n => (L.res n.rep).1) (fun n => !([i].contains n.id && n.cnt == 0)) s.cont fun n hn => (nn n hn).1
    omega

/-- The collector removes element 1, which a failed creation has left behind, but not element 0, which is referred to. -/
example : cfShow .refcounted (Sample.failAt 13) cfProg = some ([.done, .threw, .done, .done, .done], 3, 2) ∧
    cfShow .refcounted (Sample.failAt 13) (cfProg ++ [.collect 1, .op (.get 0)]) =
      some ([.done, .threw, .done, .done, .done, .val 1 (3, 9)], 2, 2) ∧
    cfShow .refcounted (Sample.failAt 13) (cfProg ++ [.collect 0, .op (.get 0)]) =
      some ([.done, .threw, .done, .done, .done, .val 1 (3, 9)], 3, 2) :=
  ⟨by decide +kernel, by decide +kernel, by decide +kernel⟩

/-- **C69.**  After a pass of the garbage collector there is one value for each different key among the flyweights alive, and besides there is at most
the key that belongs to each value: what failed creations have left behind is gone. -/
theorem C69_pass (h : LibPolicy P sp keq kd) (he : EquivOk keq) (trk : Tracking) (s : CFSeq.St Rep) (hr : CFSeq.Reach P keq trk sp s) :
    ∃ s', CFSeq.pass P s = .ok () s' ∧ s'.objs = s.objs ∧ (∀ x b, CFSeq.Sees P s' x b ↔ CFSeq.Sees P s x b) ∧
      (s'.env.keys = 0 ∨ s'.env.keys = s'.env.vals) ∧
      ∀ ks : List K, ks.Pairwise (fun k l => keq k l = false) → (∀ x b, CFSeq.Sees P s x b → ∃ k ∈ ks, keq b.key k = true) →
        (∀ k ∈ ks, ∃ x b, CFSeq.Sees P s x b ∧ keq b.key k = true) → s'.env.vals = ks.length := by
  obtain ⟨LS, L, X, hf, t, hR, hO⟩ := CFS.rel h he hr
  obtain ⟨s', e, hI, hB, ho, _, hc⟩ := pass_ok hR.inv hR.bal
  obtain ⟨t', hC, hR'⟩ := hR.swept (q := fun n => n.cnt != 0) (fun n _ h0 => by simpa using h0) hc hI hB ho
  have hsee := CFS.sees_of_vars hR hR' hC.vars
  obtain ⟨g1, g2⟩ := hR'.count LS (hO.collect hC) fun n hn => by
    rw [hc] at hn
    simpa using (List.mem_filter.1 hn).2
  refine ⟨s', e, ho, hsee, ?_, fun ks hn h1 h2 => g2 ks hn ?_ ?_⟩
  · rcases hf with e | e <;> rw [e] at g1
    · exact .inl (by omega)
    · exact .inr (by omega)
  · exact fun x b hb => h1 x b ((hsee x b).1 ((hR'.sees x b).2 hb))
  · intro k hk
    obtain ⟨x, b, hb, hbk⟩ := h2 k hk
    exact ⟨x, b, (hR'.sees x b).1 ((hsee x b).2 hb), hbk⟩

/-- Before the pass there are two values and three keys, afterwards one of each, for variables 0 and 2. -/
example : cfShow .refcounted (Sample.failAt 13) cfProg = some ([.done, .threw, .done, .done, .done], 3, 2) ∧
    cfPass .refcounted (Sample.failAt 13) cfProg = some ([.done, .threw, .done, .done, .done], 1, ((([23] : List Nat).length : Nat) : Int)) :=
  ⟨by decide +kernel, by decide +kernel⟩

/-- **C69.**  If no flyweight is alive, a pass of the garbage collector leaves no object of the user. -/
theorem C69_empty (h : LibPolicy P sp keq kd) (he : EquivOk keq) (trk : Tracking) (s : CFSeq.St Rep) (hr : CFSeq.Reach P keq trk sp s)
    (h0 : s.objs = []) : ∃ s', CFSeq.pass P s = .ok () s' ∧ s'.env.keys = 0 ∧ s'.env.vals = 0 := by
  obtain ⟨s', e, _, _, hk, hv⟩ := C69_pass h he trk s hr
  have hv := hv [] .nil (fun x b hs => by
    have := hs.1
    simp [CFSeq.get, CFSeq.handleOf, bind, M.bind, M.read, h0, M.undef] at this) (fun _ h => nomatch h)
  simp only [List.length_nil] at hv
  refine ⟨s', e, ?_, hv⟩
  rcases hk with hk | hk
  · exact hk
  · exact hk.trans hv

/-- After the last flyweight is gone. -/
example : cfShow .noTracking (Sample.failAt 13) (cfProg ++ [.op (.destroy 0), .op (.destroy 2)]) =
      some ([.done, .threw, .done, .done, .done, .done, .done], 3, 2) ∧
    cfPass .noTracking (Sample.failAt 13) (cfProg ++ [.op (.destroy 0), .op (.destroy 2)]) =
      some ([.done, .threw, .done, .done, .done, .done, .done], 0, 0) :=
  ⟨by decide +kernel, by decide +kernel⟩

/-- **C69.**  A creation from key `k` has thrown and left its key behind: the next flyweight created from an equivalent key, whichever that is, gets
key `k` and the value of `k`. -/
theorem C69_takeover (h : LibPolicy P sp keq kd) (he : EquivOk keq) (trk : Tracking) (hp : Nat → Nat) (s s1 s2 : CFSeq.St Rep)
    (hr : CFSeq.Reach P keq trk sp s) (x y : Nat) (k l : K) (hv : (Op.make x (.key k) : Op K V).valid sp (s.objs.map Prod.fst) = true)
    (h1 : CFSeq.step P keq trk hp (.make x (.key k)) s = .exc s1) (hk : s1.env.keys ≠ s.env.keys)
    (hv' : (Op.make y (.key l) : Op K V).valid sp (s.objs.map Prod.fst) = true) (hkl : keq k l = true) (out : Out K V)
    (h2 : CFSeq.step P keq trk hp (.make y (.key l)) s1 = .ok out s2) :
    ∃ a, CFSeq.Sees P s2 y ⟨a, sp.key1 (.key k), sp.val (.key k)⟩ := by
  obtain ⟨LS, L, X, _, t, hR, hO⟩ := CFS.rel h he hr
  rw [← CFS.names hR] at hv
  have hst := step_sim LS trk hp hR hv s rfl
  rw [h1] at hst
  obtain ⟨⟨⟨t1, hS1, hR1⟩, _⟩, _, x', src, ho, hT⟩ := hst
  have hsrc : src = .key k := by
    rcases ho with e | e
    · cases e; rfl
    · cases e
  subst hsrc
  have hkey0 : sp.key0 (.key k) = k ∧ sp.key0 (.key l) = l := by
    cases h with
    | plain u => exact ⟨rfl, rfl⟩
    | product u => exact ⟨rfl, rfl⟩
    | variant u _ _ => exact ⟨rfl, rfl⟩
  obtain ⟨n, hn, hc⟩ : ∃ n, X.Left (sp.key0 (.key k)) n.rep ∧ s1.cont = n :: s.cont := by
    rcases hT.cont with hc | hc
    · exact absurd (by rw [hR1.bal.keys, hR.bal.keys, hc]) hk
    · exact hc
  rw [hkey0.1] at hn
  have hmem : n ∈ s1.cont := by rw [hc]; exact .head _
  have hsame : ∀ m ∈ s1.cont, ∀ k', P.toKey m.rep = some k' → keq k' l = true → m = n := by
    intro m hm k' hm' hq
    refine Classical.byContradiction fun hne => ?_
    have := hR1.inv.keys m hm n hmem (fun e => hne (uniq hR1.inv.ids hm hmem e)) _ _ hm' (X.key hn)
    rw [LS.trans _ _ _ hq (LS.symm _ _ hkl)] at this
    cases this
  have hv1 : (Op.make y (.key l) : Op K V).valid sp (t1.vars.map Prod.fst) = true := by
    rw [CFS.names hR1, hT.objs]
    exact hv'
  have hst := step_sim LS trk hp hR1 hv1 s1 rfl
  rw [h2] at hst
  obtain ⟨⟨t2, hS2, hR2⟩, _⟩ := hst
  have hd := CFS.step_out (src := .key l) rfl h2
  subst hd
  cases hS2 with
  | make _ _ b pool' left' hcr _ =>
    cases hcr with
    | share _ _ g1 g2 _ =>
      rw [hkey0.2] at g2
      obtain ⟨i, m, hm, _, _, hF⟩ := (hR1.pool b).1 g1
      rw [hsame m hm _ (L.full_key hF) g2] at hF
      exact (full_left hF hn).elim
    | fresh a src' _ _ _ g3 _ =>
      rw [hkey0.2] at g3
      rcases g3 with ⟨_, g3⟩ | ⟨k', g3, g4, rfl⟩
      · rw [g3 k ((hR1.left k).2 ⟨n, hmem, hn⟩)] at hkl
        cases hkl
      · obtain ⟨m, hm, hL⟩ := (hR1.left k').1 g3
        rw [hsame m hm _ (X.key hL) g4] at hL
        have := (X.key hL).symm.trans (X.key hn)
        cases this
        exact ⟨a, (hR2.sees y _).2 (.head _)⟩

/-- A creation from key 1 throws.  The flyweight then created from key 11 has key 1 and the value of key 1, although there has never been a flyweight
with key 1. -/
example : cfShow .refcounted (Sample.failAt 6) [.op (.make 0 (.key 1))] = some ([.threw], 1, 0) ∧
    cfShow .refcounted (Sample.failAt 6) [.op (.make 0 (.key 1)), .op (.make 0 (.key 11)), .op (.getKey 0), .op (.get 0)] =
      some ([.threw, .done, .key 1, .val 1 (1, 1)], 1, 1) :=
  ⟨by decide +kernel, by decide +kernel⟩

end Verif.Props

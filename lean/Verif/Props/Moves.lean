import Verif.CoreMoves
import Verif.Sample

/-!
# What happens to rvalue arguments: C48

`fresh s` is the state `s` in which the argument of the next operation has not
been moved from; afterwards, `srcMoved` tells whether it has been.
-/

set_option autoImplicit false

namespace Verif.Props
open Setup
variable {K V Rep F : Type}

/-- The argument of the next operation has not been moved from.  (No code of its
own: `srcMoved` is bookkeeping of the model.) -/
def fresh (s : St Rep F) : St Rep F := { s with env := { s.env with srcMoved := false } }

theorem fresh_sim {S : Setup K V Rep F} {fl : Nat → Bool} {s : St Rep F} {t : SSt K V} (h : Sim S fl s t) :
    Sim S fl (fresh s) t :=
  ⟨⟨⟨h.rel.inv.fac, h.rel.inv.alloc, h.rel.inv.full, h.rel.inv.counts, h.rel.inv.objs, h.rel.inv.ext, h.rel.inv.ini,
    h.rel.inv.lt, h.rel.inv.inj, h.rel.inv.keys, h.rel.inv.vals⟩, h.rel.vars, h.rel.nodup, h.rel.kept⟩,
    ⟨h.idle.locals, h.idle.depth⟩, h.faults⟩

theorem supported {S : Setup K V Rep F} {s : St Rep F} {op : Op K V} {src : Src K V} (hop : op.creates = some src)
    (hv : op.valid S.sp (s.objs.map Prod.fst) = true) : S.sp.supports src = true := by
  cases op <;> simp [Op.creates] at hop <;> subst hop <;> simp [Op.valid] at hv <;> exact hv.2

/-- **C48, plain values.**  Creating or assigning a `flyweight<T>` from an rvalue
always moves from it, also if an equal value is already there. -/
theorem C48_default {V F : Type} (S : Setup V V (DRep V) F) (u : UserFns V V) (hP : S.P = DRep.policy u) (s : St (DRep V) F)
    (hp : Nat → Nat) (op : Op V V) (v : V) (hop : op.creates = some (.move v)) (out : Out V V)
    (s' : St (DRep V) F) (h : S.perform hp op (fresh s) = .ok out s') : s'.env.srcMoved = true := by
  unfold Setup.perform at h
  rw [hP] at h
  exact Moves.DRep.step_moves u S.Fa S.trk hp op v hop _ out s' h

/-- A plain flyweight moves from its argument although the value is there. -/
example : ∃ s s₁, (Sample.dflt .refcounted).P = DRep.policy Sample.u₀ ∧
    (Sample.dflt .refcounted).run id Sample.calm Sample.alloc [.make 0 (.copy 3)] = some ([.done], s) ∧
    (Sample.dflt .refcounted).perform id (.make 1 (.move 3)) (fresh s) = .ok .done s₁ ∧ s₁.env.srcMoved = true := by
  obtain ⟨s, s₁, h1, h2⟩ : ∃ s s₁,
      (Sample.dflt .refcounted).run id Sample.calm Sample.alloc [.make 0 (.copy 3)] = some ([.done], s) ∧
      (Sample.dflt .refcounted).perform id (.make 1 (.move 3)) (fresh s) = .ok .done s₁ := ⟨_, _, rfl, rfl⟩
  exact ⟨s, s₁, rfl, h1, h2, C48_default (Sample.dflt .refcounted) Sample.u₀ rfl s id _ 3 rfl .done s₁ h2⟩

/-- **C48, key extractor, refcounted.**  Creating or assigning a flyweight with
`key_value` and a key extractor from an rvalue moves from it if no flyweight has
an equivalent key; otherwise the rvalue is left alone. -/
theorem C48_variant_refcounted (S : Setup K V (VRep K V) F) (u : UserFns K V) (hP : S.P = VRep.policy u)
    (Lz : S.L.Lazy) (hk : ∀ v, S.sp.key0 (.move v) = u.kfv v) (ht : S.trk = .refcounted)
    (s : St (VRep K V) F) (hr : S.Reach s) (hp : Nat → Nat) (op : Op K V) (v : V)
    (hop : op.creates = some (.move v)) (hv : op.valid S.sp (s.objs.map Prod.fst) = true) (out : Out K V)
    (s' : St (VRep K V) F) (h : S.perform hp op (fresh s) = .ok out s') :
    s'.env.srcMoved = true ↔ ∀ x a k w, S.Sees s x a k w → S.keq k (u.kfv v) = false := by
  obtain ⟨fl, t, hS, hok⟩ := hr.sim
  have hF := fresh_sim hS
  have hm := made_step Lz hF.rel.inv hp hop (supported hop hv) (fresh s) rfl
  rw [show Core.step S.P S.Fa S.trk hp op (fresh s) = .ok out s' from h, hk] at hm
  have hM := Moves.step Moves.good_iffMade (hP ▸ Moves.VRep.moves u v) S.Fa S.trk hp op hop (fresh s)
  rw [show Core.step S.P S.Fa S.trk hp op (fresh s) = .ok out s' from h] at hM
  have hpool : ∀ b, (∃ i, S.At (fresh s) i b) ↔ ∃ x, S.Sees s x b.addr b.key b.val := by
    intro b
    rw [← hF.rel.pool b, ht]
    constructor
    · intro hb
      obtain ⟨⟨x, c⟩, hc, rfl⟩ := List.mem_map.1 hb
      exact ⟨x, (sees_iff hS).2 hc⟩
    · rintro ⟨x, hx⟩
      exact List.mem_map.2 ⟨_, (sees_iff hS).1 hx, rfl⟩
  rcases hm with ⟨h1, i, b, h2, h3⟩ | ⟨h1, h2⟩
  · obtain ⟨x, hx⟩ := (hpool b).1 ⟨i, h2⟩
    rcases hM with ⟨_, h5⟩ | ⟨h4, _⟩
    · constructor
      · intro h6
        rw [h5] at h6
        cases h6
      · intro h6
        have := h6 x _ _ _ hx
        rw [show S.keq b.key (u.kfv v) = true from h3] at this
        cases this
    · omega
  · rcases hM with ⟨h4, _⟩ | ⟨_, h5⟩
    · omega
    · refine ⟨fun _ x a k w hx => ?_, fun _ => h5⟩
      obtain ⟨i, hi⟩ := (hpool ⟨a, k, w⟩).2 ⟨x, hx⟩
      exact h2 i _ hi

/-- After `Sample.prog` no flyweight has a key ending in 5. -/
example : ∃ s s₁, (Sample.var .refcounted).run id Sample.calm Sample.alloc Sample.prog = some ([.done, .done, .done, .done], s) ∧
    (Sample.var .refcounted).perform id (.make 5 (.move (5, 1))) (fresh s) = .ok .done s₁ ∧
    ∀ x a k w, (Sample.var .refcounted).Sees s x a k w → Sample.keq k 5 = false := by
  refine ⟨_, _, rfl, rfl, ?_⟩
  exact (C48_variant_refcounted (Sample.var .refcounted) Sample.u rfl (VRep.lazy Sample.u) (fun _ => rfl) rfl _
    ⟨id, Sample.calm, Sample.alloc, Sample.prog, _, Sample.alloc_ok, rfl⟩ id (.make 5 (.move (5, 1))) (5, 1) rfl rfl .done _
    rfl).1 rfl

/-- **C48, key extractor, no_tracking.**  The same, if no equivalent key has ever
been successfully used. -/
theorem C48_variant_no_tracking (S : Setup K V (VRep K V) F) (u : UserFns K V) (hP : S.P = VRep.policy u)
    (Lz : S.L.Lazy) (hk : ∀ v, S.sp.key0 (.move v) = u.kfv v) (ht : S.trk = .noTracking)
    (hp : Nat → Nat) (fl : Nat → Bool) (alloc : Nat → List Nat → Nat) (hal : ∀ n l, alloc n l ∉ l)
    (ops : List (Op K V)) (outs : List (Out K V)) (s : St (VRep K V) F)
    (hrun : S.run hp fl alloc ops = some (outs, s)) (op : Op K V) (v : V)
    (hop : op.creates = some (.move v)) (hv : op.valid S.sp (s.objs.map Prod.fst) = true) (out : Out K V)
    (s' : St (VRep K V) F) (h : S.perform hp op (fresh s) = .ok out s') :
    s'.env.srcMoved = true ↔ ∀ k ∈ asked S.sp ops outs, S.keq k (u.kfv v) = false := by
  obtain ⟨t, hr, hS, hok, _⟩ := run_sim hal hrun
  have hF := fresh_sim hS
  have hm := made_step Lz hF.rel.inv hp hop (supported hop hv) (fresh s) rfl
  rw [show Core.step S.P S.Fa S.trk hp op (fresh s) = .ok out s' from h, hk] at hm
  have hM := Moves.step Moves.good_iffMade (hP ▸ Moves.VRep.moves u v) S.Fa S.trk hp op hop (fresh s)
  rw [show Core.step S.P S.Fa S.trk hp op (fresh s) = .ok out s' from h] at hM
  rw [ht] at hr
  have ha := hr.asked S.LS (A := []) ⟨by simp, by simp [SSt.start]⟩
  rw [List.nil_append] at ha
  have hpool : ∀ b, (∃ i, S.At (fresh s) i b) ↔ b ∈ t.kept := by
    intro b
    rw [← hF.rel.pool b, ht]
    rfl
  rcases hm with ⟨h1, i, b, h2, h3⟩ | ⟨h1, h2⟩
  · obtain ⟨k, hk', hbk⟩ := ha.2 b ((hpool b).1 ⟨i, h2⟩)
    rcases hM with ⟨_, h5⟩ | ⟨h4, _⟩
    · constructor
      · intro h6
        rw [h5] at h6
        cases h6
      · intro h6
        have := h6 k hk'
        rw [S.LS.trans _ _ _ (S.LS.symm _ _ hbk) h3] at this
        cases this
    · omega
  · rcases hM with ⟨h4, _⟩ | ⟨_, h5⟩
    · omega
    · refine ⟨fun _ k hk' => ?_, fun _ => h5⟩
      obtain ⟨b, hb, hbk⟩ := ha.1 k hk'
      obtain ⟨i, hi⟩ := (hpool b).2 hb
      cases hc : S.keq k (u.kfv v) with
      | false => rfl
      | true =>
        have := h2 i b hi
        rw [S.LS.trans _ _ _ hbk hc] at this
        cases this

/-- The key 13 has been used, though the flyweight is gone. -/
example : ∃ s s₁, (Sample.var .noTracking).run id Sample.calm Sample.alloc [.make 0 (.key 13), .destroy 0] =
      some ([.done, .done], s) ∧
    (Sample.var .noTracking).perform id (.make 0 (.move (3, 1))) (fresh s) = .ok .done s₁ ∧ s₁.env.srcMoved = false := by
  refine ⟨_, _, rfl, rfl, ?_⟩
  have h := C48_variant_no_tracking (Sample.var .noTracking) Sample.u rfl (VRep.lazy Sample.u) (fun _ => rfl) rfl id Sample.calm
    Sample.alloc Sample.alloc_ok [.make 0 (.key 13), .destroy 0] _ _ rfl (.make 0 (.move (3, 1))) (3, 1) rfl rfl .done _ rfl
  exact Bool.eq_false_iff.2 fun hm => absurd (h.1 hm 13 (by decide)) (by decide)

/-- **C48, key extractor, failure.**  A creation or assignment that throws has not
moved from its rvalue. -/
theorem C48_variant_failed (S : Setup K V (VRep K V) F) (u : UserFns K V) (hP : S.P = VRep.policy u)
    (Lz : S.L.Lazy) (s : St (VRep K V) F) (hr : S.Reach s) (hp : Nat → Nat) (op : Op K V) (v : V)
    (hop : op.creates = some (.move v)) (hv : op.valid S.sp (s.objs.map Prod.fst) = true)
    (s' : St (VRep K V) F) (h : S.perform hp op (fresh s) = .exc s') : s'.env.srcMoved = false := by
  obtain ⟨fl, t, hS, hok⟩ := hr.sim
  have hm := made_step Lz (fresh_sim hS).rel.inv hp hop (supported hop hv) (fresh s) rfl
  rw [show Core.step S.P S.Fa S.trk hp op (fresh s) = .exc s' from h] at hm
  have hM := Moves.step Moves.good_iffMade (hP ▸ Moves.VRep.moves u v) S.Fa S.trk hp op hop (fresh s)
  rw [show Core.step S.P S.Fa S.trk hp op (fresh s) = .exc s' from h] at hM
  rcases hM with ⟨_, h1⟩ | ⟨h1, _⟩
  · exact h1
  · exact absurd hm (by omega)

/-- A creation failing in its last step. -/
example : ∃ s s₁, (Sample.var .refcounted).run id (Sample.failAt 20) Sample.alloc Sample.prog =
      some ([.done, .done, .done, .done], s) ∧
    (Sample.var .refcounted).perform id (.make 5 (.move (5, 1))) (fresh s) = .exc s₁ ∧ s₁.env.srcMoved = false := by
  refine ⟨_, _, rfl, rfl, ?_⟩
  exact C48_variant_failed (Sample.var .refcounted) Sample.u rfl (VRep.lazy Sample.u) _
    ⟨id, Sample.failAt 20, Sample.alloc, Sample.prog, _, Sample.alloc_ok, rfl⟩ id (.make 5 (.move (5, 1))) (5, 1) rfl rfl _ rfl

/-- **C48, lvalues.**  Nothing the user passes as key or lvalue is ever moved from,
and operations that create nothing move from nothing, whether or not they throw. -/
theorem C48_untouched (S : Setup K V Rep F) (C : S.P.Courteous) (s : St Rep F) (hp : Nat → Nat) (op : Op K V)
    (hop : ∀ v, op.creates ≠ some (.move v)) (s' : St Rep F)
    (h : (∃ out, S.perform hp op (fresh s) = .ok out s') ∨ S.perform hp op (fresh s) = .exc s') :
    s'.env.srcMoved = false := by
  have hM := Moves.step Moves.good_same (C _ hop) S.Fa S.trk hp op rfl (fresh s)
  rcases h with ⟨out, h⟩ | h
  · rw [show Core.step S.P S.Fa S.trk hp op (fresh s) = .ok out s' from h] at hM
    exact hM
  · rw [show Core.step S.P S.Fa S.trk hp op (fresh s) = .exc s' from h] at hM
    exact hM

/-- All policies of the library meet the hypotheses. -/
example (u : UserFns K V) : (VRep.policy u).Courteous := Moves.VRep.courteous u
example (u : UserFns K V) : (PRep.policy u).Courteous := Moves.PRep.courteous u
example {V : Type} (u : UserFns V V) : (DRep.policy u).Courteous := Moves.DRep.courteous u
example : (Sample.var .refcounted).P = VRep.policy Sample.u ∧
    ∀ v, (Sample.var .refcounted).sp.key0 (.move v) = Sample.u.kfv v := ⟨rfl, fun _ => rfl⟩
example : (Sample.var .refcounted).L.Lazy := VRep.lazy Sample.u
example : (Sample.dflt .refcounted).P = DRep.policy Sample.u₀ := rfl

/-- With key 23, for which a value (key 3) exists, the rvalue survives; with key
5 it is moved from. -/
example : ∃ s s₁ s₂,
    (Sample.var .refcounted).run id Sample.calm Sample.alloc Sample.prog = some ([.done, .done, .done, .done], s) ∧
    (Sample.var .refcounted).perform id (.make 5 (.move (23, 1))) (fresh s) = .ok .done s₁ ∧ s₁.env.srcMoved = false ∧
    (Sample.var .refcounted).perform id (.make 5 (.move (5, 1))) (fresh s) = .ok .done s₂ ∧ s₂.env.srcMoved = true :=
  ⟨_, _, _, rfl, rfl, rfl, rfl, rfl⟩

/-- A creation failing in its last step, and one from an lvalue. -/
example : ∃ s s₁ s₂,
    (Sample.var .refcounted).run id (Sample.failAt 20) Sample.alloc Sample.prog = some ([.done, .done, .done, .done], s) ∧
    (Sample.var .refcounted).perform id (.make 5 (.move (5, 1))) (fresh s) = .exc s₁ ∧ s₁.env.srcMoved = false ∧
    (Sample.var .refcounted).perform id (.assignVal 0 (.copy (3, 1))) (fresh s) = .ok .done s₂ ∧
    s₂.env.srcMoved = false :=
  ⟨_, _, _, rfl, rfl, rfl, rfl, rfl⟩

/-- A plain flyweight moves from its argument although the value is there. -/
example : ∃ s s₁,
    (Sample.dflt .refcounted).run id Sample.calm Sample.alloc [.make 0 (.copy 3)] = some ([.done], s) ∧
    (Sample.dflt .refcounted).perform id (.make 1 (.move 3)) (fresh s) = .ok .done s₁ ∧ s₁.env.srcMoved = true ∧
    s₁.env.vals = 1 :=
  ⟨_, _, rfl, rfl, rfl, rfl⟩

end Verif.Props

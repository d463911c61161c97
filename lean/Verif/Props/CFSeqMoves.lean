import Verif.CFSeqMoves
import Verif.Props.CFSeq

/-!
# Flyweights with `concurrent_factory`: values constructed (C11) and rvalue arguments (C48)

With this factory values linger after their last flyweight until the garbage collector removes them, so whether a value is constructed depends
on what the collector has done: certainly not if a flyweight with an equivalent key is alive, certainly if no such key has been used
successfully, and right after a pass of the collector exactly if no such flyweight is alive.
-/

set_option autoImplicit false

namespace Verif.Props
open CFSeq
open CFSpec (Ev LSt)
variable {K V Rep : Type} {P : Policy K V Rep} {sp : SrcSpec K V} {keq : K → K → Bool} {kd : Bool}

namespace CFS

theorem lazies (h : LibPolicy P sp keq kd) (hk : kd = true) (he : EquivOk keq) :
    sp.Lawful keq ∧ ∃ (L : P.Lawful sp) (X : L.Leaves) (Lz : L.Lazy), ∀ k r, X.Left k r → Lz.hasVal r = false := by
  cases h with
  | plain u => cases hk
  | product u => exact ⟨SrcSpec.product_lawful u he, PRep.lawful u, PRep.leaves u, PRep.lazy u, fun k r h => by cases h; rfl⟩
  | variant u _ contract => exact ⟨SrcSpec.variant_lawful u he contract, VRep.lawful u, VRep.leaves u, VRep.lazy u, fun k r h => by cases h; rfl⟩

theorem supports {o : Op K V} {src : Src K V} (ho : o.creates = some src) {names : List Nat} (hv : o.valid sp names = true) :
    sp.supports src = true := by
  cases o <;> simp [Op.creates] at ho <;> subst ho <;> simp [Op.valid] at hv <;> exact hv.2

/-- What is seen is in the container. -/
theorem seen_at {L : P.Lawful sp} {X : L.Leaves} {s : CFSeq.St Rep} {t : LSt K V} (hR : CFSeq.Rel X keq zero s t) (hO : CFSpec.Ok keq sp t)
    {x : Nat} {b : Bind K V} (hx : CFSeq.Sees P s x b) : ∃ i, CFSeq.At L s i b :=
  (hR.pool b).1 (hO.bound x b ((hR.sees x b).1 hx))

/-- After a pass of the collector, what is in the container is seen. -/
theorem at_seen {L : P.Lawful sp} {X : L.Leaves} {s : CFSeq.St Rep} {t : LSt K V} (hR : CFSeq.Rel X keq zero s t)
    (hc : ∀ n ∈ s.cont, n.cnt ≠ 0) {i : Nat} {b : Bind K V} (hb : CFSeq.At L s i b) : ∃ x, CFSeq.Sees P s x b := by
  obtain ⟨n, hn, e, ha, hF⟩ := hb
  have hpos : 0 < refs s n.id := by
    have h1 := hR.inv.cnt n hn
    have h2 := hc n hn
    simp only [zero] at h1
    omega
  obtain ⟨p, hp, e'⟩ := List.countP_pos_iff.1 hpos
  obtain ⟨c, hc', m, hm, em, ha', hF'⟩ := hR.vars.lookup (Assoc.lookup_of_mem hR.inv.names hp)
  have : m = n := uniq hR.inv.ids hm hn (em.trans (by simpa using e'))
  subst this
  refine ⟨p.1, (hR.sees p.1 b).2 ?_⟩
  have e1 := (L.full_key hF).symm.trans (L.full_key hF')
  have e2 := (L.full_val hF).symm.trans (L.full_val hF')
  have : b = c := by
    cases b; cases c
    simp only at *
    cases e1; cases e2
    rw [← ha, ha']
  rw [this]
  exact hc'

theorem good_made : Moves.Good (fun e e' => e'.made = e.made) where
  refl _ := rfl
  trans _ _ _ h h' := h'.trans h
  tick e := by
    unfold mayThrow
    split <;> (rename_i h; split at h <;> cases h <;> rfl)

theorem fits_made {L : P.Lawful sp} (Lz : L.Lazy) : Moves.Fits (fun e e' => e'.made = e.made) P none where
  ofSrc _ h := nomatch h
  copy r e := by
    have := Lz.copy r e.made e rfl
    cases hm : P.copy r e <;> rw [hm] at this
    · exact this.1
    · exact this
    · trivial
  move r e := by
    have := Lz.move r e.made e rfl
    cases hm : P.move r e <;> rw [hm] at this
    · exact this.1
    · exact this
    · trivial
  destroy r e := by
    have := Lz.destroy r e.made e rfl
    cases hm : P.destroy r e <;> rw [hm] at this
    · exact this
    · exact this.elim
    · trivial
  visit _ h := nomatch h

/-- A pass of the collector. -/
theorem passed {L : P.Lawful sp} {X : L.Leaves} {s s' : CFSeq.St Rep} {t : LSt K V} (hR : CFSeq.Rel X keq zero s t) (hO : CFSpec.Ok keq sp t)
    (h : CFSeq.pass P s = .ok () s') : ∃ t', CFSeq.Rel X keq zero s' t' ∧ CFSpec.Ok keq sp t' ∧ ∀ n ∈ s'.cont, n.cnt ≠ 0 := by
  obtain ⟨s1, e, hI, hB, ho, _, hc⟩ := pass_ok hR.inv hR.bal
  have : s' = s1 := by
    have := h.symm.trans e
    cases this
    rfl
  subst this
  obtain ⟨t', hC, hR'⟩ := hR.swept (q := fun n => n.cnt != 0) (fun n _ h0 => by simpa using h0) hc hI hB ho
  refine ⟨t', hR', hO.collect hC, fun n hn => ?_⟩
  rw [hc] at hn
  simpa using (List.mem_filter.1 hn).2

end CFS

/-- The argument of the next operation has not been moved from.  (No code of its own: `srcMoved` is bookkeeping of the model.) -/
def cfFresh (s : CFSeq.St Rep) : CFSeq.St Rep := { s with env := { s.env with srcMoved := false } }

/-- A program with `flyweight<key_value<int,V,Extract>,concurrent_factory<>>`.  (No code of its own: used to state a property or an example.) -/
def cfvRun (trk : Tracking) (faults : Nat → Bool) (evs : List (Ev Nat (Nat × Nat))) :=
  CFSeq.exec (VRep.policy Sample.u) Sample.keq trk id (SrcSpec.variant Sample.u) evs (CFSeq.start faults Sample.alloc)

/-- What the program outputs; then, for one more operation, possibly after a pass of the garbage collector: whether it throws, how many values it
constructs, and whether its argument has been moved from.  (No code of its own: used to state a property or an example.) -/
def cfvNext (trk : Tracking) (faults : Nat → Bool) (evs : List (Ev Nat (Nat × Nat))) (pass : Bool) (o : Op Nat (Nat × Nat)) :
    Option (List (Out Nat (Nat × Nat)) × Bool × Nat × Bool) :=
  match cfvRun trk faults evs with
  | none => none
  | some (outs, s₀) =>
    match (if pass then CFSeq.pass (VRep.policy Sample.u) s₀ else .ok () s₀) with
    | .ok _ s =>
      match CFSeq.step (VRep.policy Sample.u) Sample.keq trk id o (cfFresh s) with
      | .ok _ s' => some (outs, false, s'.env.made - s.env.made, s'.env.srcMoved)
      | .exc s' => some (outs, true, s'.env.made - s.env.made, s'.env.srcMoved)
      | .ub => none
    | _ => none

/-- Key 3 is in use, key 4 has been, key 5 not.  (No code of its own: used to state a property or an example.) -/
def cfvProg : List (Ev Nat (Nat × Nat)) := [.op (.make 0 (.key 3)), .op (.make 1 (.move (4, 7))), .op (.destroy 1), .op (.getKey 0)]

/-! ## C11 -/

/-- **C11, concurrent_factory.**  Creating or value-assigning a key-value flyweight constructs at most one value: none if a flyweight with an
equivalent key is alive, one if no equivalent key has been successfully used. -/
theorem C11_concurrent (h : LibPolicy P sp keq true) (he : EquivOk keq) (trk : Tracking) (hp : Nat → Nat) (faults : Nat → Bool)
    (alloc : Nat → List Nat → Nat) (ha : ∀ n l, alloc n l ∉ l) (evs : List (Ev K V)) (outs : List (Out K V)) (s : CFSeq.St Rep)
    (hrun : CFSeq.exec P keq trk hp sp evs (CFSeq.start faults alloc) = some (outs, s)) (o : Op K V) (src : Src K V)
    (ho : o.creates = some src) (hv : o.valid sp (s.objs.map Prod.fst) = true) (out : Out K V) (s' : CFSeq.St Rep)
    (hs : CFSeq.step P keq trk hp o s = .ok out s') :
    (s'.env.made = s.env.made ∨ s'.env.made = s.env.made + 1) ∧
    (∀ x b, CFSeq.Sees P s x b → keq b.key (sp.key0 src) = true → s'.env.made = s.env.made) ∧
    ((∀ k ∈ asked sp (opsOf evs) outs, keq k (sp.key0 src) = false) → s'.env.made = s.env.made + 1) := by
  obtain ⟨LS, L, X, Lz, hX⟩ := CFS.lazies h rfl he
  obtain ⟨outs1, s1, t, e, hr, hR, _⟩ := exec_sim LS trk hp evs (start_rel X keq faults ha)
  have := hrun.symm.trans e
  cases this
  have hO := CFSpec.Ok.run LS X.supports X.key0 hr .start
  have hm := step_at LS Lz hX trk hp (CFS.supports ho hv) hR.inv ho s rfl
  rw [hs] at hm
  refine ⟨hm.imp And.left And.left, fun x b hx hk => ?_, fun hA => ?_⟩
  · rcases hm with h1 | ⟨_, h2⟩
    · exact h1.1
    · obtain ⟨i, hi⟩ := CFS.seen_at hR hO hx
      rw [h2 i b hi] at hk
      cases hk
  · rcases hm with ⟨_, i, b, hb, hk⟩ | h2
    · obtain ⟨k, h3, h4⟩ := asked_of_run LS X.supports X.key0 hr [] .start (fun _ h => h.elim) b ((hR.pool b).2 ⟨i, hb⟩)
      rcases h3 with h3 | h3
      · cases h3
      · have := hA k h3
        rw [LS.trans _ _ _ (LS.symm _ _ h4) hk] at this
        cases this
    · exact h2.1

/-- Key 13 is equivalent to a key in use; key 14 to one that is not any more, the value of which is still there; key 5 is new. -/
example : cfvNext .refcounted Sample.calm cfvProg false (.make 2 (.key 13)) = some ([.done, .done, .done, .key 3], false, 0, false) ∧
    cfvNext .refcounted Sample.calm cfvProg false (.make 2 (.key 14)) = some ([.done, .done, .done, .key 3], false, 0, false) ∧
    cfvNext .refcounted Sample.calm cfvProg false (.make 2 (.key 5)) = some ([.done, .done, .done, .key 3], false, 1, false) ∧
    asked (SrcSpec.variant Sample.u) (opsOf cfvProg) [.done, .done, .done, .key 3] = [3, 4] :=
  ⟨by decide +kernel, by decide +kernel, by decide +kernel, by decide +kernel⟩

/-- **C11, concurrent_factory.**  Right after a pass of the garbage collector, a creation or assignment constructs exactly one value if no flyweight
alive has an equivalent key, and none otherwise. -/
theorem C11_concurrent_pass (h : LibPolicy P sp keq true) (he : EquivOk keq) (trk : Tracking) (hp : Nat → Nat) (s₀ s : CFSeq.St Rep)
    (hr : CFSeq.Reach P keq trk sp s₀) (hpass : CFSeq.pass P s₀ = .ok () s) (o : Op K V) (src : Src K V) (ho : o.creates = some src)
    (hv : o.valid sp (s.objs.map Prod.fst) = true) (out : Out K V) (s' : CFSeq.St Rep) (hs : CFSeq.step P keq trk hp o s = .ok out s') :
    (s'.env.made = s.env.made ∧ ∃ x b, CFSeq.Sees P s x b ∧ keq b.key (sp.key0 src) = true) ∨
    (s'.env.made = s.env.made + 1 ∧ ∀ x b, CFSeq.Sees P s x b → keq b.key (sp.key0 src) = false) := by
  obtain ⟨LS, L, X, Lz, hX⟩ := CFS.lazies h rfl he
  obtain ⟨t₀, hR₀, hO₀⟩ := hr.rel X LS
  obtain ⟨t, hR, hO, hc⟩ := CFS.passed hR₀ hO₀ hpass
  have hm := step_at LS Lz hX trk hp (CFS.supports ho hv) hR.inv ho s rfl
  rw [hs] at hm
  rcases hm with ⟨h1, i, b, hb, hk⟩ | ⟨h1, h2⟩
  · obtain ⟨x, hx⟩ := CFS.at_seen hR hc hb
    exact .inl ⟨h1, x, b, hx, hk⟩
  · refine .inr ⟨h1, fun x b hx => ?_⟩
    obtain ⟨i, hi⟩ := CFS.seen_at hR hO hx
    exact h2 i b hi

/-- The same after a pass: the value of key 4 is gone. -/
example : cfvNext .refcounted Sample.calm cfvProg true (.make 2 (.key 13)) = some ([.done, .done, .done, .key 3], false, 0, false) ∧
    cfvNext .refcounted Sample.calm cfvProg true (.make 2 (.key 14)) = some ([.done, .done, .done, .key 3], false, 1, false) :=
  ⟨by decide +kernel, by decide +kernel⟩

/-- **C11, concurrent_factory, failure and other operations.**  A creation or assignment that throws constructs no value, and no other operation
ever does. -/
theorem C11_concurrent_none (h : LibPolicy P sp keq true) (he : EquivOk keq) (trk : Tracking) (hp : Nat → Nat) (s : CFSeq.St Rep)
    (hr : CFSeq.Reach P keq trk sp s) (o : Op K V) (hv : o.valid sp (s.objs.map Prod.fst) = true) (s' : CFSeq.St Rep)
    (hs : CFSeq.step P keq trk hp o s = .exc s' ∨ o.creates = none ∧ ∃ out, CFSeq.step P keq trk hp o s = .ok out s') :
    s'.env.made = s.env.made := by
  obtain ⟨LS, L, X, Lz, hX⟩ := CFS.lazies h rfl he
  rcases hs with hs | ⟨hc, out, hs⟩
  · obtain ⟨t, hR, hO⟩ := hr.rel X LS
    have hst := step_sim LS trk hp hR (by rw [CFS.names hR]; exact hv) s rfl
    rw [hs] at hst
    obtain ⟨_, _, x, src, ho, _⟩ := hst
    have hc : o.creates = some src := by rcases ho with rfl | rfl <;> rfl
    have hm := step_at LS Lz hX trk hp (CFS.supports hc hv) hR.inv hc s rfl
    rw [hs] at hm
    exact hm
  · have := CFSeq.Thru.step CFS.good_made (CFS.fits_made Lz) keq trk hp o hc s
    rw [hs] at this
    exact this

/-- The constructor of the value throws; and an assignment between flyweights. -/
example : cfvNext .noTracking (Sample.failAt 18) cfvProg false (.make 2 (.move (5, 1))) = some ([.done, .done, .done, .key 3], true, 0, false) ∧
    cfvNext .noTracking Sample.calm cfvProg false (.assign 0 0) = some ([.done, .done, .done, .key 3], false, 0, false) :=
  ⟨by decide +kernel, by decide +kernel⟩

/-! ## C48 -/

namespace CFS

theorem fresh_rel {L : P.Lawful sp} {X : L.Leaves} {s : CFSeq.St Rep} {t : LSt K V} (h : CFSeq.Rel X keq zero s t) :
    CFSeq.Rel X keq zero (cfFresh s) t :=
  ⟨h.inv.setEnv _, ⟨h.bal.keys, h.bal.vals⟩, h.vars, h.pool, h.left⟩

/-- Moved from exactly if a value has been constructed. -/
theorem moved_iff (u : UserFns K V) (trk : Tracking) (hp : Nat → Nat) (o : Op K V) (v : V) (ho : o.creates = some (.move v))
    (s : CFSeq.St (VRep K V)) : match CFSeq.step (VRep.policy u) keq trk hp o (cfFresh s) with
      | .ok _ s' => (s'.env.made = s.env.made ∧ s'.env.srcMoved = false) ∨ (s.env.made < s'.env.made ∧ s'.env.srcMoved = true)
      | .exc s' => (s'.env.made = s.env.made ∧ s'.env.srcMoved = false) ∨ (s.env.made < s'.env.made ∧ s'.env.srcMoved = true)
      | .ub => True := by
  have := CFSeq.Thru.step Moves.good_iffMade (Moves.VRep.moves u v) keq trk hp o ho (cfFresh s)
  cases hm : CFSeq.step (VRep.policy u) keq trk hp o (cfFresh s) <;> rw [hm] at this
  · exact this
  · exact this
  · trivial

end CFS

/-- **C48, concurrent_factory, plain values.**  Creating or assigning a `flyweight<T>` from an rvalue always moves from it, also if an equal value is
already there. -/
theorem C48_concurrent_default {V : Type} (u : UserFns V V) (keq : V → V → Bool) (trk : Tracking) (hp : Nat → Nat) (s : CFSeq.St (DRep V))
    (o : Op V V) (v : V) (ho : o.creates = some (.move v)) (out : Out V V) (s' : CFSeq.St (DRep V))
    (hs : CFSeq.step (DRep.policy u) keq trk hp o (cfFresh s) = .ok out s') : s'.env.srcMoved = true :=
  CFSeq.Thru.plain_step u keq trk hp o v ho _ out s' hs

/-- A plain flyweight moves from its argument although the value is there. -/
example : (match CFSeq.exec (DRep.policy Sample.u₀) Sample.keq .refcounted id (SrcSpec.default Nat) [.op (.make 0 (.copy 3))]
      (CFSeq.start Sample.calm Sample.alloc) with
    | some (outs, s) => match CFSeq.step (DRep.policy Sample.u₀) Sample.keq .refcounted id (.make 1 (.move 3)) (cfFresh s) with
      | .ok _ s' => some (outs, s'.env.srcMoved, s'.env.vals)
      | _ => none
    | none => none) = some ([.done], true, 1) := by decide +kernel

/-- **C48, concurrent_factory, key extractor.**  Creating or assigning a flyweight from an rvalue moves from it exactly if a value is constructed;
it is left alone if a flyweight with an equivalent key is alive, and moved from if no equivalent key has been successfully used. -/
theorem C48_concurrent_variant (u : UserFns K V) (he : EquivOk keq) (contract : ∀ k, keq (u.kfv (u.ctor k)) k = true) (trk : Tracking)
    (hp : Nat → Nat) (faults : Nat → Bool) (alloc : Nat → List Nat → Nat) (ha : ∀ n l, alloc n l ∉ l) (evs : List (Ev K V))
    (outs : List (Out K V)) (s : CFSeq.St (VRep K V))
    (hrun : CFSeq.exec (VRep.policy u) keq trk hp (SrcSpec.variant u) evs (CFSeq.start faults alloc) = some (outs, s)) (o : Op K V) (v : V)
    (ho : o.creates = some (.move v)) (hv : o.valid (SrcSpec.variant u) (s.objs.map Prod.fst) = true) (out : Out K V) (s' : CFSeq.St (VRep K V))
    (hs : CFSeq.step (VRep.policy u) keq trk hp o (cfFresh s) = .ok out s') :
    (s'.env.srcMoved = true ↔ s'.env.made = s.env.made + 1) ∧ (s'.env.srcMoved = false ↔ s'.env.made = s.env.made) ∧
    (∀ x b, CFSeq.Sees (VRep.policy u) s x b → keq b.key (u.kfv v) = true → s'.env.srcMoved = false) ∧
    ((∀ k ∈ asked (SrcSpec.variant u) (opsOf evs) outs, keq k (u.kfv v) = false) → s'.env.srcMoved = true) := by
  have LS := SrcSpec.variant_lawful u he contract
  let X := VRep.leaves u
  obtain ⟨outs1, s1, t, e, hr, hR, _⟩ := exec_sim LS trk hp evs (start_rel X keq faults ha)
  have := hrun.symm.trans e
  cases this
  have hO := CFSpec.Ok.run LS X.supports X.key0 hr .start
  have hm := step_at LS (VRep.lazy u) (X := X) (fun k r h => by cases h; rfl) trk hp (CFS.supports ho hv) (CFS.fresh_rel hR).inv ho (cfFresh s) rfl
  have hM := CFS.moved_iff (keq := keq) u trk hp o v ho s
  rw [hs] at hm hM
  have hm : (s'.env.made = s.env.made ∧ ∃ i b, CFSeq.At (VRep.lawful u) s i b ∧ keq b.key (u.kfv v) = true) ∨
      (s'.env.made = s.env.made + 1 ∧ ∀ i b, CFSeq.At (VRep.lawful u) s i b → keq b.key (u.kfv v) = false) := hm
  have key : (s'.env.srcMoved = true ↔ s'.env.made = s.env.made + 1) ∧ (s'.env.srcMoved = false ↔ s'.env.made = s.env.made) := by
    rcases hM with ⟨h1, h2⟩ | ⟨h1, h2⟩ <;> rw [h2]
    · exact ⟨by simp; omega, by simp [h1]⟩
    · rcases hm with h3 | h3
      · omega
      · exact ⟨by simp [h3.1], by simp; omega⟩
  refine ⟨key.1, key.2, fun x b hx hk => ?_, fun hA => ?_⟩
  · rcases hm with h1 | ⟨_, h2⟩
    · exact key.2.2 h1.1
    · obtain ⟨i, hi⟩ := CFS.seen_at hR hO hx
      rw [h2 i b hi] at hk
      cases hk
  · rcases hm with ⟨_, i, b, hb, hk⟩ | h2
    · obtain ⟨k, h3, h4⟩ := asked_of_run LS X.supports X.key0 hr [] .start (fun _ h => h.elim) b ((hR.pool b).2 ⟨i, hb⟩)
      rcases h3 with h3 | h3
      · cases h3
      · have := hA k h3
        rw [LS.trans _ _ _ (LS.symm _ _ h4) hk] at this
        cases this
    · exact key.1.2 h2.1

/-- With key 13 the rvalue survives, as key 3 is in use; with key 14, as its value is still there; with key 5 it is moved from. -/
example : cfvNext .refcounted Sample.calm cfvProg false (.make 2 (.move (13, 1))) = some ([.done, .done, .done, .key 3], false, 0, false) ∧
    cfvNext .refcounted Sample.calm cfvProg false (.make 2 (.move (14, 1))) = some ([.done, .done, .done, .key 3], false, 0, false) ∧
    cfvNext .refcounted Sample.calm cfvProg false (.assignVal 0 (.move (5, 1))) = some ([.done, .done, .done, .key 3], false, 1, true) :=
  ⟨by decide +kernel, by decide +kernel, by decide +kernel⟩

/-- A creation has thrown and left its key behind: the next one with an equivalent key moves from its rvalue. -/
example : cfvNext .noTracking (Sample.failAt 6) [.op (.make 0 (.key 3))] false (.make 2 (.move (13, 1))) = some ([.threw], false, 1, true) := by
  decide +kernel

/-- **C48, concurrent_factory, key extractor.**  Right after a pass of the garbage collector, a creation or assignment from an rvalue moves from it
exactly if no flyweight alive has an equivalent key. -/
theorem C48_concurrent_pass (u : UserFns K V) (he : EquivOk keq) (contract : ∀ k, keq (u.kfv (u.ctor k)) k = true) (trk : Tracking)
    (hp : Nat → Nat) (s₀ s : CFSeq.St (VRep K V)) (hr : CFSeq.Reach (VRep.policy u) keq trk (SrcSpec.variant u) s₀)
    (hpass : CFSeq.pass (VRep.policy u) s₀ = .ok () s) (o : Op K V) (v : V) (ho : o.creates = some (.move v))
    (hv : o.valid (SrcSpec.variant u) (s.objs.map Prod.fst) = true) (out : Out K V) (s' : CFSeq.St (VRep K V))
    (hs : CFSeq.step (VRep.policy u) keq trk hp o (cfFresh s) = .ok out s') :
    s'.env.srcMoved = true ↔ ∀ x b, CFSeq.Sees (VRep.policy u) s x b → keq b.key (u.kfv v) = false := by
  have LS := SrcSpec.variant_lawful u he contract
  let X := VRep.leaves u
  obtain ⟨t₀, hR₀, hO₀⟩ := hr.rel X LS
  obtain ⟨t, hR, hO, hc⟩ := CFS.passed hR₀ hO₀ hpass
  have hm := step_at LS (VRep.lazy u) (X := X) (fun k r h => by cases h; rfl) trk hp (CFS.supports ho hv) (CFS.fresh_rel hR).inv ho (cfFresh s) rfl
  have hM := CFS.moved_iff (keq := keq) u trk hp o v ho s
  rw [hs] at hm hM
  have hm : (s'.env.made = s.env.made ∧ ∃ i b, CFSeq.At (VRep.lawful u) s i b ∧ keq b.key (u.kfv v) = true) ∨
      (s'.env.made = s.env.made + 1 ∧ ∀ i b, CFSeq.At (VRep.lawful u) s i b → keq b.key (u.kfv v) = false) := hm
  rcases hm with ⟨h1, i, b, hb, hk⟩ | ⟨h1, h2⟩
  · obtain ⟨x, hx⟩ := CFS.at_seen hR hc hb
    rcases hM with ⟨_, h3⟩ | ⟨h3, _⟩
    · constructor
      · intro h4; rw [h3] at h4; cases h4
      · intro h4
        rw [h4 x b hx] at hk
        cases hk
    · omega
  · rcases hM with ⟨h3, _⟩ | ⟨_, h3⟩
    · omega
    · refine ⟨fun _ x b hx => ?_, fun _ => h3⟩
      obtain ⟨i, hi⟩ := CFS.seen_at hR hO hx
      exact h2 i b hi

/-- After a pass of the collector the value with key 4 is gone. -/
example : cfvNext .refcounted Sample.calm cfvProg true (.make 2 (.move (13, 1))) = some ([.done, .done, .done, .key 3], false, 0, false) ∧
    cfvNext .refcounted Sample.calm cfvProg true (.make 2 (.move (14, 1))) = some ([.done, .done, .done, .key 3], false, 1, true) :=
  ⟨by decide +kernel, by decide +kernel⟩

/-- **C48, concurrent_factory, failure.**  A creation or assignment that throws has not moved from its rvalue. -/
theorem C48_concurrent_failed (u : UserFns K V) (he : EquivOk keq) (contract : ∀ k, keq (u.kfv (u.ctor k)) k = true) (trk : Tracking)
    (hp : Nat → Nat) (s : CFSeq.St (VRep K V)) (hr : CFSeq.Reach (VRep.policy u) keq trk (SrcSpec.variant u) s) (o : Op K V) (v : V)
    (ho : o.creates = some (.move v)) (hv : o.valid (SrcSpec.variant u) (s.objs.map Prod.fst) = true) (s' : CFSeq.St (VRep K V))
    (hs : CFSeq.step (VRep.policy u) keq trk hp o (cfFresh s) = .exc s') : s'.env.srcMoved = false := by
  have LS := SrcSpec.variant_lawful u he contract
  let X := VRep.leaves u
  obtain ⟨t, hR, hO⟩ := hr.rel X LS
  have hm := step_at LS (VRep.lazy u) (X := X) (fun k r h => by cases h; rfl) trk hp (CFS.supports ho hv) (CFS.fresh_rel hR).inv ho (cfFresh s) rfl
  have hM := CFS.moved_iff (keq := keq) u trk hp o v ho s
  rw [hs] at hm hM
  have hm : s'.env.made = s.env.made := hm
  rcases hM with ⟨_, h1⟩ | ⟨h1, _⟩
  · exact h1
  · omega

/-- The constructor of the value throws. -/
example : cfvNext .refcounted (Sample.failAt 20) cfvProg false (.make 2 (.move (5, 1))) = some ([.done, .done, .done, .key 3], true, 0, false) := by
  decide +kernel

/-- **C48, concurrent_factory, lvalues.**  Nothing the user passes as key or lvalue is ever moved from, and operations that create nothing move from
nothing, whether or not they throw; nor does the garbage collector. -/
theorem C48_concurrent_untouched (h : LibPolicy P sp keq kd) (trk : Tracking) (hp : Nat → Nat) (s s' : CFSeq.St Rep) :
    (∀ o : Op K V, (∀ v, o.creates ≠ some (.move v)) →
      ((∃ out, CFSeq.step P keq trk hp o (cfFresh s) = .ok out s') ∨ CFSeq.step P keq trk hp o (cfFresh s) = .exc s') → s'.env.srcMoved = false) ∧
    ∀ i, CFSeq.collect P i (cfFresh s) = .ok () s' → s'.env.srcMoved = false := by
  have C : P.Courteous := by
    cases h with
    | plain u => exact Moves.DRep.courteous u
    | product u => exact Moves.PRep.courteous u
    | variant u _ _ => exact Moves.VRep.courteous u
  refine ⟨fun o ho hs => ?_, fun i hs => ?_⟩
  · have hM := CFSeq.Thru.step Moves.good_same (C _ ho) keq trk hp o rfl (cfFresh s)
    rcases hs with ⟨out, hs⟩ | hs <;> rw [hs] at hM <;> exact hM
  · have hM := CFSeq.Thru.collect Moves.good_same (C none fun _ h => nomatch h) i (cfFresh s)
    rw [hs] at hM
    exact hM

/-- An lvalue whose value is constructed, and an assignment. -/
example : cfvNext .refcounted Sample.calm cfvProg false (.make 2 (.copy (5, 1))) = some ([.done, .done, .done, .key 3], false, 1, false) ∧
    cfvNext .refcounted Sample.calm cfvProg false (.assign 0 0) = some ([.done, .done, .done, .key 3], false, 0, false) :=
  ⟨by decide +kernel, by decide +kernel⟩

end Verif.Props

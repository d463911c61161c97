import Verif.Modules

/-!
# When a program of several modules uses a null pointer

The modules of `Verif/Modules.lean`, without assuming anything about the program: a program has undefined behaviour exactly
when a module whose static pointers are not set performs an operation that uses them.
-/

set_option autoImplicit false

namespace Verif
namespace Modules
variable {K V Rep F : Type}

/-- The operation uses the static pointers of the module without setting them first: all those that read a flyweight, and,
with `refcounted`, those that copy or destroy one
(/repo/include/boost/flyweight/refcounted.hpp:115-135, /repo/include/boost/flyweight/detail/flyweight_core.hpp:186-211).
(No code of its own: used in statements and proofs.) -/
def Uses (trk : Tracking) : Op K V → Bool
  | .get _ => true
  | .getKey _ => true
  | .eq _ _ => true
  | .hash _ => true
  | .copy _ _ => trk == .refcounted
  | .move _ _ => trk == .refcounted
  | .assign _ _ => trk == .refcounted
  | .destroy _ => trk == .refcounted
  | .swap _ _ => false
  | .init => false
  | .make _ _ => false
  | .assignVal _ _ => false

variable {S : Setup K V Rep F}

theorem lookup_of_mem {l : List (Nat × Nat)} {x : Nat} (h : (l.map Prod.fst).contains x = true) : ∃ h, l.lookup x = some h := by
  induction l with
  | nil => cases h
  | cons p l ih =>
    obtain ⟨y, a⟩ := p
    rw [List.lookup_cons]
    cases hxy : x == y with
    | true => exact ⟨a, rfl⟩
    | false =>
      refine ih ?_
      simp only [List.map_cons, List.contains_cons, hxy, Bool.false_or] at h
      exact h

theorem handleOf_ok {s : St Rep F} {x h : Nat} (hx : s.objs.lookup x = some h) : Core.handleOf x s = .ok h s := by
  show (match s.objs.lookup x with | none => M.undef | some h => pure h : M (St Rep F) Nat) s = _
  rw [hx]; rfl

theorem entry_ub (Fa : Factory F (Ent Rep)) {s : St Rep F} (hs : s.inited = false) (h : Nat) : Core.entry Fa h s = .ub := by
  simp [Core.entry, Core.deref, bind, M.bind, M.read, hs, M.undef]

/-- Operations that use the pointers are undefined if these are not set ... -/
theorem uses_ub (hp : Nat → Nat) {op : Op K V} {s : St Rep F} (hs : s.inited = false)
    (hv : op.valid S.sp (s.objs.map Prod.fst) = true) (hu : Uses S.trk op = true) : Core.step S.P S.Fa S.trk hp op s = .ub := by
  have look := fun x => lookup_of_mem (l := s.objs) (x := x)
  have copyub : ∀ h, S.trk = .refcounted → Core.handleCopy S.Fa S.trk h s = .ub := by
    intro h ht
    rw [ht]
    simp [Core.handleCopy, Core.addRef, bind, M.bind, entry_ub S.Fa hs]
  cases op with
  | get x =>
    obtain ⟨h, hx⟩ := look x hv
    simp [Core.step, Core.get, bind, M.bind, handleOf_ok hx, entry_ub S.Fa hs]
  | getKey x =>
    obtain ⟨h, hx⟩ := look x hv
    simp [Core.step, Core.getKey, bind, M.bind, handleOf_ok hx, entry_ub S.Fa hs]
  | eq x y =>
    simp only [Op.valid, Bool.and_eq_true] at hv
    obtain ⟨h, hx⟩ := look x hv.1
    simp [Core.step, Core.eq, Core.get, bind, M.bind, handleOf_ok hx, entry_ub S.Fa hs]
  | hash x =>
    obtain ⟨h, hx⟩ := look x hv
    simp [Core.step, Core.hash, Core.get, bind, M.bind, handleOf_ok hx, entry_ub S.Fa hs]
  | copy x y =>
    simp only [Op.valid, Bool.and_eq_true] at hv
    obtain ⟨h, hy⟩ := look y hv.2
    simp [Core.step, Core.copy, bind, M.bind, handleOf_ok hy, copyub h (by simpa [Uses] using hu)]
  | move x y =>
    simp only [Op.valid, Bool.and_eq_true] at hv
    obtain ⟨h, hy⟩ := look y hv.2
    simp [Core.step, Core.copy, bind, M.bind, handleOf_ok hy, copyub h (by simpa [Uses] using hu)]
  | assign x y =>
    simp only [Op.valid, Bool.and_eq_true] at hv
    obtain ⟨h, hy⟩ := look y hv.2
    simp [Core.step, Core.assign, Core.assignHandle, bind, M.bind, handleOf_ok hy, copyub h (by simpa [Uses] using hu)]
  | destroy x =>
    obtain ⟨h, hx⟩ := look x hv
    have ht : S.trk = .refcounted := by simpa [Uses] using hu
    have : ∀ s' : St Rep F, s'.inited = false → Core.handleDtor S.P S.Fa S.trk h s' = .ub := by
      intro s' hs'
      rw [ht]
      simp [Core.handleDtor, Core.release, bind, M.bind, entry_ub S.Fa hs']
    simp only [Core.step, Core.destroy, bind, M.bind, handleOf_ok hx, M.update]
    rw [this]
    exact hs
  | swap x y => cases hu
  | init => cases hu
  | make x src => cases hu
  | assignVal x src => cases hu

/-- ... and those that neither use the pointers nor create a flyweight leave them alone. -/
theorem other_off (hp : Nat → Nat) {op : Op K V} {s : St Rep F} (hv : op.valid S.sp (s.objs.map Prod.fst) = true)
    (hu : Uses S.trk op = false) (hc : ¬ (op = .init ∨ op.creates.isSome)) :
    ∃ s', Core.step S.P S.Fa S.trk hp op s = .ok .done s' ∧ s'.inited = s.inited := by
  have look := fun x => lookup_of_mem (l := s.objs) (x := x)
  have free : ∀ {b : Bool}, (b = (S.trk == .refcounted)) → b = false → S.trk = .noTracking := by
    intro b h1 h2
    rw [h2] at h1
    cases ht : S.trk with
    | noTracking => rfl
    | refcounted => rw [ht] at h1; cases h1
  cases op with
  | get x => cases hu
  | getKey x => cases hu
  | eq x y => cases hu
  | hash x => cases hu
  | init => exact absurd (.inl rfl) hc
  | make x src => exact absurd (.inr rfl) hc
  | assignVal x src => exact absurd (.inr rfl) hc
  | swap x y =>
    simp only [Op.valid, Bool.and_eq_true] at hv
    obtain ⟨h, hx⟩ := look x hv.1
    obtain ⟨h', hy⟩ := look y hv.2
    simp [Core.step, Core.swap, bind, M.bind, handleOf_ok hx, handleOf_ok hy, Core.setHandle, M.update, pure, M.ret]
  | copy x y =>
    simp only [Op.valid, Bool.and_eq_true] at hv
    obtain ⟨h, hy⟩ := look y hv.2
    simp [Core.step, Core.copy, bind, M.bind, handleOf_ok hy, free rfl hu, Core.handleCopy, Core.newObj, M.update, pure, M.ret]
  | move x y =>
    simp only [Op.valid, Bool.and_eq_true] at hv
    obtain ⟨h, hy⟩ := look y hv.2
    simp [Core.step, Core.copy, bind, M.bind, handleOf_ok hy, free rfl hu, Core.handleCopy, Core.newObj, M.update, pure, M.ret]
  | assign x y =>
    simp only [Op.valid, Bool.and_eq_true] at hv
    obtain ⟨h, hx⟩ := look x hv.1
    obtain ⟨h', hy⟩ := look y hv.2
    simp [Core.step, Core.assign, Core.assignHandle, bind, M.bind, handleOf_ok hx, handleOf_ok hy, free rfl hu, Core.handleCopy,
      Core.handleDtor, Core.setHandle, M.update, pure, M.ret]
  | destroy x =>
    obtain ⟨h, hx⟩ := look x hv
    simp [Core.step, Core.destroy, bind, M.bind, handleOf_ok hx, free rfl hu, Core.handleDtor, M.update, pure, M.ret]

/-- What does not use the pointers is defined if it is with the pointers set. -/
theorem other_ok (hp : Nat → Nat) {op : Op K V} {s : St Rep F} (hv : op.valid S.sp (s.objs.map Prod.fst) = true)
    (hu : Uses S.trk op = false) (hon : Core.step S.P S.Fa S.trk hp op (on s) ≠ .ub) :
    Core.step S.P S.Fa S.trk hp op s ≠ .ub := by
  have create : ∀ {α : Type} (k : Nat → M (St Rep F) α) (src : Src K V),
      (Core.insert S.P S.Fa S.trk src >>= k) s = .ub → (Core.insert S.P S.Fa S.trk src >>= k) (on s) = .ub := by
    intro α k src hub
    have hub' : M.bind (Core.insert S.P S.Fa S.trk src) k s = .ub := hub
    show M.bind (Core.insert S.P S.Fa S.trk src) k (on s) = .ub
    unfold M.bind at hub' ⊢
    rcases insert_sets S.P S.Fa S.trk src s with h1 | ⟨s', h1⟩
    · rw [← h1]; exact hub'
    · rw [h1] at hub'; cases hub'
  have strip : ∀ (x : M (St Rep F) Unit) (s : St Rep F), (x >>= fun _ => (pure .done : M (St Rep F) (Out K V))) s = .ub ↔ x s = .ub := by
    intro x s
    show M.bind x _ s = .ub ↔ _
    unfold M.bind
    cases x s <;> simp [pure, M.ret]
  by_cases hc : op = .init ∨ op.creates.isSome
  · cases op with
    | init => intro h; cases h
    | make x src => exact fun hub => hon ((strip _ _).2 (create _ src ((strip _ _).1 hub)))
    | assignVal x src => exact fun hub => hon ((strip _ _).2 (create _ src ((strip _ _).1 hub)))
    | _ => rcases hc with hc | hc <;> cases hc
  · obtain ⟨s', h, _⟩ := other_off (S := S) hp hv hu hc
    rw [h]
    simp

/-- What creates a flyweight sets the pointers, unless it throws. -/
theorem create_up (hp : Nat → Nat) {op : Op K V} {s s' : St Rep F} {out : Out K V} (hc : op = .init ∨ op.creates.isSome)
    (h : Core.step S.P S.Fa S.trk hp op s = .ok out s') : s'.inited = true := by
  have go : ∀ (src : Src K V) (k : Nat → M (St Rep F) (Out K V)), Core.step S.P S.Fa S.trk hp op = Core.insert S.P S.Fa S.trk src >>= k →
      s'.inited = true := by
    intro src k he
    have hst := (up_step S.P S.Fa S.trk hp op).stays (s := on s) rfl
    have heq : Core.step S.P S.Fa S.trk hp op s = Core.step S.P S.Fa S.trk hp op (on s) := by
      rw [he] at h ⊢
      change M.bind _ _ s = _ at h
      show M.bind _ _ s = M.bind _ _ (on s)
      unfold M.bind at h ⊢
      rcases insert_sets S.P S.Fa S.trk src s with h1 | ⟨s1, h1⟩
      · rw [← h1]
      · rw [h1] at h; cases h
    rw [← heq, h] at hst
    exact hst
  have assoc : ∀ {α β : Type} (m : M (St Rep F) Nat) (f : Nat → M (St Rep F) α) (g : α → M (St Rep F) β),
      (m >>= f) >>= g = m >>= fun a => f a >>= g := by
    intro α β m f g
    funext s
    show M.bind (M.bind m f) g s = M.bind m (fun a => M.bind (f a) g) s
    unfold M.bind
    cases m s <;> rfl
  cases op with
  | init => cases h; rfl
  | make x src => exact go src _ (assoc _ _ _)
  | assignVal x src => exact go src _ (assoc _ _ _)
  | _ => rcases hc with hc | hc <;> cases hc

/-- One operation of any module: exactly when it is undefined, and what it does otherwise. -/
theorem step_exact {fl : Nat → Bool} {st : MSt Rep F} {t : SSt K V} (h : Ok S fl st t) (hp : Nat → Nat) (m : Nat) (op : Op K V) :
    (step S hp m op st = none ∧ op.valid S.sp (st.core.objs.map Prod.fst) = true ∧ st.up m = false ∧ Uses S.trk op = true) ∨
    ((op.valid S.sp (st.core.objs.map Prod.fst) = true → Uses S.trk op = true → st.up m = true) ∧
      ∃ out st' t', step S hp m op st = some (out, st') ∧ SRun S.trk S.keq S.sp hp t [op] [out] t' ∧ Ok S fl st' t' ∧
        (∀ n, n ≠ m → st'.up n = st.up n) ∧ (st.up m = true → st'.up m = true) ∧
        ((op = .init ∨ op.creates.isSome) → out ≠ .threw → out ≠ .skipped → st'.up m = true) ∧
        (¬ (op = .init ∨ op.creates.isSome) → st.up m = false → st'.up m = false)) := by
  have hn : (on st.core).objs.map Prod.fst = st.core.objs.map Prod.fst := rfl
  have hnames : t.names = st.core.objs.map Prod.fst := h.sim.rel.vars.names
  by_cases hv : op.valid S.sp (st.core.objs.map Prod.fst) = true
  rotate_left
  · refine .inr ⟨fun h => absurd h hv, .skipped, st, t, by unfold step; rw [if_neg hv], .skip (by rw [hnames]; simpa using hv) (.nil t), h,
      fun _ _ => rfl, id, fun _ _ h => absurd rfl h, fun _ h => h⟩
  have hview : on (st.view m) = on st.core := rfl
  have hu := up_step S.P S.Fa S.trk hp op (st.view m)
  rw [hview] at hu
  have hc := Setup.perform_cases h.sim hp (by rw [hn]; exact hv)
  unfold Setup.perform at hc
  have hne : Core.step S.P S.Fa S.trk hp op (on (st.view m)) ≠ .ub := by
    rw [hview]
    rcases hc with ⟨_, _, _, h1, _⟩ | ⟨_, h1, _⟩ <;> rw [h1] <;> simp
  by_cases hbad : st.up m = false ∧ Uses S.trk op = true
  · refine .inl ⟨?_, hv, hbad.1, hbad.2⟩
    unfold step
    rw [if_pos hv]
    have : S.perform hp op (st.view m) = .ub := uses_ub (S := S) hp (s := st.view m) hbad.1 hv hbad.2
    rw [this]
  · have hub : Core.step S.P S.Fa S.trk hp op (st.view m) ≠ .ub := by
      cases hup : st.up m with
      | true =>
        have : st.view m = on (st.view m) := by unfold MSt.view on; rw [hup]
        rw [this]
        exact hne
      | false =>
        cases hus : Uses S.trk op with
        | true => exact absurd ⟨hup, hus⟩ hbad
        | false => exact other_ok hp hv hus hne
    refine .inr ⟨fun _ h2 => ?_, ?_⟩
    · cases hup : st.up m with
      | true => rfl
      | false => exact absurd ⟨hup, h2⟩ hbad
    have stays := (up_step S.P S.Fa S.trk hp op).stays (s := st.view m)
    have off : ∀ s', (∃ o, Core.step S.P S.Fa S.trk hp op (st.view m) = .ok o s') ∨ Core.step S.P S.Fa S.trk hp op (st.view m) = .exc s' →
        ¬ (op = .init ∨ op.creates.isSome) → st.up m = false → s'.inited = false := by
      intro s' h1 hcr hup
      have hus : Uses S.trk op = false := by
        cases hus : Uses S.trk op with
        | true => exact absurd ⟨hup, hus⟩ hbad
        | false => rfl
      obtain ⟨s2, h2, h3⟩ := other_off (S := S) hp (s := st.view m) hv hus hcr
      rw [h2] at h1
      rcases h1 with ⟨o, h1⟩ | h1
      · cases h1; rw [h3]; exact hup
      · cases h1
    have other : ∀ b n, n ≠ m → upd st.up m b n = st.up n := fun b n hn => by unfold upd; rw [if_neg hn]
    have self : ∀ b, upd st.up m b m = b := fun b => by unfold upd; rw [if_pos rfl]
    cases hm : Core.step S.P S.Fa S.trk hp op (st.view m) with
    | ok out s' =>
      rw [hm] at hu stays
      rcases hc with ⟨o, s1, t', h1, _, h3, h4⟩ | ⟨s1, h1, _⟩
      · simp only at hu
        rw [h1] at hu
        cases hu
        have hs : step S hp m op st = some (out, ⟨s', upd st.up m s'.inited⟩) := by
          unfold step
          rw [if_pos hv]
          show (match Core.step S.P S.Fa S.trk hp op (st.view m) with | .ok out s => _ | .exc s => _ | .ub => _) = _
          rw [hm]
        refine ⟨_, _, t', hs, .step (by rw [hnames]; exact hv) h3 (.nil t'), ⟨h4⟩, other _, ?_, ?_, ?_⟩
        · intro hup
          show upd st.up m s'.inited m = true
          rw [self]
          exact stays hup
        · intro hcr _ _
          show upd st.up m s'.inited m = true
          rw [self]
          exact create_up hp hcr hm
        · intro hcr hup
          show upd st.up m s'.inited m = false
          rw [self]
          exact off s' (.inl ⟨_, hm⟩) hcr hup
      · simp only at hu
        rw [h1] at hu
        cases hu
    | exc s' =>
      rw [hm] at hu stays
      rcases hc with ⟨o, s1, t', h1, _⟩ | ⟨s1, h1, h3, h4, _⟩
      · simp only at hu
        rw [h1] at hu
        cases hu
      · simp only at hu
        rw [h1] at hu
        cases hu
        have hs : step S hp m op st = some (.threw, ⟨s', upd st.up m s'.inited⟩) := by
          unfold step
          rw [if_pos hv]
          show (match Core.step S.P S.Fa S.trk hp op (st.view m) with | .ok out s => _ | .exc s => _ | .ub => _) = _
          rw [hm]
        refine ⟨_, _, t, hs, .step (by rw [hnames]; exact hv) h3 (.nil t), ⟨h4⟩, other _, ?_, fun _ h => absurd rfl h, ?_⟩
        · intro hup
          show upd st.up m s'.inited m = true
          rw [self]
          exact stays hup
        · intro hcr hup
          show upd st.up m s'.inited m = false
          rw [self]
          exact off s' (.inr hm) hcr hup
    | ub => exact (hub hm).elim

/-- The program up to the first use of a null pointer, if there is one. -/
theorem exec_exact {fl : Nat → Bool} (hp : Nat → Nat) :
    ∀ (ops : List (Nat × Op K V)) {st : MSt Rep F} {t : SSt K V}, Ok S fl st t →
      (exec S hp ops st = none ↔ ∃ ops1 m op ops2 outs st1, ops = ops1 ++ (m, op) :: ops2 ∧ exec S hp ops1 st = some (outs, st1) ∧
        op.valid S.sp (st1.core.objs.map Prod.fst) = true ∧ st1.up m = false ∧ Uses S.trk op = true) := by
  intro ops
  induction ops with
  | nil =>
    intro st t h
    refine ⟨fun h => (by cases h), ?_⟩
    rintro ⟨ops1, m, op, ops2, outs, st1, he, _⟩
    cases ops1 <;> cases he
  | cons p ops ih =>
    obtain ⟨m, op⟩ := p
    intro st t h
    rcases step_exact h hp m op with ⟨h1, h2, h3, h4⟩ | ⟨h0, out, st', t', h1, _, h2, _⟩
    · refine ⟨fun _ => ⟨[], m, op, ops, [], st, rfl, rfl, h2, h3, h4⟩, fun _ => ?_⟩
      simp only [exec, h1]
    · have e : ∀ l, exec S hp ((m, op) :: l) st = (exec S hp l st').map fun r => (out :: r.1, r.2) := by
        intro l
        simp only [exec, h1]
      rw [e, Option.map_eq_none_iff, ih h2]
      constructor
      · rintro ⟨ops1, m', op', ops2, outs, st1, he, hx, hr⟩
        refine ⟨(m, op) :: ops1, m', op', ops2, out :: outs, st1, by rw [he]; rfl, ?_, hr⟩
        rw [e, hx]; rfl
      · rintro ⟨ops1, m', op', ops2, outs, st1, he, hx, hr⟩
        cases ops1 with
        | nil =>
          cases he
          cases hx
          rw [h0 hr.1 hr.2.2] at hr
          cases hr.2.1
        | cons q ops1 =>
          cases he
          rw [e] at hx
          cases hq : exec S hp ops1 st' with
          | none => rw [hq] at hx; cases hx
          | some r =>
            rw [hq] at hx
            cases hx
            exact ⟨ops1, m', op', ops2, r.1, r.2, rfl, hq, hr⟩

/-- A program without use of a null pointer follows the specification, and which modules have their pointers set. -/
theorem exec_follows {fl : Nat → Bool} (hp : Nat → Nat) :
    ∀ (ops : List (Nat × Op K V)) {st : MSt Rep F} {t : SSt K V} {outs : List (Out K V)} {st' : MSt Rep F}, Ok S fl st t →
      exec S hp ops st = some (outs, st') →
      ∃ t', SRun S.trk S.keq S.sp hp t (ops.map Prod.snd) outs t' ∧ Ok S fl st' t' ∧ outs.length = ops.length ∧
        ∀ m, (st.up m = true → st'.up m = true) ∧
          (∀ (i : Nat) op out, ops[i]? = some (m, op) → outs[i]? = some out → (op = .init ∨ op.creates.isSome) → out ≠ .threw → out ≠ .skipped →
            st'.up m = true) ∧
          ((∀ op, (m, op) ∈ ops → ¬ (op = .init ∨ op.creates.isSome)) → st.up m = false → st'.up m = false) := by
  intro ops
  induction ops with
  | nil =>
    intro st t outs st' h he
    cases he
    exact ⟨t, .nil t, h, rfl, fun m => ⟨id, fun i op out h => (by simp at h), fun _ h => h⟩⟩
  | cons p ops ih =>
    obtain ⟨m, op⟩ := p
    intro st t outs st' h he
    rcases step_exact h hp m op with ⟨h1, _⟩ | ⟨_, out, st1, t1, h1, h2, h3, h4, h5, h6, h7⟩
    · simp only [exec, h1] at he
      cases he
    · simp only [exec, h1] at he
      cases hx : exec S hp ops st1 with
      | none => rw [hx] at he; cases he
      | some r =>
        rw [hx] at he
        cases he
        obtain ⟨t', g1, g2, g3, g4⟩ := ih h3 hx
        refine ⟨t', ?_, g2, by simp [g3], fun n => ⟨?_, ?_, ?_⟩⟩
        · cases h2 with
          | step hv hs hn => cases hn; exact .step hv hs g1
          | skip hv hn => cases hn; exact .skip hv g1
        · intro hn
          refine (g4 n).1 ?_
          by_cases hnm : n = m
          · rw [hnm] at hn ⊢; exact h5 hn
          · rw [h4 n hnm]; exact hn
        · intro i op' out' hi ho hc ht hk
          cases i with
          | zero =>
            cases hi
            cases ho
            exact (g4 _).1 (h6 hc ht hk)
          | succ i => exact (g4 n).2.1 i op' out' hi ho hc ht hk
        · intro hc hn
          refine (g4 n).2.2 (fun op' hm => hc op' (List.mem_cons_of_mem _ hm)) ?_
          by_cases hnm : n = m
          · rw [hnm] at hn hc ⊢
            exact h7 (hc op (List.mem_cons_self ..)) hn
          · rw [h4 n hnm]; exact hn

end Modules
end Verif

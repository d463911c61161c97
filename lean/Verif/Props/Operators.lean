import Verif.Operators
import Verif.Sample

/-!
# Properties of comparison operators and streams: C17, C19
-/

set_option autoImplicit false

namespace Verif.Props
open Setup Operators

/-! ## C17 -/

section
variable {V W : Type}

/-- The value types' six comparisons, in terms of `==`, `<` and `<` in the other direction.  (No
code of its own: used to state a property or an example.) -/
structure SixOps (V W : Type) where
  cmp : Cmp → V → W → Bool
  /-- `operator<` with the operands in the other order. -/
  rlt : W → V → Bool

/-- The comparisons of the value types are related to each other in the usual way.  (No code of
its own: used to state a property or an example.) -/
structure SixOps.Coherent (o : SixOps V W) : Prop where
  ne : ∀ v w, o.cmp .ne v w = !o.cmp .eq v w
  gt : ∀ v w, o.cmp .gt v w = o.rlt w v
  ge : ∀ v w, o.cmp .ge v w = !o.cmp .lt v w
  le : ∀ v w, o.cmp .le v w = !o.rlt w v

/-- The ones the library uses.  (No code of its own: used to state a property or an example.) -/
def SixOps.used (o : SixOps V W) : UserCmp V W := ⟨o.cmp .eq, o.cmp .lt, o.rlt⟩

/-- What an operand of a comparison is: a plain value, or a flyweight of any type in a state reached by any program.
(No code of its own: used to state a property or an example.) -/
inductive Denotes : Operand V → V → Prop
  | plain (v : V) : Denotes (.plain v) v
  | fly {K Rep F : Type} (S : Setup K V Rep F) (s : St Rep F) (x a : Nat) (k : K) (v : V) : S.Reach s → S.Sees s x a k v →
      Denotes (.fly S.P S.Fa s x) v

theorem Denotes.read {o : Operand V} {v : V} (h : Denotes o v) : o.read = some v := by
  cases h with
  | plain => rfl
  | fly _ _ _ _ _ _ _ h => exact h.read

/-- **C17.**  Between flyweights of different types and between flyweights and values, the six comparisons are those of the
values.  (Partial: for values whose comparisons are related in the usual way; `C17_violated` shows that it fails otherwise.) -/
theorem C17_values_partial (o : SixOps V W) (ho : o.Coherent) (op : Cmp) (x : Operand V) (y : Operand W) (v : V) (w : W)
    (hx : Denotes x v) (hy : Denotes y w) : compare o.used op x y = some (o.cmp op v w) := by
  rw [compare_read o.used op hx.read hy.read]
  cases op <;> simp [SixOps.used, ho.ne, ho.gt, ho.ge, ho.le]

/-- **C17, exactly.**  The six comparisons of two operands are those of their values if and only if, for these values, `!=` is the
negation of `==`, `>` is `<` with the operands exchanged, and `>=` and `<=` are the negations of `<` and of that. -/
theorem C17_values_iff (o : SixOps V W) (x : Operand V) (y : Operand W) (v : V) (w : W) (hx : Denotes x v) (hy : Denotes y w) :
    (∀ op, compare o.used op x y = some (o.cmp op v w)) ↔
      o.cmp .ne v w = (!o.cmp .eq v w) ∧ o.cmp .gt v w = o.rlt w v ∧ o.cmp .ge v w = (!o.cmp .lt v w) ∧ o.cmp .le v w = !o.rlt w v := by
  have h := fun op => compare_read o.used op hx.read hy.read
  constructor
  · intro ha
    have h1 := (h .ne).symm.trans (ha .ne)
    have h2 := (h .gt).symm.trans (ha .gt)
    have h3 := (h .ge).symm.trans (ha .ge)
    have h4 := (h .le).symm.trans (ha .le)
    exact ⟨(Option.some.inj h1).symm, (Option.some.inj h2).symm, (Option.some.inj h3).symm, (Option.some.inj h4).symm⟩
  · rintro ⟨h1, h2, h3, h4⟩ op
    rw [h op]
    cases op <;> simp [SixOps.used, h1, h2, h3, h4]

/-- **C17.**  Whatever the values' comparisons do besides comparing, such as throwing, a comparison of operands does it once: it is one call,
of `==` for `==` and `!=`, of `<` for `<` and `>=`, and of `<` with the operands exchanged for `>` and `<=`, whose result, if it
has one, is negated for `!=`, `>=` and `<=`. -/
theorem C17_calls {m : Type → Type} [Functor m] (u : UserCmpM m V W) (x : Operand V) (y : Operand W) (v : V) (w : W) (hx : Denotes x v)
    (hy : Denotes y w) :
    compareM u .eq x y = some (u.eq v w) ∧ compareM u .ne x y = some ((!·) <$> u.eq v w) ∧
    compareM u .lt x y = some (u.lt v w) ∧ compareM u .ge x y = some ((!·) <$> u.lt v w) ∧
    compareM u .gt x y = some (u.gt w v) ∧ compareM u .le x y = some ((!·) <$> u.gt w v) := by
  simp [compareM, hx.read, hy.read]

/-- Comparisons that throw if one of the operands is zero. -/
example : compareM (m := Except String) (V := Nat) (W := Nat)
      ⟨fun v w => if v * w = 0 then .error "zero" else .ok (v == w), fun v w => if v * w = 0 then .error "zero" else .ok (decide (v < w)),
        fun w v => if v * w = 0 then .error "zero" else .ok (decide (w < v))⟩ .le (.plain 3) (.plain 0) = some (.error "zero") ∧
    compareM (m := Except String) (V := Nat) (W := Nat)
      ⟨fun v w => if v * w = 0 then .error "zero" else .ok (v == w), fun v w => if v * w = 0 then .error "zero" else .ok (decide (v < w)),
        fun w v => if v * w = 0 then .error "zero" else .ok (decide (w < v))⟩ .le (.plain 3) (.plain 4) = some (.ok true) := ⟨rfl, rfl⟩

end

section
variable {K V Rep F : Type}

/-- **C17.**  Between flyweights of the same type, `==` is equivalence of keys, `!=` its negation, and the others are the comparisons
of the values.  (Partial: as `C17_values_partial`.) -/
theorem C17_same_partial (S : Setup K V Rep F) (s : St Rep F) (hr : S.Reach s) (o : SixOps V V) (ho : o.Coherent) (x y a b : Nat) (k l : K)
    (v w : V) (hx : S.Sees s x a k v) (hy : S.Sees s y b l w) :
    compareSame S o.used .eq x y s = some (S.keq k l) ∧ compareSame S o.used .ne x y s = some (!S.keq k l) ∧
      ∀ op, op ≠ .eq → op ≠ .ne → compareSame S o.used op x y s = some (o.cmp op v w) := by
  obtain ⟨fl, t, hS, hok⟩ := hr.sim
  have hiff := eq_keys hS hok hx hy
  have he : Core.eq S.P S.Fa x y s = .ok (S.keq k l) s := by
    have : (a == b) = S.keq k l := by
      by_cases h : a = b
      · rw [hiff.1 h]; simpa using h
      · cases hk : S.keq k l with
        | true => exact (h (hiff.2 hk)).elim
        | false => simpa using h
    simp only [Core.eq, bind, M.bind, hx.1, hy.1, pure, M.ret, this]
  refine ⟨by simp [compareSame, he], by simp [compareSame, he], fun op h1 h2 => ?_⟩
  have := C17_values_partial o ho op (.fly S.P S.Fa s x) (.fly S.P S.Fa s y) v w (.fly S s x a k v hr hx) (.fly S s y b l w hr hy)
  cases op <;> first | exact (h1 rfl).elim | exact (h2 rfl).elim | exact this

/-- **C17.**  If key and value are the same (default value policy) and the factory's equivalence is equality of values, all six
comparisons of flyweights of the same type are those of the values.  (Partial: as `C17_values_partial`.) -/
theorem C17_same_default_partial {Rep F V : Type} (S : Setup V V Rep F) (hkv : ∀ r, S.P.toKey r = S.P.toValue r) (s : St Rep F)
    (hr : S.Reach s) (o : SixOps V V) (ho : o.Coherent) (heq : ∀ v w, S.keq v w = o.cmp .eq v w) (op : Cmp) (x y a b : Nat) (k l : V)
    (v w : V) (hx : S.Sees s x a k v) (hy : S.Sees s y b l w) : compareSame S o.used op x y s = some (o.cmp op v w) := by
  obtain ⟨h1, h2, h3⟩ := C17_same_partial S s hr o ho x y a b k l v w hx hy
  have hkx := hx.same hkv
  have hky := hy.same hkv
  subst hkx hky
  cases op with
  | eq => rw [h1, heq]
  | ne => rw [h2, heq, ho.ne]
  | lt => exact h3 _ (by simp) (by simp)
  | gt => exact h3 _ (by simp) (by simp)
  | ge => exact h3 _ (by simp) (by simp)
  | le => exact h3 _ (by simp) (by simp)

/-- A strict weak order.  (No code of its own: used to state a property or an example.) -/
structure StrictWeak {α : Type 1} (A : α → Prop) (r : α → α → Prop) : Prop where
  irrefl : ∀ x, A x → ¬ r x x
  trans : ∀ x y z, A x → A y → A z → r x y → r y z → r x z
  incomp : ∀ x y z, A x → A y → A z → ¬ r x y → ¬ r y x → ¬ r y z → ¬ r z y → ¬ r x z ∧ ¬ r z x

/-- **C17.**  If `<` on values is a strict weak order, so is `<` on values and flyweights (of any types with those values)
together. -/
theorem C17_order (u : UserCmp V V) (irrefl : ∀ v, u.lt v v = false)
    (trans : ∀ v w z, u.lt v w = true → u.lt w z = true → u.lt v z = true)
    (incomp : ∀ v w z, u.lt v w = false → u.lt w v = false → u.lt w z = false → u.lt z w = false →
      u.lt v z = false ∧ u.lt z v = false) :
    StrictWeak (fun x : Operand V => ∃ v, Denotes x v) fun x y => compare u .lt x y = some true := by
  constructor
  · rintro x ⟨v, hv⟩
    rw [compare_read u .lt hv.read hv.read]
    simp [irrefl]
  · rintro x y z ⟨v, hv⟩ ⟨w, hw⟩ ⟨q, hq⟩
    rw [compare_read u .lt hv.read hw.read, compare_read u .lt hw.read hq.read, compare_read u .lt hv.read hq.read]
    simp only [Option.some.injEq]
    exact trans v w q
  · rintro x y z ⟨v, hv⟩ ⟨w, hw⟩ ⟨q, hq⟩
    rw [compare_read u .lt hv.read hw.read, compare_read u .lt hw.read hq.read, compare_read u .lt hv.read hq.read,
      compare_read u .lt hw.read hv.read, compare_read u .lt hq.read hw.read, compare_read u .lt hq.read hv.read]
    simp only [Option.some.injEq, Bool.not_eq_true]
    exact incomp v w q

/-- **C17.**  If `<` on values is a total order and the factory's equivalence is equality, exactly one of `x<y`, `x==y` and `y<x`
holds for flyweights of the same type. -/
theorem C17_total {Rep F V : Type} (S : Setup V V Rep F) (hkv : ∀ r, S.P.toKey r = S.P.toValue r) (s : St Rep F) (hr : S.Reach s)
    (u : UserCmp V V) (heq : ∀ v w, S.keq v w = true ↔ v = w)
    (htri : ∀ v w, (u.lt v w = true ∧ v ≠ w ∧ u.lt w v = false) ∨ (u.lt v w = false ∧ v = w ∧ u.lt w v = false) ∨
      (u.lt v w = false ∧ v ≠ w ∧ u.lt w v = true))
    (x y a b : Nat) (k l v w : V) (hx : S.Sees s x a k v) (hy : S.Sees s y b l w) :
    (compareSame S u .lt x y s, compareSame S u .eq x y s, compareSame S u .lt y x s) ∈
      [(some true, some false, some false), (some false, some true, some false), (some false, some false, some true)] := by
  obtain ⟨fl, t, hS, hok⟩ := hr.sim
  have hiff := eq_keys hS hok hx hy
  have hkx := hx.same hkv
  have hky := hy.same hkv
  subst hkx hky
  have he : Core.eq S.P S.Fa x y s = .ok (a == b) s := by
    simp only [Core.eq, bind, M.bind, hx.1, hy.1, pure, M.ret]
  have e1 : compareSame S u .lt x y s = some (u.lt k l) := compare_read u .lt hx.read hy.read
  have e2 : compareSame S u .lt y x s = some (u.lt l k) := compare_read u .lt hy.read hx.read
  have e3 : compareSame S u .eq x y s = some (a == b) := by simp [compareSame, he]
  rw [e1, e2, e3]
  have hab : a = b ↔ k = l := hiff.trans (heq k l)
  rcases htri k l with ⟨h1, h2, h3⟩ | ⟨h1, h2, h3⟩ | ⟨h1, h2, h3⟩
  · have : (a == b) = false := by simpa using fun h => h2 (hab.1 h)
    rw [h1, h3, this]; simp
  · have : (a == b) = true := by simpa using hab.2 h2
    rw [h1, h3, this]; simp
  · have : (a == b) = false := by simpa using fun h => h2 (hab.1 h)
    rw [h1, h3, this]; simp

/-- Comparisons of numbers.  (No code of its own: used to state a property or an example.) -/
def natOps : SixOps Nat Nat where
  cmp
    | .eq, v, w => v == w
    | .ne, v, w => v != w
    | .lt, v, w => decide (v < w)
    | .gt, v, w => decide (w < v)
    | .ge, v, w => decide (w ≤ v)
    | .le, v, w => decide (v ≤ w)
  rlt w v := decide (w < v)

theorem natOps_coherent : natOps.Coherent where
  ne _ _ := rfl
  gt _ _ := rfl
  ge v w := by simp only [natOps]; by_cases h : v < w <;> simp [h] <;> omega
  le v w := by simp only [natOps]; by_cases h : w < v <;> simp [h] <;> omega

theorem natHash : HashOk (fun n : Nat => n) (fun a b => a == b) where
  refl a := by simp
  symm a b := by simp only [beq_iff_eq]; exact Eq.symm
  trans a b c := by simp only [beq_iff_eq]; exact Eq.trans
  compat a b := by simp

/-- `flyweight<int>`, the equivalence being equality.  (No code of its own: used to state a
property or an example.) -/
def plainInt :=
  Setup.hashed (DRep.lawful Sample.u₀) .refcounted (fun n => n) natHash (SrcSpec.default_lawful natHash.equiv)

/-- Two flyweights with different values; the flyweight type meets the hypotheses. -/
example : ∃ s, plainInt.run id Sample.calm Sample.alloc [.make 0 (.key 3), .make 1 (.key 5), .make 2 (.key 3)] =
      some ([.done, .done, .done], s) ∧
    plainInt.Sees s 0 1 3 3 ∧ plainInt.Sees s 1 2 5 5 ∧ compareSame plainInt natOps.used .le 0 1 s = some true ∧
    compareSame plainInt natOps.used .eq 0 2 s = some true ∧ compareSame plainInt natOps.used .ge 0 1 s = some false ∧
    compare natOps.used .gt (.fly plainInt.P plainInt.Fa s 1) (.plain 4) = some true :=
  ⟨_, rfl, ⟨rfl, rfl⟩, ⟨rfl, rfl⟩, rfl, rfl, rfl, rfl⟩

example : ∀ v w, plainInt.keq v w = natOps.cmp .eq v w := fun _ _ => rfl

example : ∀ r, plainInt.P.toKey r = plainInt.P.toValue r := fun _ => rfl

/-- Divisibility.  (No code of its own: used to state a property or an example.) -/
def divOps : SixOps (Nat × Nat) (Nat × Nat) where
  cmp
    | .eq, v, w => v == w
    | .ne, v, w => v != w
    | .lt, v, w => w.1 % v.1 == 0 && v != w
    | .gt, v, w => v.1 % w.1 == 0 && v != w
    | .ge, v, w => v.1 % w.1 == 0
    | .le, v, w => w.1 % v.1 == 0
  rlt w v := v.1 % w.1 == 0 && v != w

/-- **C17, violation.**  That the values' comparisons are coherent is needed: for values ordered only partially, such as floating
point numbers with NaN, `x<=y` on flyweights may hold although it does not hold of the values. -/
theorem C17_violated : ∃ s, (Sample.prod .refcounted).Reach s ∧ (Sample.prod .refcounted).Sees s 0 1 3 (3, 9) ∧
    (Sample.prod .refcounted).Sees s 1 2 4 (4, 16) ∧
    compareSame (Sample.prod .refcounted) divOps.used .le 0 1 s = some true ∧ divOps.cmp .le (3, 9) (4, 16) = false :=
  ⟨_, ⟨id, Sample.calm, Sample.alloc, [.make 0 (.key 3), .make 1 (.key 4)], _, Sample.alloc_ok, rfl⟩, ⟨rfl, rfl⟩, ⟨rfl, rfl⟩, rfl, rfl⟩

end

/-! ## C19 -/

section
variable {K V Rep F Str : Type}

/-- **C19.**  `out<<x` does to the stream what writing the value does, and nothing else. -/
theorem C19_write (S : Setup K V Rep F) (s : St Rep F) (ins : Str → V → Str × Bool) (str : Str) (x a : Nat)
    (k : K) (v : V) (hx : S.Sees s x a k v) :
    write S ins x (str, s) = if (ins str v).2 then .ok () ((ins str v).1, s) else .exc ((ins str v).1, s) := by
  simp only [write, lift, bind, M.bind, hx.1]
  cases h : ins str v with
  | mk str' b => cases b <;> simp

/-- **C19.**  `in>>x` either throws, because copying, extraction or creation of the value does, and then no flyweight
is changed; or else the stream is what extraction into a copy of the current value leaves, `x` refers to a value
equivalent to that left in the copy, and all other flyweights are unchanged.  Extraction may have failed: nothing
depends on the state of the stream. -/
theorem C19_extract (S : Setup K V Rep F) (s : St Rep F) (hr : S.Reach s) (ext : Str → V → Extract Str V)
    (str : Str) (x a : Nat) (k : K) (v : V) (hx : S.Sees s x a k v) (hsup : ∀ v, S.sp.supports (.copy v) = true) :
    (∃ str' s', extract S ext x (str, s) = .exc (str', s') ∧ (str' = str ∨ str' = (ext str v).str) ∧
      ∀ y b l w, S.Sees s' y b l w ↔ S.Sees s y b l w) ∨
    (∃ v' s', (ext str v).val = some v' ∧ extract S ext x (str, s) = .ok () ((ext str v).str, s') ∧
      (∃ b l w, S.Sees s' x b l w ∧ S.keq l (S.sp.key0 (.copy v')) = true) ∧
      ∀ y b l w, y ≠ x → (S.Sees s' y b l w ↔ S.Sees s y b l w)) := by
  obtain ⟨fl, t, hS, hok⟩ := hr.sim
  have hS1 : Sim S fl (ticked s) t := hS.setTick (s.env.tick + 1)
  have same : ∀ (s' : St Rep F), Sim S fl s' t → ∀ y b l w, S.Sees s' y b l w ↔ S.Sees s y b l w := by
    intro s' h y b l w
    rw [sees_iff h, sees_iff hS]
  rw [extract_eq S ext x str s a v hx.1]
  by_cases hf : s.env.faults s.env.tick = true
  · rw [if_pos hf]
    exact .inl ⟨str, _, rfl, .inl rfl, same _ hS1⟩
  · rw [if_neg hf]
    cases hv : (ext str v).val with
    | none => exact .inl ⟨_, _, rfl, .inr rfl, same _ hS1⟩
    | some v' =>
      simp only
      have hx1 := (sees_iff hS1).2 ((sees_iff hS).1 hx)
      have hvalid : (Op.assignVal x (.copy v') : Op K V).valid S.sp ((ticked s).objs.map Prod.fst) = true := by
        simp only [Op.valid, names_contains hS1 hx1, hsup, Bool.and_self]
      have strip : S.perform id (.assignVal x (.copy v')) (ticked s) =
          match Core.assignVal S.P S.Fa S.trk x (.copy v') (ticked s) with
          | .ok _ s' => .ok .done s'
          | .exc s' => .exc s'
          | .ub => .ub := by
        show M.bind (Core.assignVal S.P S.Fa S.trk x (.copy v')) _ _ = _
        unfold M.bind
        cases Core.assignVal S.P S.Fa S.trk x (.copy v') (ticked s) <;> rfl
      rcases perform_cases hS1 id hvalid with ⟨out, s', t', h1, h0, h2, h3⟩ | ⟨s', h1, h2, h3, _⟩
      · right
        rw [strip] at h1
        cases hm : Core.assignVal S.P S.Fa S.trk x (.copy v') (ticked s) with
        | exc _ => rw [hm] at h1; cases h1
        | ub => rw [hm] at h1; cases h1
        | ok _ s1 =>
          rw [hm] at h1
          cases h1
          refine ⟨v', s', rfl, rfl, ?_, ?_⟩
          · cases h2 with
            | assignVal _ _ b t1 hc =>
              have hmem : (x, b) ∈ SSt.rebind t1.vars x b := by
                have : t1.vars = t.vars := by cases hc <;> rfl
                rw [this]
                exact List.mem_map.2 ⟨_, (sees_iff hS).1 hx, by simp⟩
              refine ⟨b.addr, b.key, b.val, (sees_iff h3).2 hmem, ?_⟩
              cases hc with
              | share b h1 h2 => exact h2
              | fresh a h1 h2 => exact S.LS.contract _ (hsup v')
          · intro y b l w hy
            rw [sees_iff h3, sees_iff hS]
            cases h2 with
            | assignVal _ _ b' t1 hc =>
              have ht : t1.vars = t.vars := by cases hc <;> rfl
              show (y, _) ∈ SSt.rebind t1.vars x b' ↔ _
              rw [ht]
              constructor
              · intro hm
                obtain ⟨p, hp, he⟩ := List.mem_map.1 hm
                split at he
                · cases he; exact (hy rfl).elim
                · exact he ▸ hp
              · intro hm
                exact List.mem_map.2 ⟨_, hm, by simp [hy]⟩
      · left
        rw [strip] at h1
        cases hm : Core.assignVal S.P S.Fa S.trk x (.copy v') (ticked s) with
        | ok _ _ => rw [hm] at h1; cases h1
        | ub => rw [hm] at h1; cases h1
        | exc s1 =>
          rw [hm] at h1
          cases h1
          exact ⟨_, s', rfl, .inr rfl, same _ h3⟩

/-- **C19.**  With the default value policy and equality as equivalence, `x` has exactly the value that extraction left in the copy. -/
theorem C19_exact {Rep F V Str : Type} (S : Setup V V Rep F) (hkv : ∀ r, S.P.toKey r = S.P.toValue r)
    (heq : ∀ v w, S.keq v w = true ↔ v = w) (hkey : ∀ v, S.sp.key0 (.copy v) = v) (s : St Rep F) (hr : S.Reach s)
    (ext : Str → V → Extract Str V)
    (str : Str) (x a : Nat) (k v : V) (hx : S.Sees s x a k v) (hsup : ∀ v, S.sp.supports (.copy v) = true)
    (p : Str × St Rep F) (hok : extract S ext x (str, s) = .ok () p) :
    ∃ v' b l, (ext str v).val = some v' ∧ p.1 = (ext str v).str ∧ S.Sees p.2 x b l v' := by
  rcases C19_extract S s hr ext str x a k v hx hsup with ⟨_, _, h, _⟩ | ⟨v', s', h1, h2, ⟨b, l, w, h3, h4⟩, _⟩
  · rw [hok] at h; cases h
  · rw [hok] at h2
    cases h2
    refine ⟨v', b, l, h1, rfl, ?_⟩
    have := h3.same hkv
    rw [hkey, heq] at h4
    subst this h4
    exact h3

/-- Reads one number from a list; at the end of the input, sets the value to zero, as failing extractions do.
(No code of its own: used to state a property or an example.) -/
def readNum (str : List Nat) (_ : Nat) : Extract (List Nat) Nat :=
  match str with
  | [] => ⟨[], some 0⟩
  | n :: l => ⟨l, some n⟩

/-- Two extractions, the second of which fails; the other flyweight is not affected. -/
example : ∃ s s1 s2, plainInt.run id Sample.calm Sample.alloc [.make 0 (.key 3), .make 1 (.key 3)] = some ([.done, .done], s) ∧
    plainInt.Sees s 0 1 3 3 ∧ extract plainInt readNum 0 ([8], s) = .ok () ([], s1) ∧ plainInt.Sees s1 0 2 8 8 ∧ plainInt.Sees s1 1 1 3 3 ∧
    extract plainInt readNum 0 ([], s1) = .ok () ([], s2) ∧ plainInt.Sees s2 0 4 0 0 ∧ plainInt.Sees s2 1 1 3 3 :=
  ⟨_, _, _, rfl, ⟨rfl, rfl⟩, rfl, ⟨rfl, rfl⟩, ⟨rfl, rfl⟩, rfl, ⟨rfl, rfl⟩, ⟨rfl, rfl⟩⟩

example : (∀ r, plainInt.P.toKey r = plainInt.P.toValue r) ∧ (∀ v w, plainInt.keq v w = true ↔ v = w) ∧
    (∀ v, plainInt.sp.key0 (.copy v) = v) ∧ (∀ v, plainInt.sp.supports (.copy v) = true) :=
  ⟨fun _ => rfl, fun v w => by simp [plainInt, Setup.hashed], fun _ => rfl, fun _ => rfl⟩

end

end Verif.Props

import Verif.Policy
import Verif.Spec

/-!
# Laws of value policies

`Policy.Lawful` states what the core relies on; it is proved for the three
policies of the library.
-/

set_option autoImplicit false

namespace Verif

/-- From `e` to `e'` the numbers of live keys and values changed by `d`.  (No code of its own:
used in statements and proofs.) -/
structure Env.Shift (e e' : Env) (d : Int × Int) : Prop where
  faults : e'.faults = e.faults
  tick : e.tick ≤ e'.tick
  keys : e'.keys = e.keys + d.1
  vals : e'.vals = e.vals + d.2

/-- From `e` to `e'` an exception has been thrown and no object was left behind.  (No code of
its own: used in statements and proofs.) -/
structure Env.Failed (e e' : Env) : Prop where
  shift : e.Shift e' (0, 0)
  fault : ∃ n, e.faults n = true

theorem Env.Shift.refl (e : Env) : e.Shift e (0, 0) := ⟨rfl, Nat.le_refl _, by simp, by simp⟩

theorem Env.Shift.trans {e e' e'' : Env} {d d' : Int × Int} (h : e.Shift e' d)
    (h' : e'.Shift e'' d') : e.Shift e'' (d.1 + d'.1, d.2 + d'.2) :=
  ⟨h'.faults.trans h.faults, Nat.le_trans h.tick h'.tick,
    by rw [h'.keys, h.keys]; simp [Int.add_assoc], by rw [h'.vals, h.vals]; simp [Int.add_assoc]⟩

theorem Env.Shift.cast {e e' : Env} {d d' : Int × Int} (h : e.Shift e' d) (h₁ : d.1 = d'.1)
    (h₂ : d.2 = d'.2) : e.Shift e' d' :=
  ⟨h.faults, h.tick, by rw [h.keys, h₁], by rw [h.vals, h₂]⟩

/-- Laws of a value policy.  `Fresh s r`: `r` has been created from `s` and no
value has been requested of it.  `Full r k v`: `r` holds value `v` with key `k`.
`Live r`: `r` may be destroyed.  `res r`: numbers of live keys and values in `r`;
`fullKeys`: number of live keys in an `r` that holds a value.  (No code of its own: used in
statements and proofs.) -/
structure Policy.Lawful {K V Rep : Type} (P : Policy K V Rep) (sp : SrcSpec K V) where
  Fresh : Src K V → Rep → Prop
  Full : Rep → K → V → Prop
  Live : Rep → Prop
  res : Rep → Int × Int
  fullKeys : Int
  fresh_live : ∀ {s r}, Fresh s r → Live r
  full_live : ∀ {r k v}, Full r k v → Live r
  fresh_key : ∀ {s r}, Fresh s r → P.toKey r = some (sp.key0 s)
  full_key : ∀ {r k v}, Full r k v → P.toKey r = some k
  full_val : ∀ {r k v}, Full r k v → P.toValue r = some v
  full_res : ∀ {r k v}, Full r k v → res r = (fullKeys, 1)
  ofSrc : ∀ s e, sp.supports s = true → Triple (· = e) (P.ofSrc s)
    (fun r e' => Fresh s r ∧ e.Shift e' (res r)) (fun e' => e.Failed e')
  move : ∀ s r e, Fresh s r → Triple (· = e) (P.move r)
    (fun p e' => Fresh s p.1 ∧ Live p.2 ∧ res p.2 = res r ∧ e.Shift e' (res p.1))
    (fun e' => e.Failed e')
  copy : ∀ s r e, Fresh s r → Triple (· = e) (P.copy r)
    (fun r' e' => Fresh s r' ∧ e.Shift e' (res r')) (fun e' => e.Failed e')
  destroy : ∀ r e, Live r → Triple (· = e) (P.destroy r)
    (fun _ e' => e.Shift e' (-(res r).1, -(res r).2)) (fun _ => False)
  visit_fresh : ∀ s r e, sp.supports s = true → Fresh s r → Triple (· = e) (P.visit s r)
    (fun r' e' => Full r' (sp.key1 s) (sp.val s) ∧
      e.Shift e' ((res r').1 - (res r).1, (res r').2 - (res r).2))
    (fun e' => e.Failed e')
  visit_full : ∀ s r k v e, Full r k v → P.visit s r e = .ok r e

/-- If `m` has defined behaviour, it ends in `Q` (normal exit) or `E` (exception).  (No code of
its own: used in statements and proofs.) -/
def Weak {σ α : Type} (P : σ → Prop) (m : M σ α) (Q : α → σ → Prop) (E : σ → Prop) : Prop :=
  ∀ s, P s → match m s with
    | .ok a s' => Q a s'
    | .exc s' => E s'
    | .ub => True

/-- A computation that constructs no value.  (No code of its own: used in statements and
proofs.) -/
def Keeps {α : Type} (m : M Env α) : Prop :=
  ∀ n, Weak (fun e => e.made = n) m (fun _ e => e.made = n) (fun e => e.made = n)

/-- A lawful policy that constructs values lazily: the only value construction
is the visitation of an entry without a value.  (No code of its own: used in statements and
proofs.) -/
structure Policy.Lawful.Lazy {K V Rep : Type} {P : Policy K V Rep} {sp : SrcSpec K V}
    (L : P.Lawful sp) where
  hasVal : Rep → Bool
  full : ∀ {r k v}, L.Full r k v → hasVal r = true
  ofSrc : ∀ s, Keeps (P.ofSrc s)
  move : ∀ r n, Weak (fun e => e.made = n) (P.move r)
    (fun p e => e.made = n ∧ hasVal p.1 = false) (fun e => e.made = n)
  copy : ∀ r n, Weak (fun e => e.made = n) (P.copy r)
    (fun r' e => e.made = n ∧ hasVal r' = false) (fun e => e.made = n)
  destroy : ∀ r n, Weak (fun e => e.made = n) (P.destroy r) (fun _ e => e.made = n) (fun _ => False)
  visit : ∀ s r n, sp.supports s = true → Weak (fun e => e.made = n) (P.visit s r)
    (fun _ e => e.made = n + if hasVal r then 0 else 1) (fun e => e.made = n)

theorem mayThrow_triple (e : Env) : Triple (· = e) mayThrow
    (fun _ e' => e' = { e with tick := e.tick + 1 })
    (fun e' => e' = { e with tick := e.tick + 1 } ∧ e.faults e.tick = true) := by
  intro s hs
  subst hs
  unfold mayThrow
  by_cases h : s.faults s.tick = true <;> simp [h]

theorem failed_tick {e : Env} (h : e.faults e.tick = true) :
    e.Failed { e with tick := e.tick + 1 } :=
  ⟨⟨rfl, Nat.le_succ _, by simp, by simp⟩, _, h⟩

theorem Triple.ofIf {σ α : Type} {m : M σ α} {e e₁ e₂ : σ} {a : α} {c : Bool}
    {Q : α → σ → Prop} {E : σ → Prop}
    (h : m e = if c then .exc e₁ else .ok a e₂) (hE : c = true → E e₁) (hQ : c = false → Q a e₂) :
    Triple (· = e) m Q E := by
  intro s hs
  subst hs
  rw [h]
  cases c
  · exact hQ rfl
  · exact hE rfl

theorem Triple.ofOk {σ α : Type} {m : M σ α} {e e₂ : σ} {a : α}
    {Q : α → σ → Prop} {E : σ → Prop}
    (h : m e = .ok a e₂) (hQ : Q a e₂) : Triple (· = e) m Q E := by
  intro s hs
  subst hs
  rw [h]
  exact hQ

section Variant
variable {K V : Type} (u : UserFns K V)

theorem VRep.newKey_raw (a : Act) (k : K) (e : Env) : VRep.newKey (V := V) a VRep.raw k e =
    if e.faults e.tick then .exc { e with tick := e.tick + 1 }
    else .ok ⟨some k, none, false⟩ { e with tick := e.tick + 1, keys := e.keys + 1, acts := a :: e.acts } := by
  show M.bind mayThrow _ e = _
  unfold M.bind mayThrow
  by_cases h : e.faults e.tick = true <;> simp [h, VRep.raw]
  rfl

/-- How the key of a new representation is made from `s`.  (No code of its own: used in
statements and proofs.) -/
def VRep.srcAct : Src K V → Act
  | .key _ => .keyArgs
  | .copy _ => .keyExtracted
  | .move _ => .keyExtracted

/-- How a value is made from `s`.  (No code of its own: used in statements and proofs.) -/
def valAct : Src K V → Act
  | .key _ => .valArgs
  | .copy _ => .valCopy
  | .move _ => .valMove

theorem VRep.ofSrc_eq (s : Src K V) (e : Env) : (VRep.policy u).ofSrc s e =
    if e.faults e.tick then .exc { e with tick := e.tick + 1 }
    else .ok ⟨some ((SrcSpec.variant u).key0 s), none, false⟩
      { e with tick := e.tick + 1, keys := e.keys + 1, acts := VRep.srcAct s :: e.acts } := by
  rw [← VRep.newKey_raw]
  cases s <;> rfl

theorem VRep.move_eq (k : K) (e : Env) : (VRep.policy u).move ⟨some k, none, false⟩ e =
    if e.faults e.tick then .exc { e with tick := e.tick + 1 }
    else .ok (⟨some k, none, false⟩, ⟨some (u.movedK k), none, false⟩)
      { e with tick := e.tick + 1, keys := e.keys + 1, acts := .keyMove :: e.acts } := by
  show M.bind (VRep.newKey _ VRep.raw _) _ e = _
  unfold M.bind
  rw [VRep.newKey_raw]
  by_cases h : e.faults e.tick = true <;> simp [h]
  rfl

theorem VRep.visit_eq (s : Src K V) (k : K) (e : Env) :
    (VRep.policy u).visit s ⟨some k, none, false⟩ e =
    if e.faults e.tick then .exc { e with tick := e.tick + 1 }
    else .ok ⟨none, some (match s with | .key _ => u.ctor k | .copy v => v | .move v => v), true⟩
      { e with tick := e.tick + 1, vals := e.vals + 1, made := e.made + 1, keys := e.keys - 1,
               acts := .keyGone :: valAct s :: e.acts,
               srcMoved := match s with | .move _ => true | _ => e.srcMoved } := by
  cases s <;>
  · simp only [VRep.policy, VRep.visit, Bool.false_eq_true, if_false]
    show M.bind _ _ e = _
    unfold M.bind VRep.newVal mayThrow
    by_cases h : e.faults e.tick = true <;>
      simp [h, bind, M.bind, M.update, pure, M.ret, VRep.delKey, valAct]

/-- The laws hold for `variant_key_value`.  (No code of its own: used in statements and proofs.) -/
def VRep.lawful : (VRep.policy u).Lawful (SrcSpec.variant u) where
  Fresh s r := r = ⟨some ((SrcSpec.variant u).key0 s), none, false⟩
  Full r k v := r = ⟨none, some v, true⟩ ∧ k = u.kfv v
  Live r := (∃ k, r = ⟨some k, none, false⟩) ∨ (∃ v, r = ⟨none, some v, true⟩)
  res r := if r.cted then (0, 1) else (1, 0)
  fullKeys := 0
  full_res h := by obtain ⟨rfl, _⟩ := h; rfl
  fresh_live h := Or.inl ⟨_, h⟩
  full_live h := Or.inr ⟨_, h.1⟩
  fresh_key h := by subst h; rfl
  full_key h := by obtain ⟨rfl, rfl⟩ := h; rfl
  full_val h := by obtain ⟨rfl, rfl⟩ := h; rfl
  ofSrc s e _ := .ofIf (VRep.ofSrc_eq u s e) failed_tick
    fun _ => ⟨rfl, rfl, Nat.le_succ _, by simp, by simp⟩
  move s r e hr := by
    subst hr
    exact .ofIf (VRep.move_eq u _ e) failed_tick
      fun _ => ⟨rfl, Or.inl ⟨_, rfl⟩, rfl, rfl, Nat.le_succ _, by simp, by simp⟩
  copy s r e hr := by
    subst hr
    exact .ofIf (VRep.newKey_raw _ _ e) failed_tick
      fun _ => ⟨rfl, rfl, Nat.le_succ _, by simp, by simp⟩
  destroy r e hr := by
    rcases hr with ⟨k, rfl⟩ | ⟨v, rfl⟩
    · exact .ofOk rfl ⟨rfl, Nat.le_refl _, rfl, by simp⟩
    · exact .ofOk rfl ⟨rfl, Nat.le_refl _, by simp, rfl⟩
  visit_fresh s r e _ hr := by
    subst hr
    refine .ofIf (VRep.visit_eq u s _ e) failed_tick
      fun _ => ⟨⟨?_, ?_⟩, rfl, Nat.le_succ _, rfl, by simp⟩ <;> cases s <;> rfl
  visit_full s r k v e h := by obtain ⟨rfl, rfl⟩ := h; rfl

theorem Weak.ofIf {σ α : Type} {P : σ → Prop} {m : M σ α} {Q : α → σ → Prop} {E : σ → Prop}
    (h : ∀ e, P e → ∃ (c : Bool) (e₁ e₂ : σ) (a : α),
      m e = (if c then .exc e₁ else .ok a e₂) ∧ E e₁ ∧ Q a e₂) : Weak P m Q E := by
  intro e he
  obtain ⟨c, e₁, e₂, a, hm, h1, h2⟩ := h e he
  rw [hm]
  cases c
  · exact h2
  · exact h1

theorem Weak.ofUb {σ α : Type} {P : σ → Prop} {m : M σ α} {Q : α → σ → Prop} {E : σ → Prop}
    (h : ∀ e, m e = .ub) : Weak P m Q E := by
  intro e he
  rw [h]
  trivial

theorem Weak.ofOk {σ α : Type} {P : σ → Prop} {m : M σ α} {Q : α → σ → Prop} {E : σ → Prop}
    (h : ∀ e, P e → ∃ (e₂ : σ) (a : α), m e = .ok a e₂ ∧ Q a e₂) : Weak P m Q E := by
  intro e he
  obtain ⟨e₂, a, hm, h2⟩ := h e he
  rw [hm]
  exact h2

/-- `variant_key_value` is lazy.  (No code of its own: used in statements and proofs.) -/
def VRep.lazy : (VRep.lawful u).Lazy where
  hasVal r := r.cted
  full h := by obtain ⟨rfl, _⟩ := h; rfl
  ofSrc s n := .ofIf fun e he => ⟨_, _, _, _, VRep.ofSrc_eq u s e, he, he⟩
  move r n := by
    obtain ⟨k, v, c⟩ := r
    cases c with
    | false =>
      cases k with
      | none => exact .ofUb fun _ => rfl
      | some k =>
        refine .ofIf fun e he => ⟨e.faults e.tick, { e with tick := e.tick + 1 },
          { e with tick := e.tick + 1, keys := e.keys + 1, acts := .keyMove :: e.acts },
          (⟨some k, none, false⟩, ⟨some (u.movedK k), v, false⟩), ?_, he, he, rfl⟩
        show M.bind (VRep.newKey _ VRep.raw _) _ e = _
        unfold M.bind
        rw [VRep.newKey_raw]
        by_cases h : e.faults e.tick = true <;> simp [h]
        rfl
    | true =>
      cases v with
      | none => exact .ofUb fun _ => rfl
      | some v =>
        refine .ofIf fun e he => ⟨e.faults e.tick, { e with tick := e.tick + 1 },
          { e with tick := e.tick + 1, keys := e.keys + 1, acts := .keyExtracted :: e.acts },
          (⟨some (u.kfv v), none, false⟩, ⟨k, some v, true⟩), ?_, he, he, rfl⟩
        show M.bind (VRep.newKey _ VRep.raw _) _ e = _
        unfold M.bind
        rw [VRep.newKey_raw]
        by_cases h : e.faults e.tick = true <;> simp [h]
        rfl
  copy r n := by
    obtain ⟨k, v, c⟩ := r
    cases c with
    | false =>
      cases k with
      | none => exact .ofUb fun _ => rfl
      | some k => exact .ofIf fun e he => ⟨_, _, _, _, VRep.newKey_raw _ k e, he, he, rfl⟩
    | true =>
      cases v with
      | none => exact .ofUb fun _ => rfl
      | some v => exact .ofIf fun e he => ⟨_, _, _, _, VRep.newKey_raw _ (u.kfv v) e, he, he, rfl⟩
  destroy r n := by
    obtain ⟨k, v, c⟩ := r
    cases c with
    | false =>
      cases k with
      | none => exact .ofUb fun _ => rfl
      | some k => exact .ofOk fun e he => ⟨_, _, rfl, he⟩
    | true =>
      cases v with
      | none => exact .ofUb fun _ => rfl
      | some v => exact .ofOk fun e he => ⟨_, _, rfl, he⟩
  visit s r n _ := by
    obtain ⟨k, v, c⟩ := r
    cases c with
    | true => exact .ofOk fun e he => ⟨_, _, rfl, he⟩
    | false =>
      intro e he
      cases v with
      | some v =>
        have : (VRep.policy u).visit s ⟨k, some v, false⟩ e = .ub ∨
            (VRep.policy u).visit s ⟨k, some v, false⟩ e = .exc { e with tick := e.tick + 1 } := by
          by_cases h : e.faults e.tick = true <;> cases s <;> cases k <;>
            simp [VRep.policy, VRep.visit, bind, M.bind, VRep.newVal, mayThrow, h, M.undef]
        rcases this with h | h <;> rw [h]
        · trivial
        · exact he
      | none =>
        cases k with
        | some k =>
          rw [VRep.visit_eq]
          by_cases h : e.faults e.tick = true <;> simp [h, he]
        | none =>
          have : (VRep.policy u).visit s ⟨none, none, false⟩ e = .ub ∨
              (VRep.policy u).visit s ⟨none, none, false⟩ e = .exc { e with tick := e.tick + 1 } := by
            by_cases h : e.faults e.tick = true <;> cases s <;>
              simp [VRep.policy, VRep.visit, bind, M.bind, VRep.newVal, mayThrow, h, M.undef,
                M.update, pure, M.ret, VRep.delKey]
          rcases this with h | h <;> rw [h]
          · trivial
          · exact he

end Variant

section Product
variable {K V : Type} (u : UserFns K V)

theorem PRep.newRep_eq (a : Act) (k : K) (e : Env) : PRep.newRep (V := V) a k e =
    if e.faults e.tick then .exc { e with tick := e.tick + 1 }
    else .ok ⟨k, none, false⟩ { e with tick := e.tick + 1, keys := e.keys + 1, acts := a :: e.acts } := by
  show M.bind mayThrow _ e = _
  unfold M.bind mayThrow
  by_cases h : e.faults e.tick = true <;> simp [h]
  rfl

theorem PRep.move_eq (k : K) (e : Env) : (PRep.policy u).move ⟨k, none, false⟩ e =
    if e.faults e.tick then .exc { e with tick := e.tick + 1 }
    else .ok (⟨k, none, false⟩, ⟨u.movedK k, none, false⟩)
      { e with tick := e.tick + 1, keys := e.keys + 1, acts := .keyMove :: e.acts } := by
  show M.bind (PRep.newRep _ _) _ e = _
  unfold M.bind
  rw [PRep.newRep_eq]
  by_cases h : e.faults e.tick = true <;> simp [h]
  rfl

theorem PRep.visit_eq (k k' : K) (e : Env) :
    (PRep.policy u).visit (.key k') ⟨k, none, false⟩ e =
    if e.faults e.tick then .exc { e with tick := e.tick + 1 }
    else .ok ⟨k, some (u.ctor k), true⟩
      { e with tick := e.tick + 1, vals := e.vals + 1, made := e.made + 1, acts := .valArgs :: e.acts } := by
  simp only [PRep.policy, PRep.visit, Bool.false_eq_true, if_false]
  show M.bind _ _ e = _
  unfold M.bind mayThrow
  by_cases h : e.faults e.tick = true <;> simp [h]
  rfl

/-- The laws hold for `product_key_value`.  (No code of its own: used in statements and proofs.) -/
def PRep.lawful : (PRep.policy u).Lawful (SrcSpec.product u) where
  Fresh s r := r = ⟨(SrcSpec.product u).key0 s, none, false⟩
  Full r k v := r = ⟨k, some v, true⟩
  Live r := r.cted = true → r.val.isSome
  res r := if r.cted then (1, 1) else (1, 0)
  fullKeys := 1
  full_res h := by subst h; rfl
  fresh_live h := by subst h; simp
  full_live h := by subst h; simp
  fresh_key h := by subst h; rfl
  full_key h := by subst h; rfl
  full_val h := by subst h; rfl
  ofSrc s e hs := by
    cases s with
    | key k =>
      exact .ofIf (PRep.newRep_eq _ k e) failed_tick
        fun _ => ⟨rfl, rfl, Nat.le_succ _, by simp, by simp⟩
    | copy v => cases hs
    | move v => cases hs
  move s r e hr := by
    subst hr
    exact .ofIf (PRep.move_eq u _ e) failed_tick
      fun _ => ⟨rfl, fun h => by simp at h, rfl, rfl, Nat.le_succ _, by simp, by simp⟩
  copy s r e hr := by
    subst hr
    exact .ofIf (PRep.newRep_eq _ _ e) failed_tick
      fun _ => ⟨rfl, rfl, Nat.le_succ _, by simp, by simp⟩
  destroy r e hr := by
    obtain ⟨k, v, c⟩ := r
    cases c with
    | false => exact .ofOk rfl ⟨rfl, Nat.le_refl _, rfl, by simp⟩
    | true =>
      cases v with
      | none => simp at hr
      | some v => exact .ofOk rfl ⟨rfl, Nat.le_refl _, rfl, rfl⟩
  visit_fresh s r e hs hr := by
    subst hr
    cases s with
    | key k =>
      exact .ofIf (PRep.visit_eq u _ k e) failed_tick
        fun _ => ⟨rfl, rfl, Nat.le_succ _, by simp, by simp⟩
    | copy v => cases hs
    | move v => cases hs
  visit_full s r k v e h := by subst h; cases s <;> rfl

/-- `product_key_value` is lazy.  (No code of its own: used in statements and proofs.) -/
def PRep.lazy : (PRep.lawful u).Lazy where
  hasVal r := r.cted
  full h := by subst h; rfl
  ofSrc s n := by
    cases s with
    | key k => exact .ofIf fun e he => ⟨_, _, _, _, PRep.newRep_eq _ k e, he, he⟩
    | copy v => exact .ofUb fun _ => rfl
    | move v => exact .ofUb fun _ => rfl
  move r n := by
    refine .ofIf fun e he => ⟨e.faults e.tick, { e with tick := e.tick + 1 },
      { e with tick := e.tick + 1, keys := e.keys + 1, acts := .keyMove :: e.acts },
      (⟨r.key, none, false⟩, { r with key := u.movedK r.key }), ?_, he, he, rfl⟩
    show M.bind (PRep.newRep _ _) _ e = _
    unfold M.bind
    rw [PRep.newRep_eq]
    by_cases h : e.faults e.tick = true <;> simp [h]
    rfl
  copy r n := .ofIf fun e he => ⟨_, _, _, _, PRep.newRep_eq _ r.key e, he, he, rfl⟩
  destroy r n := by
    obtain ⟨k, v, c⟩ := r
    cases c with
    | false => exact .ofOk fun e he => ⟨_, _, rfl, he⟩
    | true =>
      cases v with
      | none => exact .ofUb fun _ => rfl
      | some v => exact .ofOk fun e he => ⟨_, _, rfl, he⟩
  visit s r n hs := by
    cases s with
    | copy v => cases hs
    | move v => cases hs
    | key k' =>
      obtain ⟨k, v, c⟩ := r
      cases c with
      | true => exact .ofOk fun e he => ⟨_, _, rfl, he⟩
      | false =>
        intro e he
        cases v with
        | none =>
          rw [PRep.visit_eq]
          by_cases h : e.faults e.tick = true <;> simp [h, he]
        | some v =>
          have : (PRep.policy u).visit (.key k') ⟨k, some v, false⟩ e = .ub ∨
              (PRep.policy u).visit (.key k') ⟨k, some v, false⟩ e =
                .exc { e with tick := e.tick + 1 } := by
            by_cases h : e.faults e.tick = true <;>
              simp [PRep.policy, PRep.visit, bind, M.bind, mayThrow, h, M.undef]
          rcases this with h | h <;> rw [h]
          · trivial
          · exact he

end Product

section Default
variable {V : Type} (u : UserFns V V)

theorem DRep.newRep_eq (a : Act) (v : V) (e : Env) : DRep.newRep a v e =
    if e.faults e.tick then .exc { e with tick := e.tick + 1 }
    else .ok ⟨v⟩ { e with tick := e.tick + 1, vals := e.vals + 1, made := e.made + 1, acts := a :: e.acts } := by
  show M.bind mayThrow _ e = _
  unfold M.bind mayThrow
  by_cases h : e.faults e.tick = true <;> simp [h]
  rfl

theorem DRep.ofSrc_eq (s : Src V V) (e : Env) : (DRep.policy u).ofSrc s e =
    if e.faults e.tick then .exc { e with tick := e.tick + 1 }
    else .ok ⟨(SrcSpec.default V).key0 s⟩
      { e with tick := e.tick + 1, vals := e.vals + 1, made := e.made + 1,
               acts := valAct s :: e.acts,
               srcMoved := match s with | .move _ => true | _ => e.srcMoved } := by
  cases s with
  | key k => exact DRep.newRep_eq _ k e
  | copy k => exact DRep.newRep_eq _ k e
  | move k =>
    show M.bind (DRep.newRep _ _) _ e = _
    unfold M.bind
    rw [DRep.newRep_eq]
    by_cases h : e.faults e.tick = true <;> simp [h]
    rfl

theorem DRep.move_eq (v : V) (e : Env) : (DRep.policy u).move ⟨v⟩ e =
    if e.faults e.tick then .exc { e with tick := e.tick + 1 }
    else .ok (⟨v⟩, ⟨u.movedV v⟩)
      { e with tick := e.tick + 1, vals := e.vals + 1, made := e.made + 1, acts := .valMove :: e.acts } := by
  show M.bind (DRep.newRep _ _) _ e = _
  unfold M.bind
  rw [DRep.newRep_eq]
  by_cases h : e.faults e.tick = true <;> simp [h]
  rfl

/-- The laws hold for `default_value_policy`.  (No code of its own: used in statements and
proofs.) -/
def DRep.lawful : (DRep.policy u).Lawful (SrcSpec.default V) where
  Fresh s r := r = ⟨(SrcSpec.default V).key0 s⟩
  Full r k v := r = ⟨v⟩ ∧ k = v
  Live _ := True
  res _ := (0, 1)
  fullKeys := 0
  full_res _ := rfl
  fresh_live _ := trivial
  full_live _ := trivial
  fresh_key h := by subst h; rfl
  full_key h := by obtain ⟨rfl, rfl⟩ := h; rfl
  full_val h := by obtain ⟨rfl, rfl⟩ := h; rfl
  ofSrc s e _ := .ofIf (DRep.ofSrc_eq u s e) failed_tick
    fun _ => ⟨rfl, rfl, Nat.le_succ _, by simp, by simp⟩
  move s r e hr := by
    subst hr
    exact .ofIf (DRep.move_eq u _ e) failed_tick
      fun _ => ⟨rfl, trivial, rfl, rfl, Nat.le_succ _, by simp, by simp⟩
  copy s r e hr := by
    subst hr
    exact .ofIf (DRep.newRep_eq _ _ e) failed_tick
      fun _ => ⟨rfl, rfl, Nat.le_succ _, by simp, by simp⟩
  destroy r e _ := .ofOk rfl ⟨rfl, Nat.le_refl _, by simp, rfl⟩
  visit_fresh s r e _ hr := by
    subst hr
    refine .ofOk rfl ⟨⟨?_, ?_⟩, rfl, Nat.le_refl _, by simp, by simp⟩ <;> cases s <;> rfl
  visit_full s r k v e h := by obtain ⟨rfl, rfl⟩ := h; rfl

end Default

end Verif

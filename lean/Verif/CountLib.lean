import Verif.CoreCount
import Verif.Library

/-!
# How often the flyweight types of the library construct, copy and move objects of the user
-/

set_option autoImplicit false

namespace Verif

/-- How a new node takes over a key or a value: `copy` and `move` are what copying and moving it
amounts to.  (No code of its own: used in statements and proofs; cf. `Core.makeNode`.) -/
def nodeActs (copy move : Act) : Take → List Act
  | .moves => [move]
  | .copies => [copy]
  | .copiesMoves => [copy, move]

/-- What is constructed to create a flyweight from `src`: `kd` tells key-value flyweights, `trk` the tracking policy, `take` how the
factory makes nodes, `new` whether no equivalent value is stored yet.  (No code of its own: used in statements and
proofs.) -/
def bill {K V : Type} (kd : Bool) (trk : Tracking) (take : Take) (src : Src K V) (new : Bool) : List Act :=
  if kd then VRep.srcAct src :: (if Count.moved trk src then [.keyMove] else []) ++
    if new then nodeActs .keyCopy .keyMove take ++ [valAct src] else []
  else valAct src :: (if Count.moved trk src then [.valMove] else []) ++
    if new then nodeActs .valCopy .valMove take else []

/-- `a` is a construction.  (No code of its own: used in statements and proofs.) -/
def Act.builds (a : Act) : Prop := a ≠ .keyGone ∧ a ≠ .valGone

namespace Count
variable {K V Rep : Type} {a : Act}

theorem adds_if {α : Type} {m : M Env α} {l : List Act} {Q : α → Prop} (h : ∀ e, ∃ (c : Bool) (e₁ e₂ : Env) (r : α),
    m e = (if c then .exc e₁ else .ok r e₂) ∧ e₁.acts = e.acts ∧ e₂.acts.count a = e.acts.count a + l.count a ∧ Q r) :
    Adds a (l.count a) m Q := by
  intro n
  refine Weak.ofIf fun e he => ?_
  obtain ⟨c, e₁, e₂, r, h1, h2, h3, h4⟩ := h e
  unfold Env.tally at *
  refine ⟨c, e₁, e₂, r, h1, ?_, ?_, h4⟩
  · rw [h2]; omega
  · omega

theorem adds_ub {α : Type} {m : M Env α} {c : Nat} {Q : α → Prop} (h : ∀ e, m e = .ub) : Adds a c m Q :=
  fun _ => Weak.ofUb h

theorem adds_bind {α β : Type} {m : M Env α} {f : α → M Env β} {c d : Nat} {Q : α → Prop} {R : β → Prop}
    (h : Adds a c m Q) (h' : ∀ r, Q r → Adds a d (f r) R) : Adds a (c + d) (m >>= f) R := by
  intro n
  refine Weak.bind (R := fun r e => e.tally a = n + c ∧ Q r)
    ((h n).conseq (fun _ h => h) (fun _ _ h => h) fun _ h => by omega) fun r => ?_
  intro e he
  have := h' r he.2 (n + c) e he.1
  revert this
  cases f r e
  · exact fun h => ⟨by rw [h.1]; omega, h.2⟩
  · exact fun (h : _ ≤ _) => show _ ≤ _ by omega
  · exact id

theorem adds_still {α : Type} {m : M Env α} (h : Moves.ThruE (Still a) m) : Adds a 0 m fun _ => True := by
  intro n e he
  have := h e
  revert this
  cases m e
  · exact fun h => ⟨h.trans he, trivial⟩
  · exact fun h => Nat.le_of_eq (h.trans he)
  · exact id

theorem adds_pure {α : Type} {Q : α → Prop} {r : α} (h : Q r) : Adds a 0 (pure r) Q := fun _ _ he => ⟨he, h⟩

theorem adds_cast {α : Type} {m : M Env α} {c d : Nat} {Q : α → Prop} (h : Adds a c m Q) (e : c = d) : Adds a d m Q := e ▸ h

/-- Making a node, from moving and copying. -/
theorem adds_node {P : Policy K V Rep} {bare : Rep → Bool} {cp mv : Act}
    (hm : ∀ r, bare r = true → Adds a ([mv].count a) (P.move r) fun p => bare p.1 = true ∧ bare p.2 = true)
    (hc : ∀ r, bare r = true → Adds a ([cp].count a) (P.copy r) fun r => bare r = true)
    (hd : ∀ r, Moves.ThruE (Still a) (P.destroy r)) (take : Take) (r : Rep) (hr : bare r = true) :
    Adds a ((nodeActs cp mv take).count a) (Core.makeNode P take r) fun p => bare p.1 = true ∧ bare p.2 = true := by
  have ht : Adds a 0 mayThrow fun _ => True := adds_still (good_still a).tick
  have hmv : ∀ r, bare r = true → Adds a ([mv].count a) (mayThrow >>= fun _ => P.move r) fun p => bare p.1 = true ∧ bare p.2 = true :=
    fun r hr => adds_cast (adds_bind ht fun _ _ => hm r hr) (Nat.zero_add _)
  cases take with
  | moves => exact hmv r hr
  | copies =>
    exact adds_cast (adds_bind ht fun _ _ => adds_bind (hc r hr) fun x hx => adds_pure ⟨hx, hr⟩) (by
      show 0 + ([cp].count a + 0) = [cp].count a
      omega)
  | copiesMoves =>
    refine adds_cast (c := [cp].count a + ([mv].count a + 0)) (adds_bind (hc r hr) fun x hx =>
      adds_bind (d := 0) (Q := fun p => bare p.1 = true ∧ bare p.2 = true) ?_ fun p hp => ?_) (by
        show _ = [cp, mv].count a
        rw [show [cp, mv] = [cp] ++ [mv] from rfl, List.count_append]
        omega)
    · intro n
      refine Weak.onExc (RE := fun e => e.tally a ≤ n + [mv].count a) (hmv x hx n) ?_
      intro e he
      have := hd x e
      revert this
      cases P.destroy x e
      · exact fun (h : _ = _) => show _ ≤ _ by omega
      · exact fun (h : _ = _) => show _ ≤ _ by omega
      · exact id
    · exact adds_cast (adds_bind (adds_still (hd p.2)) fun _ _ => adds_pure ⟨hp.1, hr⟩) rfl

/-! ## variant_key_value -/

section
variable (u : UserFns K V) (ha : a.builds)
include ha

theorem gone_key {l : List Act} : (Act.keyGone :: l).count a = l.count a := by
  simp [ha.1.symm]

theorem gone_val {l : List Act} : (Act.valGone :: l).count a = l.count a := by
  simp [ha.2.symm]

theorem v_destroy (r : VRep K V) : Moves.ThruE (Still a) ((VRep.policy u).destroy r) := by
  obtain ⟨k, v, c⟩ := r
  intro e
  cases c <;> cases k <;> cases v <;>
    simp [VRep.policy, VRep.destroy, VRep.delKey, VRep.delVal, bind, M.bind, M.update, M.undef, pure, M.ret, Still, Env.tally,
      gone_key ha, gone_val ha]

/-- (No code of its own: used in statements and proofs.) -/
def VRep.toll (take : Take) (src : Src K V) : Toll (VRep.lawful u) take src a where
  bare r := !r.cted
  c0 := [VRep.srcAct src].count a
  c1 := [Act.keyMove].count a
  cn := (nodeActs .keyCopy .keyMove take).count a
  cv := [valAct src].count a
  idle h := by obtain ⟨rfl, _⟩ := h; rfl
  ofSrc := adds_if fun e => ⟨_, _, _, _, VRep.ofSrc_eq u src e, rfl, by simp [List.count_cons], rfl⟩
  move := move
  node := adds_node move copy (v_destroy u ha) take
  destroy := v_destroy u ha
  visit r := by
    obtain ⟨k, v, c⟩ := r
    cases c with
    | true => exact adds_pure trivial
    | false =>
      intro n e he
      cases v with
      | some v =>
        have : (VRep.policy u).visit src ⟨k, some v, false⟩ e = .ub ∨
            (VRep.policy u).visit src ⟨k, some v, false⟩ e = .exc { e with tick := e.tick + 1 } := by
          by_cases h : e.faults e.tick = true <;> cases src <;> cases k <;>
            simp [VRep.policy, VRep.visit, bind, M.bind, VRep.newVal, mayThrow, h, M.undef]
        rcases this with h | h <;> rw [h]
        · trivial
        · exact Nat.le_trans (Nat.le_of_eq he) (Nat.le_add_right _ _)
      | none =>
        cases k with
        | some k =>
          rw [VRep.visit_eq]
          unfold Env.tally at *
          by_cases h : e.faults e.tick = true
          · simp [h, he]
          · simp [h, gone_key ha, List.count_cons, he]
        | none =>
          have : (VRep.policy u).visit src ⟨none, none, false⟩ e = .ub ∨
              (VRep.policy u).visit src ⟨none, none, false⟩ e = .exc { e with tick := e.tick + 1 } := by
            by_cases h : e.faults e.tick = true <;> cases src <;>
              simp [VRep.policy, VRep.visit, bind, M.bind, VRep.newVal, mayThrow, h, M.undef,
                M.update, pure, M.ret, VRep.delKey]
          rcases this with h | h <;> rw [h]
          · trivial
          · exact Nat.le_trans (Nat.le_of_eq he) (Nat.le_add_right _ _)
where
  move (r : VRep K V) (hr : (!r.cted) = true) : Adds a ([Act.keyMove].count a) ((VRep.policy u).move r)
      fun p => (!p.1.cted) = true ∧ (!p.2.cted) = true := by
    obtain ⟨k, v, c⟩ := r
    cases c with
    | true => cases hr
    | false =>
      cases k with
      | none => exact adds_ub fun _ => rfl
      | some k =>
        refine adds_if fun e => ⟨e.faults e.tick, { e with tick := e.tick + 1 },
          { e with tick := e.tick + 1, keys := e.keys + 1, acts := .keyMove :: e.acts },
          (⟨some k, none, false⟩, ⟨some (u.movedK k), v, false⟩), ?_, rfl, by simp [List.count_cons], rfl, rfl⟩
        show M.bind (VRep.newKey _ VRep.raw _) _ e = _
        unfold M.bind
        rw [VRep.newKey_raw]
        by_cases h : e.faults e.tick = true <;> simp [h]
        rfl
  copy (r : VRep K V) (hr : (!r.cted) = true) : Adds a ([Act.keyCopy].count a) ((VRep.policy u).copy r)
      fun p => (!p.cted) = true := by
    obtain ⟨k, v, c⟩ := r
    cases c with
    | true => cases hr
    | false =>
      cases k with
      | none => exact adds_ub fun _ => rfl
      | some k => exact adds_if fun e => ⟨_, _, _, _, VRep.newKey_raw _ k e, rfl, by simp [List.count_cons], rfl⟩

/-! ## product_key_value -/

theorem p_destroy (r : PRep K V) : Moves.ThruE (Still a) ((PRep.policy u).destroy r) := by
  obtain ⟨k, v, c⟩ := r
  intro e
  cases c <;> cases v <;>
    simp [PRep.policy, PRep.destroy, bind, M.bind, M.update, M.undef, Still, Env.tally, gone_key ha, gone_val ha]

/-- (No code of its own: used in statements and proofs.) -/
def PRep.toll (take : Take) (k : K) : Toll (PRep.lawful u) take (.key k) a where
  bare r := !r.cted
  c0 := [Act.keyArgs].count a
  c1 := [Act.keyMove].count a
  cn := (nodeActs .keyCopy .keyMove take).count a
  cv := [Act.valArgs].count a
  idle h := by subst h; rfl
  ofSrc := adds_if fun e => ⟨_, _, _, _, PRep.newRep_eq _ k e, rfl, by simp [List.count_cons], rfl⟩
  move := move
  node := adds_node move copy (p_destroy u ha) take
  destroy := p_destroy u ha
  visit r := by
    obtain ⟨k', v, c⟩ := r
    cases c with
    | true => exact adds_pure trivial
    | false =>
      intro n e he
      cases v with
      | none =>
        rw [PRep.visit_eq]
        unfold Env.tally at *
        by_cases h : e.faults e.tick = true
        · simp [h, he]
        · simp [h, List.count_cons, he]
      | some v =>
        have : (PRep.policy u).visit (.key k) ⟨k', some v, false⟩ e = .ub ∨
            (PRep.policy u).visit (.key k) ⟨k', some v, false⟩ e = .exc { e with tick := e.tick + 1 } := by
          by_cases h : e.faults e.tick = true <;>
            simp [PRep.policy, PRep.visit, bind, M.bind, mayThrow, h, M.undef]
        rcases this with h | h <;> rw [h]
        · trivial
        · exact Nat.le_trans (Nat.le_of_eq he) (Nat.le_add_right _ _)
where
  move (r : PRep K V) (hr : (!r.cted) = true) : Adds a ([Act.keyMove].count a) ((PRep.policy u).move r)
      fun p => (!p.1.cted) = true ∧ (!p.2.cted) = true := by
    refine adds_if fun e => ⟨e.faults e.tick, { e with tick := e.tick + 1 },
      { e with tick := e.tick + 1, keys := e.keys + 1, acts := .keyMove :: e.acts },
      (⟨r.key, none, false⟩, { r with key := u.movedK r.key }), ?_, rfl, by simp [List.count_cons], rfl, hr⟩
    show M.bind (PRep.newRep _ _) _ e = _
    unfold M.bind
    rw [PRep.newRep_eq]
    by_cases h : e.faults e.tick = true <;> simp [h]
    rfl
  copy (r : PRep K V) (_ : (!r.cted) = true) : Adds a ([Act.keyCopy].count a) ((PRep.policy u).copy r)
      fun p => (!p.cted) = true :=
    adds_if fun e => ⟨_, _, _, _, PRep.newRep_eq _ r.key e, rfl, by simp [List.count_cons], rfl⟩
end

/-! ## default_value_policy -/

section
variable (u : UserFns V V) (ha : a.builds)
include ha

theorem d_destroy (r : DRep V) : Moves.ThruE (Still a) ((DRep.policy u).destroy r) := by
  intro e
  exact gone_val ha

omit ha in
theorem d_move (r : DRep V) : Adds a ([Act.valMove].count a) ((DRep.policy u).move r) fun _ => True := by
  obtain ⟨x⟩ := r
  exact adds_if fun e => ⟨_, _, _, _, DRep.move_eq u x e, rfl, by simp [List.count_cons], trivial⟩

omit ha in
theorem d_copy (r : DRep V) : Adds a ([Act.valCopy].count a) ((DRep.policy u).copy r) fun _ => True := by
  obtain ⟨x⟩ := r
  exact adds_if fun e => ⟨_, _, _, _, DRep.newRep_eq .valCopy x e, rfl, by simp [List.count_cons], trivial⟩

/-- (No code of its own: used in statements and proofs.) -/
def DRep.toll (take : Take) (src : Src V V) : Toll (DRep.lawful u) take src a where
  bare _ := true
  c0 := [valAct src].count a
  c1 := [Act.valMove].count a
  cn := (nodeActs .valCopy .valMove take).count a
  cv := 0
  idle _ := rfl
  ofSrc := adds_if fun e => ⟨_, _, _, _, DRep.ofSrc_eq u src e, rfl, by simp [List.count_cons], rfl⟩
  move r _ n := (d_move u r n).conseq (fun _ h => h) (fun _ _ h => ⟨h.1, rfl, rfl⟩) (fun _ h => h)
  node := adds_node (bare := fun _ => true)
    (fun r _ n => (d_move u r n).conseq (fun _ h => h) (fun _ _ h => ⟨h.1, rfl, rfl⟩) (fun _ h => h))
    (fun r _ n => (d_copy u r n).conseq (fun _ h => h) (fun _ _ h => ⟨h.1, rfl⟩) (fun _ h => h)) (d_destroy u ha) take
  destroy := d_destroy u ha
  visit r := adds_pure trivial
end

end Count

variable {K V Rep F : Type} {P : Policy K V Rep} {sp : SrcSpec K V} {keq : K → K → Bool} {kd : Bool}

/-- Every kind of construction is charged for as the bill says. -/
theorem LibPolicy.toll (h : LibPolicy P sp keq kd) (he : EquivOk keq) : sp.Lawful keq ∧ ∃ L : P.Lawful sp,
    ∀ (a : Act), a.builds → ∀ (trk : Tracking) (take : Take) (src : Src K V), sp.supports src = true →
      ∃ T : Count.Toll L take src a, T.c0 + T.ce trk = (bill kd trk take src false).count a ∧
        T.c0 + T.ce trk + T.cn + T.cv = (bill kd trk take src true).count a := by
  have opt : ∀ (a x y : Act) (b : Bool), (x :: if b = true then [y] else []).count a =
      [x].count a + if b = true then [y].count a else 0 := by
    intro a x y b
    cases b
    · rfl
    · rw [show (x :: if true = true then [y] else []) = [x] ++ [y] from rfl, List.count_append]
      rfl
  cases h with
  | plain u =>
    refine ⟨SrcSpec.default_lawful he, DRep.lawful u, fun a ha trk take src _ => ⟨Count.DRep.toll u ha take src, ?_, ?_⟩⟩
    · show [valAct src].count a + (if Count.moved trk src = true then [Act.valMove].count a else 0) =
        (valAct src :: (if Count.moved trk src = true then [Act.valMove] else []) ++ []).count a
      rw [List.append_nil, opt]
    · show [valAct src].count a + (if Count.moved trk src = true then [Act.valMove].count a else 0) +
          (nodeActs .valCopy .valMove take).count a + 0 =
        (valAct src :: (if Count.moved trk src = true then [Act.valMove] else []) ++ nodeActs .valCopy .valMove take).count a
      rw [List.count_append, opt, Nat.add_zero]
  | product u =>
    refine ⟨SrcSpec.product_lawful u he, PRep.lawful u, fun a ha trk take src hs => ?_⟩
    cases src with
    | key k =>
      refine ⟨Count.PRep.toll u ha take k, ?_, ?_⟩
      · show [Act.keyArgs].count a + [Act.keyMove].count a = [Act.keyArgs, .keyMove].count a
        exact (opt a _ _ true).symm
      · show [Act.keyArgs].count a + [Act.keyMove].count a + (nodeActs .keyCopy .keyMove take).count a + [Act.valArgs].count a =
          ([Act.keyArgs, .keyMove] ++ (nodeActs .keyCopy .keyMove take ++ [Act.valArgs])).count a
        rw [List.count_append, List.count_append, show [Act.keyArgs, .keyMove].count a = _ from opt a _ _ true]
        simp only [if_true]
        omega
    | copy v => cases hs
    | move v => cases hs
  | variant u _ contract =>
    refine ⟨SrcSpec.variant_lawful u he contract, VRep.lawful u, fun a ha trk take src _ =>
      ⟨Count.VRep.toll u ha take src, ?_, ?_⟩⟩
    · show [VRep.srcAct src].count a + (if Count.moved trk src = true then [Act.keyMove].count a else 0) =
        (VRep.srcAct src :: (if Count.moved trk src = true then [Act.keyMove] else []) ++ []).count a
      rw [List.append_nil, opt]
    · show [VRep.srcAct src].count a + (if Count.moved trk src = true then [Act.keyMove].count a else 0) +
          (nodeActs .keyCopy .keyMove take).count a + [valAct src].count a =
        (VRep.srcAct src :: (if Count.moved trk src = true then [Act.keyMove] else []) ++
          (nodeActs .keyCopy .keyMove take ++ [valAct src])).count a
      rw [List.count_append, List.count_append, opt]
      omega

theorem LibPolicy.gone (h : LibPolicy P sp keq kd) {a : Act} (ha : a.builds) (r : Rep) :
    Moves.ThruE (Count.Still a) (P.destroy r) := by
  cases h with
  | plain u => exact Count.d_destroy u ha r
  | product u => exact Count.p_destroy u ha r
  | variant u => exact Count.v_destroy u ha r

/-- What creations construct is as billed, and destruction constructs nothing.  (No code of its own: used in statements
and proofs.) -/
structure Setup.Billed (S : Setup K V Rep F) (kd : Bool) : Prop where
  toll : ∀ (a : Act), a.builds → ∀ (src : Src K V), S.sp.supports src = true → ∃ T : Count.Toll S.L S.Fa.take src a,
    T.c0 + T.ce S.trk = (bill kd S.trk S.Fa.take src false).count a ∧
    T.c0 + T.ce S.trk + T.cn + T.cv = (bill kd S.trk S.Fa.take src true).count a
  gone : ∀ (a : Act), a.builds → ∀ r, Moves.ThruE (Count.Still a) (S.P.destroy r)

theorem LibPolicy.billed {Fa : Factory F (Ent Rep)} (h : LibPolicy P sp keq kd) (hF : LibFactory P Fa keq) (trk : Tracking) :
    ∃ S : Setup K V Rep F, S.Is P Fa trk sp keq ∧ S.Billed kd := by
  obtain ⟨LS, L, hT⟩ := h.toll hF.equiv
  obtain ⟨eqv, ⟨LF⟩, hk⟩ := hF.lawful
  exact ⟨⟨P, Fa, trk, sp, keq, eqv, L, LF, LS, hk⟩, ⟨rfl, rfl, rfl, rfl, rfl⟩, fun a ha src hs => hT a ha trk _ src hs,
    fun a ha r => h.gone ha r⟩

namespace Setup
variable {S : Setup K V Rep F}

/-- What an operation that creates a flyweight constructs. -/
theorem Billed.create (B : S.Billed kd) {fl : Nat → Bool} {s : St Rep F} {t : SSt K V} (hS : Sim S fl s t) (hp : Nat → Nat)
    {op : Op K V} {src : Src K V} (hop : op.creates = some src) (hv : op.valid S.sp t.names = true) :
    Weak (· = s) (Core.step S.P S.Fa S.trk hp op)
      (fun _ s' => ∃ new : Bool, (new = true ↔ ∀ i b, S.At s i b → S.keq b.key (S.sp.key0 src) = false) ∧
        ∀ a, a.builds → s'.env.tally a = s.env.tally a + (bill kd S.trk S.Fa.take src new).count a)
      (fun s' => ∀ a, a.builds → s'.env.tally a ≤ s.env.tally a + (bill kd S.trk S.Fa.take src true).count a) := by
  have hsup : S.sp.supports src = true := by
    cases op <;> simp [Op.creates] at hop <;> subst hop <;> simp [Op.valid] at hv <;> exact hv.2
  intro s0 h0
  subst h0
  have key := fun a ha => B.toll a ha src hsup
  cases hm : Core.step S.P S.Fa S.trk hp op s0 with
  | ub => trivial
  | exc s' =>
    intro a ha
    obtain ⟨T, h1, h2⟩ := key a ha
    have := tally_step T hS.rel.inv hS.idle.locals hp hop hsup s0 rfl
    rw [hm] at this
    have this : s'.env.tally a ≤ _ := this
    omega
  | ok out s' =>
    have each : ∀ a, a.builds →
        (s'.env.tally a = s0.env.tally a + (bill kd S.trk S.Fa.take src false).count a ∧
          ∃ i b, S.At s0 i b ∧ S.keq b.key (S.sp.key0 src) = true) ∨
        (s'.env.tally a = s0.env.tally a + (bill kd S.trk S.Fa.take src true).count a ∧
          ∀ i b, S.At s0 i b → S.keq b.key (S.sp.key0 src) = false) := by
      intro a ha
      obtain ⟨T, h1, h2⟩ := key a ha
      have := tally_step T hS.rel.inv hS.idle.locals hp hop hsup s0 rfl
      rw [hm] at this
      rw [← h1, ← h2]
      rcases this with ⟨h, h'⟩ | ⟨h, h'⟩
      · exact .inl ⟨by omega, h'⟩
      · exact .inr ⟨by omega, h'⟩
    rcases each .keyArgs ⟨by decide, by decide⟩ with ⟨_, i, b, hb, hk⟩ | ⟨_, hno⟩
    · refine ⟨false, ⟨fun h => (nomatch h), fun h => ?_⟩, fun a ha => ?_⟩
      · rw [h i b hb] at hk
        cases hk
      · rcases each a ha with h | h
        · exact h.1
        · rw [h.2 i b hb] at hk
          cases hk
    · refine ⟨true, ⟨fun _ => hno, fun _ => rfl⟩, fun a ha => ?_⟩
      rcases each a ha with ⟨_, i, b, hb, hk⟩ | h
      · rw [hno i b hb] at hk
        cases hk
      · exact h.1

/-- Other operations construct nothing. -/
theorem Billed.other (B : S.Billed kd) (hp : Nat → Nat) {op : Op K V} (hop : op.creates = Option.none) {a : Act} (ha : a.builds) :
    Moves.Thru (Count.Still a) (Core.step S.P S.Fa S.trk hp op) :=
  Moves.stepT (Count.good_still a) S.Fa (src := Option.none)
    ⟨fun _ h => (nomatch h), fun _ h => (nomatch h), fun _ h => (nomatch h), B.gone a ha, fun _ h => (nomatch h)⟩ S.trk hp op hop

/-- A program constructs at most what its creations are billed for. -/
theorem Billed.exec (B : S.Billed kd) {a : Act} (ha : a.builds) (hp : Nat → Nat) (ops : List (Op K V)) {fl : Nat → Bool}
    {s : St Rep F} {t : SSt K V} (hS : Sim S fl s t) {outs : List (Out K V)} {s' : St Rep F}
    (h : Core.exec S.P S.Fa S.trk hp S.sp ops s = some (outs, s')) :
    s'.env.tally a ≤ s.env.tally a + ((ops.filterMap Op.creates).map fun src => (bill kd S.trk S.Fa.take src true).count a).sum := by
  induction ops generalizing s t outs with
  | nil =>
    cases h
    exact Nat.le_add_right _ _
  | cons op ops ih =>
    have hn : s.objs.map Prod.fst = t.names := hS.rel.vars.names.symm
    unfold Core.exec at h
    have hbill : ((ops.filterMap Op.creates).map fun src => (bill kd S.trk S.Fa.take src true).count a).sum ≤
        (((op :: ops).filterMap Op.creates).map fun src => (bill kd S.trk S.Fa.take src true).count a).sum := by
      cases ho : op.creates with
      | none => simp [ho]
      | some src => simp [ho]
    by_cases hv : op.valid S.sp (s.objs.map Prod.fst) = true
    · rw [if_pos hv] at h
      rw [hn] at hv
      have hstep : ∀ s1, (Core.step S.P S.Fa S.trk hp op s = .exc s1 ∨ ∃ o, Core.step S.P S.Fa S.trk hp op s = .ok o s1) →
          s1.env.tally a + ((ops.filterMap Op.creates).map fun src => (bill kd S.trk S.Fa.take src true).count a).sum ≤
          s.env.tally a + (((op :: ops).filterMap Op.creates).map fun src => (bill kd S.trk S.Fa.take src true).count a).sum := by
        intro s1 h1
        cases ho : op.creates with
        | none =>
          have h2 := B.other hp ho ha s
          have : s1.env.tally a = s.env.tally a := by
            rcases h1 with h1 | ⟨o, h1⟩ <;> rw [h1] at h2 <;> exact h2
          rw [this]
          omega
        | some src =>
          have h2 := B.create hS hp ho hv s rfl
          have : s1.env.tally a ≤ s.env.tally a + (bill kd S.trk S.Fa.take src true).count a := by
            rcases h1 with h1 | ⟨o, h1⟩ <;> rw [h1] at h2
            · exact h2 a ha
            · obtain ⟨new, _, h3⟩ := h2
              rw [h3 a ha]
              cases new
              · unfold bill
                cases kd <;> simp [List.count_cons, List.count_append]
              · exact Nat.le_refl _
          simp only [List.filterMap_cons, ho, List.map_cons, List.sum_cons]
          omega
      have hsim := step_sim_grown hS hp hv s rfl
      cases hm : Core.step S.P S.Fa S.trk hp op s with
      | ok o s1 =>
        rw [hm] at h hsim
        obtain ⟨_, t1, _, _, hS1⟩ := hsim
        obtain ⟨p, hp1, hp2⟩ := Option.map_eq_some_iff.1 h
        cases hp2
        have := ih hS1 hp1
        have := hstep s1 (.inr ⟨o, hm⟩)
        omega
      | exc s1 =>
        rw [hm] at h hsim
        obtain ⟨p, hp1, hp2⟩ := Option.map_eq_some_iff.1 h
        cases hp2
        have := ih hsim.2.1 hp1
        have := hstep s1 (.inl hm)
        omega
      | ub => rw [hm] at h; cases h
    · rw [if_neg hv] at h
      obtain ⟨p, hp1, hp2⟩ := Option.map_eq_some_iff.1 h
      cases hp2
      have := ih hS hp1
      omega

end Setup

/-! ## Constructions and destructions balance -/

/-- Keys and values in existence are those constructed and not destroyed; `made` counts the constructions of values.
(No code of its own: used in statements and proofs.) -/
structure Env.Even (e e' : Env) : Prop where
  keys : e'.keys + e'.tally .keyGone + (e.tally .keyArgs + e.tally .keyExtracted + e.tally .keyCopy + e.tally .keyMove : Nat) =
    e.keys + e.tally .keyGone + (e'.tally .keyArgs + e'.tally .keyExtracted + e'.tally .keyCopy + e'.tally .keyMove : Nat)
  vals : e'.vals + e'.tally .valGone + (e.tally .valArgs + e.tally .valCopy + e.tally .valMove : Nat) =
    e.vals + e.tally .valGone + (e'.tally .valArgs + e'.tally .valCopy + e'.tally .valMove : Nat)
  made : e'.made + (e.tally .valArgs + e.tally .valCopy + e.tally .valMove) =
    e.made + (e'.tally .valArgs + e'.tally .valCopy + e'.tally .valMove)

namespace Count

theorem good_even : Moves.Good Env.Even where
  refl _ := ⟨rfl, rfl, rfl⟩
  trans e e' e'' h h' := by
    obtain ⟨h1, h2, h3⟩ := h
    obtain ⟨h4, h5, h6⟩ := h'
    exact ⟨by omega, by omega, by omega⟩
  tick e := by
    unfold mayThrow
    split <;> (rename_i h; split at h <;> cases h <;> exact ⟨rfl, rfl, rfl⟩)

theorem even_key (e : Env) (a : Act) (h : a = .keyArgs ∨ a = .keyExtracted ∨ a = .keyCopy ∨ a = .keyMove) :
    e.Even { e with keys := e.keys + 1, acts := a :: e.acts } := by
  rcases h with rfl | rfl | rfl | rfl <;> constructor <;> simp [Env.tally] <;> omega

theorem even_val (e : Env) (a : Act) (h : a = .valArgs ∨ a = .valCopy ∨ a = .valMove) :
    e.Even { e with vals := e.vals + 1, made := e.made + 1, acts := a :: e.acts } := by
  rcases h with rfl | rfl | rfl <;> constructor <;> simp [Env.tally] <;> omega

theorem even_keyGone (e : Env) : e.Even { e with keys := e.keys - 1, acts := .keyGone :: e.acts } := by
  constructor <;> simp [Env.tally] <;> omega

theorem even_valGone (e : Env) : e.Even { e with vals := e.vals - 1, acts := .valGone :: e.acts } := by
  constructor <;> simp [Env.tally] <;> omega

open Moves (ThruE ebind epure eundef eupdate)

theorem ev_newKey {a : Act} (h : a = .keyArgs ∨ a = .keyExtracted ∨ a = .keyCopy ∨ a = .keyMove) (r : VRep K V) (k : K) :
    ThruE Env.Even (VRep.newKey a r k) := by
  refine ebind good_even good_even.tick fun _ => ?_
  split
  · exact eundef
  · exact ebind good_even (eupdate fun e => even_key e a h) fun _ => epure good_even _

theorem ev_newVal {a : Act} (h : a = .valArgs ∨ a = .valCopy ∨ a = .valMove) (r : VRep K V) (v : V) :
    ThruE Env.Even (VRep.newVal a r v) := by
  refine ebind good_even good_even.tick fun _ => ?_
  split
  · exact eundef
  · exact ebind good_even (eupdate fun e => even_val e a h) fun _ => epure good_even _

theorem ev_delKey (r : VRep K V) : ThruE Env.Even (VRep.delKey r) := by
  unfold VRep.delKey
  split
  · exact eundef
  · exact ebind good_even (eupdate even_keyGone) fun _ => epure good_even _

theorem ev_delVal (r : VRep K V) : ThruE Env.Even (VRep.delVal r) := by
  unfold VRep.delVal
  split
  · exact eundef
  · exact ebind good_even (eupdate even_valGone) fun _ => epure good_even _

theorem even_v (u : UserFns K V) (src : Option (Src K V)) : Moves.Fits Env.Even (VRep.policy u) src where
  ofSrc s _ := by
    cases s with
    | key k =>
      show ThruE _ (VRep.newKey .keyArgs VRep.raw k)
      exact ev_newKey (by simp) _ _
    | copy v =>
      show ThruE _ (VRep.newKey .keyExtracted VRep.raw (u.kfv v))
      exact ev_newKey (by simp) _ _
    | move v =>
      show ThruE _ (VRep.newKey .keyExtracted VRep.raw (u.kfv v))
      exact ev_newKey (by simp) _ _
  copy r := by
    show ThruE _ (VRep.copy u r)
    unfold VRep.copy
    split <;> split
    · exact eundef
    · exact ev_newKey (by simp) _ _
    · exact eundef
    · exact ev_newKey (by simp) _ _
  move r := by
    show ThruE _ (VRep.move u r)
    unfold VRep.move
    split <;> split
    · exact eundef
    · exact ebind good_even (ev_newKey (by simp) _ _) fun _ => epure good_even _
    · exact eundef
    · exact ebind good_even (ev_newKey (by simp) _ _) fun _ => epure good_even _
  destroy r := by
    show ThruE _ (VRep.destroy r)
    unfold VRep.destroy
    split
    · exact ebind good_even (ev_delVal _) fun _ => epure good_even _
    · exact ebind good_even (ev_delKey _) fun _ => epure good_even _
  visit s _ r := by
    show ThruE _ (VRep.visit u s r)
    unfold VRep.visit
    split
    · exact epure good_even _
    · refine ebind good_even ?_ fun _ => ebind good_even (ev_delKey _) fun _ => epure good_even _
      cases s with
      | key k =>
        dsimp only
        split
        · exact eundef
        · exact ev_newVal (by simp) _ _
      | copy v => exact ev_newVal (by simp) _ _
      | move v =>
        exact ebind good_even (ev_newVal (by simp) _ _) fun _ => ebind good_even (eupdate fun _ => ⟨rfl, rfl, rfl⟩) fun _ =>
          epure good_even _

theorem ev_newRep {a : Act} (h : a = .keyArgs ∨ a = .keyExtracted ∨ a = .keyCopy ∨ a = .keyMove) (k : K) :
    ThruE Env.Even (PRep.newRep a k : M Env (PRep K V)) :=
  ebind good_even good_even.tick fun _ => ebind good_even (eupdate fun e => even_key e a h) fun _ => epure good_even _

theorem even_p (u : UserFns K V) (src : Option (Src K V)) : Moves.Fits Env.Even (PRep.policy u) src where
  ofSrc s _ := by
    cases s with
    | key k => exact ev_newRep (by simp) _
    | copy v => exact eundef
    | move v => exact eundef
  copy r := ev_newRep (by simp) _
  move r := ebind good_even (ev_newRep (by simp) _) fun _ => epure good_even _
  destroy r := by
    show ThruE _ (PRep.destroy r)
    unfold PRep.destroy
    split
    · dsimp only
      split
      · exact ebind good_even eundef fun _ => eupdate even_keyGone
      · exact ebind good_even (eupdate even_valGone) fun _ => eupdate even_keyGone
    · exact eupdate even_keyGone
  visit s _ r := by
    show ThruE _ (PRep.visit u s r)
    unfold PRep.visit
    cases s with
    | key k =>
      dsimp only
      split
      · exact epure good_even _
      · refine ebind good_even good_even.tick fun _ => ?_
        split
        · exact eundef
        · exact ebind good_even (eupdate fun e => even_val e _ (by simp)) fun _ => epure good_even _
    | copy v => exact epure good_even _
    | move v => exact epure good_even _

theorem ev_newD {a : Act} (h : a = .valArgs ∨ a = .valCopy ∨ a = .valMove) (v : V) : ThruE Env.Even (DRep.newRep a v) :=
  ebind good_even good_even.tick fun _ => ebind good_even (eupdate fun e => even_val e a h) fun _ => epure good_even _

theorem even_d (u : UserFns V V) (src : Option (Src V V)) : Moves.Fits Env.Even (DRep.policy u) src where
  ofSrc s _ := by
    cases s with
    | key k => exact ev_newD (by simp) _
    | copy v => exact ev_newD (by simp) _
    | move v =>
      exact ebind good_even (ev_newD (by simp) _) fun _ => ebind good_even (eupdate fun _ => ⟨rfl, rfl, rfl⟩) fun _ =>
        epure good_even _
  copy r := ev_newD (by simp) _
  move r := ebind good_even (ev_newD (by simp) _) fun _ => epure good_even _
  destroy r := eupdate even_valGone
  visit s _ r := epure good_even _

end Count

theorem LibPolicy.even (h : LibPolicy P sp keq kd) (src : Option (Src K V)) : Moves.Fits Env.Even P src := by
  cases h with
  | plain u => exact Count.even_d u src
  | product u => exact Count.even_p u src
  | variant u => exact Count.even_v u src

/-- A relation between environments that holds across every operation holds across programs. -/
theorem Moves.exec {R : Env → Env → Prop} (G : Moves.Good R) {P : Policy K V Rep} (H : ∀ src, Moves.Fits R P src)
    (Fa : Factory F (Ent Rep)) (trk : Tracking) (hp : Nat → Nat) (sp : SrcSpec K V) (ops : List (Op K V)) (s : St Rep F)
    (outs : List (Out K V)) (s' : St Rep F) (h : Core.exec P Fa trk hp sp ops s = some (outs, s')) : R s.env s'.env := by
  induction ops generalizing s outs with
  | nil =>
    cases h
    exact G.refl _
  | cons op ops ih =>
    unfold Core.exec at h
    split at h
    · have h1 := Moves.step G (H op.creates) Fa trk hp op rfl s
      cases hm : Core.step P Fa trk hp op s with
      | ok o s1 =>
        rw [hm] at h h1
        obtain ⟨p, hp1, hp2⟩ := Option.map_eq_some_iff.1 h
        cases hp2
        exact G.trans _ _ _ h1 (ih _ _ hp1)
      | exc s1 =>
        rw [hm] at h h1
        obtain ⟨p, hp1, hp2⟩ := Option.map_eq_some_iff.1 h
        cases hp2
        exact G.trans _ _ _ h1 (ih _ _ hp1)
      | ub => rw [hm] at h; cases h
    · obtain ⟨p, hp1, hp2⟩ := Option.map_eq_some_iff.1 h
      cases hp2
      exact ih _ _ hp1

end Verif

import Verif.Examples.SessionTests

/-!
# Rules for programs of `Verif.Session`
-/

set_option autoImplicit false

namespace Verif.SessionTests
open Client (Store Made)
open Operators (Cmp UserCmp Extract)
open Session (Vars Sat)
variable {ι : Type} [DecidableEq ι] {K V : ι → Type} {α β : Type} {C : (i : ι) → Cfg (K i) (V i)}

/-- Keys are compared by equality and determine the values, which are different for different keys; flyweights can be made of keys.  (No code of its own: used in statements
and proofs.) -/
structure Nice {K V : Type} (C : Cfg K V) (mk : K → V) : Prop extends C.Regular mk where
  inj : ∀ k l, mk k = mk l → k = l
  fromKey : ∀ k, C.sp.supports (.key k) = true ∧ C.sp.key0 (.key k) = k
  given : ∀ v, C.sp.val (.copy v) = v ∧ C.sp.val (.move v) = v

theorem Nice.copied {K V : Type} {C : Cfg K V} {mk : K → V} (R : Nice C mk) {k : K} (h : C.sp.supports (.copy (mk k)) = true) : C.sp.key0 (.copy (mk k)) = k :=
  (R.inj _ _ ((R.given (mk k)).1.symm.trans (R.vals _ h).2)).symm

theorem Nice.moved {K V : Type} {C : Cfg K V} {mk : K → V} (R : Nice C mk) {k : K} (h : C.sp.supports (.move (mk k)) = true) : C.sp.key0 (.move (mk k)) = k :=
  (R.inj _ _ ((R.given (mk k)).2.symm.trans (R.vals _ h).2)).symm

/-- `v` differs from `w` only in the variables of `L`, all of which exist.  (No code of its own: used in statements and proofs.) -/
structure Within (w : Vars K V) (L : List (ι × Nat)) (v : Vars K V) : Prop where
  out : ∀ i y, (i, y) ∉ L → v i y = w i y
  in_ : ∀ p ∈ L, ∃ b, v p.1 p.2 = some b

omit [DecidableEq ι] in
theorem Within.nil {w v : Vars K V} (h : Within w [] v) : v = w := by
  funext i y
  exact h.out i y (by simp)

/-- How a test ends: with a result as `Q` says, or with an exception, if operations of the user may throw.  (No code of its own: used in statements and proofs.) -/
def Post (C : (i : ι) → Cfg (K i) (V i)) (w : Vars K V) (L : List (ι × Nat)) (Q : α → Prop) (r : End α) (v : Vars K V) : Prop :=
  Within w L v ∧ match r with
    | .ok a => Q a
    | .threw => ∃ i, (C i).thr
    | .stuck => False

theorem op_rule {i : ι} {o : Op (K i) (V i)} {k : Out (K i) (V i) → Session ι K V α} {w : Vars K V} {s : Store (K i) (V i)} {Q : α → Vars K V → Prop}
    (h : ∀ b fail, Allowed (C i) s o b fail → Sat C (k (act (C i) b fail s o).1) (put w i (act (C i) b fail s o).2) Q) : Sat C (.op i o k) (put w i s) Q := by
  intro b fail ha
  simp only [put_same, put_put] at ha ⊢
  exact h b fail ha

theorem bind_rule {p : Test ι K V α} {f : α → Test ι K V β} {v : Vars K V} {Q : End β → Vars K V → Prop}
    (h : Sat C p v fun r v' => match r with
      | .ok a => Sat C (f a) v' Q
      | .threw => Q .threw v'
      | .stuck => Q .stuck v') : Sat C (p >>= f : Test ι K V β) v Q := by
  refine Sat.bind (h.mono fun r v' h => ?_)
  cases r <;> exact h

/-! ## Operations -/

section
variable {i : ι} {w : Vars K V} {s : Store (K i) (V i)} {Q : End β → Vars K V → Prop}

theorem get_then {x : Nat} {b : Bind (K i) (V i)} {f : Nat × V i → Test ι K V β} (hx : s x = some b) (h : Sat C (f (b.addr, b.val)) (put w i s) Q) :
    Sat C (get i x >>= f : Test ι K V β) (put w i s) Q := by
  refine bind_rule (op_rule fun c fail ha => ?_)
  simp only [act, hx]
  exact h

theorem getKey_then {x : Nat} {b : Bind (K i) (V i)} {f : K i → Test ι K V β} (hx : s x = some b) (h : Sat C (f b.key) (put w i s) Q) :
    Sat C (getKey i x >>= f : Test ι K V β) (put w i s) Q := by
  refine bind_rule (op_rule fun c fail ha => ?_)
  simp only [act, hx]
  exact h

theorem eq_then {x y : Nat} {b c : Bind (K i) (V i)} {f : Bool → Test ι K V β} (hx : s x = some b) (hy : s y = some c)
    (h : Sat C (f ((C i).keq b.key c.key)) (put w i s) Q) : Sat C (eq i x y >>= f : Test ι K V β) (put w i s) Q := by
  refine bind_rule (op_rule fun c fail ha => ?_)
  simp only [act, hx, hy]
  exact h

theorem hash_then {x : Nat} {b : Bind (K i) (V i)} {f : Nat → Test ι K V β} (hx : s x = some b) (h : Sat C (f ((C i).hp b.addr)) (put w i s) Q) :
    Sat C (hash i x >>= f : Test ι K V β) (put w i s) Q := by
  refine bind_rule (op_rule fun c fail ha => ?_)
  simp only [act, hx]
  exact h

theorem stdHash_then {x : Nat} {b : Bind (K i) (V i)} {hs : Nat → Nat} {f : Nat → Test ι K V β} (hx : s x = some b) (h : Sat C (f (hs b.addr)) (put w i s) Q) :
    Sat C (stdHash i hs x >>= f : Test ι K V β) (put w i s) Q :=
  bind_rule (get_then hx h)

theorem assign_then {x y : Nat} {b d : Bind (K i) (V i)} {f : Unit → Test ι K V β} (hx : s x = some d) (hy : s y = some b)
    (h : Sat C (f ()) (put w i (upd s x (some b))) Q) : Sat C (perform i (.assign x y) >>= f : Test ι K V β) (put w i s) Q := by
  refine bind_rule (op_rule fun c fail ha => ?_)
  simp only [act, hx, hy]
  exact h

theorem swap_then {x y : Nat} {b c : Bind (K i) (V i)} {f : Unit → Test ι K V β} (hx : s x = some b) (hy : s y = some c)
    (h : Sat C (f ()) (put w i (upd (upd s x (some c)) y (some b))) Q) : Sat C (perform i (.swap x y) >>= f : Test ι K V β) (put w i s) Q := by
  refine bind_rule (op_rule fun c fail ha => ?_)
  simp only [act, hx, hy]
  exact h

theorem code_then {v : Vars K V} {f : Unit → Test ι K V β} (h : Sat C (f ()) v Q) (ht : (C i).thr → Q .threw v) : Sat C (code i >>= f : Test ι K V β) v Q := by
  refine bind_rule fun b hb => ?_
  cases b with
  | false => exact h
  | true => exact ht (hb rfl)

variable {mk : K i → V i}

omit [DecidableEq ι] in
/-- What a creation gives. -/
theorem Nice.fits (R : Nice (C i) mk) {src : Src (K i) (V i)} {b : Bind (K i) (V i)} {k : K i} (hk : (C i).sp.key0 src = k) (h : Fits (C i) s src b) :
    b = ⟨b.addr, k, mk k⟩ ∧ ∀ y c, s y = some c → (c.addr = b.addr ↔ c.key = k) := by
  have h1 : b.key = k := ((R.keys _ _).1 h.key).trans hk
  refine ⟨?_, fun y c hy => ?_⟩
  · have h2 := R.toRegular.made h.made
    cases b
    simp only at h1 h2
    subst h1 h2
    rfl
  · rw [h.addr y c hy, R.keys, h1]

theorem make_rule (R : Nice (C i) mk) {Q : End Unit → Vars K V → Prop} {x : Nat} {src : Src (K i) (V i)} {k : K i} (hx : s x = none) (hs : (C i).sp.supports src = true)
    (hk : (C i).sp.key0 src = k) (h : ∀ a, (∀ y c, s y = some c → (c.addr = a ↔ c.key = k)) → Q (.ok ()) (put w i (upd s x (some ⟨a, k, mk k⟩))))
    (ht : (C i).thr → Q .threw (put w i s)) : Sat C (perform i (.make x src)) (put w i s) Q := by
  refine op_rule fun b fail ha => ?_
  have h1 := ha.throws
  have h2 := ha.fits
  simp only [act, hx, hs] at h1 h2 ⊢
  cases fail with
  | true => exact ht (h1 rfl)
  | false =>
    obtain ⟨c, rfl, hc⟩ := h2 rfl src rfl
    obtain ⟨g1, g2⟩ := R.fits hk hc
    have := h c.addr g2
    rw [← g1] at this
    exact this

theorem assignVal_rule (R : Nice (C i) mk) {Q : End Unit → Vars K V → Prop} {x : Nat} {src : Src (K i) (V i)} {k : K i} {d : Bind (K i) (V i)} (hx : s x = some d)
    (hs : (C i).sp.supports src = true) (hk : (C i).sp.key0 src = k)
    (h : ∀ a, (∀ y c, s y = some c → (c.addr = a ↔ c.key = k)) → Q (.ok ()) (put w i (upd s x (some ⟨a, k, mk k⟩))))
    (ht : (C i).thr → Q .threw (put w i s)) : Sat C (perform i (.assignVal x src)) (put w i s) Q := by
  refine op_rule fun b fail ha => ?_
  have h1 := ha.throws
  have h2 := ha.fits
  simp only [act, hx, hs] at h1 h2 ⊢
  cases fail with
  | true => exact ht (h1 rfl)
  | false =>
    obtain ⟨c, rfl, hc⟩ := h2 rfl src rfl
    obtain ⟨g1, g2⟩ := R.fits hk hc
    have := h c.addr g2
    rw [← g1] at this
    exact this

theorem assignVal_then (R : Nice (C i) mk) {f : Unit → Test ι K V β} {x : Nat} {src : Src (K i) (V i)} {k : K i} {d : Bind (K i) (V i)} (hx : s x = some d)
    (hs : (C i).sp.supports src = true) (hk : (C i).sp.key0 src = k)
    (h : ∀ a, (∀ y c, s y = some c → (c.addr = a ↔ c.key = k)) → Sat C (f ()) (put w i (upd s x (some ⟨a, k, mk k⟩))) Q)
    (ht : (C i).thr → Q .threw (put w i s)) : Sat C (perform i (.assignVal x src) >>= f : Test ι K V β) (put w i s) Q :=
  bind_rule (assignVal_rule R hx hs hk h ht)

theorem extract_then (R : Nice (C i) mk) {Str : Type} {str : Str} {ext : Str → V i → Extract Str (V i)} {f : Unit → Test ι K V β} {x : Nat} {k : K i} {d : Bind (K i) (V i)}
    (hx : s x = some d) (he : (ext str d.val).val = some (mk k)) (hs : (C i).sp.supports (.copy (mk k)) = true)
    (h : ∀ a, (∀ y c, s y = some c → (c.addr = a ↔ c.key = k)) → Sat C (f ()) (put w i (upd s x (some ⟨a, k, mk k⟩))) Q)
    (ht : (C i).thr → Q .threw (put w i s)) : Sat C (extract i ext str x >>= f : Test ι K V β) (put w i s) Q := by
  refine bind_rule (get_then hx (code_then ?_ ht))
  simp only [he]
  exact assignVal_rule R hx hs (R.copied hs) h ht

end

/-! ## Blocks -/

theorem block_rule {i : ι} {x : Nat} {init : Test ι K V Unit} {rest : Test ι K V α} {w v : Vars K V} {L : List (ι × Nat)} {Q : α → Prop} (hx : (i, x) ∉ L) (hw : w i x = none)
    (h : Sat C init v fun r v' => match r with
      | .ok _ => Sat C rest v' (Post C w ((i, x) :: L) Q)
      | .threw => Within w L v' ∧ ∃ i, (C i).thr
      | .stuck => False) : Sat C (block i x init rest) v (Post C w L Q) := by
  refine Sat.bind (h.mono fun r v' h => ?_)
  cases r with
  | stuck => exact h.elim
  | threw => exact h
  | ok a =>
    refine Sat.bind (Sat.mono h fun r v' h => ?_)
    obtain ⟨⟨h1, h2⟩, h3⟩ := h
    obtain ⟨b, hb⟩ := h2 (i, x) (.head _)
    intro c fail ha
    simp only [act, hb]
    refine ⟨⟨fun j y hy => ?_, fun p hp => ?_⟩, h3⟩
    · by_cases hj : j = i
      · subst hj
        rw [put_same]
        by_cases hyx : y = x
        · subst hyx
          rw [upd_self, hw]
        · rw [upd_ne _ _ hyx]
          exact h1 j y (by simp [hyx, hy])
      · rw [put_ne _ _ hj]
        exact h1 j y (by simp [hj, hy])
    · have hne : p ≠ (i, x) := fun e => hx (e ▸ hp)
      obtain ⟨d, hd⟩ := h2 p (.tail _ hp)
      refine ⟨d, ?_⟩
      obtain ⟨j, y⟩ := p
      by_cases hj : j = i
      · subst hj
        have hyx : y ≠ x := fun e => hne (by rw [e])
        rw [put_same, upd_ne _ _ hyx]
        exact hd
      · rw [put_ne _ _ hj]
        exact hd

theorem Within.put {w : Vars K V} {i : ι} {L : List Nat} {s : Store (K i) (V i)} (h1 : ∀ y, y ∉ L → s y = w i y) (h2 : ∀ y ∈ L, ∃ b, s y = some b) :
    Within w (L.map fun y => (i, y)) (put w i s) where
  out j y hy := by
    by_cases hj : j = i
    · subst hj
      rw [put_same]
      exact h1 y fun h => hy (List.mem_map.2 ⟨y, h, rfl⟩)
    · rw [put_ne _ _ hj]
  in_ p hp := by
    obtain ⟨y, hy, rfl⟩ := List.mem_map.1 hp
    simpa using h2 y hy

section
variable {i : ι} {w : Vars K V} {s : Store (K i) (V i)} {L : List Nat} {x : Nat} {rest : Test ι K V α} {Q : α → Prop}

theorem block_make {mk : K i → V i} (R : Nice (C i) mk) {src : Src (K i) (V i)} {k : K i} (hs : (C i).sp.supports src = true) (hk : (C i).sp.key0 src = k)
    (hx : x ∉ L) (hw : w i x = none) (hv : s x = none) (h1 : ∀ y, y ∉ L → s y = w i y) (h2 : ∀ y ∈ L, ∃ b, s y = some b)
    (h : ∀ a, (∀ y c, s y = some c → (c.addr = a ↔ c.key = k)) →
      Sat C rest (put w i (upd s x (some ⟨a, k, mk k⟩))) (Post C w ((x :: L).map fun y => (i, y)) Q)) :
    Sat C (block i x (perform i (.make x src)) rest) (put w i s) (Post C w (L.map fun y => (i, y)) Q) := by
  refine block_rule (by simpa using hx) hw (make_rule R hv hs hk h fun ht => ⟨.put h1 h2, i, ht⟩)

theorem block_copy {y : Nat} {b : Bind (K i) (V i)} (hx : x ∉ L) (hw : w i x = none) (hv : s x = none) (hy : s y = some b)
    (h : Sat C rest (put w i (upd s x (some b))) (Post C w ((x :: L).map fun y => (i, y)) Q)) :
    Sat C (block i x (perform i (.copy x y)) rest) (put w i s) (Post C w (L.map fun y => (i, y)) Q) := by
  refine block_rule (by simpa using hx) hw (op_rule fun c fail ha => ?_)
  simp only [act, hv, hy]
  exact h

theorem block_move {y : Nat} {b : Bind (K i) (V i)} (hx : x ∉ L) (hw : w i x = none) (hv : s x = none) (hy : s y = some b)
    (h : Sat C rest (put w i (upd s x (some b))) (Post C w ((x :: L).map fun y => (i, y)) Q)) :
    Sat C (block i x (perform i (.move x y)) rest) (put w i s) (Post C w (L.map fun y => (i, y)) Q) := by
  refine block_rule (by simpa using hx) hw (op_rule fun c fail ha => ?_)
  simp only [act, hv, hy]
  exact h

end

theorem seq_rule {p : Test ι K V α} {f : α → Test ι K V β} {w v : Vars K V} {L : List (ι × Nat)} {Q : α → Prop} {Q' : β → Prop}
    (h : Sat C p v (Post C w L Q)) (h' : ∀ a v', Q a → Within w L v' → Sat C (f a) v' (Post C w L Q')) : Sat C (p >>= f : Test ι K V β) v (Post C w L Q') := by
  refine bind_rule (h.mono fun r v' hr => ?_)
  cases r with
  | ok a => exact h' a v' hr.2 hr.1
  | threw => exact hr
  | stuck => exact hr.2.elim

/-- The result of a block is processed further. -/
theorem map_rule {p : Test ι K V α} {f : α → β} {w v : Vars K V} {L : List (ι × Nat)} {Q : α → Prop} {Q' : β → Prop}
    (h : Sat C p v (Post C w L Q)) (h' : ∀ a, Q a → Q' (f a)) : Sat C (p >>= fun a => pure (f a) : Test ι K V β) v (Post C w L Q') :=
  seq_rule h fun a _ ha hw => ⟨hw, h' a ha⟩

theorem loop_pass {γ : Type} {body : γ → Test ι K V (List Bool)} {w : Vars K V} (l : List γ) (h : ∀ it ∈ l, Sat C (body it) w (Post C w [] Tests.Pass)) :
    Sat C (loop body l) w (Post C w [] Tests.Pass) := by
  induction l with
  | nil => exact ⟨⟨fun _ _ _ => rfl, by simp⟩, by simp [Tests.Pass]⟩
  | cons it l ih =>
    refine seq_rule (h it (by simp)) fun bs v hbs hv => ?_
    rw [hv.nil]
    refine map_rule (ih fun it hit => h it (by simp [hit])) fun bs' hbs' => ?_
    intro b hb
    rcases List.mem_append.1 hb with hb | hb
    · exact hbs b hb
    · exact hbs' b hb

theorem checks_pass {f : Cmp → Test ι K V Bool} {g : Cmp → Bool} {v : Vars K V} (l : List Cmp)
    (h : ∀ op, Sat C (f op) v fun r v' => r = .ok (g op) ∧ v' = v) {k : List Bool → Test ι K V α} {Q : End α → Vars K V → Prop}
    (hk : ∀ bs, Tests.Pass bs → Sat C (k bs) v Q) : Sat C (checks f g l >>= k : Test ι K V α) v Q := by
  suffices hh : Sat C (checks f g l) v fun r v' => v' = v ∧ ∃ bs, r = .ok bs ∧ Tests.Pass bs by
    refine bind_rule (hh.mono ?_)
    rintro _ _ ⟨rfl, bs, rfl, hbs⟩
    exact hk bs hbs
  clear hk
  induction l with
  | nil => exact ⟨rfl, [], rfl, by simp [Tests.Pass]⟩
  | cons op l ih =>
    refine bind_rule ((h op).mono ?_)
    rintro _ _ ⟨rfl, rfl⟩
    refine bind_rule (ih.mono ?_)
    rintro _ _ ⟨rfl, bs, rfl, hbs⟩
    refine ⟨rfl, _, rfl, ?_⟩
    intro b hb
    rcases List.mem_cons.1 hb with rfl | hb
    · simp
    · exact hbs b hb

end Verif.SessionTests

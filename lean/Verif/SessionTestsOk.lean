import Verif.SessionRules

/-!
# The library's test templates succeed with any factories
-/

set_option autoImplicit false

namespace Verif.SessionTests
open Client (Store Made)
open Operators (Cmp UserCmp Extract)
open Session (Vars Sat)
variable {ι : Type} [DecidableEq ι] {K V : ι → Type} {Str : Type} {C : (i : ι) → Cfg (K i) (V i)}

theorem Nice.self {K V : Type} {C : Cfg K V} {mk : K → V} (R : Nice C mk) (k : K) : C.keq k k = true := (R.keys k k).2 rfl

theorem basic_pass (i : ι) [DecidableEq (K i)] [DecidableEq (V i)] [DecidableEq Str] {u : Tests.Kit (K i) (V i) Str} (R : Nice (C i) u.make) (h0 : u.val0 = u.make u.key0)
    (hs : Nat → Nat) {w : Vars K V} {n : Nat} (hn : ∀ x, w i (n + x) = none) (it : K i) : Sat C (basic i u (C i).hp hs n it) w (Post C w [] Tests.Pass) := by
  have e0 : w i n = none := hn 0
  have goal : Sat C (basic i u (C i).hp hs n it) (put w i (w i)) (Post C w (([] : List Nat).map fun y => (i, y)) Tests.Pass) := by
    refine block_make R (R.fromKey _).1 (R.fromKey _).2 (by simp) (hn 0) (hn 0) (by simp) (by simp) fun a1 f1 => ?_
    refine block_make R (R.fromKey _).1 (R.fromKey _).2 (by simp) (hn 1) (by simp [upd, hn])
      (by intro y hy; simp at hy; simp [upd, hy]) (by simp [upd]) fun a2 f2 => ?_
    refine block_copy (b := ⟨a1, it, u.make it⟩) (by simp) (hn 2) (by simp [upd, hn]) (by simp [upd]) ?_
    refine block_copy (b := ⟨a2, u.key0, u.make u.key0⟩) (by simp) (hn 3) (by simp [upd, hn]) (by simp [upd]) ?_
    refine getKey_then (b := ⟨a1, it, u.make it⟩) (by simp [upd]) ?_
    refine eq_then (b := ⟨a1, it, u.make it⟩) (c := ⟨a2, u.key0, u.make u.key0⟩) (by simp [upd]) (by simp [upd]) ?_
    refine get_then (b := ⟨a1, it, u.make it⟩) (by simp [upd]) ?_
    refine eq_then (b := ⟨a1, it, u.make it⟩) (c := ⟨a1, it, u.make it⟩) (by simp [upd]) (by simp [upd]) ?_
    refine eq_then (b := ⟨a2, u.key0, u.make u.key0⟩) (c := ⟨a2, u.key0, u.make u.key0⟩) (by simp [upd]) (by simp [upd]) ?_
    refine map_rule (Q := Tests.Pass) ?_ ?_
    · refine block_move (b := ⟨a1, it, u.make it⟩) (by simp) (hn 4) (by simp [upd, hn]) (by simp [upd]) ?_
      refine block_copy (b := ⟨a2, u.key0, u.make u.key0⟩) (by simp) (hn 5) (by simp [upd, hn]) (by simp [upd]) ?_
      refine eq_then (b := ⟨a1, it, u.make it⟩) (c := ⟨a1, it, u.make it⟩) (by simp [upd]) (by simp [upd]) ?_
      refine eq_then (b := ⟨a2, u.key0, u.make u.key0⟩) (c := ⟨a2, u.key0, u.make u.key0⟩) (by simp [upd]) (by simp [upd]) ?_
      refine block_make R (R.fromKey _).1 (R.fromKey _).2 (by simp) (hn 6) (by simp [upd, hn])
        (by intro y hy; simp at hy; simp [upd, hy]) (by simp [upd]) fun a3 f3 => ?_
      have h32 : a2 = a3 := (f3 (n + 1) ⟨a2, u.key0, u.make u.key0⟩ (by simp [upd])).2 rfl
      subst h32
      refine eq_then (b := ⟨a2, u.key0, u.make u.key0⟩) (c := ⟨a2, u.key0, u.make u.key0⟩) (by simp [upd]) (by simp [upd]) ?_
      refine assign_then (b := ⟨a1, it, u.make it⟩) (d := ⟨a1, it, u.make it⟩) (by simp [upd]) (by simp [upd]) ?_
      refine eq_then (b := ⟨a1, it, u.make it⟩) (c := ⟨a1, it, u.make it⟩) (by simp [upd]) (by simp [upd]) ?_
      refine assign_then (b := ⟨a2, u.key0, u.make u.key0⟩) (d := ⟨a1, it, u.make it⟩) (by simp [upd]) (by simp [upd]) ?_
      refine eq_then (b := ⟨a2, u.key0, u.make u.key0⟩) (c := ⟨a2, u.key0, u.make u.key0⟩) (by simp [upd]) (by simp [upd]) ?_
      refine assign_then (b := ⟨a1, it, u.make it⟩) (d := ⟨a2, u.key0, u.make u.key0⟩) (by simp [upd]) (by simp [upd]) ?_
      refine eq_then (b := ⟨a1, it, u.make it⟩) (c := ⟨a1, it, u.make it⟩) (by simp [upd]) (by simp [upd]) ?_
      refine get_then (b := ⟨a1, it, u.make it⟩) (by simp [upd]) ?_
      refine get_then (b := ⟨a1, it, u.make it⟩) (by simp [upd]) ?_
      refine swap_then (b := ⟨a1, it, u.make it⟩) (c := ⟨a1, it, u.make it⟩) (by simp [upd]) (by simp [upd]) ?_
      refine eq_then (b := ⟨a1, it, u.make it⟩) (c := ⟨a1, it, u.make it⟩) (by simp [upd]) (by simp [upd]) ?_
      refine swap_then (b := ⟨a1, it, u.make it⟩) (c := ⟨a2, u.key0, u.make u.key0⟩) (by simp [upd]) (by simp [upd]) ?_
      refine eq_then (b := ⟨a2, u.key0, u.make u.key0⟩) (c := ⟨a2, u.key0, u.make u.key0⟩) (by simp [upd]) (by simp [upd]) ?_
      refine eq_then (b := ⟨a1, it, u.make it⟩) (c := ⟨a1, it, u.make it⟩) (by simp [upd]) (by simp [upd]) ?_
      refine swap_then (b := ⟨a2, u.key0, u.make u.key0⟩) (c := ⟨a1, it, u.make it⟩) (by simp [upd]) (by simp [upd]) ?_
      refine eq_then (b := ⟨a1, it, u.make it⟩) (c := ⟨a1, it, u.make it⟩) (by simp [upd]) (by simp [upd]) ?_
      refine eq_then (b := ⟨a2, u.key0, u.make u.key0⟩) (c := ⟨a2, u.key0, u.make u.key0⟩) (by simp [upd]) (by simp [upd]) ?_
      refine get_then (b := ⟨a1, it, u.make it⟩) (by simp [upd]) ?_
      refine get_then (b := ⟨a1, it, u.make it⟩) (by simp [upd]) ?_
      refine hash_then (b := ⟨a1, it, u.make it⟩) (by simp [upd]) ?_
      refine hash_then (b := ⟨a1, it, u.make it⟩) (by simp [upd]) ?_
      refine stdHash_then (b := ⟨a1, it, u.make it⟩) (by simp [upd]) ?_
      refine stdHash_then (b := ⟨a1, it, u.make it⟩) (by simp [upd]) ?_
      refine ⟨.put ?_ ?_, by simp [Tests.Pass, R.self]⟩
      · intro y hy
        simp at hy
        simp [upd, hy]
      · simp [upd]
    · intro ts hts
      have : (C i).keq it u.key0 = (u.make it == u.val0) := by
        rw [h0, Bool.eq_iff_iff, beq_iff_eq, R.keys]
        exact ⟨fun h => by rw [h], R.inj _ _⟩
      simpa [Tests.Pass, this, R.self] using hts
  rw [put_self] at goal
  exact goal

theorem withAssign_pass (i : ι) [DecidableEq (V i)] {u : Tests.Kit (K i) (V i) Str} (R : Nice (C i) u.make)
    (hc : ∀ k, (C i).sp.supports (.copy (u.make k)) = true) (hm : ∀ k, (C i).sp.supports (.move (u.make k)) = true)
    {w : Vars K V} {n : Nat} (hn : ∀ x, w i (n + x) = none) (it : K i)
    (hr : ∀ v, (u.ext (u.ins u.empty (u.make it)) v).val = some (u.make it)) :
    Sat C (withAssign i u n it) w (Post C w [] Tests.Pass) := by
  have e0 : w i n = none := hn 0
  have goal : Sat C (withAssign i u n it) (put w i (w i)) (Post C w (([] : List Nat).map fun y => (i, y)) Tests.Pass) := by
    refine block_make R (hc it) (R.copied (hc it)) (by simp) (hn 0) (hn 0) (by simp) (by simp) fun a1 f1 => ?_
    refine block_rule (by simp) (hn 1) (get_then (b := ⟨a1, it, u.make it⟩) (by simp [upd]) (make_rule R (by simp [upd, hn]) (hc it) (R.copied (hc it)) (fun a2 f2 => ?_)
      fun ht => ⟨.put (L := [n]) (by intro y hy; simp at hy; simp [upd, hy]) (by simp [upd]), i, ht⟩))
    have e : a1 = a2 := (f2 n ⟨a1, it, u.make it⟩ (by simp [upd])).2 rfl
    subst e
    show Sat C _ _ (Post C w (([n + 1, n] : List Nat).map fun y => (i, y)) Tests.Pass)
    refine get_then (b := ⟨a1, it, u.make it⟩) (by simp [upd]) ?_
    refine get_then (b := ⟨a1, it, u.make it⟩) (by simp [upd]) ?_
    refine eq_then (b := ⟨a1, it, u.make it⟩) (c := ⟨a1, it, u.make it⟩) (by simp [upd]) (by simp [upd]) ?_
    refine map_rule (Q := Tests.Pass) ?_ fun ts hts => by simpa [Tests.Pass, R.self] using hts
    refine block_make R (hm it) (R.moved (hm it)) (by simp) (hn 2) (by simp [upd, hn])
      (by intro y hy; simp at hy; simp [upd, hy]) (by simp [upd]) fun a2 f2 => ?_
    have e : a1 = a2 := (f2 n ⟨a1, it, u.make it⟩ (by simp [upd])).2 rfl
    subst e
    refine block_make R (hc it) (R.copied (hc it)) (by simp) (hn 3) (by simp [upd, hn])
      (by intro y hy; simp at hy; simp [upd, hy]) (by simp [upd]) fun a2 f3 => ?_
    have e : a1 = a2 := (f3 n ⟨a1, it, u.make it⟩ (by simp [upd])).2 rfl
    subst e
    refine get_then (b := ⟨a1, it, u.make it⟩) (by simp [upd]) ?_
    refine get_then (b := ⟨a1, it, u.make it⟩) (by simp [upd]) ?_
    refine map_rule (Q := Tests.Pass) ?_ fun ts hts => by simpa [Tests.Pass] using hts
    refine block_make R (R.fromKey _).1 (R.fromKey _).2 (by simp) (hn 4) (by simp [upd, hn])
      (by intro y hy; simp at hy; simp [upd, hy]) (by simp [upd]) fun d3 _ => ?_
    refine block_make R (R.fromKey _).1 (R.fromKey _).2 (by simp) (hn 5) (by simp [upd, hn])
      (by intro y hy; simp at hy; simp [upd, hy]) (by simp [upd]) fun d4 _ => ?_
    refine assignVal_then R (x := n + 4) (d := ⟨d3, u.key0, u.make u.key0⟩) (by simp [upd]) (hc it) (R.copied (hc it)) (fun a4 f4 => ?_) fun ht =>
      ⟨.put (by intro y hy; simp at hy; simp [upd, hy]) (by simp [upd]), i, ht⟩
    have e : a1 = a4 := (f4 n ⟨a1, it, u.make it⟩ (by simp [upd])).2 rfl
    subst e
    refine get_then (b := ⟨a1, it, u.make it⟩) (by simp [upd]) ?_
    refine assignVal_then R (x := n + 5) (d := ⟨d4, u.key0, u.make u.key0⟩) (by simp [upd]) (hc it) (R.copied (hc it)) (fun a5 f5 => ?_) fun ht =>
      ⟨.put (by intro y hy; simp at hy; simp [upd, hy]) (by simp [upd]), i, ht⟩
    have e : a1 = a5 := (f5 n ⟨a1, it, u.make it⟩ (by simp [upd])).2 rfl
    subst e
    refine get_then (b := ⟨a1, it, u.make it⟩) (by simp [upd]) ?_
    refine get_then (b := ⟨a1, it, u.make it⟩) (by simp [upd]) ?_
    refine eq_then (b := ⟨a1, it, u.make it⟩) (c := ⟨a1, it, u.make it⟩) (by simp [upd]) (by simp [upd]) ?_
    refine map_rule (Q := Tests.Pass) ?_ fun ts hts => by simpa [Tests.Pass, R.self] using hts
    refine block_make R (R.fromKey _).1 (R.fromKey _).2 (by simp) (hn 6) (by simp [upd, hn])
      (by intro y hy; simp at hy; simp [upd, hy]) (by simp [upd]) fun d6 _ => ?_
    refine assignVal_then R (x := n + 6) (d := ⟨d6, u.key0, u.make u.key0⟩) (by simp [upd]) (hm it) (R.moved (hm it)) (fun a6 f6 => ?_) fun ht =>
      ⟨.put (by intro y hy; simp at hy; simp [upd, hy]) (by simp [upd]), i, ht⟩
    have e : a1 = a6 := (f6 n ⟨a1, it, u.make it⟩ (by simp [upd])).2 rfl
    subst e
    refine get_then (b := ⟨a1, it, u.make it⟩) (by simp [upd]) ?_
    refine get_then (b := ⟨a1, it, u.make it⟩) (by simp [upd]) ?_
    refine block_make R (R.fromKey _).1 (R.fromKey _).2 (by simp) (hn 7) (by simp [upd, hn])
      (by intro y hy; simp at hy; simp [upd, hy]) (by simp [upd]) fun d7 _ => ?_
    refine extract_then R (d := ⟨d7, u.key0, u.make u.key0⟩) (k := it) (by simp [upd]) (hr _) (hc it) (fun a7 f7 => ?_) fun ht =>
      ⟨.put (by intro y hy; simp at hy; simp [upd, hy]) (by simp [upd]), i, ht⟩
    have e : a1 = a7 := (f7 n ⟨a1, it, u.make it⟩ (by simp [upd])).2 rfl
    subst e
    refine eq_then (b := ⟨a1, it, u.make it⟩) (c := ⟨a1, it, u.make it⟩) (by simp [upd]) (by simp [upd]) ?_
    refine ⟨.put ?_ ?_, by simp [Tests.Pass, R.self]⟩
    · intro y hy
      simp at hy
      simp [upd, hy]
    · simp [upd]
  rw [put_self] at goal
  exact goal

theorem basicWithAssign_pass (i : ι) [DecidableEq (K i)] [DecidableEq (V i)] [DecidableEq Str] {u : Tests.Kit (K i) (V i) Str} (R : Nice (C i) u.make)
    (h0 : u.val0 = u.make u.key0) (hc : ∀ k, (C i).sp.supports (.copy (u.make k)) = true) (hm : ∀ k, (C i).sp.supports (.move (u.make k)) = true) (hs : Nat → Nat)
    {w : Vars K V} {n : Nat} (hn : ∀ x, w i (n + x) = none) (its : List (K i))
    (hr : ∀ k ∈ its, ∀ v, (u.ext (u.ins u.empty (u.make k)) v).val = some (u.make k)) :
    Sat C (basicWithAssign i u (C i).hp hs n its) w (Post C w [] Tests.Pass) := by
  refine seq_rule (loop_pass its fun it _ => basic_pass i R h0 hs hn it) fun bs v hbs hv => ?_
  rw [hv.nil]
  refine map_rule (loop_pass its fun it hit => withAssign_pass i R hc hm hn it (hr it hit)) fun bs' hbs' => ?_
  intro b hb
  rcases List.mem_append.1 hb with hb | hb
  · exact hbs b hb
  · exact hbs' b hb

theorem value_left {i : ι} {W : Type} {c : UserCmp (V i) W} {x : Nat} {w' : W} {v : Vars K V} {b : Bind (K i) (V i)} (hx : v i x = some b) (op : Cmp) :
    Sat C (compareLeft i c x w' op) v fun r v' => r = .ok (compareValues c op b.val w') ∧ v' = v := by
  rw [← put_self v i]
  exact get_then hx ⟨rfl, rfl⟩

theorem value_right {i : ι} {W : Type} {c : UserCmp W (V i)} {x : Nat} {w' : W} {v : Vars K V} {b : Bind (K i) (V i)} (hx : v i x = some b) (op : Cmp) :
    Sat C (compareRight i c w' x op) v fun r v' => r = .ok (compareValues c op w' b.val) ∧ v' = v := by
  rw [← put_self v i]
  exact get_then hx ⟨rfl, rfl⟩

theorem value_two {i j : ι} {c : UserCmp (V i) (V j)} {x y : Nat} {v : Vars K V} {b : Bind (K i) (V i)} {d : Bind (K j) (V j)} (hx : v i x = some b)
    (hy : v j y = some d) (op : Cmp) : Sat C (compareTwo i j c x y op) v fun r v' => r = .ok (compareValues c op b.val d.val) ∧ v' = v := by
  have h1 : Sat C (get j y >>= fun r' => pure (compareValues c op b.val r'.2) : Test ι K V Bool) v
      fun r v' => r = .ok (compareValues c op b.val d.val) ∧ v' = v := by
    rw [← put_self v j]
    exact get_then hy ⟨rfl, rfl⟩
  have h2 := get_then (i := i) (w := v) (s := v i) (C := C) (f := fun r : Nat × V i => (get j y >>= fun r' => pure (compareValues c op r.2 r'.2) : Test ι K V Bool)) hx
    (by rw [put_self]; exact h1)
  rw [put_self] at h2
  exact h2

/-- The comparisons of the values: all six are given by those the library uses.  (No code of its own: used in statements and proofs.) -/
structure Usual {W W' : Type} (c : UserCmp W W') (cmp : Cmp → W → W' → Bool) : Prop where
  eq : ∀ v w, cmp .eq v w = c.eq v w
  lt : ∀ v w, cmp .lt v w = c.lt v w
  ne : ∀ v w, cmp .ne v w = !c.eq v w
  gt : ∀ v w, cmp .gt v w = c.gt w v
  ge : ∀ v w, cmp .ge v w = !c.lt v w
  le : ∀ v w, cmp .le v w = !c.gt w v

theorem Usual.values {W W' : Type} {c : UserCmp W W'} {cmp : Cmp → W → W' → Bool} (h : Usual c cmp) (op : Cmp) (v : W) (w : W') : compareValues c op v w = cmp op v w := by
  cases op <;> simp [compareValues, h.eq, h.lt, h.ne, h.gt, h.ge, h.le]

theorem comparison_pass (i : ι) {mk : K i → V i} (R : Nice (C i) mk) (hc : ∀ k, (C i).sp.supports (.copy (mk k)) = true) {c : UserCmp (V i) (V i)}
    {cmp : Cmp → V i → V i → Bool} (hu : Usual c cmp) (he : ∀ v w, c.eq v w = true ↔ v = w) {w : Vars K V} {n : Nat} (hn : ∀ x, w i (n + x) = none) (i1 i2 : K i) :
    Sat C (comparison i mk c cmp n i1 i2) w (Post C w [] Tests.Pass) := by
  have e0 : w i n = none := hn 0
  have goal : Sat C (comparison i mk c cmp n i1 i2) (put w i (w i)) (Post C w (([] : List Nat).map fun y => (i, y)) Tests.Pass) := by
    refine block_make R (hc i1) (R.copied (hc i1)) (by simp) (hn 0) (hn 0) (by simp) (by simp) fun a1 f1 => ?_
    refine block_make R (hc i2) (R.copied (hc i2)) (by simp) (hn 1) (by simp [upd, hn])
      (by intro y hy; simp at hy; simp [upd, hy]) (by simp [upd]) fun a2 f2 => ?_
    refine get_then (b := ⟨a1, i1, mk i1⟩) (by simp [upd]) ?_
    have hx : put w i (upd (upd (w i) n (some ⟨a1, i1, mk i1⟩)) (n + 1) (some ⟨a2, i2, mk i2⟩)) i n = some ⟨a1, i1, mk i1⟩ := by simp [upd]
    have hy : put w i (upd (upd (w i) n (some ⟨a1, i1, mk i1⟩)) (n + 1) (some ⟨a2, i2, mk i2⟩)) i (n + 1) = some ⟨a2, i2, mk i2⟩ := by simp [upd]
    have hk : (C i).keq i1 i2 = c.eq (mk i1) (mk i2) := by
      rw [Bool.eq_iff_iff, he, R.keys]
      exact ⟨fun h => by rw [h], R.inj _ _⟩
    have h2 := fun op => value_two (C := C) (c := c) hx hy op
    refine checks_pass _ (fun op => ?_) fun t1 h1 => checks_pass _ (fun op => ?_) fun t2 h2 => checks_pass _ (fun op => ?_) fun t3 h3 => ?_
    · have g := h2 op
      rw [hu.values] at g
      cases op with
      | eq =>
        refine op_rule fun b fail ha => ?_
        simp only [act, show (upd (upd (w i) n (some ⟨a1, i1, mk i1⟩)) (n + 1) (some ⟨a2, i2, mk i2⟩)) n = some ⟨a1, i1, mk i1⟩ by simp [upd],
          show (upd (upd (w i) n (some ⟨a1, i1, mk i1⟩)) (n + 1) (some ⟨a2, i2, mk i2⟩)) (n + 1) = some ⟨a2, i2, mk i2⟩ by simp [upd]]
        exact ⟨by rw [hk, hu.eq], rfl⟩
      | ne =>
        refine eq_then (b := ⟨a1, i1, mk i1⟩) (c := ⟨a2, i2, mk i2⟩) (by simp [upd]) (by simp [upd]) ?_
        exact ⟨by rw [hk, hu.ne], rfl⟩
      | lt => exact g
      | gt => exact g
      | ge => exact g
      | le => exact g
    · rw [← hu.values]
      exact value_left hx op
    · rw [← hu.values]
      exact value_right hy op
    · refine ⟨.put ?_ ?_, ?_⟩
      · intro y hy
        simp at hy
        simp [upd, hy]
      · simp [upd]
      · intro b hb
        simp only [List.mem_append] at hb
        rcases hb with (hb | hb) | hb
        · exact h1 b hb
        · exact h2 b hb
        · exact h3 b hb
  rw [put_self] at goal
  exact goal

theorem comparisonTwo_pass {i j : ι} (hij : i ≠ j) {mk : K i → V i} {mk' : K j → V j} (R : Nice (C i) mk) (R' : Nice (C j) mk')
    (hc : ∀ k, (C i).sp.supports (.copy (mk k)) = true) (hc' : ∀ k, (C j).sp.supports (.copy (mk' k)) = true) {c : UserCmp (V i) (V j)}
    {cmp : Cmp → V i → V j → Bool} (hu : Usual c cmp) {w : Vars K V} {n : Nat} (hn : ∀ x, w i (n + x) = none) (hn' : ∀ x, w j (n + x) = none) (i1 : K i) (i2 : K j) :
    Sat C (comparisonTwo i j mk mk' c cmp n i1 i2) w (Post C w [] Tests.Pass) := by
  have goal : Sat C (comparisonTwo i j mk mk' c cmp n i1 i2) (put w i (w i)) (Post C w (([] : List Nat).map fun y => (i, y)) Tests.Pass) := by
    refine block_make R (hc i1) (R.copied (hc i1)) (by simp) (hn 0) (hn 0) (by simp) (by simp) fun a1 f1 => ?_
    refine block_rule (by simp [hij.symm]) (hn' 1) ?_
    have hpj : put w i (upd (w i) n (some ⟨a1, i1, mk i1⟩)) j = w j := put_ne _ _ hij.symm
    have hW : Within w [(i, n)] (put w i (upd (w i) n (some ⟨a1, i1, mk i1⟩))) := by
      refine Within.put (L := [n]) ?_ ?_
      · intro y hy
        simp at hy
        simp [upd, hy]
      · simp [upd]
    rw [← put_self (put w i (upd (w i) n (some ⟨a1, i1, mk i1⟩))) j, hpj]
    refine make_rule R' (hn' 1) (hc' i2) (R'.copied (hc' i2)) (fun a2 f2 => ?_) fun ht => ⟨?_, j, ht⟩
    · have hx : put (put w i (upd (w i) n (some ⟨a1, i1, mk i1⟩))) j (upd (w j) (n + 1) (some ⟨a2, i2, mk' i2⟩)) i n = some ⟨a1, i1, mk i1⟩ := by
        rw [put_ne _ _ hij]
        simp [upd]
      have hy : put (put w i (upd (w i) n (some ⟨a1, i1, mk i1⟩))) j (upd (w j) (n + 1) (some ⟨a2, i2, mk' i2⟩)) j (n + 1) = some ⟨a2, i2, mk' i2⟩ := by simp [upd]
      have hW' : Within w [(j, n + 1), (i, n)] (put (put w i (upd (w i) n (some ⟨a1, i1, mk i1⟩))) j (upd (w j) (n + 1) (some ⟨a2, i2, mk' i2⟩))) := by
        refine ⟨fun l y hl => ?_, fun p hp => ?_⟩
        · by_cases hlj : l = j
          · subst hlj
            simp at hl
            simp [upd, hl]
          · rw [put_ne _ _ hlj]
            refine hW.out l y fun h => hl (.tail _ h)
        · simp only [List.mem_cons, List.not_mem_nil, or_false] at hp
          rcases hp with rfl | rfl
          · exact ⟨_, hy⟩
          · exact ⟨_, hx⟩
      have hget : ∀ {f : Nat × V i → Test ι K V (List Bool)} {v : Vars K V} {b : Bind (K i) (V i)} {Q : End (List Bool) → Vars K V → Prop}, v i n = some b →
          Sat C (f (b.addr, b.val)) v Q → Sat C (get i n >>= f : Test ι K V (List Bool)) v Q := by
        intro f v b Q hb h
        rw [← put_self v i]
        exact get_then hb (by rw [put_self]; exact h)
      refine hget hx ?_
      refine checks_pass _ (fun op => ?_) fun t1 h1 => checks_pass _ (fun op => ?_) fun t2 h2 => checks_pass _ (fun op => ?_) fun t3 h3 => ?_
      · rw [← hu.values]
        exact value_two hx hy op
      · rw [← hu.values]
        exact value_left hx op
      · rw [← hu.values]
        exact value_right hy op
      · refine ⟨hW', ?_⟩
        intro b hb
        simp only [List.mem_append] at hb
        rcases hb with (hb | hb) | hb
        · exact h1 b hb
        · exact h2 b hb
        · exact h3 b hb
    · rw [← hpj, put_self]
      exact hW
  rw [put_self] at goal
  exact goal

/-! ## Exceptions -/

theorem block_any {i : ι} {x : Nat} {src : Src (K i) (V i)} {α : Type} {rest : Test ι K V α} {w : Vars K V} {Q : α → Prop} (hs : (C i).sp.supports src = true) (hx : w i x = none)
    (h : ∀ b, Sat C rest (put w i (upd (w i) x (some b))) (Post C w [(i, x)] Q)) : Sat C (block i x (perform i (.make x src)) rest) w (Post C w [] Q) := by
  refine block_rule (by simp) hx fun b fail ha => ?_
  have h1 := ha.throws
  have h2 := ha.fits
  simp only [act, hx, hs] at h1 h2 ⊢
  cases fail with
  | true =>
    refine ⟨?_, i, h1 rfl⟩
    simp only [if_true, put_self]
    exact ⟨fun _ _ _ => rfl, by simp⟩
  | false =>
    obtain ⟨c, rfl, _⟩ := h2 rfl src rfl
    exact h c

theorem catching_rule {p : Test ι K V Unit} {w : Vars K V} {L : List (ι × Nat)} (h : Sat C p w (Post C w L fun _ => True)) :
    Sat C (catching p) w (Post C w L fun _ => True) := by
  refine Sat.bind (h.mono fun r v hr => ?_)
  cases r with
  | ok a => exact hr
  | threw => exact ⟨hr.1, trivial⟩
  | stuck => exact hr.2.elim

/-- After one operation the only variable of a block. -/
theorem within_one {w : Vars K V} {i : ι} {x : Nat} (b : Bind (K i) (V i)) : Within w [(i, x)] (put w i (upd (w i) x (some b))) := by
  refine Within.put (L := [x]) ?_ ?_
  · intro y hy
    simp at hy
    simp [upd, hy]
  · simp [upd]

omit [DecidableEq ι] in
theorem within_refl {w : Vars K V} : Within w [] w := ⟨fun _ _ _ => rfl, by simp⟩

theorem throwing_pass (i : ι) {w : Vars K V} {n : Nat} (hn : w i n = none) {k : K i} {v v' : V i} (hk : (C i).sp.supports (.key k) = true)
    (hv : (C i).sp.supports (.move v) = true) (hv' : (C i).sp.supports (.move v') = true) :
    Sat C (throwing i n k v v') w (Post C w [] Tests.Pass) := by
  refine seq_rule (catching_rule (block_any hk hn fun b => ⟨within_one b, trivial⟩)) fun _ v1 _ h1 => ?_
  rw [h1.nil]
  refine seq_rule (catching_rule (code_then (block_any hv hn fun b => ⟨within_one b, trivial⟩) fun ht => ⟨within_refl, i, ht⟩)) fun _ v2 _ h2 => ?_
  rw [h2.nil]
  refine code_then (block_any hv' hn fun b => ?_) fun ht => ⟨within_refl, i, ht⟩
  refine get_then (b := b) (by simp [upd]) ?_
  exact ⟨within_one b, by simp [Tests.Pass]⟩

/-! ## The whole test -/

theorem then_pass {p q : Test ι K V (List Bool)} {w : Vars K V} (h : Sat C p w (Post C w [] Tests.Pass)) (h' : Sat C q w (Post C w [] Tests.Pass)) :
    Sat C (thenTest p q) w (Post C w [] Tests.Pass) := by
  refine seq_rule h fun bs v hbs hv => ?_
  rw [hv.nil]
  refine map_rule h' fun bs' hbs' => ?_
  intro b hb
  rcases List.mem_append.1 hb with hb | hb
  · exact hbs b hb
  · exact hbs' b hb

/-- What the flyweight types and the values of the test have to be.  (No code of its own: used in statements and proofs.) -/
structure Suite.Good {K V : Kind → Type} (S : Suite K V Str) (C : (i : Kind) → Cfg (K i) (V i)) : Prop where
  int : Nice (C .int) S.int.make ∧ S.int.val0 = S.int.make S.int.key0
  string : Nice (C .string) S.string.make ∧ S.string.val0 = S.string.make S.string.key0
  char : Nice (C .char) S.char
  texture : Nice (C .texture) S.texture.make ∧ S.texture.val0 = S.texture.make S.texture.key0
  factorization : Nice (C .factorization) S.factorization.make ∧ S.factorization.val0 = S.factorization.make S.factorization.key0
  values : ∀ v, (C .int).sp.supports (.copy v) = true ∧ (C .int).sp.supports (.move v) = true
  values' : ∀ v, (C .string).sp.supports (.copy v) = true ∧ (C .string).sp.supports (.move v) = true
  values'' : ∀ v, (C .texture).sp.supports (.copy v) = true ∧ (C .texture).sp.supports (.move v) = true
  chars : ∀ v, (C .char).sp.supports (.copy v) = true
  throwing : (∀ k, (C .throwing).sp.supports (.key k) = true) ∧ ∀ v, (C .throwing).sp.supports (.move v) = true
  ints : ∀ k ∈ S.ints, ∀ v, (S.int.ext (S.int.ins S.int.empty (S.int.make k)) v).val = some (S.int.make k)
  words : ∀ k ∈ S.words, ∀ v, (S.string.ext (S.string.ins S.string.empty (S.string.make k)) v).val = some (S.string.make k)
  textures : ∀ k ∈ S.textures, ∀ v, (S.texture.ext (S.texture.ins S.texture.empty (S.texture.make k)) v).val = some (S.texture.make k)
  cInt : Usual S.cInt S.cmpInt
  cString : Usual S.cString S.cmpString ∧ ∀ v w, S.cString.eq v w = true ↔ v = w
  cTexture : Usual S.cTexture S.cmpTexture ∧ ∀ v w, S.cTexture.eq v w = true ↔ v = w

theorem suite_pass {K V : Kind → Type} [∀ i, DecidableEq (K i)] [∀ i, DecidableEq (V i)] [DecidableEq Str] {S : Suite K V Str} {C : (i : Kind) → Cfg (K i) (V i)}
    (G : S.Good C) (hs : Nat → Nat) {w : Vars K V} {n : Nat} (hn : ∀ i x, w i (n + x) = none) :
    Sat C (suite S (fun i => (C i).hp) hs n) w (Post C w [] Tests.Pass) := by
  refine then_pass (basicWithAssign_pass .int G.int.1 G.int.2 (fun _ => (G.values _).1) (fun _ => (G.values _).2) hs (hn _) _ G.ints) ?_
  refine then_pass (basicWithAssign_pass .string G.string.1 G.string.2 (fun _ => (G.values' _).1) (fun _ => (G.values' _).2) hs (hn _) _ G.words) ?_
  refine then_pass (basicWithAssign_pass .texture G.texture.1 G.texture.2 (fun _ => (G.values'' _).1) (fun _ => (G.values'' _).2) hs (hn _) _ G.textures) ?_
  refine then_pass (loop_pass _ fun it _ => basic_pass .factorization G.factorization.1 G.factorization.2 hs (hn _) it) ?_
  refine then_pass (loop_pass _ fun p _ => comparisonTwo_pass (by decide) G.int.1 G.char (fun _ => (G.values _).1) (fun _ => G.chars _) G.cInt (hn _) (hn _) p.1 p.2) ?_
  refine then_pass (loop_pass _ fun p _ => comparison_pass .string G.string.1 (fun _ => (G.values' _).1) G.cString.1 G.cString.2 (hn _) p.1 p.2) ?_
  refine then_pass (loop_pass _ fun p _ => comparison_pass .texture G.texture.1 (fun _ => (G.values'' _).1) G.cTexture.1 G.cTexture.2 (hn _) p.1 p.2) ?_
  exact throwing_pass .throwing (hn _ 0) (G.throwing.1 _) (G.throwing.2 _) (G.throwing.2 _)

end Verif.SessionTests

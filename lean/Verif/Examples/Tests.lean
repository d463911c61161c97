import Verif.Client

/-!
# The library's test templates

Models /repo/test/test_basic_template.hpp: the tests run for every flyweight
type in the test suite, as programs of the model.  The result is the list of the
outcomes of the checks `BOOST_TEST(...)`.
-/

set_option autoImplicit false

namespace Verif.Tests
open Client Operators
variable {K V Rep F Str : Type} [DecidableEq K] [DecidableEq V] [DecidableEq Str]

/-- What the tests use of the type: how a value is made of `*it`, the default key, the default value, and streams: an empty one,
insertion and extraction.  (The user's.)  Used by /repo/test/test_basic_template.hpp:50-188. -/
structure Kit (K V Str : Type) where
  make : K → V
  key0 : K
  val0 : V
  empty : Str
  ins : Str → V → Str
  ext : Str → V → Extract Str V

/-- One pass of the loop of `test_basic_template`, /repo/test/test_basic_template.hpp:50-133, for `*it`.  `n` is the first of
the names of its variables; `hb` and `hs` are `boost::hash` and `std::hash` of pointers.  Simplification: `*f1` and
`f1.operator->()` are `f1.get()`, so that their checks are those of `get()`. -/
def basic (S : Setup K V Rep F) (u : Kit K V Str) (hb hs : Nat → Nat) (n : Nat) (it : K) : M (St Rep F) (List Bool) :=
  let f1 := n
  let f2 := n + 1
  let c1 := n + 2
  let c2 := n + 3
  let cr1 := n + 4
  let cr2 := n + 5
  let f3 := n + 6
  local' S f1 (Core.make S.P S.Fa S.trk f1 (.key it)) <|
  local' S f2 (Core.make S.P S.Fa S.trk f2 (.key u.key0)) <|
  local' S c1 (Core.copy S.Fa S.trk c1 f1) <|
  local' S c2 (Core.copy S.Fa S.trk c2 f2) (do
    let k ← Core.getKey S.P S.Fa f1
    let t1 := k == it
    let b ← Core.eq S.P S.Fa f1 f2
    let r ← Core.get S.P S.Fa f1
    let t2 := b == (r.2 == u.val0)
    let t3 ← Core.eq S.P S.Fa f1 c1
    let t4 ← Core.eq S.P S.Fa f2 c2
    let ts ← local' S cr1 (Core.copy S.Fa S.trk cr1 c1) <|
      local' S cr2 (Core.copy S.Fa S.trk cr2 c2) (do
        let t5 ← Core.eq S.P S.Fa f1 cr1
        let t6 ← Core.eq S.P S.Fa f2 cr2
        local' S f3 (Core.make S.P S.Fa S.trk f3 (.key u.key0)) (do
          let t7 ← Core.eq S.P S.Fa f3 f2
          Core.assign S.P S.Fa S.trk f1 f1
          let t8 ← Core.eq S.P S.Fa f1 f1
          Core.assign S.P S.Fa S.trk c1 f2
          let t9 ← Core.eq S.P S.Fa c1 f2
          Core.assign S.P S.Fa S.trk c1 f1
          let t10 ← Core.eq S.P S.Fa c1 f1
          let r ← Core.get S.P S.Fa f1
          let t11 := r.2 == u.make it
          let p ← Core.get S.P S.Fa c1
          let t12 := r.1 == p.1
          Core.swap f1 f1
          let t13 ← Core.eq S.P S.Fa f1 c1
          Core.swap f1 f2
          let t14 ← Core.eq S.P S.Fa f1 c2
          let t15 ← Core.eq S.P S.Fa f2 c1
          Core.swap f1 f2
          let t16 ← Core.eq S.P S.Fa f1 c1
          let t17 ← Core.eq S.P S.Fa f2 c2
          let o1 ← withStream u.empty (write S (fun str v => (u.ins str v, true)) f1)
          let r ← Core.get S.P S.Fa f1
          let t18 := o1.2 == u.ins u.empty r.2
          let h1 ← Core.hash S.P S.Fa hb f1
          let h2 ← Core.hash S.P S.Fa hb c1
          let g1 ← Core.hash S.P S.Fa hs f1
          let g2 ← Core.hash S.P S.Fa hs c1
          pure [t5, t6, t7, t8, t9, t10, t11, t12, t13, t14, t15, t16, t17, t18, h1 == h2, h1 == hb r.1, g1 == g2,
            g1 == hs r.1]))
    pure (t1 :: t2 :: t3 :: t4 :: ts))

/-- One pass of the loop of `test_basic_with_assign_template`, /repo/test/test_basic_template.hpp:147-189. -/
def withAssign (S : Setup K V Rep F) (u : Kit K V Str) (n : Nat) (it : K) : M (St Rep F) (List Bool) :=
  let f1 := n
  let f2 := n + 1
  let fr1 := n + 2
  let fr2 := n + 3
  let f3 := n + 4
  let f4 := n + 5
  let fr3 := n + 6
  let f5 := n + 7
  let v := u.make it
  local' S f1 (Core.make S.P S.Fa S.trk f1 (.copy v)) <|
  local' S f2 (do
    let r ← Core.get S.P S.Fa f1
    Core.make S.P S.Fa S.trk f2 (.copy r.2)) (do
    let r1 ← Core.get S.P S.Fa f1
    let r2 ← Core.get S.P S.Fa f2
    let t3 ← Core.eq S.P S.Fa f1 f2
    let ts ← local' S fr1 (Core.make S.P S.Fa S.trk fr1 (.move v)) <|
      local' S fr2 (Core.make S.P S.Fa S.trk fr2 (.copy v)) (do
        let q1 ← Core.get S.P S.Fa fr1
        let q2 ← Core.get S.P S.Fa fr2
        let ts ← local' S f3 (Core.make S.P S.Fa S.trk f3 (.key u.key0)) <|
          local' S f4 (Core.make S.P S.Fa S.trk f4 (.key u.key0)) (do
            Core.assignVal S.P S.Fa S.trk f3 (.copy v)
            let r ← Core.get S.P S.Fa f1
            Core.assignVal S.P S.Fa S.trk f4 (.copy r.2)
            let p2 ← Core.get S.P S.Fa f2
            let p3 ← Core.get S.P S.Fa f3
            let t8 ← Core.eq S.P S.Fa f2 f3
            let ts ← local' S fr3 (Core.make S.P S.Fa S.trk fr3 (.key u.key0)) (do
              Core.assignVal S.P S.Fa S.trk fr3 (.move (u.make it))
              let q3 ← Core.get S.P S.Fa fr3
              let o ← withStream u.empty (write S (fun str v => (u.ins str v, true)) f1)
              local' S f5 (Core.make S.P S.Fa S.trk f5 (.key u.key0)) (do
                let _ ← withStream o.2 (extract S u.ext f5)
                let t10 ← Core.eq S.P S.Fa f5 f1
                pure [q3.2 == u.make it, t10]))
            pure ((p2.2 == v) :: (p3.2 == v) :: t8 :: ts))
        pure ((q1.2 == v) :: (q2.2 == v) :: ts))
    pure ((r1.2 == v) :: (r2.2 == v) :: t3 :: ts))

/-- A comparison in the program.  (The user's program, no code of the library.) -/
def comparing {Rep F : Type} (f : St Rep F → Option Bool) : M (St Rep F) Bool := fun s =>
  match f s with
  | some b => .ok b s
  | none => .ub

/-- The six comparisons in the order of the test, /repo/test/test_basic_template.hpp:211-231. -/
def ops : List Cmp := [.eq, .lt, .ne, .gt, .ge, .le]

/-- The checks of one group: each comparison against that of the values, /repo/test/test_basic_template.hpp:211-231. -/
def checks {Rep F : Type} (f : Cmp → St Rep F → Option Bool) (g : Cmp → Bool) : List Cmp → M (St Rep F) (List Bool)
  | [] => pure []
  | op :: rest => do
    let b ← comparing (f op)
    let ts ← checks f g rest
    pure ((b == g op) :: ts)

/-- One pass of the loop of `test_basic_comparison_template`, /repo/test/test_basic_template.hpp:205-234, for two flyweights of
the same type.  `c` are the comparisons of the values that the library uses, `cmp` all six of them. -/
def comparison (S : Setup K V Rep F) (mk : K → V) (c : UserCmp V V) (cmp : Cmp → V → V → Bool) (n : Nat) (i1 i2 : K) :
    M (St Rep F) (List Bool) :=
  let f1 := n
  let f2 := n + 1
  let v1 := mk i1
  let v2 := mk i2
  local' S f1 (Core.make S.P S.Fa S.trk f1 (.copy v1)) <|
  local' S f2 (Core.make S.P S.Fa S.trk f2 (.copy v2)) (do
    let r ← Core.get S.P S.Fa f1
    let t1 ← checks (fun op s => compareSame S c op f1 f2 s) (fun op => cmp op r.2 v2) ops
    let t2 ← checks (fun op s => compare c op (.fly S.P S.Fa s f1) (.plain v2)) (fun op => cmp op r.2 v2) ops
    let t3 ← checks (fun op s => compare c op (.plain v1) (.fly S.P S.Fa s f2)) (fun op => cmp op r.2 v2) ops
    pure (t1 ++ t2 ++ t3))

/-- The loop of a test: the passes for all elements of a sequence, /repo/test/test_basic_template.hpp:50, 147, 205. -/
def loop {σ α β : Type} (body : α → M σ (List β)) : List α → M σ (List β)
  | [] => pure []
  | it :: rest => do
    let bs ← body it
    let bs' ← loop body rest
    pure (bs ++ bs')

/-- `test_basic_with_assign_template`, /repo/test/test_basic_template.hpp:136-190. -/
def basicWithAssign (S : Setup K V Rep F) (u : Kit K V Str) (hb hs : Nat → Nat) (n : Nat) (its : List K) :
    M (St Rep F) (List Bool) := do
  let bs ← loop (basic S u hb hs n) its
  let bs' ← loop (withAssign S u n) its
  pure (bs ++ bs')

/-! ## Proofs -/

section
omit [DecidableEq K] [DecidableEq V] [DecidableEq Str]

theorem write_then {S : Setup K V Rep F} {fl : Nat → Bool} {w : Store K V} {α : Type} {Q : α → St Rep F → Prop}
    {E : St Rep F → Prop} {str : Str} {ins : Str → V → Str} {f : Unit × Str → M (St Rep F) α} {x : Nat} {b : Bind K V}
    (hx : w x = some b) (h : Triple (View S fl w) (f ((), ins str b.val)) Q E) :
    Triple (View S fl w) (withStream str (write S (fun str v => (ins str v, true)) x) >>= f) Q E := by
  intro s hs
  have := h s hs
  have e : withStream str (write S (fun str v => (ins str v, true)) x) s = .ok ((), ins str b.val) s := by
    simp [withStream, write, bind, M.bind, lift, hs.get hx]
  simp only [bind, M.bind, e]
  exact this

theorem View.tick {S : Setup K V Rep F} {fl : Nat → Bool} {w : Store K V} {s : St Rep F} (h : View S fl w s) :
    View S fl w (ticked s) := by
  obtain ⟨t, h1, h2⟩ := h
  exact ⟨t, h1.setTick _, h2⟩

theorem View.flags {S : Setup K V Rep F} {fl : Nat → Bool} {w : Store K V} {s : St Rep F} (h : View S fl w s) :
    s.env.faults = fl := by
  obtain ⟨t, h1, _⟩ := h
  exact h1.faults

theorem extract_then {S : Setup K V Rep F} {mk : K → V} (R : Regular S mk) {fl : Nat → Bool} {w : Store K V} {α : Type}
    {Q : α → St Rep F → Prop} {E : St Rep F → Prop} {str : Str} {ext : Str → V → Extract Str V}
    {f : Unit × Str → M (St Rep F) α} {x : Nat} {b : Bind K V} {k : K} (hx : w x = some b)
    (he : (ext str b.val).val = some (mk k)) (hs : S.sp.supports (.copy (mk k)) = true)
    (h : ∀ a str', Triple (View S fl (upd w x (some ⟨a, k, mk k⟩))) (f ((), str')) Q E)
    (hE : ∀ s, View S fl w s → (∃ n, fl n = true) → E s) :
    Triple (View S fl w) (withStream str (extract S ext x) >>= f) Q E := by
  intro s hv
  simp only [bind, M.bind, withStream, extract_eq S ext x str s b.addr b.val (hv.get hx), he]
  by_cases hf : s.env.faults s.env.tick = true
  · rw [if_pos hf]
    exact hE _ (View.tick hv) ⟨_, by rw [← View.flags hv]; exact hf⟩
  · rw [if_neg hf]
    have := R.assignVal hx hs (R.copied hs) (ticked s) (View.tick hv)
    cases hm : Core.assignVal S.P S.Fa S.trk x (.copy (mk k)) (ticked s) with
    | ok a s' =>
      rw [hm] at this
      obtain ⟨a, ha⟩ := this
      exact h a _ s' ha
    | exc s' =>
      rw [hm] at this
      exact hE _ this.1 this.2
    | ub => rw [hm] at this; exact this

theorem View.within {S : Setup K V Rep F} {fl : Nat → Bool} {v w : Store K V} {L : List Nat}
    (h1 : ∀ y, y ∉ L → v y = w y) (h2 : ∀ y ∈ L, ∃ b, v y = some b) {s : St Rep F} (h : View S fl v s) :
    Within S fl w L s := ⟨v, h, h1, h2⟩

/-- A fact that holds in all states with a view. -/
theorem View.fact {S : Setup K V Rep F} {fl : Nat → Bool} {w : Store K V} {α : Type} {m : M (St Rep F) α}
    {Q : α → St Rep F → Prop} {E : St Rep F → Prop} {p : Prop} (h : ∀ s, View S fl w s → p)
    (h' : p → Triple (View S fl w) m Q E) : Triple (View S fl w) m Q E :=
  fun s hs => h' (h s hs) s hs

theorem local_make {S : Setup K V Rep F} {mk : K → V} (R : Regular S mk) {fl : Nat → Bool} {v w : Store K V} {α : Type}
    {L : List Nat} {x : Nat} {src : Src K V} {k : K} {rest : M (St Rep F) α} {Q : α → Prop}
    (hs : S.sp.supports src = true) (hk : S.sp.key0 src = k) (hx : x ∉ L) (hw : w x = none) (hv : v x = none)
    (h1 : ∀ y, y ∉ L → v y = w y) (h2 : ∀ y ∈ L, ∃ b, v y = some b)
    (h : ∀ a, Triple (View S fl (upd v x (some ⟨a, k, mk k⟩))) rest (fun r s => Q r ∧ Within S fl w (x :: L) s)
      (fun s => Within S fl w (x :: L) s ∧ ∃ n, fl n = true)) :
    Triple (View S fl v) (local' S x (Core.make S.P S.Fa S.trk x src) rest) (fun r s => Q r ∧ Within S fl w L s)
      (fun s => Within S fl w L s ∧ ∃ n, fl n = true) := by
  refine local_rule (I := fun b => ∃ a, b = ⟨a, k, mk k⟩) hx hw ?_ ?_
  · refine (R.make hv hs hk).conseq (fun _ h => h) ?_ fun s h => ⟨View.within h1 h2 h.1, h.2⟩
    rintro _ s ⟨a, ha⟩
    exact ⟨_, ⟨a, rfl⟩, ha⟩
  · rintro b ⟨a, rfl⟩
    exact h a

theorem local_copy {S : Setup K V Rep F} {fl : Nat → Bool} {v w : Store K V} {α : Type} {L : List Nat} {x y : Nat}
    {b : Bind K V} {rest : M (St Rep F) α} {Q : α → Prop} (hx : x ∉ L) (hw : w x = none) (hv : v x = none)
    (hy : v y = some b)
    (h : Triple (View S fl (upd v x (some b))) rest (fun r s => Q r ∧ Within S fl w (x :: L) s)
      (fun s => Within S fl w (x :: L) s ∧ ∃ n, fl n = true)) :
    Triple (View S fl v) (local' S x (Core.copy S.Fa S.trk x y) rest) (fun r s => Q r ∧ Within S fl w L s)
      (fun s => Within S fl w L s ∧ ∃ n, fl n = true) := by
  refine local_rule (I := fun c => c = b) hx hw ?_ ?_
  · intro s hs
    obtain ⟨s', h1, h2⟩ := hs.copy hv hy
    rw [h1]
    exact ⟨b, rfl, h2⟩
  · rintro _ rfl
    exact h

end

/-- All checks succeeded.  (No code of its own: used in statements and proofs.) -/
def Pass (bs : List Bool) : Prop := ∀ b ∈ bs, b = true

theorem basic_pass {S : Setup K V Rep F} {u : Kit K V Str} (R : Regular S u.make) (h0 : u.val0 = u.make u.key0)
    (hb hs : Nat → Nat) {fl : Nat → Bool} {w : Store K V} {n : Nat} (hn : ∀ i, w (n + i) = none) (it : K) :
    Triple (View S fl w) (basic S u hb hs n it) (fun r s => Pass r ∧ Within S fl w [] s)
      (fun s => Within S fl w [] s ∧ ∃ n, fl n = true) := by
  have e0 : w n = none := hn 0
  unfold basic
  refine local_make R (R.fromKey _).1 (R.fromKey _).2 (by simp) (hn 0) (hn 0) (by simp) (by simp) fun a1 => ?_
  refine local_make R (R.fromKey _).1 (R.fromKey _).2 (by simp) (hn 1) (by simp [upd, hn])
    (by intro y hy; simp at hy; simp [upd, hy]) (by simp [upd]) fun a2 => ?_
  refine local_copy (b := ⟨a1, it, u.make it⟩) (by simp) (hn 2) (by simp [upd, hn]) (by simp [upd]) ?_
  refine local_copy (b := ⟨a2, u.key0, u.make u.key0⟩) (by simp) (hn 3) (by simp [upd, hn]) (by simp [upd]) ?_
  refine getKey_then (b := ⟨a1, it, u.make it⟩) (by simp [upd]) ?_
  refine eq_then (b := ⟨a1, it, u.make it⟩) (c := ⟨a2, u.key0, u.make u.key0⟩) (by simp [upd]) (by simp [upd]) ?_
  refine get_then (b := ⟨a1, it, u.make it⟩) (by simp [upd]) ?_
  refine eq_then (b := ⟨a1, it, u.make it⟩) (c := ⟨a1, it, u.make it⟩) (by simp [upd]) (by simp [upd]) ?_
  refine eq_then (b := ⟨a2, u.key0, u.make u.key0⟩) (c := ⟨a2, u.key0, u.make u.key0⟩) (by simp [upd]) (by simp [upd]) ?_
  refine View.fact (p := a1 = a2 ↔ it = u.key0) (fun s hs => R.addr (b := ⟨a1, it, u.make it⟩)
    (c := ⟨a2, u.key0, u.make u.key0⟩) hs (x := n) (y := n + 1) (by simp [upd]) (by simp [upd])) fun h12 => ?_
  refine Triple.bind (R := fun r s => Pass r ∧ Within S fl w [n + 3, n + 2, n + 1, n] s) ?_ ?_
  · refine local_copy (b := ⟨a1, it, u.make it⟩) (by simp) (hn 4) (by simp [upd, hn]) (by simp [upd]) ?_
    refine local_copy (b := ⟨a2, u.key0, u.make u.key0⟩) (by simp) (hn 5) (by simp [upd, hn]) (by simp [upd]) ?_
    refine eq_then (b := ⟨a1, it, u.make it⟩) (c := ⟨a1, it, u.make it⟩) (by simp [upd]) (by simp [upd]) ?_
    refine eq_then (b := ⟨a2, u.key0, u.make u.key0⟩) (c := ⟨a2, u.key0, u.make u.key0⟩) (by simp [upd]) (by simp [upd]) ?_
    refine local_make R (R.fromKey _).1 (R.fromKey _).2 (by simp) (hn 6) (by simp [upd, hn])
      (by intro y hy; simp at hy; simp [upd, hy]) (by simp [upd]) fun a3 => ?_
    refine View.fact (p := a3 = a2) (fun s hs => (R.addr (b := ⟨a3, u.key0, u.make u.key0⟩)
      (c := ⟨a2, u.key0, u.make u.key0⟩) hs (x := n + 6) (y := n + 1) (by simp [upd]) (by simp [upd])).2 rfl) fun h32 => ?_
    subst h32
    refine eq_then (b := ⟨a3, u.key0, u.make u.key0⟩) (c := ⟨a3, u.key0, u.make u.key0⟩) (by simp [upd]) (by simp [upd]) ?_
    refine assign_then (b := ⟨a1, it, u.make it⟩) (d := ⟨a1, it, u.make it⟩) (by simp [upd]) (by simp [upd]) ?_
    refine eq_then (b := ⟨a1, it, u.make it⟩) (c := ⟨a1, it, u.make it⟩) (by simp [upd]) (by simp [upd]) ?_
    refine assign_then (b := ⟨a3, u.key0, u.make u.key0⟩) (d := ⟨a1, it, u.make it⟩) (by simp [upd]) (by simp [upd]) ?_
    refine eq_then (b := ⟨a3, u.key0, u.make u.key0⟩) (c := ⟨a3, u.key0, u.make u.key0⟩) (by simp [upd]) (by simp [upd]) ?_
    refine assign_then (b := ⟨a1, it, u.make it⟩) (d := ⟨a3, u.key0, u.make u.key0⟩) (by simp [upd]) (by simp [upd]) ?_
    refine eq_then (b := ⟨a1, it, u.make it⟩) (c := ⟨a1, it, u.make it⟩) (by simp [upd]) (by simp [upd]) ?_
    refine get_then (b := ⟨a1, it, u.make it⟩) (by simp [upd]) ?_
    refine get_then (b := ⟨a1, it, u.make it⟩) (by simp [upd]) ?_
    refine swap_then (b := ⟨a1, it, u.make it⟩) (c := ⟨a1, it, u.make it⟩) (by simp [upd]) (by simp [upd]) ?_
    refine eq_then (b := ⟨a1, it, u.make it⟩) (c := ⟨a1, it, u.make it⟩) (by simp [upd]) (by simp [upd]) ?_
    refine swap_then (b := ⟨a1, it, u.make it⟩) (c := ⟨a3, u.key0, u.make u.key0⟩) (by simp [upd]) (by simp [upd]) ?_
    refine eq_then (b := ⟨a3, u.key0, u.make u.key0⟩) (c := ⟨a3, u.key0, u.make u.key0⟩) (by simp [upd]) (by simp [upd]) ?_
    refine eq_then (b := ⟨a1, it, u.make it⟩) (c := ⟨a1, it, u.make it⟩) (by simp [upd]) (by simp [upd]) ?_
    refine swap_then (b := ⟨a3, u.key0, u.make u.key0⟩) (c := ⟨a1, it, u.make it⟩) (by simp [upd]) (by simp [upd]) ?_
    refine eq_then (b := ⟨a1, it, u.make it⟩) (c := ⟨a1, it, u.make it⟩) (by simp [upd]) (by simp [upd]) ?_
    refine eq_then (b := ⟨a3, u.key0, u.make u.key0⟩) (c := ⟨a3, u.key0, u.make u.key0⟩) (by simp [upd]) (by simp [upd]) ?_
    refine write_then (b := ⟨a1, it, u.make it⟩) (by simp [upd]) ?_
    refine get_then (b := ⟨a1, it, u.make it⟩) (by simp [upd]) ?_
    refine hash_then (b := ⟨a1, it, u.make it⟩) (by simp [upd]) ?_
    refine hash_then (b := ⟨a1, it, u.make it⟩) (by simp [upd]) ?_
    refine hash_then (b := ⟨a1, it, u.make it⟩) (by simp [upd]) ?_
    refine hash_then (b := ⟨a1, it, u.make it⟩) (by simp [upd]) ?_
    refine Triple.ret fun s hs => ⟨by simp [Pass], View.within ?_ ?_ hs⟩
    · intro y hy
      simp at hy
      simp [upd, hy]
    · simp [upd]
  · intro ts
    refine Triple.ret fun s hs => ⟨?_, hs.2⟩
    have : (a1 == a2) = (u.make it == u.val0) := by
      rw [h0, Bool.eq_iff_iff, beq_iff_eq, beq_iff_eq, h12]
      exact ⟨fun h => by rw [h], R.inj _ _⟩
    simpa [Pass, this] using hs.1

omit [DecidableEq K] [DecidableEq Str] in
theorem withAssign_pass {S : Setup K V Rep F} {u : Kit K V Str} (R : Regular S u.make)
    (hc : ∀ k, S.sp.supports (.copy (u.make k)) = true) (hm : ∀ k, S.sp.supports (.move (u.make k)) = true)
    {fl : Nat → Bool} {w : Store K V} {n : Nat} (hn : ∀ i, w (n + i) = none) (it : K)
    (hr : ∀ v, (u.ext (u.ins u.empty (u.make it)) v).val = some (u.make it)) :
    Triple (View S fl w) (withAssign S u n it) (fun r s => Pass r ∧ Within S fl w [] s)
      (fun s => Within S fl w [] s ∧ ∃ n, fl n = true) := by
  have e0 : w n = none := hn 0
  unfold withAssign
  refine local_make R (hc it) (R.copied (hc it)) (by simp) (hn 0) (hn 0) (by simp) (by simp) fun a1 => ?_
  refine local_rule (I := fun b => b = ⟨a1, it, u.make it⟩) (by simp) (hn 1) ?_ ?_
  · refine get_then (b := ⟨a1, it, u.make it⟩) (by simp [upd]) ?_
    refine (R.make (by simp [upd, hn]) (hc it) (R.copied (hc it))).conseq (fun _ h => h) ?_ fun s h =>
      ⟨View.within (by intro y hy; simp at hy; simp [upd, hy]) (by simp [upd]) h.1, h.2⟩
    rintro _ s ⟨a, ha⟩
    have : a = a1 := (R.addr (b := ⟨a, it, u.make it⟩) (c := ⟨a1, it, u.make it⟩) ha (x := n + 1) (y := n) (by simp [upd])
      (by simp [upd])).2 rfl
    subst this
    exact ⟨_, rfl, ha⟩
  rintro _ rfl
  refine get_then (b := ⟨a1, it, u.make it⟩) (by simp [upd]) ?_
  refine get_then (b := ⟨a1, it, u.make it⟩) (by simp [upd]) ?_
  refine eq_then (b := ⟨a1, it, u.make it⟩) (c := ⟨a1, it, u.make it⟩) (by simp [upd]) (by simp [upd]) ?_
  refine Triple.bind (R := fun r s => Pass r ∧ Within S fl w [n + 1, n] s) ?_ fun ts =>
    Triple.ret fun s hs => ⟨by simpa [Pass] using hs.1, hs.2⟩
  refine local_make R (hm it) (R.moved (hm it)) (by simp) (hn 2) (by simp [upd, hn])
    (by intro y hy; simp at hy; simp [upd, hy]) (by simp [upd]) fun a2 => ?_
  refine View.fact (p := a2 = a1) (fun s hs => (R.addr (b := ⟨a2, it, u.make it⟩)
    (c := ⟨a1, it, u.make it⟩) hs (x := n + 2) (y := n) (by simp [upd]) (by simp [upd])).2 rfl) fun h => ?_
  subst h
  refine local_make R (hc it) (R.copied (hc it)) (by simp) (hn 3) (by simp [upd, hn])
    (by intro y hy; simp at hy; simp [upd, hy]) (by simp [upd]) fun a3 => ?_
  refine View.fact (p := a3 = a2) (fun s hs => (R.addr (b := ⟨a3, it, u.make it⟩)
    (c := ⟨a2, it, u.make it⟩) hs (x := n + 3) (y := n) (by simp [upd]) (by simp [upd])).2 rfl) fun h => ?_
  subst h
  refine get_then (b := ⟨a3, it, u.make it⟩) (by simp [upd]) ?_
  refine get_then (b := ⟨a3, it, u.make it⟩) (by simp [upd]) ?_
  refine Triple.bind (R := fun r s => Pass r ∧ Within S fl w [n + 3, n + 2, n + 1, n] s) ?_ fun ts =>
    Triple.ret fun s hs => ⟨by simpa [Pass] using hs.1, hs.2⟩
  refine local_make R (R.fromKey _).1 (R.fromKey _).2 (by simp) (hn 4) (by simp [upd, hn])
    (by intro y hy; simp at hy; simp [upd, hy]) (by simp [upd]) fun d3 => ?_
  refine local_make R (R.fromKey _).1 (R.fromKey _).2 (by simp) (hn 5) (by simp [upd, hn])
    (by intro y hy; simp at hy; simp [upd, hy]) (by simp [upd]) fun d4 => ?_
  refine assignVal_then R (x := n + 4) (d := ⟨d3, u.key0, u.make u.key0⟩) (by simp [upd]) (hc it) (R.copied (hc it)) (fun a4 => ?_) fun s hs hf =>
    ⟨View.within (by intro y hy; simp at hy; simp [upd, hy]) (by simp [upd]) hs, hf⟩
  refine View.fact (p := a4 = a3) (fun s hs => (R.addr (b := ⟨a4, it, u.make it⟩)
    (c := ⟨a3, it, u.make it⟩) hs (x := n + 4) (y := n) (by simp [upd]) (by simp [upd])).2 rfl) fun h => ?_
  subst h
  refine get_then (b := ⟨a4, it, u.make it⟩) (by simp [upd]) ?_
  refine assignVal_then R (x := n + 5) (d := ⟨d4, u.key0, u.make u.key0⟩) (by simp [upd]) (hc it) (R.copied (hc it)) (fun a5 => ?_) fun s hs hf =>
    ⟨View.within (by intro y hy; simp at hy; simp [upd, hy]) (by simp [upd]) hs, hf⟩
  refine View.fact (p := a5 = a4) (fun s hs => (R.addr (b := ⟨a5, it, u.make it⟩)
    (c := ⟨a4, it, u.make it⟩) hs (x := n + 5) (y := n) (by simp [upd]) (by simp [upd])).2 rfl) fun h => ?_
  subst h
  refine get_then (b := ⟨a5, it, u.make it⟩) (by simp [upd]) ?_
  refine get_then (b := ⟨a5, it, u.make it⟩) (by simp [upd]) ?_
  refine eq_then (b := ⟨a5, it, u.make it⟩) (c := ⟨a5, it, u.make it⟩) (by simp [upd]) (by simp [upd]) ?_
  refine Triple.bind (R := fun r s => Pass r ∧ Within S fl w [n + 5, n + 4, n + 3, n + 2, n + 1, n] s) ?_ fun ts =>
    Triple.ret fun s hs => ⟨by simpa [Pass] using hs.1, hs.2⟩
  refine local_make R (R.fromKey _).1 (R.fromKey _).2 (by simp) (hn 6) (by simp [upd, hn])
    (by intro y hy; simp at hy; simp [upd, hy]) (by simp [upd]) fun d6 => ?_
  refine assignVal_then R (x := n + 6) (d := ⟨d6, u.key0, u.make u.key0⟩) (by simp [upd]) (hm it) (R.moved (hm it)) (fun a6 => ?_) fun s hs hf =>
    ⟨View.within (by intro y hy; simp at hy; simp [upd, hy]) (by simp [upd]) hs, hf⟩
  refine View.fact (p := a6 = a5) (fun s hs => (R.addr (b := ⟨a6, it, u.make it⟩)
    (c := ⟨a5, it, u.make it⟩) hs (x := n + 6) (y := n) (by simp [upd]) (by simp [upd])).2 rfl) fun h => ?_
  subst h
  refine get_then (b := ⟨a6, it, u.make it⟩) (by simp [upd]) ?_
  refine write_then (b := ⟨a6, it, u.make it⟩) (by simp [upd]) ?_
  refine local_make R (R.fromKey _).1 (R.fromKey _).2 (by simp) (hn 7) (by simp [upd, hn])
    (by intro y hy; simp at hy; simp [upd, hy]) (by simp [upd]) fun d7 => ?_
  refine extract_then R (b := ⟨d7, u.key0, u.make u.key0⟩) (k := it) (by simp [upd]) (hr _) (hc it) (fun a7 str => ?_) fun s hs hf =>
    ⟨View.within (by intro y hy; simp at hy; simp [upd, hy]) (by simp [upd]) hs, hf⟩
  refine View.fact (p := a7 = a6) (fun s hs => (R.addr (b := ⟨a7, it, u.make it⟩)
    (c := ⟨a6, it, u.make it⟩) hs (x := n + 7) (y := n) (by simp [upd]) (by simp [upd])).2 rfl) fun h => ?_
  subst h
  refine eq_then (b := ⟨a7, it, u.make it⟩) (c := ⟨a7, it, u.make it⟩) (by simp [upd]) (by simp [upd]) ?_
  refine Triple.ret fun s hs => ⟨by simp [Pass], View.within ?_ ?_ hs⟩
  · intro y hy
    simp at hy
    simp [upd, hy]
  · simp [upd]

section
omit [DecidableEq K] [DecidableEq V]

theorem checks_pass {S : Setup K V Rep F} {fl : Nat → Bool} {w : Store K V} {α : Type} {Q : α → St Rep F → Prop}
    {E : St Rep F → Prop} {f : Cmp → St Rep F → Option Bool} {g : Cmp → Bool} (l : List Cmp)
    (h : ∀ op s, View S fl w s → f op s = some (g op)) {k : List Bool → M (St Rep F) α}
    (hk : ∀ bs, Pass bs → Triple (View S fl w) (k bs) Q E) : Triple (View S fl w) (checks f g l >>= k) Q E := by
  refine Triple.bind (R := fun bs s => Pass bs ∧ View S fl w s) ?_ fun bs s hs => hk bs hs.1 s hs.2
  induction l with
  | nil => exact Triple.ret fun s hs => ⟨by simp [Pass], hs⟩
  | cons op l ih =>
    unfold checks
    refine Triple.bind (R := fun b s => b = g op ∧ View S fl w s) ?_ fun b => ?_
    · intro s hs
      simp only [comparing, h op s hs]
      exact ⟨trivial, hs⟩
    · refine Triple.bind (R := fun bs s => Pass bs ∧ b = g op ∧ View S fl w s) ?_ fun bs => ?_
      · intro s hs
        have := ih s hs.2
        cases hm : checks f g l s <;> rw [hm] at this
        · exact ⟨this.1, hs.1, this.2⟩
        · exact this
        · exact this
      · refine Triple.ret fun s hs => ⟨?_, hs.2.2⟩
        intro c hc
        rcases List.mem_cons.1 hc with rfl | hc
        · simp [hs.2.1]
        · exact hs.1 c hc

/-- The comparisons of the values are those used by the library and related in the usual way.  (No code of its own: used in
statements and proofs.) -/
structure Usual (c : UserCmp V V) (cmp : Cmp → V → V → Bool) : Prop where
  used : c = ⟨cmp .eq, cmp .lt, cmp .lt⟩
  eq : ∀ v w, cmp .eq v w = true ↔ v = w
  ne : ∀ v w, cmp .ne v w = !cmp .eq v w
  gt : ∀ v w, cmp .gt v w = cmp .lt w v
  ge : ∀ v w, cmp .ge v w = !cmp .lt v w
  le : ∀ v w, cmp .le v w = !cmp .lt w v

theorem Usual.compare {c : UserCmp V V} {cmp : Cmp → V → V → Bool} (h : Usual c cmp) {x y : Operand V} {v w : V}
    (hx : x.read = some v) (hy : y.read = some w) (op : Cmp) : Operators.compare c op x y = some (cmp op v w) := by
  rw [compare_read c op hx hy, h.used]
  cases op <;> simp [h.ne, h.gt, h.ge, h.le]

theorem View.read {S : Setup K V Rep F} {fl : Nat → Bool} {w : Store K V} {s : St Rep F} (h : View S fl w s) {x : Nat}
    {b : Bind K V} (hx : w x = some b) : (Operand.fly S.P S.Fa s x).read = some b.val :=
  ((h.sees x b.addr b.key b.val).2 hx).read

theorem comparison_pass {S : Setup K V Rep F} {mk : K → V} (R : Regular S mk)
    (hc : ∀ k, S.sp.supports (.copy (mk k)) = true) {c : UserCmp V V} {cmp : Cmp → V → V → Bool} (hu : Usual c cmp)
    {fl : Nat → Bool} {w : Store K V} {n : Nat} (hn : ∀ i, w (n + i) = none) (i1 i2 : K) :
    Triple (View S fl w) (comparison S mk c cmp n i1 i2) (fun r s => Pass r ∧ Within S fl w [] s)
      (fun s => Within S fl w [] s ∧ ∃ n, fl n = true) := by
  have e0 : w n = none := hn 0
  unfold comparison
  refine local_make R (hc i1) (R.copied (hc i1)) (by simp) (hn 0) (hn 0) (by simp) (by simp) fun a1 => ?_
  refine local_make R (hc i2) (R.copied (hc i2)) (by simp) (hn 1) (by simp [upd, hn])
    (by intro y hy; simp at hy; simp [upd, hy]) (by simp [upd]) fun a2 => ?_
  refine get_then (b := ⟨a1, i1, mk i1⟩) (by simp [upd]) ?_
  refine View.fact (p := a1 = a2 ↔ i1 = i2) (fun s hs => R.addr (b := ⟨a1, i1, mk i1⟩) (c := ⟨a2, i2, mk i2⟩) hs (x := n)
    (y := n + 1) (by simp [upd]) (by simp [upd])) fun h12 => ?_
  have hx : ∀ s, View S fl (upd (upd w n (some ⟨a1, i1, mk i1⟩)) (n + 1) (some ⟨a2, i2, mk i2⟩)) s →
      (Operand.fly S.P S.Fa s n).read = some (mk i1) := fun s hs =>
    View.read hs (b := ⟨a1, i1, mk i1⟩) (by simp [upd])
  have hy : ∀ s, View S fl (upd (upd w n (some ⟨a1, i1, mk i1⟩)) (n + 1) (some ⟨a2, i2, mk i2⟩)) s →
      (Operand.fly S.P S.Fa s (n + 1)).read = some (mk i2) := fun s hs =>
    View.read hs (b := ⟨a2, i2, mk i2⟩) (by simp [upd])
  refine checks_pass ops ?_ fun t1 h1 => checks_pass ops ?_ fun t2 h2 => checks_pass ops ?_ fun t3 h3 => ?_
  · intro op s hs
    have he : (a1 == a2) = cmp .eq (mk i1) (mk i2) := by
      rw [Bool.eq_iff_iff, beq_iff_eq, h12, hu.eq]
      exact ⟨fun h => by rw [h], R.inj _ _⟩
    have heq : Core.eq S.P S.Fa n (n + 1) s = .ok (a1 == a2) s := by
      simp only [Core.eq, bind, M.bind, hs.get (x := n) (b := ⟨a1, i1, mk i1⟩) (by simp [upd]),
        hs.get (x := n + 1) (b := ⟨a2, i2, mk i2⟩) (by simp [upd])]
      rfl
    cases op
    · simp only [compareSame, heq, he]
    · simp only [compareSame, heq, he, hu.ne]
    · exact hu.compare (hx s hs) (hy s hs) .lt
    · exact hu.compare (hx s hs) (hy s hs) .gt
    · exact hu.compare (hx s hs) (hy s hs) .ge
    · exact hu.compare (hx s hs) (hy s hs) .le
  · exact fun op s hs => hu.compare (hx s hs) rfl op
  · exact fun op s hs => hu.compare rfl (hy s hs) op
  · refine Triple.ret fun s hs => ⟨?_, View.within ?_ ?_ hs⟩
    · intro b hb
      simp only [List.mem_append] at hb
      rcases hb with (hb | hb) | hb
      · exact h1 b hb
      · exact h2 b hb
      · exact h3 b hb
    · intro y hy
      simp at hy
      simp [upd, hy]
    · simp [upd]

theorem loop_pass {S : Setup K V Rep F} {fl : Nat → Bool} {w : Store K V} {α : Type} {body : α → M (St Rep F) (List Bool)}
    (l : List α) (h : ∀ it ∈ l, Triple (View S fl w) (body it) (fun r s => Pass r ∧ Within S fl w [] s)
      (fun s => Within S fl w [] s ∧ ∃ n, fl n = true)) :
    Triple (View S fl w) (loop body l) (fun r s => Pass r ∧ View S fl w s) (fun s => View S fl w s ∧ ∃ n, fl n = true) := by
  induction l with
  | nil => exact Triple.ret fun s hs => ⟨by simp [Pass], hs⟩
  | cons it l ih =>
    unfold loop
    refine Triple.bind (R := fun r s => Pass r ∧ View S fl w s)
      ((h it (by simp)).conseq (fun _ h => h) (fun _ _ h => ⟨h.1, h.2.nil⟩) fun _ h => ⟨h.1.nil, h.2⟩) fun bs => ?_
    refine Triple.pull fun hbs => Triple.bind (ih fun it hit => h it (by simp [hit])) fun bs' => ?_
    refine Triple.ret fun s hs => ⟨?_, hs.2⟩
    intro b hb
    rcases List.mem_append.1 hb with hb | hb
    · exact hbs b hb
    · exact hs.1 b hb

end

end Verif.Tests

import Verif.CFacCycle

/-!
# `concurrent_factory`: collectors and threads along a cycle of types containing each other
-/

set_option autoImplicit false

namespace Verif.CFac
open Verif.Conc (Fw Cfg CfgOk pick acquire unlock)
variable {K : Type} {cfg : Cfg K} {calls has : Nat → Nat → Prop}

/-- A thread outside the library makes a flyweight whose value is new, and is back. -/
theorem make (hl : cfg.locking = true) (htr : cfg.tracks = true) {n : Nat} {gcs : List Nat} {s : St K}
    (hr : Reachable cfg calls has n gcs s) {t : Nat} (ht : s.thr[t]? = some []) (c : Nat) (k : K) (mask : List Bool)
    (hhas : ∀ w ∈ (pick mask s.objs).1, has c w.c) (hlock : s.lock c = none) (hvis : s.vis s.next = none) (hf : find cfg s c k = none) :
    ∃ s', Reachable cfg calls has n gcs s' ∧ s'.thr = s.thr ∧ s'.lock = s.lock ∧ s'.vis = s.vis ∧ s'.next = s.next + 1 ∧
      s'.ents = setEnt s.ents s.next (some ⟨c, k, true, (pick mask s.objs).1, 1, 1⟩) ∧
      s'.objs = ⟨s.next, c, k⟩ :: (pick mask s.objs).2 := by
  obtain ⟨hlt, hget⟩ := List.getElem?_eq_some_iff.1 ht
  have set0 : ∀ a : List (Frame K), (s.thr.set t a)[t]? = some a := fun a => by rw [List.getElem?_set_self hlt]
  let lock' : Nat → Option (Nat × Nat) := fun i => if i = c then some (t, 1) else s.lock i
  let loc := (pick mask s.objs).1
  let objs' := (pick mask s.objs).2
  let ent (r tr : Int) := setEnt s.ents s.next (some ⟨c, k, true, loc, r, tr⟩)
  have entAt : ∀ r tr, ent r tr s.next = some ⟨c, k, true, loc, r, tr⟩ := fun r tr => by simp [ent, setEnt]
  have entSet : ∀ r tr r' tr', setEnt (ent r tr) s.next (some ⟨c, k, true, loc, r', tr'⟩) = ent r' tr' := fun r tr r' tr' => by
    funext i
    simp only [ent, setEnt]
    split <;> rfl
  let vis' := setVis s.vis s.next (some t)
  have visSet : setVis vis' s.next none = s.vis := by
    funext i
    simp only [vis', setVis]
    split
    · rename_i h; rw [h, hvis]
    · rfl
  let s1 : St K := { s with objs := objs', thr := s.thr.set t [.insLock c k loc true] }
  let s2 : St K := { s with objs := objs', lock := lock', thr := s.thr.set t [.insHash c k loc true] }
  let s3 : St K := { s with objs := objs', lock := lock', thr := s.thr.set t [.insFind c k loc true] }
  let s4 : St K := { s with objs := objs', lock := lock', ents := ent 0 0, vis := vis', next := s.next + 1, thr := s.thr.set t [.insVisit c k s.next []] }
  let s5 : St K := { s with objs := objs', lock := lock', ents := ent 0 0, vis := vis', next := s.next + 1, thr := s.thr.set t [.insAddRef c k s.next []] }
  let s6 : St K := { s with objs := objs', lock := lock', ents := ent 1 0, vis := vis', next := s.next + 1, thr := s.thr.set t [.insLeave c k s.next []] }
  let s7 : St K := { s with objs := objs', lock := lock', ents := ent 1 0, next := s.next + 1, thr := s.thr.set t [.insTrack c k s.next] }
  let s8 : St K := { s with objs := objs', lock := lock', ents := ent 1 1, next := s.next + 1, thr := s.thr.set t [.insUnlock c k s.next] }
  let s9 : St K := { s with objs := ⟨s.next, c, k⟩ :: objs', ents := ent 1 1, next := s.next + 1, thr := s.thr.set t [] }
  have t1 : s1.thr[t]? = some [.insLock c k loc true] := set0 _
  have t2 : s2.thr[t]? = some [.insHash c k loc true] := set0 _
  have t3 : s3.thr[t]? = some [.insFind c k loc true] := set0 _
  have t4 : s4.thr[t]? = some [.insVisit c k s.next []] := set0 _
  have t5 : s5.thr[t]? = some [.insAddRef c k s.next []] := set0 _
  have t6 : s6.thr[t]? = some [.insLeave c k s.next []] := set0 _
  have t7 : s7.thr[t]? = some [.insTrack c k s.next] := set0 _
  have t8 : s8.thr[t]? = some [.insUnlock c k s.next] := set0 _
  have r1 : Reachable cfg calls has n gcs s1 := by
    refine .step (a := .create c k mask true) hr ht ⟨hhas, fun _ _ _ _ _ h => by cases h⟩ ?_
    simp [step, ht, act, inUser, s1, loc, objs']
  have r2 : Reachable cfg calls has n gcs s2 := by
    refine .step (a := .run) r1 t1 trivial ?_
    have ha : acquire cfg s1.lock t c = some lock' := by simp [acquire, hl, s1, hlock, lock']
    simp only [step, t1, act, lib, ha]
    simp [s1, s2]
  have r3 : Reachable cfg calls has n gcs s3 := by
    refine .step (a := .run) r2 t2 trivial ?_
    simp only [step, t2, act, lib]
    simp [s2, s3]
  have r4 : Reachable cfg calls has n gcs s4 := by
    refine .step (a := .run) r3 t3 trivial ?_
    have hf' : find cfg s3 c k = none := hf
    simp only [step, t3, act, lib, hf']
    simp [s3, s4, ent, vis', loc]
  have r5 : Reachable cfg calls has n gcs s5 := by
    refine .step (a := .run) r4 t4 trivial ?_
    have he : s4.ents s.next = some ⟨c, k, true, loc, 0, 0⟩ := entAt 0 0
    simp only [step, t4, act, lib, he]
    simp [s4, s5]
  have r6 : Reachable cfg calls has n gcs s6 := by
    refine .step (a := .run) r5 t5 trivial ?_
    have he : s5.ents s.next = some ⟨c, k, true, loc, 0, 0⟩ := entAt 0 0
    simp only [step, t5, act, lib, he]
    simp [s5, s6, entSet]
  have r7 : Reachable cfg calls has n gcs s7 := by
    refine .step (a := .run) r6 t6 trivial ?_
    simp only [step, t6, act, lib]
    simp [s6, s7, visSet]
  have r8 : Reachable cfg calls has n gcs s8 := by
    refine .step (a := .run) r7 t7 trivial ?_
    have he : s7.ents s.next = some ⟨c, k, true, loc, 1, 0⟩ := entAt 1 0
    simp only [step, t7, act, lib, he]
    simp [s7, s8, entSet, htr]
  have r9 : Reachable cfg calls has n gcs s9 := by
    refine .step (a := .run) r8 t8 trivial ?_
    have hu : unlock cfg s8.lock t c = some s.lock := by
      simp only [unlock, hl, s8, lock']
      simp
      funext i
      split
      · rename_i h; rw [h, hlock]
      · rfl
    simp only [step, t8, act, lib, hu]
    simp [s8, s9]
  refine ⟨s9, r9, ?_, rfl, rfl, rfl, rfl, rfl⟩
  show s.thr.set t [] = s.thr
  rw [← hget, List.set_getElem_self]

/-- A thread outside the library destroys the last flyweight object of a value. -/
theorem unmake (hl : cfg.locking = true) (htr : cfg.tracks = true) {n : Nat} {gcs : List Nat} {s : St K}
    (hr : Reachable cfg calls has n gcs s) {t : Nat} (ht : s.thr[t]? = some []) {w : Fw K} (hobjs : s.objs = [w])
    (hlock : s.lock w.c = none) {x : Ent K} (hx : s.ents w.h = some x) (hx1 : x.ref = 1) (hx2 : x.tref = 1) :
    ∃ s', Reachable cfg calls has n gcs s' ∧ s'.thr = s.thr ∧ s'.lock = s.lock ∧ s'.vis = s.vis ∧ s'.next = s.next ∧
      s'.ents = setEnt s.ents w.h (some { x with ref := 0, tref := 0 }) ∧ s'.objs = [] := by
  obtain ⟨hlt, hget⟩ := List.getElem?_eq_some_iff.1 ht
  have set0 : ∀ a : List (Frame K), (s.thr.set t a)[t]? = some a := fun a => by rw [List.getElem?_set_self hlt]
  let lock' : Nat → Option (Nat × Nat) := fun i => if i = w.c then some (t, 1) else s.lock i
  have hp : pick [true] s.objs = ([w], []) := by rw [hobjs]; rfl
  let ent (r tr : Int) := setEnt s.ents w.h (some { x with ref := r, tref := tr })
  have entAt : ∀ r tr, ent r tr w.h = some { x with ref := r, tref := tr } := fun r tr => by simp [ent, setEnt]
  have entSet : ∀ r tr r' tr', setEnt (ent r tr) w.h (some { x with ref := r', tref := tr' }) = ent r' tr' := fun r tr r' tr' => by
    funext i
    simp only [ent, setEnt]
    split <;> rfl
  let s1 : St K := { s with objs := [], thr := s.thr.set t [.rel w] }
  let s2 : St K := { s with objs := [], ents := ent 1 0, thr := s.thr.set t [.relLock w] }
  let s3 : St K := { s with objs := [], ents := ent 1 0, lock := lock', thr := s.thr.set t [.relCheck w] }
  let s4 : St K := { s with objs := [], ents := ent 1 0, lock := lock', thr := s.thr.set t [.relUnlock w] }
  let s5 : St K := { s with objs := [], ents := ent 1 0, thr := s.thr.set t [.relDec w] }
  let s6 : St K := { s with objs := [], ents := ent 0 0, thr := s.thr.set t [] }
  have t1 : s1.thr[t]? = some [.rel w] := set0 _
  have t2 : s2.thr[t]? = some [.relLock w] := set0 _
  have t3 : s3.thr[t]? = some [.relCheck w] := set0 _
  have t4 : s4.thr[t]? = some [.relUnlock w] := set0 _
  have t5 : s5.thr[t]? = some [.relDec w] := set0 _
  have r1 : Reachable cfg calls has n gcs s1 := by
    refine .step (a := .destroy [true]) hr ht (fun _ _ _ _ _ h => by cases h) ?_
    simp [step, ht, act, inUser, s1, hp]
  have r2 : Reachable cfg calls has n gcs s2 := by
    refine .step (a := .run) r1 t1 trivial ?_
    have he : s1.ents w.h = some x := hx
    simp only [step, t1, act, lib, he]
    simp [s1, s2, htr, hx2, ent, ← hx1]
  have r3 : Reachable cfg calls has n gcs s3 := by
    refine .step (a := .run) r2 t2 trivial ?_
    have ha : acquire cfg s2.lock t w.c = some lock' := by simp [acquire, hl, s2, hlock, lock']
    simp only [step, t2, act, lib, ha]
    simp [s2, s3]
  have r4 : Reachable cfg calls has n gcs s4 := by
    refine .step (a := .run) r3 t3 trivial ?_
    have he : s3.ents w.h = some { x with ref := 1, tref := 0 } := entAt 1 0
    simp only [step, t3, act, lib, he]
    simp [s3, s4]
  have r5 : Reachable cfg calls has n gcs s5 := by
    refine .step (a := .run) r4 t4 trivial ?_
    have hu : unlock cfg s4.lock t w.c = some s.lock := by
      simp only [unlock, hl, s4, lock']
      simp
      funext i
      split
      · rename_i h; rw [h, hlock]
      · rfl
    simp only [step, t4, act, lib, hu]
    simp [s4, s5]
  have r6 : Reachable cfg calls has n gcs s6 := by
    refine .step (a := .run) r5 t5 trivial ?_
    have he : s5.ents w.h = some { x with ref := 1, tref := 0 } := entAt 1 0
    simp only [step, t5, act, lib, he]
    simp [s5, s6, entSet]
  refine ⟨s6, r6, ?_, rfl, rfl, rfl, rfl, rfl⟩
  show s.thr.set t [] = s.thr
  rw [← hget, List.set_getElem_self]

/-- A collector begins to destroy a value that contains the last flyweight of another, and gets to that flyweight's mutex. -/
theorem catch_ (htr : cfg.tracks = true) {n : Nat} {gcs : List Nat} {s : St K}
    (hr : Reachable cfg calls has n gcs s) {t c : Nat} (ht : s.thr[t]? = some [.gcIdle c]) {e : Nat} (hbound : e < s.next) {x y : Ent K} {w : Fw K}
    (hx : s.ents e = some x) (hx0 : x.core = c) (hx1 : x.ref = 0) (hx2 : x.kids = [w]) (hvis : s.vis e = none) (hne : w.h ≠ e)
    (hy : s.ents w.h = some y) (hy1 : y.tref = 1) :
    ∃ s' rest, Reachable cfg calls has n gcs s' ∧ s'.thr = s.thr.set t (.relLock w :: rest) ∧ s'.lock = s.lock ∧
      s'.vis = setVis s.vis e (some t) ∧ s'.next = s.next ∧
      s'.ents = setEnt (setEnt s.ents e (some { x with cted := false, kids := [] })) w.h (some { y with tref := 0 }) := by
  obtain ⟨hlt, hget⟩ := List.getElem?_eq_some_iff.1 ht
  have set0 : ∀ a : List (Frame K), (s.thr.set t a)[t]? = some a := fun a => by rw [List.getElem?_set_self hlt]
  have hmem : e ∈ elems s c := by simp [elems, hbound, hx, hx0]
  let pass : Frame K := .gcPass c s.next ((elems s c).filter (· ≠ e))
  let vis' := setVis s.vis e (some t)
  let s1 : St K := { s with thr := s.thr.set t [.gcPass c s.next (elems s c)] }
  let s2 : St K := { s with vis := vis', thr := s.thr.set t [.gcTest c e, pass] }
  let s3 : St K := { s with vis := vis', thr := s.thr.set t [.gcErase c e, pass] }
  let s4 : St K := { s with vis := vis', ents := setEnt s.ents e (some { x with cted := false, kids := [] }), thr := s.thr.set t [.rel w, .gcUnlink c e, pass] }
  let s5 : St K := { s with
    vis := vis', ents := setEnt (setEnt s.ents e (some { x with cted := false, kids := [] })) w.h (some { y with tref := 0 }),
    thr := s.thr.set t [.relLock w, .gcUnlink c e, pass] }
  have t1 : s1.thr[t]? = some [.gcPass c s.next (elems s c)] := set0 _
  have t2 : s2.thr[t]? = some [.gcTest c e, pass] := set0 _
  have t3 : s3.thr[t]? = some [.gcErase c e, pass] := set0 _
  have t4 : s4.thr[t]? = some [.rel w, .gcUnlink c e, pass] := set0 _
  have r1 : Reachable cfg calls has n gcs s1 := by
    refine .step (a := .run) hr ht trivial ?_
    simp only [step, ht, act, lib]
    rfl
  have r2 : Reachable cfg calls has n gcs s2 := by
    refine .step (a := .gcVisit e) r1 t1 trivial ?_
    have he : s1.ents e = some x := hx
    have hv : s1.vis e = none := hvis
    simp only [step, t1, act, he]
    rw [if_pos ⟨hx0, .inl hmem, hv⟩]
    simp [s1, s2, vis', pass]
  have r3 : Reachable cfg calls has n gcs s3 := by
    refine .step (a := .run) r2 t2 trivial ?_
    have he : s2.ents e = some x := hx
    simp only [step, t2, act, lib, he]
    simp [s2, s3, hx1]
  have r4 : Reachable cfg calls has n gcs s4 := by
    refine .step (a := .run) r3 t3 trivial ?_
    have he : s3.ents e = some x := hx
    simp only [step, t3, act, lib, he]
    simp [s3, s4, hx2]
  have r5 : Reachable cfg calls has n gcs s5 := by
    refine .step (a := .run) r4 t4 trivial ?_
    have he : s4.ents w.h = some y := by simpa [s4, setEnt, hne] using hy
    simp only [step, t4, act, lib, he]
    simp [s4, s5, htr, hy1]
  exact ⟨s5, _, r5, rfl, rfl, rfl, rfl, rfl⟩

theorem find_none_of' {s : St K} {c : Nat} {k : K} (h : ∀ e x, s.ents e = some x → x.core = c → cfg.eqv c x.key k = false) :
    find cfg s c k = none := by
  unfold find
  rw [List.find?_eq_none]
  intro e _
  cases he : s.ents e with
  | none => simp
  | some x =>
    by_cases hc : x.core = c
    · simp [hc, h e x he hc]
    · simp [hc]

theorem next_inj {n i j : Nat} (hi : i < n) (hj : j < n) (h : (i + 1) % n = (j + 1) % n) : i = j := by
  by_cases h1 : i + 1 = n <;> by_cases h2 : j + 1 = n
  · omega
  · rw [h1, Nat.mod_self, Nat.mod_eq_of_lt (by omega)] at h
    omega
  · rw [h2, Nat.mod_self, Nat.mod_eq_of_lt (by omega)] at h
    omega
  · rw [Nat.mod_eq_of_lt (by omega), Nat.mod_eq_of_lt (by omega)] at h
    omega

/-- For each pair of types before `m` there is a value of the first, no longer used, that contains the only flyweight of a value of
the second.  (No code
of its own: used in statements and proofs.) -/
structure Laid (a b : Nat → Nat) (k l : K) (n h m : Nat) (s : St K) : Prop where
  user : ∀ t, t < n → s.thr[t]? = some []
  coll : ∀ i, i < h → s.thr[n + i]? = some [.gcIdle (a i)]
  len : s.thr.length = n + h
  lock : ∀ c, s.lock c = none
  vis : ∀ e, s.vis e = none
  objs : s.objs = []
  next : s.next = 2 * m
  leaf : ∀ i, i < m → s.ents (2 * i) = some ⟨b i, l, true, [], 1, 1⟩
  outer : ∀ i, i < m → s.ents (2 * i + 1) = some ⟨a i, k, true, [⟨2 * i, b i, l⟩], 0, 0⟩

theorem all_laid (hcfg : CfgOk cfg) (hl : cfg.locking = true) (htr : cfg.tracks = true) {n h : Nat} (hn : 0 < n) {a b : Nat → Nat}
    (ia : ∀ i j, i < h → j < h → a i = a j → i = j) (ib : ∀ i j, i < h → j < h → b i = b j → i = j) (hhas : ∀ i, i < h → has (a i) (b i))
    {k l : K} (hkl : ∀ i, i < h → cfg.eqv (a i) k l = false ∧ cfg.eqv (b i) k l = false) :
    ∀ m, m ≤ h → ∃ s : St K, Reachable cfg calls has n ((List.range h).map a) s ∧ Laid a b k l n h m s := by
  intro m
  induction m with
  | zero =>
    intro _
    refine ⟨start n _, .start, ⟨fun t ht => ?_, fun i hi => ?_, by simp [start], fun c => rfl, fun e => rfl, rfl, rfl, by omega, by omega⟩⟩
    · simp [start, List.getElem?_append, ht]
    · simp [start, hi]
  | succ m ih =>
    intro hm
    obtain ⟨s, hr, hb⟩ := ih (by omega)
    have hkl' : ∀ i, i < h → cfg.eqv (a i) l k = false := fun i hi => by
      cases he : cfg.eqv (a i) l k with
      | false => rfl
      | true => rw [← (hkl i hi).1, hcfg.symm _ _ _ he]
    have old : ∀ e x, s.ents e = some x → ∃ i, i < m ∧ (e = 2 * i ∨ e = 2 * i + 1) := fun e x hx => by
      have : e < s.next := by
        by_cases he : e < s.next
        · exact he
        · rw [(hr.inv hcfg).1.core.bound e (by omega)] at hx
          cases hx
      rw [hb.next] at this
      exact ⟨e / 2, by omega, by omega⟩
    have t0 : s.thr[0]? = some [] := hb.user 0 (by omega)
    have p0 : pick [] s.objs = ([], []) := by rw [hb.objs]; rfl
    obtain ⟨s1, r1, a1, b1, c1, d1, e1, f1⟩ := make hl htr hr t0 (b m) l [] (by rw [p0]; simp) (hb.lock _) (hb.vis _)
      (find_none_of' fun e x hx hc => by
        obtain ⟨i, hi, rfl | rfl⟩ := old e x hx
        · rw [hb.leaf i hi] at hx
          cases hx
          have := ib i m (by omega) (by omega) hc
          omega
        · rw [hb.outer i hi] at hx
          cases hx
          exact hc ▸ (hkl m (by omega)).2)
    rw [p0] at e1 f1
    rw [hb.next] at d1 e1 f1
    have p1 : pick [true] s1.objs = ([⟨2 * m, b m, l⟩], []) := by rw [f1]; rfl
    obtain ⟨s2, r2, a2, b2, c2, d2, e2, f2⟩ := make hl htr r1 (t := 0) (by rw [a1]; exact t0) (a m) k [true]
      (by rw [p1]; intro w hw; rw [List.mem_singleton.1 hw]; exact hhas m (by omega)) (by rw [b1]; exact hb.lock _)
      (by rw [c1]; exact hb.vis _)
      (find_none_of' fun e x hx hc => by
        rw [e1] at hx
        by_cases he : e = 2 * m
        · simp only [setEnt, he, if_true] at hx
          cases hx
          exact hkl' m (by omega)
        · simp only [setEnt, he, if_false] at hx
          obtain ⟨i, hi, rfl | rfl⟩ := old e x hx
          · rw [hb.leaf i hi] at hx
            cases hx
            exact hkl' m (by omega)
          · rw [hb.outer i hi] at hx
            cases hx
            have := ia i m (by omega) (by omega) hc
            omega)
    rw [p1] at e2 f2
    rw [d1] at d2 e2 f2
    obtain ⟨s3, r3, a3, b3, c3, d3, e3, f3⟩ := unmake hl htr r2 (t := 0) (by rw [a2, a1]; exact t0) f2 (by rw [b2, b1]; exact hb.lock _)
      (x := ⟨a m, k, true, [⟨2 * m, b m, l⟩], 1, 1⟩) (by rw [e2]; simp [setEnt]) rfl rfl
    have hthr : s3.thr = s.thr := by rw [a3, a2, a1]
    refine ⟨s3, r3, ⟨fun t ht => ?_, fun i hi => ?_, ?_, fun c => ?_, fun e => ?_, f3, ?_, fun i hi => ?_, fun i hi => ?_⟩⟩
    · rw [hthr]; exact hb.user t ht
    · rw [hthr]; exact hb.coll i hi
    · rw [hthr]; exact hb.len
    · rw [b3, b2, b1]; exact hb.lock c
    · rw [c3, c2, c1]; exact hb.vis e
    · rw [d3, d2]; omega
    · rw [e3, e2, e1]
      by_cases him : i = m
      · subst him
        simp [setEnt]
      · have g1 : 2 * i ≠ 2 * m + 1 := by omega
        have g2 : 2 * i ≠ 2 * m := by omega
        simp only [setEnt, g1, g2, if_false]
        exact hb.leaf i (by omega)
    · rw [e3, e2, e1]
      by_cases him : i = m
      · subst him
        simp [setEnt]
      · have g1 : 2 * i + 1 ≠ 2 * m + 1 := by omega
        have g2 : 2 * i + 1 ≠ 2 * m := by omega
        simp only [setEnt, g1, g2, if_false]
        exact hb.outer i (by omega)

/-- Collectors before `m` are destroying these values, and have got to the mutexes of the second types.  (No code of its own:
used in statements and proofs.) -/
structure Caught (a b : Nat → Nat) (k l : K) (n h m : Nat) (s : St K) : Prop where
  user : ∀ t, t < n → s.thr[t]? = some []
  coll : ∀ i, m ≤ i → i < h → s.thr[n + i]? = some [.gcIdle (a i)]
  busy : ∀ i, i < m → ∃ rest, s.thr[n + i]? = some (.relLock ⟨2 * i, b i, l⟩ :: rest)
  len : s.thr.length = n + h
  lock : ∀ c, s.lock c = none
  vis : ∀ i, m ≤ i → s.vis (2 * i + 1) = none
  visited : ∀ i, i < m → s.vis (2 * i + 1) = some (n + i)
  next : s.next = 2 * h
  leaf : ∀ i, m ≤ i → i < h → s.ents (2 * i) = some ⟨b i, l, true, [], 1, 1⟩
  outer : ∀ i, m ≤ i → i < h → s.ents (2 * i + 1) = some ⟨a i, k, true, [⟨2 * i, b i, l⟩], 0, 0⟩
  leaf' : ∀ i, i < m → s.ents (2 * i) = some ⟨b i, l, true, [], 1, 0⟩
  outer' : ∀ i, i < m → s.ents (2 * i + 1) = some ⟨a i, k, false, [], 0, 0⟩

theorem all_caught (htr : cfg.tracks = true) {n h : Nat} {gcs : List Nat} {a b : Nat → Nat} {k l : K} {s : St K}
    (hr : Reachable cfg calls has n gcs s) (hb : Laid a b k l n h h s) :
    ∀ m, m ≤ h → ∃ s' : St K, Reachable cfg calls has n gcs s' ∧ Caught a b k l n h m s' := by
  intro m
  induction m with
  | zero =>
    intro _
    exact ⟨s, hr, ⟨hb.user, fun i _ => hb.coll i, by omega, hb.len, hb.lock, fun i _ => hb.vis _, by omega, hb.next,
      fun i _ => hb.leaf i, fun i _ => hb.outer i, by omega, by omega⟩⟩
  | succ m ih =>
    intro hm
    obtain ⟨s1, r1, h1⟩ := ih (by omega)
    obtain ⟨s2, rest, r2, a2, b2, c2, d2, e2⟩ := catch_ htr r1 (h1.coll m (Nat.le_refl _) (by omega)) (e := 2 * m + 1)
      (by rw [h1.next]; omega) (h1.outer m (Nat.le_refl _) (by omega)) rfl rfl rfl (h1.vis m (Nat.le_refl _))
      (by show 2 * m ≠ 2 * m + 1; omega) (h1.leaf m (Nat.le_refl _) (by omega)) rfl
    have hlen := h1.len
    have ne1 : ∀ i, i ≠ m → s2.ents (2 * i) = s1.ents (2 * i) := fun i hi => by
      have g1 : 2 * i ≠ 2 * m := by omega
      have g2 : 2 * i ≠ 2 * m + 1 := by omega
      rw [e2]
      simp only [setEnt, g1, g2, if_false]
    have ne2 : ∀ i, i ≠ m → s2.ents (2 * i + 1) = s1.ents (2 * i + 1) := fun i hi => by
      have g1 : 2 * i + 1 ≠ 2 * m := by omega
      have g2 : 2 * i + 1 ≠ 2 * m + 1 := by omega
      rw [e2]
      simp only [setEnt, g1, g2, if_false]
    have ne3 : ∀ i, i ≠ m → s2.vis (2 * i + 1) = s1.vis (2 * i + 1) := fun i hi => by
      have g2 : 2 * i + 1 ≠ 2 * m + 1 := by omega
      rw [c2]
      simp only [setVis, g2, if_false]
    refine ⟨s2, r2, ⟨fun t ht => ?_, fun i hi hin => ?_, fun i hi => ?_, ?_, ?_, fun i hi => ?_, fun i hi => ?_, ?_, fun i hi hin => ?_,
      fun i hi hin => ?_, fun i hi => ?_, fun i hi => ?_⟩⟩
    · rw [a2, List.getElem?_set_ne (by omega)]; exact h1.user t ht
    · rw [a2, List.getElem?_set_ne (by omega)]; exact h1.coll i (by omega) hin
    · by_cases him : i = m
      · subst him
        exact ⟨rest, by rw [a2, List.getElem?_set_self (by omega)]⟩
      · obtain ⟨rest', h'⟩ := h1.busy i (by omega)
        exact ⟨rest', by rw [a2, List.getElem?_set_ne (by omega)]; exact h'⟩
    · rw [a2, List.length_set]; exact hlen
    · rw [b2]; exact h1.lock
    · rw [ne3 i (by omega)]; exact h1.vis i (by omega)
    · by_cases him : i = m
      · subst him
        rw [c2]; simp [setVis]
      · rw [ne3 i him]; exact h1.visited i (by omega)
    · rw [d2]; exact h1.next
    · rw [ne1 i (by omega)]; exact h1.leaf i (by omega) hin
    · rw [ne2 i (by omega)]; exact h1.outer i (by omega) hin
    · by_cases him : i = m
      · subst him
        rw [e2]; simp [setEnt]
      · rw [ne1 i him]; exact h1.leaf' i (by omega)
    · by_cases him : i = m
      · subst him
        rw [e2]
        have g1 : 2 * i + 1 ≠ 2 * i := by omega
        simp [setEnt]
      · rw [ne2 i him]; exact h1.outer' i (by omega)

/-- A thread outside the library has locked the mutex of a type and got to the container. -/
theorem lookup (hl : cfg.locking = true) {n : Nat} {gcs : List Nat} {s : St K} (hr : Reachable cfg calls has n gcs s) {t : Nat}
    (ht : s.thr[t]? = some []) (c : Nat) (k : K) (hlock : s.lock c = none) :
    Reachable cfg calls has n gcs { s with
      lock := fun i => if i = c then some (t, 1) else s.lock i, thr := s.thr.set t [.insFind c k [] true] } := by
  obtain ⟨hlt, hget⟩ := List.getElem?_eq_some_iff.1 ht
  have hp : pick [] s.objs = ([], s.objs) := by cases s.objs <;> rfl
  have set0 : ∀ a : List (Frame K), (s.thr.set t a)[t]? = some a := fun a => by rw [List.getElem?_set_self hlt]
  let lock' : Nat → Option (Nat × Nat) := fun i => if i = c then some (t, 1) else s.lock i
  let s1 : St K := { s with thr := s.thr.set t [.insLock c k [] true] }
  let s2 : St K := { s with lock := lock', thr := s.thr.set t [.insHash c k [] true] }
  have t1 : s1.thr[t]? = some [.insLock c k [] true] := set0 _
  have t2 : s2.thr[t]? = some [.insHash c k [] true] := set0 _
  have r1 : Reachable cfg calls has n gcs s1 := by
    refine .step (a := .create c k [] true) hr ht ⟨by rw [hp]; simp, fun _ _ _ _ _ h => by cases h⟩ ?_
    simp [step, ht, act, inUser, s1, hp]
  have r2 : Reachable cfg calls has n gcs s2 := by
    refine .step (a := .run) r1 t1 trivial ?_
    have ha : acquire cfg s1.lock t c = some lock' := by simp [acquire, hl, s1, hlock, lock']
    simp only [step, t1, act, lib, ha]
    simp [s1, s2]
  refine .step (a := .run) r2 t2 trivial ?_
  simp only [step, t2, act, lib]
  simp [s2, lock']

/-- Threads before `m` have locked the mutexes of their types: where `f` says so they want to make a value that is being destroyed, else
they are in the constructor of a new value. -/
theorem all_take (hcfg : CfgOk cfg) (hl : cfg.locking = true) {n h : Nat} {gcs : List Nat} {ty a b : Nat → Nat} {f : Nat → Bool}
    (hinj : ∀ i j, i < n → j < n → ty i = ty j → i = j) (hf : ∀ j, j < h → ∃ i, i < n ∧ f i = true ∧ a j = ty i)
    {k l : K} (hkl : ∀ i, i < n → cfg.eqv (ty i) k l = false) {s : St K}
    (hr : Reachable cfg calls has n gcs s) (hb : Caught a b k l n h h s) :
    ∀ m, m ≤ n → ∃ s' : St K, Reachable cfg calls has n gcs s' ∧
      (∀ e x, s.ents e = some x → s'.ents e = some x ∧ s'.vis e = s.vis e) ∧
      (∀ e x, s'.ents e = some x → s.ents e = some x ∨ ∃ t, t < m ∧ f t = false ∧ x.core = ty t) ∧
      s'.thr.length = s.thr.length ∧ (∀ t, t < m → f t = true → s'.thr[t]? = some [.insFind (ty t) k [] true]) ∧
      (∀ t, t < m → f t = false → ∃ e, s'.thr[t]? = some [.insUser (ty t) k e []]) ∧ (∀ t, m ≤ t → s'.thr[t]? = s.thr[t]?) ∧
      (∀ t, t < m → s'.lock (ty t) = some (t, 1)) ∧ ∀ c, (∀ t, t < m → ty t ≠ c) → s'.lock c = none := by
  intro m
  induction m with
  | zero =>
    intro _
    exact ⟨s, hr, fun e x hx => ⟨hx, rfl⟩, fun e x hx => .inl hx, rfl, by omega, by omega, fun _ _ => rfl, by omega, fun c _ => hb.lock c⟩
  | succ m ih =>
    intro hm
    obtain ⟨s1, r1, h1, h2, h4, h5, h5', h6, h7, h8⟩ := ih (by omega)
    have hne : ∀ t, t < m → ty t ≠ ty m := fun t ht he => by
      have := hinj t m (by omega) (by omega) he
      omega
    have hlen := hb.len
    have hidle : s1.thr[m]? = some [] := by rw [h6 m (Nat.le_refl _)]; exact hb.user m (by omega)
    cases hfm : f m with
    | true =>
      refine ⟨_, lookup hl r1 (t := m) hidle (ty m) k (h8 _ hne), h1, fun e x hx => ?_,
        by simpa using h4, fun t ht hft => ?_, fun t ht hft => ?_, fun t ht => ?_, fun t ht => ?_, fun c hc => ?_⟩ <;> try dsimp only
      · rcases h2 e x hx with h | ⟨t, ht, h⟩
        · exact .inl h
        · exact .inr ⟨t, by omega, h⟩
      · by_cases h : t = m
        · subst h
          rw [List.getElem?_set_self (by omega)]
        · rw [List.getElem?_set_ne (by omega)]
          exact h5 t (by omega) hft
      · have h : t ≠ m := fun h => by rw [h, hfm] at hft; cases hft
        rw [List.getElem?_set_ne (by omega)]
        exact h5' t (by omega) hft
      · rw [List.getElem?_set_ne (by omega)]
        exact h6 t (by omega)
      · by_cases h : t = m
        · simp [h]
        · rw [if_neg (hne t (by omega))]
          exact h7 t (by omega)
      · rw [if_neg fun h => hc m (by omega) h.symm]
        exact h8 c fun t ht => hc t (by omega)
    | false =>
      have hnew : s1.ents s1.next = none := (r1.inv hcfg).1.core.bound _ (Nat.le_refl _)
      obtain ⟨s2, r2, a2, b2, c2, d2⟩ := enter' r1 hidle k (h8 _ hne) (find_none_of' (c := ty m) (k := k) fun e x hx hc => by
        rcases h2 e x hx with ho | ⟨t, ht, _, h⟩
        · have hlt : e < s.next := by
            by_cases hlt : e < s.next
            · exact hlt
            · rw [(hr.inv hcfg).1.core.bound e (by omega)] at ho
              cases ho
          rw [hb.next] at hlt
          by_cases hpar : e = 2 * (e / 2)
          · rw [hpar, hb.leaf' (e / 2) (by omega)] at ho
            cases ho
            cases hq : cfg.eqv (ty m) l k with
            | false => rfl
            | true => rw [← hkl m (by omega), hcfg.symm _ _ _ hq]
          · rw [show e = 2 * (e / 2) + 1 by omega, hb.outer' (e / 2) (by omega)] at ho
            cases ho
            obtain ⟨i, hi, hfi, hai⟩ := hf (e / 2) (by omega)
            have := hinj i m hi (by omega) (hai.symm.trans hc)
            rw [this, hfm] at hfi
            cases hfi
        · exact absurd (h.symm.trans hc) (hne t ht))
      rw [if_pos hl] at b2
      refine ⟨s2, r2, fun e x hx => ?_, fun e x hx => ?_, by rw [a2, List.length_set]; exact h4, fun t ht hft => ?_,
        fun t ht hft => ?_, fun t ht => ?_, fun t ht => ?_, fun c hc => ?_⟩
      · obtain ⟨hx1, hv1⟩ := h1 e x hx
        have hen : e ≠ s1.next := fun h => by rw [h, hnew] at hx1; cases hx1
        rw [c2, d2]
        simp only [setEnt, setVis, hen, if_false]
        exact ⟨hx1, hv1⟩
      · rw [c2] at hx
        by_cases hen : e = s1.next
        · simp only [setEnt, hen, if_true] at hx
          cases hx
          exact .inr ⟨m, by omega, hfm, rfl⟩
        · simp only [setEnt, hen, if_false] at hx
          rcases h2 e x hx with h | ⟨t, ht, h⟩
          · exact .inl h
          · exact .inr ⟨t, by omega, h⟩
      · have h : t ≠ m := fun h => by rw [h, hfm] at hft; cases hft
        rw [a2, List.getElem?_set_ne (by omega)]
        exact h5 t (by omega) hft
      · by_cases h : t = m
        · subst h
          exact ⟨s1.next, by rw [a2, List.getElem?_set_self (by omega)]⟩
        · rw [a2, List.getElem?_set_ne (by omega)]
          exact h5' t (by omega) hft
      · rw [a2, List.getElem?_set_ne (by omega)]
        exact h6 t (by omega)
      · rw [b2]
        by_cases h : t = m
        · simp [h]
        · simp only [hne t (by omega), if_false]
          exact h7 t (by omega)
      · rw [b2]
        have h : c ≠ ty m := fun h => hc m (by omega) h.symm
        simp only [h, if_false]
        exact h8 c fun t ht => hc t (by omega)

/-- ... and those of them before `m` that are in constructors want to make flyweights of the next type. -/
theorem some_ask (hl : cfg.locking = true) {n : Nat} {gcs : List Nat} {ty : Nat → Nat} {f : Nat → Bool}
    (hcall : ∀ i, i < n → f i = false → calls (ty i) (ty ((i + 1) % n))) {k : K} {s : St K} (hr : Reachable cfg calls has n gcs s)
    (hb : ∀ t, t < n → f t = false → ∃ e, s.thr[t]? = some [.insUser (ty t) k e []]) (hlen : n ≤ s.thr.length) :
    ∀ m, m ≤ n → ∃ s', Reachable cfg calls has n gcs s' ∧ s'.lock = s.lock ∧ s'.ents = s.ents ∧ s'.vis = s.vis ∧
      s'.thr.length = s.thr.length ∧
      (∀ t, t < m → f t = false → ∃ e, s'.thr[t]? = some [.insLock (ty ((t + 1) % n)) k [] false, .insUser (ty t) k e []]) ∧
      (∀ t, m ≤ t ∨ f t = true → s'.thr[t]? = s.thr[t]?) := by
  intro m
  induction m with
  | zero => intro _; exact ⟨s, hr, rfl, rfl, rfl, rfl, by omega, fun t _ => rfl⟩
  | succ m ih =>
    intro hm
    obtain ⟨s', h1, h2, h2', h2'', h3, h4, h5⟩ := ih (by omega)
    cases hfm : f m with
    | true =>
      refine ⟨s', h1, h2, h2', h2'', h3, fun t ht hft => ?_, fun t ht => h5 t ?_⟩
      · have h : t ≠ m := fun h => by rw [h, hfm] at hft; cases hft
        exact h4 t (by omega) hft
      · rcases ht with ht | ht
        · exact .inl (by omega)
        · exact .inr ht
    | false =>
      obtain ⟨e, he⟩ := hb m (by omega) hfm
      have ht : s'.thr[m]? = some [.insUser (ty m) k e []] := by rw [h5 m (.inl (Nat.le_refl _))]; exact he
      have hask := ask h1 ht (hcall m (by omega) hfm) k
      rw [if_pos hl] at hask
      refine ⟨_, hask, h2, h2', h2'', by simpa using h3, fun t htm hft => ?_, fun t htm => ?_⟩ <;> dsimp only
      · by_cases h : t = m
        · subst h
          exact ⟨e, by rw [List.getElem?_set_self (by omega)]⟩
        · obtain ⟨e', he'⟩ := h4 t (by omega) hft
          exact ⟨e', by rw [List.getElem?_set_ne (by omega)]; exact he'⟩
      · have h : t ≠ m := fun h => by
          rcases htm with htm | htm
          · omega
          · rw [h, hfm] at htm; cases htm
        rw [List.getElem?_set_ne (Ne.symm h)]
        exact h5 t (htm.imp (fun h => by omega) id)

end Verif.CFac

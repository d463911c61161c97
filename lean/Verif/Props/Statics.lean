import Verif.Statics
import Verif.Sample

/-!
# Properties of static initialization and destruction: C29, C30
-/

set_option autoImplicit false

namespace Verif.Props
open Statics

/-! ## C29 -/

/-- **C29.**  Whatever the order of static initializers, insertions and uses, for any number of flyweight types: no null
pointer is dereferenced; a type has been initialized iff the program has called `init()`, explicitly or by an
insertion, and then there is exactly one factory of it, which is otherwise not there.  (Partial: for programs of one
module; `C29_violated` in `Verif/Props/Family.lean` shows that it fails for several.) -/
theorem C29_safe_partial (trk : Nat → Tracking) (p : List Ev) :
    ∃ s, exec trk p start = some s ∧ ∀ c, (s.flag c = true ↔ ∃ e ∈ p, c ∈ e.inits) ∧ s.ptr c = s.flag c ∧
      s.built c = (if s.flag c then 1 else 0) ∧ s.up.count (.holder c) = s.built c := by
  obtain ⟨s, h1, h2, h3, _⟩ := exec_does trk p inv_start
  refine ⟨s, h1, fun c => ⟨?_, h2.ptr c, h2.built c, h2.up c⟩⟩
  rw [h3]
  simp [start]

/-- A static object has a flyweight of type 1 whose value contains one of type 2; type 0 is initialized explicitly. -/
example : ∃ s, exec (fun _ => .refcounted) [.insert 1 7 [] [2], .use 1 7, .init 0, .built 7] start = some s ∧
    s.built 0 = 1 ∧ s.built 1 = 1 ∧ s.built 2 = 1 ∧ s.built 3 = 0 := by
  obtain ⟨s, h1, h2⟩ := C29_safe_partial (fun _ => .refcounted) [.insert 1 7 [] [2], .use 1 7, .init 0, .built 7]
  have h3 : ∀ c, s.flag c = true ↔ c ∈ [1, 2, 0] := fun c => by rw [(h2 c).1]; simp [Ev.inits, or_assoc]
  have h4 : s.flag 3 = false := Bool.eq_false_iff.2 fun h => absurd ((h3 3).1 h) (by decide)
  refine ⟨s, h1, ?_, ?_, ?_, ?_⟩
  · rw [(h2 0).2.2.1, (h3 0).2 (by decide)]; rfl
  · rw [(h2 1).2.2.1, (h3 1).2 (by decide)]; rfl
  · rw [(h2 2).2.2.1, (h3 2).2 (by decide)]; rfl
  · rw [(h2 3).2.2.1, h4]; rfl

/-- **C29.**  `init()` is idempotent: calling it again, after anything, changes nothing. -/
theorem C29_idempotent (trk : Nat → Tracking) (p q : List Ev) (c : Nat) {s s' : Statics.St} (hs : exec trk p start = some s)
    (hs' : exec trk q (Statics.init c s) = some s') : Statics.init c s' = s' := by
  obtain ⟨s1, h1, h2, _⟩ := exec_does trk p inv_start
  have : s1 = s := Option.some.inj (h1.symm.trans hs)
  subst this
  obtain ⟨s2, g1, g2, g3, _⟩ := exec_does trk q (inv_init h2 c)
  have : s2 = s' := Option.some.inj (g1.symm.trans hs')
  subst this
  unfold Statics.init
  rw [if_pos ((g3 c).2 (.inl (init_flag c s1)))]

example : ∃ s s', exec (fun _ => .refcounted) [.insert 1 7 [] [2]] start = some s ∧
    exec (fun _ => .refcounted) [.use 1 7, .init 3, .built 7] (Statics.init 2 s) = some s' ∧ Statics.init 2 s' = s' :=
  ⟨_, _, rfl, rfl, C29_idempotent (fun _ => .refcounted) [.insert 1 7 [] [2]] [.use 1 7, .init 3, .built 7] 2 rfl rfl⟩

/-- **C29.**  For every flyweight type, the whole library starts from static pointers that are null: no program, with or
without calls of `init()`, dereferences them before they are set.  (Partial: for programs of one module.) -/
theorem C29_preceded_partial {K V Rep F : Type} (S : Setup K V Rep F) (hp : Nat → Nat) (fl : Nat → Bool)
    {alloc : Nat → List Nat → Nat} (hal : ∀ n l, alloc n l ∉ l) (ops : List (Op K V)) :
    (Core.start S.Fa fl alloc).inited = false ∧
    ∃ outs s, S.run hp fl alloc ops = some (outs, s) ∧ (s.objs ≠ [] → s.inited = true) := by
  refine ⟨rfl, ?_⟩
  obtain ⟨outs, s, t, h1, _, h3, _⟩ := Setup.exec_sim hp ops (Setup.sim_start S fl hal)
  refine ⟨outs, s, h1, fun hne => ?_⟩
  cases ho : s.objs with
  | nil => exact absurd ho hne
  | cons p l => exact h3.rel.inv.ini _ (h3.rel.inv.objs p (by rw [ho]; simp))

/-- A program that never calls `init()`. -/
example : ∃ outs s, (Sample.var .refcounted).run id Sample.calm Sample.alloc Sample.prog = some (outs, s) ∧ s.objs ≠ [] ∧
    s.inited = true := by
  obtain ⟨_, outs, s, h1, h2⟩ := C29_preceded_partial (Sample.var .refcounted) id Sample.calm Sample.alloc_ok Sample.prog
  have h3 : s.objs ≠ [] := by
    have h4 : ((Sample.var .refcounted).run id Sample.calm Sample.alloc Sample.prog).map (fun p => p.2.objs.isEmpty) = some false :=
      rfl
    rw [h1] at h4
    intro h5
    simp [h5] at h4
  exact ⟨outs, s, h1, h3, h2 h3⟩

/-- **C29.**  Any number of threads calling `init()` for the first time at once, in any interleaving: at most one factory
is constructed, and a thread that has returned from `init()` finds both pointers referring to it; no
thread waits for another. (With sequentially consistent memory; without it the code has a data race.) -/
theorem C29_threads (n : Nat) (ts : List Nat) :
    let s : TSt := trun ts (tstart n)
    s.built ≤ 1 ∧ (∀ t : Nat, s.pcs[t]? = some .passed → s.built = 1 ∧ s.fac = some 0 ∧ s.mtx = some 0) ∧
    (s.flag = true → s.fac = some 0 ∧ s.mtx = some 0) ∧
    ∀ t : Nat, t < n → (tstep t s = none ↔ s.pcs[t]? = some .passed) := by
  intro s
  have h := tinv_run ts (tinv_start n)
  refine ⟨h.built, fun t ht => ?_, h.flag, fun t ht => ?_⟩
  · have hm := h.pc _ (List.mem_of_getElem? ht)
    exact ⟨hm.1 (by decide), hm.2.1 (by decide) (by decide), hm.2.2 (.inr rfl)⟩
  · have hlen : ∀ (ts : List Nat) (s : TSt), (trun ts s).pcs.length = s.pcs.length := by
      intro ts
      induction ts with
      | nil => intro s; rfl
      | cons t ts ih =>
        intro s
        simp only [trun]
        rw [ih]
        cases hs : tstep t s with
        | none => rfl
        | some s' =>
          unfold tstep at hs
          split at hs
          · split at hs <;> (cases hs; simp)
          all_goals cases hs
          all_goals simp
    have hl : t < s.pcs.length := by
      show t < (trun ts (tstart n)).pcs.length
      rw [hlen]
      simpa [tstart] using ht
    have : s.pcs[t]? = some s.pcs[t] := List.getElem?_eq_getElem hl
    unfold tstep
    rw [this]
    cases s.pcs[t] <;> simp
    split <;> simp

/-- Two types, the second one initialized late, the first one contained in it. -/
example : ((exec (fun _ => .refcounted) [.insert 1 7 [0] [2], .use 1 7, .init 0, .built 7, .init 1] start).map
    fun s => (s.up, s.built 0, s.built 1, s.built 2, s.built 3)) =
    some ([.user 7, .holder 2, .holder 1, .holder 0], 1, 1, 1, 0) := rfl
/-- Three threads, two of them both finding the flag unset. -/
example : (trun [0, 1, 0, 1, 0, 0, 2, 1] (tstart 3)).pcs = [.passed, .mptr, .passed] ∧
    (trun [0, 1, 0, 1, 0, 0, 2, 1] (tstart 3)).built = 1 := ⟨rfl, rfl⟩

/-! ## C30 -/

/-- **C30.**  The factory of type `c` is destroyed after static object `x` iff the type was initialized before the
construction of `x` was complete, be it by that construction or before it. -/
theorem C30_order (trk : Nat → Tracking) (p q : List Ev) (x c : Nat) :
    ∃ s l m, exec trk (p ++ .built x :: q) start = some s ∧ s.up = l ++ .user x :: m ∧
      (.holder c ∈ m ↔ ∃ e ∈ p, c ∈ e.inits) := by
  obtain ⟨s1, h1, h2, h3, _⟩ := exec_does trk p inv_start
  obtain ⟨s2, g1, g2, _⟩ := exec_does trk (.built x :: q) h2
  refine ⟨s2, ?_⟩
  have hu := exec_up trk (.built x :: q) h2 g1
  have : ∀ (os : List Obj) (l : List Obj), ∃ l', os.foldl push l = l' ++ l := by
    intro os
    induction os with
    | nil => intro l; exact ⟨[], rfl⟩
    | cons o os ih =>
      intro l
      obtain ⟨l', h⟩ := ih (push l o)
      have : ∃ l'', push l o = l'' ++ l := by
        cases o with
        | user x => exact ⟨[.user x], rfl⟩
        | holder c =>
          simp only [push]
          split
          · exact ⟨[], rfl⟩
          · exact ⟨[.holder c], rfl⟩
      obtain ⟨l'', h'⟩ := this
      exact ⟨l' ++ l'', by rw [List.foldl_cons, h, h', List.append_assoc]⟩
  obtain ⟨l', hl'⟩ := this (q.flatMap Ev.order) (.user x :: s1.up)
  refine ⟨l', s1.up, by rw [exec_append, h1]; exact g1, ?_, ?_⟩
  · rw [hu]
    exact hl'
  · rw [mem_up_iff h2, h3]
    simp [start]

/-- **C30.**  At the end of the program no flyweight is destroyed after its factory iff: whenever a static object has
flyweights of a `refcounted` type, this was initialized before the construction of the object was complete; and
whenever values that stay in the factory of a `no_tracking` type have such flyweights, their type was
initialized first. -/
theorem C30_iff (trk : Nat → Tracking) (p : List Ev) :
    ∃ s, exec trk p start = some s ∧ (finish trk s = some () ↔
      (∀ x c, Has trk p x c → trk c = .refcounted → Before (p.flatMap Ev.order) (.holder c) (.user x)) ∧
      (∀ c d, Retains trk p c d → trk d = .refcounted → Before (p.flatMap Ev.order) (.holder d) (.holder c))) := by
  obtain ⟨s, h1, h2, h3, h4, h5⟩ := exec_does trk p inv_start
  refine ⟨s, h1, ?_⟩
  have hu : s.up = (p.flatMap Ev.order).foldl push [] := exec_up trk p inv_start h1
  unfold finish
  rw [exit_iff trk s s.up
    (fun c => by rw [h2.up, h2.built]; split <;> omega) s.flag (fun c h => (mem_up_iff h2 c).2 h)
    (fun c h => (mem_up_iff h2 c).1 h)]
  have e1 : ∀ x c, c ∈ s.holds x ↔ Has trk p x c := fun x c => by rw [h4]; simp [start, Has]
  have e2 : ∀ c d, d ∈ s.inner c ↔ Retains trk p c d := fun c d => by rw [h5]; simp [start, Retains]
  simp only [e1, e2, hu, push_split]
  refine and_congr_right fun _ => ⟨fun h c d hk ht => h c d hk ht ?_, fun h c d hk ht _ => h c d hk ht⟩
  rintro rfl
  obtain ⟨_, _, _, _, h, _⟩ := hk
  rw [ht] at h
  cases h

/-- **C30.**  With `refcounted` types only: if each static object that ever has flyweights of a type has the type
initialized before its construction ends (for instance by a member of type `initializer`), all is well. -/
theorem C30_safe (trk : Nat → Tracking) (p : List Ev) (htrk : ∀ c, trk c = .refcounted)
    (h : ∀ x c q r, Has trk p x c → p = q ++ .built x :: r → ∃ e ∈ q, c ∈ e.inits) :
    ∃ s, exec trk p start = some s ∧ finish trk s = some () := by
  obtain ⟨s, h1, h2⟩ := C30_iff trk p
  refine ⟨s, h1, h2.2 ⟨fun x c hx _ a b hab _ => ?_, fun c d hk _ => ?_⟩⟩
  · -- find the event
    have find : ∀ (p : List Ev) (a b : List Obj), p.flatMap Ev.order = a ++ .user x :: b →
        ∃ q r, p = q ++ .built x :: r ∧ a = q.flatMap Ev.order := by
      intro p
      induction p with
      | nil => intro a b h; simp at h
      | cons e p ih =>
        intro a b h
        rw [List.flatMap_cons] at h
        rcases List.append_eq_append_iff.1 h with ⟨a', ha, hb⟩ | ⟨c', ha, hb⟩
        · obtain ⟨q, r, hq, ha'⟩ := ih a' b hb
          exact ⟨e :: q, r, by rw [hq]; rfl, by rw [ha, ha', List.flatMap_cons]⟩
        · cases c' with
          | nil =>
            simp only [List.append_nil] at ha
            obtain ⟨q, r, hq, ha'⟩ := ih [] b hb.symm
            exact ⟨e :: q, r, by rw [hq]; rfl, by rw [List.flatMap_cons, ← ha', ← ha]; simp⟩
          | cons o c' =>
            simp only [List.cons_append, List.cons.injEq] at hb
            have hm : Obj.user x ∈ e.order := by rw [ha, hb.1]; simp
            cases e with
            | built y =>
              simp only [Ev.order, List.mem_singleton, Obj.user.injEq] at hm
              subst hm
              cases a with
              | nil => exact ⟨[], p, rfl, rfl⟩
              | cons o' a => simp [Ev.order] at ha
            | init c => simp [Ev.order] at hm
            | use c y => simp [Ev.order] at hm
            | insert c y pre ds => simp [Ev.order] at hm
    obtain ⟨q, r, hq, ha⟩ := find p a b hab
    obtain ⟨e, he, hc⟩ := h x c q r hx hq
    rw [ha, List.mem_flatMap]
    refine ⟨e, he, ?_⟩
    cases e with
    | init d => simpa [Ev.inits, Ev.order] using hc
    | insert d y pre ds =>
      simp only [Ev.inits, List.cons_append, List.mem_cons, List.mem_append] at hc
      simp only [Ev.order, List.mem_append, List.mem_map, List.mem_cons, Obj.holder.injEq]
      rcases hc with rfl | hc | hc
      · exact .inr (.inl rfl)
      · exact .inl ⟨c, hc, rfl⟩
      · exact .inr (.inr ⟨c, hc, rfl⟩)
    | use d y => simp [Ev.inits] at hc
    | built y => simp [Ev.inits] at hc
  · obtain ⟨_, _, _, _, h, _⟩ := hk
    rw [htrk c] at h
    cases h

/-- An object with an initializer as a member, one that makes a flyweight in its constructor, and one
that has no flyweights, constructed first. -/
example : ((exec (fun _ => .refcounted) [.built 9, .init 0, .built 7, .insert 1 8 [0] [], .built 8, .insert 0 7 [] [], .use 1 8]
    start).bind (finish fun _ => .refcounted)) = some () := rfl
example : Has (fun _ => .refcounted) [.insert 1 8 [0] [], .built 8] 8 0 := ⟨1, [0], [], by simp, .inr ⟨rfl, by simp⟩⟩

/-- **C30, hazard.**  An object constructed before the type is initialized, which gets a flyweight later: the flyweight is
destroyed after the factory. -/
theorem C30_hazard (trk : Nat → Tracking) (p q : List Ev) (x c : Nat) (hc : trk c = .refcounted)
    (hx : Has trk (p ++ .built x :: q) x c) (hp : ¬ ∃ e ∈ p, c ∈ e.inits) :
    ∃ s, exec trk (p ++ .built x :: q) start = some s ∧ finish trk s = none := by
  obtain ⟨s, h1, h2⟩ := C30_iff trk (p ++ .built x :: q)
  refine ⟨s, h1, ?_⟩
  cases hf : finish trk s with
  | none => rfl
  | some u =>
    have := (h2.1 hf).1 x c hx hc (p.flatMap Ev.order) (q.flatMap Ev.order) (by simp [Ev.order]) (fun d hd => by cases hd)
    rw [List.mem_flatMap] at this
    obtain ⟨e, he, hm⟩ := this
    refine absurd ⟨e, he, ?_⟩ hp
    cases e with
    | init d => simpa [Ev.inits, Ev.order] using hm
    | insert d y pre ds =>
      simp only [Ev.order, List.mem_append, List.mem_map, List.mem_cons, Obj.holder.injEq] at hm
      simp only [Ev.inits, List.cons_append, List.mem_cons, List.mem_append]
      rcases hm with ⟨_, hm, rfl⟩ | rfl | ⟨_, hm, rfl⟩
      · exact .inr (.inl hm)
      · exact .inl rfl
      · exact .inr (.inr hm)
    | use d y => simp [Ev.order] at hm
    | built y => simp [Ev.order] at hm

example : ((exec (fun _ => .refcounted) [.built 7, .init 0, .insert 0 7 [] []] start).bind (finish fun _ => .refcounted)) =
    none := rfl

/-- **C30, second hazard.**  Even if no static object of the program has flyweights: a `no_tracking` type whose values are
constructed from keys and contain flyweights of a `refcounted` type initialized thereby. -/
theorem C30_nested_hazard :
    ∃ (trk : Nat → Tracking) (p : List Ev), (∀ x, .built x ∉ p) ∧
      ∃ s, exec trk p start = some s ∧ finish trk s = none :=
  ⟨fun c => if c = 0 then .noTracking else .refcounted, [.insert 0 7 [] [1]], by simp, _, rfl, rfl⟩

/-- It does not occur if the inner type is initialized first, as happens when the value is its own key and
nothing has initialized the outer type before. -/
example : ((exec (fun c => if c = 0 then .noTracking else .refcounted) [.insert 0 7 [1] []] start).bind
    (finish fun c => if c = 0 then .noTracking else .refcounted)) = some () := rfl

end Verif.Props

import Verif.ExitNeed
import Verif.Props.Concurrent

/-!
# Termination of the program with flyweights alive

C77.
-/

set_option autoImplicit false

namespace Verif.Props
open Verif.Conc Verif.Exit
variable {K : Type}

/-- What the examples below check of a state, by looking at all its entries.  (No code of its own: used to
state a property or an example.) -/
def exitsB (s : St Nat) (items : List (Item Nat)) (leaked : List (Fw Nat)) : Bool :=
  s.objs.isPerm (leaked ++ inUsers items) && decide (types items).Nodup &&
  (List.range s.next).all (fun e => match s.ents e with
    | none => items.all fun i => match i with
      | .holder _ ord => !ord.contains e
      | .user _ => true
    | some x => (types items).contains x.core && items.all fun i => match i with
      | .holder c ord => ord.contains e == (x.core == c)
      | .user _ => true) &&
  items.all fun i => match i with
    | .holder _ ord => decide ord.Nodup && ord.all fun e => decide (e < s.next)
    | .user _ => true

theorem exits_of {s : St Nat} {items : List (Item Nat)} {leaked : List (Fw Nat)}
    (hb : ∀ e, s.next ≤ e → s.ents e = none) (h : exitsB s items leaked = true) : Exits s items leaked := by
  simp only [exitsB, Bool.and_eq_true, List.all_eq_true, List.mem_range, decide_eq_true_eq] at h
  obtain ⟨⟨⟨h1, h2⟩, h3⟩, h4⟩ := h
  have hlt : ∀ e x, s.ents e = some x → e < s.next := fun e x hx => by
    apply Nat.lt_of_not_le
    intro h'
    rw [hb e h'] at hx
    cases hx
  refine ⟨List.isPerm_iff.1 h1, h2, fun e x hx => ?_, fun c ord hm => ?_⟩
  · have := h3 e (hlt e x hx)
    rw [hx] at this
    simp only [Bool.and_eq_true, List.contains_iff_mem] at this
    exact this.1
  · have h5 := h4 _ hm
    simp only [Bool.and_eq_true, decide_eq_true_eq, List.all_eq_true] at h5
    refine ⟨h5.1, fun e => ⟨fun he => ?_, fun ⟨x, hx, hc⟩ => ?_⟩⟩
    · have h6 := h3 e (h5.2 e he)
      cases hx : s.ents e with
      | none =>
        rw [hx] at h6
        simp only [List.all_eq_true] at h6
        have := h6 _ hm
        simp only [Bool.not_eq_true', List.contains_eq_mem, decide_eq_false_iff_not] at this
        exact absurd he this
      | some x =>
        rw [hx] at h6
        simp only [Bool.and_eq_true, List.all_eq_true] at h6
        have := h6.2 _ hm
        simp only [List.contains_eq_mem, beq_iff_eq] at this
        refine ⟨x, rfl, ?_⟩
        have h7 : decide (e ∈ ord) = true := decide_eq_true he
        rw [h7] at this
        simpa using this.symm
    · have h6 := h3 e (hlt e x hx)
      rw [hx] at h6
      simp only [Bool.and_eq_true, List.all_eq_true] at h6
      have := h6.2 _ hm
      simp only [List.contains_eq_mem, beq_iff_eq, hc, beq_self_eq_true] at this
      simpa using this

/-- Whether static objects are destroyed in a suitable order, by looking at all entries.  (No code of its own:
used to state a property or an example.) -/
def orderedB (s : St Nat) : List (Item Nat) → Bool
  | [] => true
  | .holder c _ :: l => (List.range s.next).all (fun e => match s.ents e with
      | none => true
      | some x => x.core != c || x.kids.all fun w => (types l).contains w.c) && orderedB s l
  | .user l' :: l => l'.all (fun w => (types l).contains w.c) && orderedB s l

theorem ordered_of {s : St Nat} (items : List (Item Nat)) (hb : ∀ e, s.next ≤ e → s.ents e = none)
    (h : orderedB s items = true) : Ordered s.ents items := by
  induction items with
  | nil => trivial
  | cons i l ih =>
    cases i with
    | holder c ord =>
      simp only [orderedB, Bool.and_eq_true, List.all_eq_true, List.mem_range] at h
      refine ⟨fun e x hx hc w hw => ?_, ih h.2⟩
      have hlt : e < s.next := by
        apply Nat.lt_of_not_le
        intro h'
        rw [hb e h'] at hx
        cases hx
      have := h.1 e hlt
      rw [hx] at this
      simp only [hc, bne_self_eq_false, Bool.false_or, List.all_eq_true, List.contains_iff_mem] at this
      exact this w hw
    | user l' =>
      simp only [orderedB, Bool.and_eq_true, List.all_eq_true, List.contains_iff_mem] at h
      exact ⟨h.1, ih h.2⟩

/-- What can be seen of the end: undefined behaviour or not, and the values destroyed.  (No code of its
own: used to state a property or an example.) -/
def ended (acts : List (Nat × Act Nat)) (items : List (Item Nat)) : Option (Bool × List Nat) :=
  match exec sampleCfg acts (start 2) with
  | .ok s => match exit (s.next + 1) items (begin s) with
    | .ok s' => some (true, s'.log)
    | .ub => some (false, [])
    | .deep => none
  | _ => none

/-! ## C77 -/

theorem Std.acc {cfg : Cfg K} (h : Std cfg) {n : Nat} {acts : List (Nat × Act K)} {s : St K}
    (hs : exec cfg acts (start n) = .ok s) (hq : ∀ st ∈ s.thr, st = []) {items : List (Item K)} {leaked : List (Fw K)}
    (hx : Exits s items leaked) : Acc s.next leaked (inUsers items) (begin s) := by
  have hc := (h.inv hs).core
  refine ⟨fun e x hx => hc.lt_next hx, fun e x hx' => ?_⟩
  have h1 := (C07_counts h hs hq hx').1
  have h2 : fwCount e s.objs = fwCount e (leaked ++ inUsers items) := hx.objs.countP_eq _
  rw [fwCount_append] at h2
  rw [h1, h2]
  simp only [begin]
  omega

/-- **C77.**  A program calls `std::exit` while no thread is inside the library: flyweights in `leaked` are never
destroyed, static objects are, in an order in which each object goes before the factories of the flyweights in it and each factory
before those of the flyweights inside its values.  Termination is free of undefined behaviour, whatever flyweights are left and in whatever
order factories destroy their values, and every value is destroyed exactly once. -/
theorem C77_defined {cfg : Cfg K} (h : Std cfg) {n : Nat} {acts : List (Nat × Act K)} {s : St K}
    (hs : exec cfg acts (start n) = .ok s) (hq : ∀ st ∈ s.thr, st = []) {items : List (Item K)} {leaked : List (Fw K)}
    (hx : Exits s items leaked) (ho : Ordered s.ents items) :
    ∃ s', exit (s.next + 1) items (begin s) = .ok s' ∧ (∀ e, s'.ents e = none) ∧ s'.log.Nodup ∧
      ∀ e, e ∈ s'.log ↔ ∃ x, s.ents e = some x := by
  have hc := (h.inv hs).core
  rw [Quiet.frames hq] at hc
  have hacc := Std.acc h hs hq hx
  have fw : ∀ w : Fw K, FwOk cfg (stat s.ents) w → ∃ y, s.ents w.h = some y ∧ y.core = w.c := by
    rintro w ⟨k, hk, _⟩
    simp only [stat, Option.map_eq_some_iff, Prod.mk.injEq] at hk
    obtain ⟨y, hy, hyc, _⟩ := hk
    exact ⟨y, hy, hyc⟩
  have hinv : Exit.Inv s.ents s.next (types items) none leaked (inUsers items) (begin s) := by
    refine ⟨fun e x hx => ⟨hc.lt_next hx, x, hx, rfl, rfl⟩, fun e x hx' => ⟨hacc.refs e x hx', (C07_counts h hs hq hx').2.2⟩,
      fun w hw => ?_, fun e x hx' w hw => ?_, fun _ _ => rfl, fun e x hx' => .inl (hx.all e x hx'), by simp,
      List.nodup_nil, fun e => ?_⟩
    · exact ⟨ho.users w hw, fw w (hc.objsOk w (hx.objs.mem_iff.2 (List.mem_append_right _ hw)))⟩
    · have := fw w (hc.kids e x hx' w hw)
      exact ⟨ho.kids hx.once e x hx' (hx.all e x hx') w hw, this⟩
    · simp only [begin, List.not_mem_nil, false_iff, not_and]
      rintro ⟨y, hy⟩ h'
      rw [hy] at h'
      cases h'
  obtain ⟨s', h1, h2⟩ := exit_ok (n := s.next + 1) items (begin s) hinv
    (Nat.lt_succ_of_le (live_le _ _)) ho hx.once (fun c ord hm => (hx.ords c ord hm).2)
  have hnone : ∀ e, s'.ents e = none := by
    intro e
    cases he : s'.ents e with
    | none => rfl
    | some x =>
      rcases h2.cores e x he with h' | h'
      · cases h'
      · cases h'
  refine ⟨s', h1, hnone, h2.nodup, fun e => ?_⟩
  rw [h2.log e]
  simp [hnone e]

/-- A value of type 0 containing one of type 1; the program keeps a flyweight of type 0 and one of type 1 in
automatic storage (never destroyed), and one of type 1 in a static object.  (No code of its own: used to state a property or an
example.) -/
def leaky : List (Nat × Act Nat) :=
  make 0 1 7 [] ++ [(0, .copy 0), (0, .copy 0)] ++ make 0 0 8 [true]

example : ∃ s, exec sampleCfg leaky (start 2) = .ok s ∧ (∀ st ∈ s.thr, st = []) ∧
    Exits s [.user [⟨0, 1, 7⟩], .holder 0 [1], .holder 1 [0]] [⟨1, 0, 8⟩, ⟨0, 1, 7⟩] ∧
    Ordered s.ents [.user [⟨0, 1, 7⟩], .holder 0 [1], .holder 1 [0]] := by
  refine ⟨_, rfl, by decide, ?_⟩
  have hb := ((sampleStd.inv (acts := leaky) (n := 2) rfl).core).bound
  exact ⟨exits_of hb (by decide +kernel), ordered_of _ hb (by decide +kernel)⟩

example : ended leaky [.user [⟨0, 1, 7⟩], .holder 0 [1], .holder 1 [0]] = some (true, [1, 0]) := by decide +kernel

/-- In particular nothing can go wrong if no value contains flyweights and the ones that exist are not in static objects:
all of them may be left, and all values are destroyed. -/
theorem C77_plain {cfg : Cfg K} (h : Std cfg) {n : Nat} {acts : List (Nat × Act K)} {s : St K}
    (hs : exec cfg acts (start n) = .ok s) (hq : ∀ st ∈ s.thr, st = []) {items : List (Item K)}
    (hx : Exits s items s.objs) (hk : ∀ e x, s.ents e = some x → x.kids = []) :
    ∃ s', exit (s.next + 1) items (begin s) = .ok s' ∧ (∀ e, s'.ents e = none) ∧ s'.log.Nodup ∧
      ∀ e, e ∈ s'.log ↔ ∃ x, s.ents e = some x := by
  refine C77_defined h hs hq hx ?_
  have hu : inUsers items = [] := by
    have := hx.objs.length_eq
    rw [List.length_append] at this
    exact List.eq_nil_of_length_eq_zero (by omega)
  clear hx
  induction items with
  | nil => trivial
  | cons i l ih =>
    cases i with
    | holder c ord => exact ⟨fun e x hx _ w hw => (by rw [hk e x hx] at hw; cases hw), ih hu⟩
    | user l' =>
      simp only [inUsers, List.append_eq_nil_iff] at hu
      exact ⟨fun w hw => (by rw [hu.1] at hw; cases hw), ih hu.2⟩

/-- Three flyweights of two types, all left: values are destroyed in the order of the containers. -/
example : ended (make 0 0 5 [] ++ make 0 0 6 [] ++ (0, .copy 1) :: make 0 1 7 []) [.holder 1 [2], .holder 0 [1, 0]] =
    some (true, [2, 1, 0]) := by decide +kernel

/-- The model's bound on the depth of nested destructions is never met: an outcome is a state or undefined
behaviour. -/
theorem C77_fuel {cfg : Cfg K} (h : Std cfg) {n : Nat} {acts : List (Nat × Act K)} {s : St K}
    (hs : exec cfg acts (start n) = .ok s) (items : List (Item K)) :
    exit (s.next + 1) items (begin s) = .ub ∨ ∃ s', exit (s.next + 1) items (begin s) = .ok s' := by
  have hc := (h.inv hs).core
  have := exit_fine (n := s.next + 1) items (begin s) (fun e x hx => hc.lt_next hx) (Nat.lt_succ_of_le (live_le _ _))
  cases ho : exit (s.next + 1) items (begin s) with
  | ub => exact .inl rfl
  | ok s' => exact .inr ⟨s', rfl⟩
  | deep => rw [ho] at this; exact this.elim

/-- The order is needed: if a value that a remaining flyweight refers to contains a flyweight, and the value of this one
is destroyed first (by a factory destroyed earlier, or earlier by the same factory), termination has undefined behaviour. -/
theorem C77_order {cfg : Cfg K} (h : Std cfg) {n : Nat} {acts : List (Nat × Act K)} {s : St K}
    (hs : exec cfg acts (start n) = .ok s) (hq : ∀ st ∈ s.thr, st = []) {A C : List (Item K)} {c e : Nat}
    {o₁ o₂ : List Nat} {leaked : List (Fw K)} (hx : Exits s (A ++ .holder c (o₁ ++ e :: o₂) :: C) leaked)
    {x : Ent K} (he : s.ents e = some x) {o : Fw K} (hl : o ∈ leaked) (hoe : o.h = e) {w : Fw K} (hw : w ∈ x.kids)
    (hbefore : w.h ∈ o₁ ∨ ∃ d ord, .holder d ord ∈ A ∧ w.h ∈ ord) :
    exit (s.next + 1) (A ++ .holder c (o₁ ++ e :: o₂) :: C) (begin s) = .ub := by
  rcases C77_fuel h hs (A ++ .holder c (o₁ ++ e :: o₂) :: C) with hub | ⟨s', hok⟩
  · exact hub
  · exfalso
    have hcm : .holder c (o₁ ++ e :: o₂) ∈ A ++ .holder c (o₁ ++ e :: o₂) :: C := by simp
    obtain ⟨hnd, hord⟩ := hx.ords _ _ hcm
    have hec : x.core = c := by
      obtain ⟨y, hy, hyc⟩ := (hord e).1 (by simp)
      rw [he, Option.some.injEq] at hy
      rw [hy, hyc]
    refine not_ok (Std.acc h hs hq hx) he hw (fwCount_pos hl hoe) ?_ ?_ hok
    · simp only [List.mem_append, mem_orders, not_or]
      constructor
      · rintro ⟨d, ord, h1, h2⟩
        obtain ⟨y, hy, hyc⟩ := ((hx.ords d ord (List.mem_append_left _ h1)).2 e).1 h2
        rw [he, Option.some.injEq] at hy
        subst hy
        have htypes : ∀ (A : List (Item K)) (B : List (Item K)), (∃ ord, .holder c ord ∈ A) →
            ¬ (types (A ++ .holder c (o₁ ++ e :: o₂) :: B)).Nodup := by
          intro A B hA hn
          induction A with
          | nil => obtain ⟨_, h'⟩ := hA; cases h'
          | cons j A ih =>
            obtain ⟨ord', h'⟩ := hA
            cases j with
            | holder d' o' =>
              simp only [List.cons_append, types, List.nodup_cons] at hn
              rcases List.mem_cons.1 h' with h' | h'
              · cases h'
                refine hn.1 ?_
                have : ∀ A : List (Item K), c ∈ types (A ++ .holder c (o₁ ++ e :: o₂) :: B) := by
                  intro A
                  induction A with
                  | nil => simp [types]
                  | cons j A ih => cases j <;> simp [types, ih]
                exact this A
              · exact ih ⟨ord', h'⟩ hn.2
            | user l =>
              simp only [List.cons_append, types] at hn
              rcases List.mem_cons.1 h' with h' | h'
              · cases h'
              · exact ih ⟨ord', h'⟩ hn
        refine htypes A C ⟨ord, ?_⟩ hx.once
        rw [← hec, hyc]
        exact h1
      · intro h'
        have := (List.nodup_append.1 hnd).2.2 e h' e (List.mem_cons_self ..)
        exact this rfl
    · simp only [List.mem_append, mem_orders]
      exact hbefore.symm

/-- The same values with the factories destroyed in the wrong order. -/
example : ended (make 0 1 7 [] ++ make 0 0 8 [true]) [.holder 1 [0], .holder 0 [1]] = some (false, []) ∧
    ended (make 0 1 7 [] ++ make 0 0 8 [true]) [.holder 0 [1], .holder 1 [0]] = some (true, [1, 0]) := by decide +kernel

example : ∃ s, exec sampleCfg (make 0 1 7 [] ++ make 0 0 8 [true]) (start 2) = .ok s ∧ (∀ st ∈ s.thr, st = []) ∧
    Exits s ([.holder 1 [0]] ++ .holder 0 ([] ++ 1 :: []) :: []) [⟨1, 0, 8⟩] ∧
    ∃ x, s.ents 1 = some x ∧ ⟨0, 1, 7⟩ ∈ x.kids := by
  refine ⟨_, rfl, by decide, ?_⟩
  have hb := ((sampleStd.inv (acts := make 0 1 7 [] ++ make 0 0 8 [true]) (n := 2) rfl).core).bound
  exact ⟨exits_of hb (by decide +kernel), _, rfl, by decide⟩

/-- Likewise if a static object contains a flyweight and is destroyed after the factory with its value. -/
theorem C77_static {cfg : Cfg K} (h : Std cfg) {n : Nat} {acts : List (Nat × Act K)} {s : St K}
    (hs : exec cfg acts (start n) = .ok s) (hq : ∀ st ∈ s.thr, st = []) {A C : List (Item K)} {l leaked : List (Fw K)}
    (hx : Exits s (A ++ .user l :: C) leaked) {w : Fw K} (hw : w ∈ l) {ord : List Nat}
    (hbefore : .holder w.c ord ∈ A) :
    exit (s.next + 1) (A ++ .user l :: C) (begin s) = .ub := by
  rcases C77_fuel h hs (A ++ .user l :: C) with hub | ⟨s', hok⟩
  · exact hub
  · exfalso
    have hc := (h.inv hs).core
    obtain ⟨k, hk, _⟩ := hc.objsOk w (hx.objs.mem_iff.2 (List.mem_append_right _ (by
      rw [inUsers_append]; exact List.mem_append_right _ (List.mem_append_left _ hw))))
    simp only [stat, Option.map_eq_some_iff, Prod.mk.injEq] at hk
    obtain ⟨y, hy, hyc, _⟩ := hk
    exact not_ok_user (Std.acc h hs hq hx) hw ((mem_orders A w.h).2 ⟨_, _, hbefore,
      ((hx.ords _ _ (List.mem_append_left _ hbefore)).2 w.h).2 ⟨y, hy, hyc⟩⟩) hok

example : ended leaky [.holder 0 [1], .holder 1 [0], .user [⟨0, 1, 7⟩]] = some (false, []) := by decide +kernel

example : ∃ s, exec sampleCfg leaky (start 2) = .ok s ∧ (∀ st ∈ s.thr, st = []) ∧
    Exits s ([.holder 0 [1], .holder 1 [0]] ++ .user [⟨0, 1, 7⟩] :: []) [⟨1, 0, 8⟩, ⟨0, 1, 7⟩] := by
  refine ⟨_, rfl, by decide, ?_⟩
  have hb := ((sampleStd.inv (acts := leaky) (n := 2) rfl).core).bound
  exact exits_of hb (by decide +kernel)

/-- Values that contain flyweights of their own type, and no flyweight in static objects: termination is free of
undefined behaviour if and only if every value is destroyed before the ones it contains, and each of these is referred
to by a remaining flyweight too; otherwise behaviour is undefined. -/
theorem C77_recursive {cfg : Cfg K} (h : Std cfg) {n : Nat} {acts : List (Nat × Act K)} {s : St K}
    (hs : exec cfg acts (start n) = .ok s) (hq : ∀ st ∈ s.thr, st = []) {c : Nat} {ord : List Nat}
    {leaked : List (Fw K)} (hx : Exits s [.holder c ord] leaked) :
    ((∃ s', exit (s.next + 1) [.holder c ord] (begin s) = .ok s') ↔
      ∀ e x, s.ents e = some x → ∀ w ∈ x.kids,
        (∃ a b, ord = a ++ e :: b ∧ w.h ∈ b) ∧ ∃ o ∈ leaked, o.h = w.h) ∧
    (exit (s.next + 1) [.holder c ord] (begin s) = .ub ∨
      ∃ s', exit (s.next + 1) [.holder c ord] (begin s) = .ok s') := by
  refine ⟨?_, C77_fuel h hs _⟩
  have hc := (h.inv hs).core
  rw [Quiet.frames hq] at hc
  have hacc := Std.acc h hs hq hx
  have hcore : ∀ e x, s.ents e = some x → x.core = c := by
    intro e x hx'
    simpa [types] using hx.all e x hx'
  have := clear_iff (n := s.next) (c := c) (next := s.next) (objs := leaked) ord
    { begin s with down := fun d => if d = c then true else (begin s).down d } (by simp)
    (hx.ords c ord (by simp)).1 (fun e => by
      rw [(hx.ords c ord (by simp)).2 e]
      exact ⟨fun ⟨x, hx'⟩ => ⟨x, hx', hcore e x hx'⟩, fun ⟨x, hx', _⟩ => ⟨x, hx'⟩⟩)
    (fun e x hx' => by
      refine ⟨hc.lt_next hx', fun w hw => ?_, ?_⟩
      · obtain ⟨k, hk, _⟩ := hc.kids e x hx' w hw
        simp only [stat, Option.map_eq_some_iff, Prod.mk.injEq] at hk
        obtain ⟨y, hy, hyc, _⟩ := hk
        rw [← hyc]
        exact hcore _ y hy
      · have := hacc.refs e x hx'
        simpa [inUsers] using this)
  refine Iff.trans ?_ this
  simp only [exit, Item.destroy]
  constructor
  · rintro ⟨s', h'⟩
    cases h1 : clear (s.next + 1) ord { begin s with down := fun d => if d = c then true else (begin s).down d } with
    | ub => rw [h1] at h'; cases h'
    | deep => rw [h1] at h'; cases h'
    | ok s1 => exact ⟨s1, rfl⟩
  · rintro ⟨s', h'⟩
    exact ⟨s', by rw [h']; rfl⟩

/-- The common case is not safe: if a remaining value contains a flyweight of the same type and no other flyweight is left that refers to
that one's value, there is no order in which the factory could destroy its values. -/
theorem C77_hazard {cfg : Cfg K} (h : Std cfg) {n : Nat} {acts : List (Nat × Act K)} {s : St K}
    (hs : exec cfg acts (start n) = .ok s) (hq : ∀ st ∈ s.thr, st = []) {c : Nat} {ord : List Nat}
    {leaked : List (Fw K)} (hx : Exits s [.holder c ord] leaked) {e : Nat} {x : Ent K} (he : s.ents e = some x)
    {w : Fw K} (hw : w ∈ x.kids) (hno : ∀ o ∈ leaked, o.h ≠ w.h) :
    exit (s.next + 1) [.holder c ord] (begin s) = .ub := by
  obtain ⟨h1, h2⟩ := C77_recursive h hs hq hx
  rcases h2 with h2 | h2
  · exact h2
  · obtain ⟨o, ho, how⟩ := (h1.1 h2 e x he w hw).2
    exact absurd how (hno o ho)

/-- A value that contains another of its type, as in /repo/example/composite.cpp: with only the outer flyweight left neither order is
possible; with a flyweight left that refers to the inner value, one of them is. -/
example :
    ended (make 0 0 7 [] ++ make 0 0 8 [true]) [.holder 0 [0, 1]] = some (false, []) ∧
    ended (make 0 0 7 [] ++ make 0 0 8 [true]) [.holder 0 [1, 0]] = some (false, []) ∧
    ended (make 0 0 7 [] ++ (0, .copy 0) :: make 0 0 8 [true]) [.holder 0 [0, 1]] = some (false, []) ∧
    ended (make 0 0 7 [] ++ (0, .copy 0) :: make 0 0 8 [true]) [.holder 0 [1, 0]] = some (true, [1, 0]) := by
  decide +kernel

example : ∃ s, exec sampleCfg (make 0 0 7 [] ++ make 0 0 8 [true]) (start 2) = .ok s ∧ (∀ st ∈ s.thr, st = []) ∧
    Exits s [.holder 0 [1, 0]] [⟨1, 0, 8⟩] ∧ ∃ x, s.ents 1 = some x ∧ ⟨0, 0, 7⟩ ∈ x.kids := by
  refine ⟨_, rfl, by decide, ?_⟩
  have hb := ((sampleStd.inv (acts := make 0 0 7 [] ++ make 0 0 8 [true]) (n := 2) rfl).core).bound
  exact ⟨exits_of hb (by decide +kernel), _, rfl, by decide⟩

end Verif.Props

import Verif.CFExit
import Verif.Props.ConcFactory

/-!
# Termination of the program with `concurrent_factory`

C78.
-/

set_option autoImplicit false

namespace Verif.Props
open Verif.CFac
open Verif.Conc (Fw Cfg CfgOk fwCount tot)
open Verif.CFExit hiding Out
variable {K : Type}

namespace CFEnd

deriving instance DecidableEq for CFac.Frame

/-- What the examples below check of a state, by looking at all its entries.  (No code of its own: used to
state a property or an example.) -/
def exitsB (s : St Nat) (items : List (Item Nat)) (leaked : List (Fw Nat)) : Bool :=
  s.objs.isPerm (leaked ++ inUsers items) && ((frames s).filter fun f => (relOf f).isSome).isPerm (rests items) && decide (types items).Nodup &&
  (List.range s.next).all (fun e => match s.ents e with
    | none => true
    | some x => (types items).contains x.core && items.all fun i => match i with
      | .holder c ord => x.core != c || ord.contains e
      | _ => true)

theorem exits_of {s : St Nat} {items : List (Item Nat)} {leaked : List (Fw Nat)}
    (hb : ∀ e, s.next ≤ e → s.ents e = none) (h : exitsB s items leaked = true) : Exits s items leaked := by
  simp only [exitsB, Bool.and_eq_true, List.all_eq_true, List.mem_range, decide_eq_true_eq] at h
  obtain ⟨⟨⟨h1, h0⟩, h2⟩, h3⟩ := h
  have hlt : ∀ e x, s.ents e = some x → e < s.next := fun e x hx => by
    apply Nat.lt_of_not_le
    intro h'
    rw [hb e h'] at hx
    cases hx
  have key : ∀ e x, s.ents e = some x → x.core ∈ types items ∧
      ∀ c ord, .holder c ord ∈ items → x.core = c → e ∈ ord := by
    intro e x hx
    have := h3 e (hlt e x hx)
    rw [hx] at this
    simp only [Bool.and_eq_true, List.contains_iff_mem, List.all_eq_true] at this
    refine ⟨this.1, fun c ord hm hc => ?_⟩
    have := this.2 _ hm
    simpa [hc] using this
  exact ⟨List.isPerm_iff.1 h1, List.isPerm_iff.1 h0, h2, fun e x hx => (key e x hx).1, fun c ord hm e x hx hc => (key e x hx).2 c ord hm hc⟩

/-- Whether static objects are destroyed in a suitable order, by looking at all entries.  (No code of its own:
used to state a property or an example.) -/
def orderedB (s : St Nat) : List (Item Nat) → Bool
  | [] => true
  | .holder c _ :: l => (List.range s.next).all (fun e => match s.ents e with
      | none => true
      | some x => x.core != c || x.kids.all fun w => (types l).contains w.c) && orderedB s l
  | .user l' :: l => l'.all (fun w => (types l).contains w.c) && orderedB s l
  | .collect _ :: l => orderedB s l
  | .rest f :: l => (relOf f).all (fun w => (types l).contains w.c) && orderedB s l

theorem ordered_of {s : St Nat} (items : List (Item Nat)) (hb : ∀ e, s.next ≤ e → s.ents e = none)
    (h : orderedB s items = true) : Ordered s.ents items := by
  induction items with
  | nil => trivial
  | cons i l ih =>
    cases i with
    | holder c ord =>
      simp only [orderedB, Bool.and_eq_true, List.all_eq_true, List.mem_range] at h
      refine ⟨fun e x hx hc w hw => ?_, ih h.2⟩
      have hlt : e < s.next := by
        apply Nat.lt_of_not_le
        intro h'
        rw [hb e h'] at hx
        cases hx
      have := h.1 e hlt
      rw [hx] at this
      simp only [hc, bne_self_eq_false, Bool.false_or, List.all_eq_true, List.contains_iff_mem] at this
      exact this w hw
    | user l' =>
      simp only [orderedB, Bool.and_eq_true, List.all_eq_true, List.contains_iff_mem] at h
      exact ⟨h.1, ih h.2⟩
    | collect e => exact ih h
    | rest f =>
      simp only [orderedB, Bool.and_eq_true, Option.all_eq_true, List.contains_iff_mem] at h
      exact ⟨h.1, ih h.2⟩

/-- What can be seen of the end: undefined behaviour or not, and the entries destroyed.  (No code of its
own: used to state a property or an example.) -/
def ended (cfg : Cfg Nat) (acts : List (Nat × Act Nat)) (gcs : List Nat) (items : List (Item Nat)) :
    Option (Bool × List Nat) :=
  match exec cfg acts (start 1 gcs) with
  | .ok s => match exit (locks cfg) items (begin s) with
    | .ok s' => some (true, s'.log)
    | .ub => some (false, [])
  | _ => none

theorem found {o : CFac.Out Nat} {p : St Nat → Bool}
    (h : (match o with | .ok s => p s | _ => false) = true) : ∃ s, o = .ok s ∧ p s = true := by
  cases o with
  | ok s => exact ⟨s, rfl, h⟩
  | _ => cases h

/-- Whether no thread is creating a flyweight.  (No code of its own: used to state a property or an example.) -/
def quietB (s : St Nat) : Bool := (frames s).all leaving

theorem quiet_of {s : St Nat} (h : quietB s = true) : ∀ f ∈ frames s, leaving f = true := List.all_eq_true.1 h

/-- A value of type 0 containing one of type 1, and a flyweight of type 1 that remains; the one of type 0 is destroyed.  (No
code of its own: used to state a property or an example.) -/
def two : List (Nat × Act Nat) :=
  CF.make 0 1 7 [] ++ (0, .copy 0) :: CF.make 0 0 8 [true] ++ (0, .destroy [true]) :: CF.runs 9 0

/-- As before, and then the flyweight of type 1 is being destroyed and the collector of type 0 is erasing the value.  (No code of its
own: used to state a property or an example.) -/
def middle : List (Nat × Act Nat) :=
  two ++ [(0, .destroy [true]), (0, .run), (1, .run), (1, .gcVisit 1), (1, .run), (1, .run), (1, .run)]

/-- A value of type 0 containing another one of type 0; all flyweights of the program are destroyed.  (No code of its own: used to
state a property or an example.) -/
def nested : List (Nat × Act Nat) :=
  CF.make 0 0 7 [] ++ CF.make 0 0 8 [true] ++ (0, .destroy [true]) :: CF.runs 9 0

end CFEnd

theorem quiet_tot (g : Frame K → Nat) (l : List (Frame K)) (hg : ∀ f ∈ l, relOf f = none → g f = 0) :
    tot g l = tot g (l.filter fun f => (relOf f).isSome) := by
  induction l with
  | nil => rfl
  | cons f l ih =>
    have ih := ih fun f hf => hg f (List.mem_cons_of_mem _ hf)
    cases hr : relOf f with
    | none =>
      rw [List.filter_cons_of_neg (by simp [hr]), ← ih]
      simp only [tot, List.map_cons, List.sum_cons, hg f (List.mem_cons_self ..) hr, Nat.zero_add]
    | some w =>
      rw [List.filter_cons_of_pos (by simp [hr])]
      simp only [tot, List.map_cons, List.sum_cons] at ih ⊢
      rw [ih]

/-- Collectors have no references. -/
theorem refF_zero (e : Nat) {f : Frame K} (hl : leaving f = true) (hr : relOf f = none) : refF e f = 0 := by
  cases f <;> first | rfl | (cases hr; done) | cases hl

theorem tot_perm {α : Type} (g : α → Nat) {l m : List α} (h : l.Perm m) : tot g l = tot g m := (h.map g).sum_nat

/-! ## C78 -/

/-- **C78**, for values that do not contain flyweights of their own type (what is missing: those that do, see `C78_recursive`).  A
program ends while no thread is creating a flyweight; user threads may be in the destructor of a flyweight and collectors anywhere, and complete what they have begun: flyweights in `leaked` are never destroyed, static objects are, in an
order in which each object goes before the factories of the flyweights in it (and so does the completion of a destructor) and each factory before those of the flyweights inside
its values; collectors of factories that still exist may erase entries at any time in between.  This is free of undefined behaviour, whatever values the
collectors have left, and every entry is destroyed exactly once. -/
theorem C78_defined_partial {cfg : Cfg K} (h : CfgOk cfg) {n : Nat} {gcs : List Nat} {acts : List (Nat × Act K)} {s : St K}
    (hs : exec cfg acts (start n gcs) = .ok s) (hq : ∀ f ∈ frames s, leaving f = true)
    {items : List (Item K)} {leaked : List (Fw K)} (hx : Exits s items leaked) (ho : Ordered s.ents items) :
    ∃ s', exit (locks cfg) items (begin s) = .ok s' ∧ (∀ e, s'.ents e = none) ∧ s'.log.Nodup ∧
      ∀ e, e ∈ s'.log ↔ ∃ x, s.ents e = some x := by
  have hc := (exec_inv h hs).core
  have fw : ∀ w : Fw K, FwOk cfg s.ents w → ∃ y, s.ents w.h = some y ∧ y.core = w.c := by
    rintro w ⟨y, hy, hyc, _⟩
    exact ⟨y, hy, hyc⟩
  have hinv : CFExit.Inv s.ents s.next (types items) none leaked (toGo items) (begin s) := by
    refine ⟨fun e x hx => ⟨hc.lt_next hx, x, hx, rfl, rfl⟩, fun e x hx' => ?_,
      fun w hw => ?_, fun e x hx' w hw => ?_, fun _ _ => rfl, fun e x hx' => .inl (hx.all e x hx'), by simp,
      List.nodup_nil, fun e => ?_⟩
    · have h1 := hc.refs e
      have h2 : fwCount e s.objs = fwCount e (leaked ++ inUsers items) := hx.objs.countP_eq _
      rw [Conc.fwCount_append] at h2
      simp only [begin] at hx'
      have h3 := tot_perm (refF e) (hx.begun.filter fun f => (relOf f).isSome)
      rw [List.filter_filter] at h3
      simp only [Bool.and_self] at h3
      rw [quiet_tot _ _ fun f hf hr => refF_zero e (hq f hf) hr, h2, h3] at h1
      simp only [refOf, hx'] at h1
      simp only [begin, count_toGo]
      omega
    · refine ⟨ho.users w hw, ?_⟩
      rcases (mem_toGo items).1 hw with hw | ⟨f, hf, hr⟩
      · exact fw w (hc.objsOk w (hx.objs.mem_iff.2 (List.mem_append_right _ hw)))
      · have hf := hc.frames f (List.mem_filter.1 (hx.begun.mem_iff.2 hf)).1
        cases f with
        | rel v => cases hr; exact fw w hf
        | relLock v => cases hr; exact fw w hf
        | relCheck v => cases hr; exact fw w hf
        | relUnlock v => cases hr; exact fw w hf
        | relDec v => cases hr; exact fw w hf
        | _ => cases hr
    · have := fw w (hc.kids e x hx' w hw)
      exact ⟨ho.kids hx.once e x hx' (hx.all e x hx') w hw, this⟩
    · simp only [begin, List.not_mem_nil, false_iff, not_and]
      rintro ⟨y, hy⟩ h'
      rw [hy] at h'
      cases h'
  obtain ⟨s', h1, h2⟩ := exit_ok (lk := locks cfg) items (begin s) hinv ho hx.once hx.ords
  have hnone : ∀ e, s'.ents e = none := by
    intro e
    cases he : s'.ents e with
    | none => rfl
    | some x =>
      rcases h2.cores e x he with h' | h'
      · cases h'
      · cases h'
  refine ⟨s', h1, hnone, h2.nodup, fun e => ?_⟩
  rw [h2.log e]
  simp [hnone e]

/-- A value of type 0, no longer referred to, containing one of type 1 to which a static object refers; a collector visits both, one before and one
while the factory of the other is destroyed. -/
example : ∃ s, exec CF.tracked CFEnd.two (start 1 [0, 1]) = .ok s ∧
    (∀ f ∈ frames s, leaving f = true) ∧
    Exits s [.user [⟨0, 1, 7⟩], .collect 0, .holder 0 [0, 1], .holder 1 [0]] [] ∧
    Ordered s.ents [.user [⟨0, 1, 7⟩], .collect 0, .holder 0 [0, 1], .holder 1 [0]] := by
  refine ⟨_, rfl, ?_, ?_⟩
  · exact CFEnd.quiet_of (by decide +kernel)
  · have hb := ((exec_inv CF.trackedOk (acts := CFEnd.two) (n := 1) (gcs := [0, 1]) rfl).core).bound
    exact ⟨CFEnd.exits_of hb (by decide +kernel), CFEnd.ordered_of _ hb (by decide +kernel)⟩

example : CFEnd.ended CF.tracked CFEnd.two [0, 1] [.user [⟨0, 1, 7⟩], .collect 0, .holder 0 [0, 1], .holder 1 [0]] =
      some (true, [1, 0]) ∧
    CFEnd.ended CF.untracked CFEnd.two [0, 1] [.user [⟨0, 1, 7⟩], .collect 1, .holder 0 [0, 1], .holder 1 [0]] =
      some (true, [1, 0]) := by decide +kernel

/-- The program ends while the collector is in the middle of erasing the value of type 0, waiting for the mutex of type 1 in the destructor of
the flyweight inside, and a user thread in the destructor of its flyweight of type 1. -/
example : ∃ s, exec CF.tracked CFEnd.middle (start 1 [0, 1]) = .ok s ∧
    (∀ f ∈ frames s, leaving f = true) ∧
    Exits s [.rest (.relLock ⟨0, 1, 7⟩), .holder 0 [1], .rest (.relDec ⟨0, 1, 7⟩), .holder 1 [0]] [] ∧
    Ordered s.ents [.rest (.relLock ⟨0, 1, 7⟩), .holder 0 [1], .rest (.relDec ⟨0, 1, 7⟩), .holder 1 [0]] := by
  refine ⟨_, rfl, CFEnd.quiet_of (by decide +kernel), ?_⟩
  have hb := ((exec_inv CF.trackedOk (acts := CFEnd.middle) (n := 1) (gcs := [0, 1]) rfl).core).bound
  exact ⟨CFEnd.exits_of hb (by decide +kernel), CFEnd.ordered_of _ hb (by decide +kernel)⟩

/-- Here the order matters for the destructors, too. -/
example : CFEnd.ended CF.tracked CFEnd.middle [0, 1]
      [.rest (.relLock ⟨0, 1, 7⟩), .holder 0 [1], .rest (.relDec ⟨0, 1, 7⟩), .holder 1 [0]] = some (true, [1, 0]) ∧
    CFEnd.ended CF.tracked CFEnd.middle [0, 1]
      [.rest (.relDec ⟨0, 1, 7⟩), .holder 1 [0], .rest (.relLock ⟨0, 1, 7⟩), .holder 0 [1]] = some (false, []) := by
  decide +kernel

/-- Values that contain flyweights of their own type, no destructor in progress, and no flyweight in static objects: termination is free of
undefined behaviour if and only if every value is destroyed before the ones it contains and, with `refcounted` and `simple_locking`, a flyweight
is left for each of these. -/
theorem C78_recursive {cfg : Cfg K} (h : CfgOk cfg) {n : Nat} {gcs : List Nat} {acts : List (Nat × Act K)} {s : St K}
    (hs : exec cfg acts (start n gcs) = .ok s) (hq : ∀ f ∈ frames s, leaving f = true)
    {c : Nat} {ord : List Nat} {leaked : List (Fw K)} (hx : Exits s [.holder c ord] leaked) (hn : ord.Nodup)
    (hord : ∀ e ∈ ord, ∃ x, s.ents e = some x) :
    (∃ s', exit (locks cfg) [.holder c ord] (begin s) = .ok s') ↔
      ∀ e x, s.ents e = some x → ∀ w ∈ x.kids,
        (∃ a b, ord = a ++ e :: b ∧ w.h ∈ b) ∧ (cfg.tracks = true → cfg.locking = true → ∃ o ∈ leaked, o.h = w.h) := by
  have hc := (exec_inv h hs).core
  have hcore : ∀ e x, s.ents e = some x → x.core = c := by
    intro e x hx'
    simpa [types] using hx.all e x hx'
  have := clear_iff (lk := locks cfg) (c := c) (next := s.next) (objs := leaked) ord
    { begin s with down := fun d => if d = c then true else (begin s).down d } (by simp) hn
    (fun e => ⟨fun ⟨x, hx'⟩ => hx.ords c ord (by simp) e x hx' (hcore e x hx'), hord e⟩)
    (fun e x hx' => by
      refine ⟨hc.lt_next hx', hcore e x hx', fun w hw => ?_, fun hl => ?_⟩
      · obtain ⟨y, hy, hyc, _⟩ := hc.kids e x hx' w hw
        rw [← hyc]
        exact hcore _ y hy
      · have h1 := exec_tracked h (Bool.and_eq_true_iff.1 hl).2 (start_inv n gcs) (start_tracked n gcs) hs e
        have h2 : fwCount e s.objs = fwCount e (leaked ++ inUsers [.holder c ord]) := hx.objs.countP_eq _
        simp only [begin] at hx'
        have h3 := hx.begun.length_eq
        have h3 := List.length_eq_zero_iff.1 h3
        rw [quiet_tot _ _ fun f hf hr => Nat.eq_zero_of_le_zero (refF_zero e (hq f hf) hr ▸ trackF_le e f), h2, h3] at h1
        simp only [trefOf, hx', inUsers, List.append_nil, Conc.tot_nil] at h1
        simp only [begin]
        omega)
  have curry : ∀ P : Prop, (locks cfg = true → P) ↔ (cfg.tracks = true → cfg.locking = true → P) := by
    intro P
    simp only [locks, Bool.and_eq_true]
    exact ⟨fun h1 h2 h3 => h1 ⟨h3, h2⟩, fun h1 h2 => h1 h2.2 h2.1⟩
  simp only [curry] at this
  refine Iff.trans ?_ this
  simp only [exit, Item.run]
  constructor
  · rintro ⟨s', h'⟩
    cases h1 : clear (locks cfg) c ord { begin s with down := fun d => if d = c then true else (begin s).down d } with
    | ub => rw [h1] at h'; cases h'
    | ok s1 => exact ⟨s1, rfl⟩
  · rintro ⟨s', h'⟩
    exact ⟨s', by rw [h']; rfl⟩

/-- The case of two values, one inside the other, and its hypotheses. -/
example : ∃ s, exec CF.tracked CFEnd.nested (start 1 [0]) = .ok s ∧
    (∀ f ∈ frames s, leaving f = true) ∧ Exits s [.holder 0 [1, 0]] [] ∧ [1, 0].Nodup ∧
    (∀ e ∈ [1, 0], ∃ x, s.ents e = some x) ∧ ∃ x, s.ents 1 = some x ∧ x.kids.map Fw.h = [0] := by
  obtain ⟨s, hs, hp⟩ := CFEnd.found (o := exec CF.tracked CFEnd.nested (start 1 [0]))
    (p := fun s => CFEnd.quietB s && CFEnd.exitsB s [.holder 0 [1, 0]] [] && (s.ents 0).isSome &&
      (s.ents 1).any fun x => x.kids.map Fw.h == [0]) (by decide +kernel)
  simp only [Bool.and_eq_true, Option.isSome_iff_exists, Option.any_eq_true, beq_iff_eq] at hp
  obtain ⟨⟨⟨h1, h2⟩, h3⟩, h4⟩ := hp
  refine ⟨s, hs, CFEnd.quiet_of h1, CFEnd.exits_of (exec_inv CF.trackedOk hs).core.bound h2, by decide, fun e he => ?_, h4⟩
  rcases List.mem_cons.1 he with rfl | he
  · exact h4.imp fun _ h => h.1
  · rw [List.mem_singleton.1 he]
    exact h3

/-- The value with another one inside, destroyed in both orders, with all four combinations of policies. -/
example : CFEnd.ended (CF.with_ true false) CFEnd.nested [0] [.holder 0 [1, 0]] = some (true, [1, 0]) ∧
    CFEnd.ended (CF.with_ true false) CFEnd.nested [0] [.holder 0 [0, 1]] = some (false, []) ∧
    CFEnd.ended (CF.with_ false true) CFEnd.nested [0] [.holder 0 [1, 0]] = some (true, [1, 0]) ∧
    CFEnd.ended (CF.with_ false true) CFEnd.nested [0] [.holder 0 [0, 1]] = some (false, []) ∧
    CFEnd.ended CF.untracked CFEnd.nested [0] [.holder 0 [1, 0]] = some (true, [1, 0]) ∧
    CFEnd.ended CF.untracked CFEnd.nested [0] [.holder 0 [0, 1]] = some (false, []) ∧
    CFEnd.ended CF.tracked CFEnd.nested [0] [.holder 0 [1, 0]] = some (false, []) ∧
    CFEnd.ended CF.tracked CFEnd.nested [0] [.holder 0 [0, 1]] = some (false, []) := by decide +kernel

/-- Nothing is left to chance if the collector has been there in time. -/
example : CFEnd.ended CF.tracked (CFEnd.nested ++ CF.pass 1 [1, 0]) [0] [.holder 0 [0, 1]] = some (true, []) ∧
    CFEnd.ended CF.tracked CFEnd.nested [0] [.collect 1, .collect 0, .holder 0 [0, 1]] = some (true, [1, 0]) := by
  decide +kernel

/-- **C78** is violated: a program with one thread makes a value that contains another one of the same type, destroys all its flyweights, and ends
before the collector has come by.  With `refcounted` and `simple_locking` termination has undefined behaviour in whatever order the factory destroys
its entries; with `no_tracking` and `no_locking` (and with only one of these, see the example above), in one of the two orders. -/
theorem C78_violated :
    (∃ s, exec CF.tracked CFEnd.nested (start 1 [0]) = .ok s ∧ s.objs = [] ∧
      (∀ f ∈ frames s, leaving f = true) ∧ Exits s [.holder 0 [0, 1]] [] ∧ Exits s [.holder 0 [1, 0]] [] ∧
      exit (locks CF.tracked) [.holder 0 [0, 1]] (begin s) = .ub ∧
      exit (locks CF.tracked) [.holder 0 [1, 0]] (begin s) = .ub) ∧
    ∃ s, exec CF.untracked CFEnd.nested (start 1 [0]) = .ok s ∧ s.objs = [] ∧
      (∀ f ∈ frames s, leaving f = true) ∧ Exits s [.holder 0 [0, 1]] [] ∧
      exit (locks CF.untracked) [.holder 0 [0, 1]] (begin s) = .ub := by
  refine ⟨⟨_, rfl, rfl, CFEnd.quiet_of (by decide +kernel), ?_⟩, ⟨_, rfl, rfl, CFEnd.quiet_of (by decide +kernel), ?_⟩⟩
  · have hb := ((exec_inv CF.trackedOk (acts := CFEnd.nested) (n := 1) (gcs := [0]) rfl).core).bound
    exact ⟨CFEnd.exits_of hb (by decide +kernel), CFEnd.exits_of hb (by decide +kernel), rfl, rfl⟩
  · have hb := ((exec_inv CF.untrackedOk (acts := CFEnd.nested) (n := 1) (gcs := [0]) rfl).core).bound
    exact ⟨CFEnd.exits_of hb (by decide +kernel), rfl⟩

/-- The order of static objects and factories is needed: if a flyweight outside values is destroyed, or its destructor completed, after the
factory of its type, termination has undefined behaviour, whatever the policies. -/
theorem C78_late {cfg : Cfg K} (h : CfgOk cfg) {n : Nat} {gcs : List Nat} {acts : List (Nat × Act K)} {s : St K}
    (hs : exec cfg acts (start n gcs) = .ok s) {A B : List (Item K)} {c : Nat} {ord : List Nat} {leaked : List (Fw K)}
    (hx : Exits s (A ++ .holder c ord :: B) leaked) {w : Fw K} (hc : w.c = c)
    (hw : (∃ l, .user l ∈ B ∧ w ∈ l) ∨ ∃ f, .rest f ∈ B ∧ relOf f = some w) (lk : Bool) :
    exit lk (A ++ .holder c ord :: B) (begin s) = .ub := by
  have hcore := (exec_inv h hs).core
  have sub : ∀ A : List (Item K), (∀ w ∈ inUsers B, w ∈ inUsers (A ++ .holder c ord :: B)) ∧
      ∀ f ∈ rests B, f ∈ rests (A ++ .holder c ord :: B) := by
    intro A
    induction A with
    | nil => exact ⟨fun w h => h, fun f h => h⟩
    | cons i A ih =>
      cases i with
      | holder _ _ => exact ih
      | collect _ => exact ih
      | user l => exact ⟨fun w h => List.mem_append_right _ (ih.1 w h), ih.2⟩
      | rest f => exact ⟨ih.1, fun g h => List.mem_cons_of_mem _ (ih.2 g h)⟩
  have hgo : w ∈ inUsers B ∨ ∃ f ∈ rests B, relOf f = some w := by
    rcases hw with ⟨l, hl, hw⟩ | ⟨f, hf, hr⟩
    · left
      clear hx sub
      induction B with
      | nil => cases hl
      | cons i B ih =>
        rcases List.mem_cons.1 hl with rfl | hl'
        · exact List.mem_append_left _ hw
        · cases i with
          | user l' => exact List.mem_append_right _ (ih hl')
          | _ => exact ih hl'
    · right
      refine ⟨f, ?_, hr⟩
      clear hx sub
      induction B with
      | nil => cases hf
      | cons i B ih =>
        rcases List.mem_cons.1 hf with rfl | hf'
        · exact List.mem_cons_self ..
        · cases i with
          | rest g => exact List.mem_cons_of_mem _ (ih hf')
          | _ => exact ih hf'
  have hfw : ∃ y, s.ents w.h = some y ∧ y.core = w.c := by
    have fw : FwOk cfg s.ents w → ∃ y, s.ents w.h = some y ∧ y.core = w.c := by
      rintro ⟨y, hy, hyc, _⟩
      exact ⟨y, hy, hyc⟩
    rcases hgo with hw | ⟨f, hf, hr⟩
    · exact fw (hcore.objsOk w (hx.objs.mem_iff.2 (List.mem_append_right _ ((sub A).1 w hw))))
    · have hf := hcore.frames f (List.mem_filter.1 (hx.begun.mem_iff.2 ((sub A).2 f hf))).1
      cases f with
      | rel v => cases hr; exact fw hf
      | relLock v => cases hr; exact fw hf
      | relCheck v => cases hr; exact fw hf
      | relUnlock v => cases hr; exact fw hf
      | relDec v => cases hr; exact fw hf
      | _ => cases hr
  obtain ⟨y, hy, hyc⟩ := hfw
  have hmem : w.h ∈ ord := hx.ords c ord (by simp) w.h y hy (hyc.trans hc)
  cases he : exit lk (A ++ .holder c ord :: B) (begin s) with
  | ub => rfl
  | ok s' =>
    rw [exit_append] at he
    cases h1 : exit lk A (begin s) with
    | ub => rw [h1] at he; cases he
    | ok s1 =>
      rw [h1] at he
      simp only [CFExit.Out.bind, exit, Item.run] at he
      cases h2 : clear lk c ord { s1 with down := fun d => if d = c then true else s1.down d } with
      | ub => rw [h2] at he; cases he
      | ok s2 =>
        rw [h2] at he
        have h3 := (exit_shrinks B he).2 w ((mem_toGo B).2 hgo)
        refine absurd ?_ h3
        obtain ⟨h4, h5⟩ := clear_shrinks ord h2
        cases hz : s1.ents w.h with
        | none => exact h4.gone hz
        | some z =>
          obtain ⟨y', hy', hc'⟩ := (exit_shrinks A h1).1 w.h z hz
          simp only [begin] at hy'
          rw [hy] at hy'
          cases hy'
          exact h5 w.h hmem z hz (hc'.symm.trans (hyc.trans hc))

/-- The destructors of the example above are completed too late: that of the user thread, or that of the collector. -/
example : ∃ s, exec CF.tracked CFEnd.middle (start 1 [0, 1]) = .ok s ∧
    Exits s ([.rest (.relLock ⟨0, 1, 7⟩), .holder 0 [1]] ++ .holder 1 [0] :: [.rest (.relDec ⟨0, 1, 7⟩)]) [] ∧
    Exits s ([.rest (.relDec ⟨0, 1, 7⟩)] ++ .holder 1 [0] :: [.rest (.relLock ⟨0, 1, 7⟩), .holder 0 [1]]) [] := by
  have hb := ((exec_inv CF.trackedOk (acts := CFEnd.middle) (n := 1) (gcs := [0, 1]) rfl).core).bound
  exact ⟨_, rfl, CFEnd.exits_of hb (by decide +kernel), CFEnd.exits_of hb (by decide +kernel)⟩

/-- So is a static object. -/
example : ∃ s, exec CF.tracked CFEnd.two (start 1 [0, 1]) = .ok s ∧
    Exits s ([.holder 0 [1]] ++ .holder 1 [0] :: [.user [⟨0, 1, 7⟩]]) [] := by
  have hb := ((exec_inv CF.trackedOk (acts := CFEnd.two) (n := 1) (gcs := [0, 1]) rfl).core).bound
  exact ⟨_, rfl, CFEnd.exits_of hb (by decide +kernel)⟩

/-- The order of factories is needed: if a value contains a flyweight, and the value of this one is destroyed first (by a
factory destroyed earlier, or earlier by the same factory), termination has undefined behaviour, unless a collector comes by. -/
theorem C78_order {lk : Bool} {s : St K} {A C : List (Item K)} {c e : Nat} {o₁ o₂ : List Nat}
    (hI : Idle s.ents (A ++ .holder c (o₁ ++ e :: o₂) :: C)) {x : Ent K} (he : s.ents e = some x) {w : Fw K}
    (hw : w ∈ x.kids) (hnot : e ∉ orders A ∧ e ∉ o₁) (hbefore : w.h ∈ orders A ∨ w.h ∈ o₁) :
    exit lk (A ++ .holder c (o₁ ++ e :: o₂) :: C) (begin s) = .ub := by
  cases hs : exit lk (A ++ .holder c (o₁ ++ e :: o₂) :: C) (begin s) with
  | ub => rfl
  | ok s' =>
    exact (not_ok (s := begin s) hI he hw (by simpa using hnot) (by simpa using hbefore) hs).elim

/-- The factory of the value inside is destroyed first. -/
example : ∃ s, exec CF.untracked CFEnd.two (start 1 [0, 1]) = .ok s ∧
    Idle s.ents ([.holder 1 [0]] ++ .holder 0 ([] ++ 1 :: []) :: []) ∧
    (∃ x, s.ents 1 = some x ∧ ∃ w ∈ x.kids, w.h ∈ orders ([.holder 1 [0]] : List (Item Nat))) ∧
    1 ∉ orders ([.holder 1 [0]] : List (Item Nat)) := by
  obtain ⟨s, hs, hp⟩ := CFEnd.found (o := exec CF.untracked CFEnd.two (start 1 [0, 1]))
    (p := fun s => (s.ents 0).all (fun x => x.core == 1) && (s.ents 1).all (fun x => x.core == 0) &&
      (s.ents 1).any fun x => x.kids.any fun w => w.h == 0) (by decide +kernel)
  simp only [Bool.and_eq_true, Option.any_eq_true, Option.all_eq_true, List.any_eq_true, beq_iff_eq] at hp
  obtain ⟨⟨h1, h2⟩, x, h3, w, h4, h5⟩ := hp
  refine ⟨s, hs, ⟨?_, ?_, trivial⟩, ⟨x, h3, w, h4, by simp [orders, h5]⟩, by decide⟩
  · intro e he x hx
    rw [List.mem_singleton.1 he] at hx
    exact h1 x hx
  · intro e he x hx
    rw [List.mem_singleton.1 he] at hx
    exact h2 x hx

example : CFEnd.ended CF.untracked CFEnd.two [0, 1] [.holder 1 [0], .holder 0 [1]] = some (false, []) ∧
    CFEnd.ended CF.untracked CFEnd.two [0, 1] [.collect 1, .holder 1 [0], .holder 0 [1]] = some (true, [1, 0]) := by
  decide +kernel

end Verif.Props

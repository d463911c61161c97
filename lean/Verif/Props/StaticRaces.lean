import Verif.StaticHB
import Verif.StaticQuiet

/-!
# C51: static data of a flyweight type and threads

Theorems about any number of flyweight types and threads, and any order of their actions.
-/

set_option autoImplicit false

namespace Verif.Props
open Verif.HB Verif.StaticHB

/-- **C51.**  Let the program begin with `l1`, after which type `c` is initialized, and go on with `l2`, in which the
dynamic initialization of the type's `static_initializer` does not begin.  If in `l1` only thread `t0` accesses
the type's static data, and if all that it did in `l1` happens before each access by other threads, by
whatever means, then there is no data race on these data and no null pointer is found.  Missing from C51: the
program does not control when that dynamic initialization takes place, see `C51_violated`. -/
theorem C51_ordered_partial (l1 l2 : List (Nat × Act)) (c t0 : Nat)
    (hflag : (exec l1 start).flag c = true)
    (hidle : ((exec l1 start).pc t0).type ≠ some c)
    (hfirst : ∀ j, Touch (exec l1 start).tr c j → By (exec l1 start).tr j t0)
    (hdyn : ∀ t, (t, Act.dyn c) ∉ l2)
    (hafter : ∀ i j t, By (exec l1 start).tr i t0 → (exec l1 start).tr.length ≤ j →
      Touch (exec l2 (exec l1 start)).tr c j → By (exec l2 (exec l1 start)).tr j t → t ≠ t0 →
      Before (exec l2 (exec l1 start)).tr i j) :
    RaceFreeOn c (exec l2 (exec l1 start)).tr ∧ ∀ t, act (exec l2 (exec l1 start)) t (.use c) ≠ .ub := by
  have hi := exec_inv l1 start inv_start
  have hr : Ready c (exec l1 start) := by
    refine ⟨hflag, ?_⟩
    intro t ht
    obtain ⟨j, h1, x, h2, h3⟩ := hi.touched t c ht
    obtain ⟨y, h4, h5⟩ := hfirst j h1
    rw [h2] at h4
    cases h4
    rw [h3] at h5
    subst h5
    exact hidle ht
  obtain ⟨h1, h2⟩ := exec_ready l2 _ hi hr hdyn
  obtain ⟨es, he⟩ := exec_tr l2 _ hi
  have hi2 := exec_inv l2 _ hi
  refine ⟨?_, ?_⟩
  · -- of two accesses the first one is made in `l1`
    have key : ∀ i j l k k', l.type = c → i < j → Acc (exec l2 (exec l1 start)).tr i (l, k) →
        Acc (exec l2 (exec l1 start)).tr j (l, k') → k.conflict k' = true →
        Before (exec l2 (exec l1 start)).tr i j := by
      intro i j l k k' hl hij hai haj hc
      have old : ∀ i k, i < (exec l1 start).tr.length → Acc (exec l2 (exec l1 start)).tr i (l, k) →
          By (exec l1 start).tr i t0 ∧ By (exec l2 (exec l1 start)).tr i t0 := by
        intro i k hlt ha
        obtain ⟨x, h3, h4⟩ := ha
        have h3' := h3
        rw [he, List.getElem?_append_left hlt] at h3'
        obtain ⟨y, h5, h6⟩ := hfirst i ⟨l, k, hl, x, h3', h4⟩
        rw [h3'] at h5
        cases h5
        exact ⟨⟨x, h3', h6⟩, ⟨x, h3, h6⟩⟩
      rcases Nat.lt_or_ge i (exec l1 start).tr.length with hlt | hge
      · obtain ⟨hb1, hb2⟩ := old i k hlt hai
        have hbj : ∃ t, By (exec l2 (exec l1 start)).tr j t := by
          obtain ⟨y, hy, _⟩ := haj
          exact ⟨y.thr, y, hy, rfl⟩
        obtain ⟨t, hbj⟩ := hbj
        by_cases ht : t = t0
        · obtain ⟨x, hx, hx'⟩ := hb2
          obtain ⟨y, hy, hy'⟩ := hbj
          exact .single ⟨hij, x, y, hx, hy, .inl (by rw [hx', hy', ht])⟩
        · rcases Nat.lt_or_ge j (exec l1 start).tr.length with hlt' | hge'
          · exfalso
            obtain ⟨_, y, hy, hy'⟩ := old j k' hlt' haj
            obtain ⟨z, hz, hz'⟩ := hbj
            rw [hy] at hz
            cases hz
            exact ht (hz'.symm.trans hy')
          · exact hafter i j t hb1 hge' ⟨l, k', hl, haj⟩ hbj ht
      · rw [h2 i l k hl hge hai, h2 j l k' hl (Nat.le_trans hge (Nat.le_of_lt hij)) haj] at hc
        cases hc
    intro i j l k k' hl hne hai haj hc
    rcases Nat.lt_or_gt_of_ne hne with h3 | h3
    · exact .inl (key i j l k k' hl h3 hai haj hc)
    · exact .inr (key j i l k' k hl h3 haj hai (by rw [conflict_symm]; exact hc))
  · intro t hu
    obtain ⟨_, h4, h5⟩ := hi2.flag c h1.flag
    unfold act at hu
    split at hu
    · dsimp only at hu
      split at hu
      · simp only [h4, h5, Bool.and_self, if_true] at hu
        cases hu
      · cases hu
    · cases hu

/-- **C51.**  In particular: if thread 0 has initialized the type before it starts any other thread, and the dynamic
initialization of `static_initializer` does not begin later, then no thread ever has a data race on the static data of the
type, whatever all the threads (and those that they start) do.  Missing: as for `C51_ordered_partial`. -/
theorem C51_started_partial (l1 l2 : List (Nat × Act)) (c : Nat)
    (hflag : (exec l1 start).flag c = true)
    (hidle : (exec l1 start).pc 0 = .idle)
    (hsolo : ∀ u, (exec l1 start).on u = true → u = 0)
    (hdyn : ∀ t, (t, Act.dyn c) ∉ l2) :
    RaceFreeOn c (exec l2 (exec l1 start)).tr ∧ ∀ t, act (exec l2 (exec l1 start)) t (.use c) ≠ .ub := by
  have h0 := solo_start l1 start (fun j hj => absurd hj (Nat.not_lt_zero j)) hsolo
  have hs : Solo (exec l1 start).tr.length (exec l1 start) := by
    refine ⟨h0, ?_, ?_⟩
    · intro u hu hu0
      exact absurd (hsolo u hu) hu0
    · intro j u hj hu
      obtain ⟨x, h1, h2⟩ := hj
      obtain ⟨y, h3, h4⟩ := h0 j (get_lt h1)
      rw [h1] at h3
      cases h3
      exact absurd (h2.symm.trans h4) hu
  have hs2 := hs.exec l2
  refine C51_ordered_partial l1 l2 c 0 hflag ?_ ?_ hdyn ?_
  · rw [hidle]
    intro h
    cases h
  · rintro j ⟨l, k, _, ha⟩
    exact h0 j ha.lt
  · intro i j t hi _ _ hj ht
    exact hs2.later j t hj ht i hi.lt

/-- **C51, whatever happens later.**  As `C51_ordered_partial`, but the dynamic initialization of the type's
`static_initializer` may begin at any time, in any thread: no null pointer is found, and there is at most one event `w`
that takes part in data races on the static data of the type, by writing `static_initializer`.  In particular there is no
data race on the pointers, the factory or the mutex. -/
theorem C51_ordered_late_partial (l1 l2 : List (Nat × Act)) (c t0 : Nat)
    (hflag : (exec l1 start).flag c = true)
    (hidle : ((exec l1 start).pc t0).type ≠ some c)
    (hfirst : ∀ j, Touch (exec l1 start).tr c j → By (exec l1 start).tr j t0)
    (hafter : ∀ i j t, By (exec l1 start).tr i t0 → (exec l1 start).tr.length ≤ j →
      Touch (exec l2 (exec l1 start)).tr c j → By (exec l2 (exec l1 start)).tr j t → t ≠ t0 →
      Before (exec l2 (exec l1 start)).tr i j) :
    (∀ t, act (exec l2 (exec l1 start)) t (.use c) ≠ .ub) ∧
    ∃ w, ∀ i j l k k', l.type = c → i ≠ j → Acc (exec l2 (exec l1 start)).tr i (l, k) →
      Acc (exec l2 (exec l1 start)).tr j (l, k') → k.conflict k' = true →
      Before (exec l2 (exec l1 start)).tr i j ∨ Before (exec l2 (exec l1 start)).tr j i ∨
        l = .flag c ∧ (i = w ∧ k = .write ∧ k' = .read ∨ j = w ∧ k' = .write ∧ k = .read) := by
  have hi := exec_inv l1 start inv_start
  have hq0 : Quiet c (exec l1 start).tr.length (exec l1 start) := by
    have hno : ∀ t, ((exec l1 start).pc t).type ≠ some c := by
      intro t ht
      obtain ⟨j, h1, x, h2, h3⟩ := hi.touched t c ht
      obtain ⟨y, h4, h5⟩ := hfirst j h1
      rw [h2] at h4
      cases h4
      rw [h3] at h5
      subst h5
      exact hidle ht
    refine ⟨hflag, fun u hu => absurd hu (hno u), fun u _ hu _ => absurd hu (hno u), fun u hu => absurd hu (hno u), ?_, ?_⟩
    · intro j l k _ hj ha
      exact absurd ha.lt (Nat.not_lt.2 hj)
    · intro i j l l' _ _ hin _ ha _
      exact absurd ha.lt (Nat.not_lt.2 hin)
  have hq := hq0.exec l2 _ hi
  obtain ⟨es, he⟩ := exec_tr l2 _ hi
  have hi2 := exec_inv l2 _ hi
  refine ⟨?_, ?_⟩
  · intro t hu
    obtain ⟨_, h4, h5⟩ := hi2.flag c hq.flag
    unfold act at hu
    split at hu
    · dsimp only at hu
      split at hu
      · simp only [h4, h5, Bool.and_self, if_true] at hu
        cases hu
      · cases hu
    · cases hu
  -- the event that writes, if any
  obtain ⟨w, hw⟩ : ∃ w, ∀ (j : Nat) (l : Loc), l.type = c → (exec l1 start).tr.length ≤ j →
      Acc (exec l2 (exec l1 start)).tr j (l, .write) → j = w := by
    by_cases hex : ∃ (j : Nat) (l : Loc), l.type = c ∧ (exec l1 start).tr.length ≤ j ∧ Acc (exec l2 (exec l1 start)).tr j (l, .write)
    · obtain ⟨w, l', h1, h2, h3⟩ := hex
      exact ⟨w, fun j l hl hj ha => hq.uniq j w l l' hl h1 hj h2 ha h3⟩
    · exact ⟨0, fun j l hl hj ha => absurd ⟨j, l, hl, hj, ha⟩ hex⟩
  refine ⟨w, ?_⟩
  have key : ∀ i j l k k', l.type = c → i < j → Acc (exec l2 (exec l1 start)).tr i (l, k) →
      Acc (exec l2 (exec l1 start)).tr j (l, k') → k.conflict k' = true →
      Before (exec l2 (exec l1 start)).tr i j ∨
        l = .flag c ∧ (i = w ∧ k = .write ∧ k' = .read ∨ j = w ∧ k' = .write ∧ k = .read) := by
    intro i j l k k' hl hij hai haj hc
    have old : ∀ i k, i < (exec l1 start).tr.length → Acc (exec l2 (exec l1 start)).tr i (l, k) →
        By (exec l1 start).tr i t0 ∧ By (exec l2 (exec l1 start)).tr i t0 := by
      intro i k hlt ha
      obtain ⟨x, h3, h4⟩ := ha
      have h3' := h3
      rw [he, List.getElem?_append_left hlt] at h3'
      obtain ⟨y, h5, h6⟩ := hfirst i ⟨l, k, hl, x, h3', h4⟩
      rw [h3'] at h5
      cases h5
      exact ⟨⟨x, h3', h6⟩, ⟨x, h3, h6⟩⟩
    rcases Nat.lt_or_ge i (exec l1 start).tr.length with hlt | hge
    · refine .inl ?_
      obtain ⟨hb1, hb2⟩ := old i k hlt hai
      have hbj : ∃ t, By (exec l2 (exec l1 start)).tr j t := by
        obtain ⟨y, hy, _⟩ := haj
        exact ⟨y.thr, y, hy, rfl⟩
      obtain ⟨t, hbj⟩ := hbj
      by_cases ht : t = t0
      · obtain ⟨x, hx, hx'⟩ := hb2
        obtain ⟨y, hy, hy'⟩ := hbj
        exact .single ⟨hij, x, y, hx, hy, .inl (by rw [hx', hy', ht])⟩
      · rcases Nat.lt_or_ge j (exec l1 start).tr.length with hlt' | hge'
        · exfalso
          obtain ⟨_, y, hy, hy'⟩ := old j k' hlt' haj
          obtain ⟨z, hz, hz'⟩ := hbj
          rw [hy] at hz
          cases hz
          exact ht (hz'.symm.trans hy')
        · exact hafter i j t hb1 hge' ⟨l, k', hl, haj⟩ hbj ht
    · have hge' := Nat.le_trans hge (Nat.le_of_lt hij)
      rcases hq.acc i l k hl hge hai with rfl | ⟨rfl, h1, _⟩
      · rcases hq.acc j l k' hl hge' haj with rfl | ⟨rfl, h1, _⟩
        · cases hc
        · exact .inr ⟨h1, .inr ⟨hw j l hl hge' haj, rfl, rfl⟩⟩
      · rcases hq.acc j l k' hl hge' haj with rfl | ⟨rfl, _, _⟩
        · exact .inr ⟨h1, .inl ⟨hw i l hl hge hai, rfl, rfl⟩⟩
        · exact absurd (hq.uniq i j l l hl hl hge hge' hai haj) (Nat.ne_of_lt hij)
  intro i j l k k' hl hne hai haj hc
  rcases Nat.lt_or_gt_of_ne hne with h3 | h3
  · rcases key i j l k k' hl h3 hai haj hc with h | h
    · exact .inl h
    · exact .inr (.inr h)
  · rcases key j i l k' k hl h3 haj hai (by rw [conflict_symm]; exact hc) with h | ⟨h1, h2⟩
    · exact .inr (.inl h)
    · exact .inr (.inr ⟨h1, h2.symm⟩)

/-- **C51, the documented recipe.**  If thread 0 has initialized the type before it starts any other thread, then whatever
all threads do later, and whenever the dynamic initialization of `static_initializer` takes place: no null pointer is found,
and the only data race on the static data of the type there may be is between the one write of `static_initializer` by
its dynamic initialization and reads of it. -/
theorem C51_recipe_partial (l1 l2 : List (Nat × Act)) (c : Nat)
    (hflag : (exec l1 start).flag c = true)
    (hidle : (exec l1 start).pc 0 = .idle)
    (hsolo : ∀ u, (exec l1 start).on u = true → u = 0) :
    (∀ t, act (exec l2 (exec l1 start)) t (.use c) ≠ .ub) ∧
    ∃ w, ∀ i j l k k', l.type = c → i ≠ j → Acc (exec l2 (exec l1 start)).tr i (l, k) →
      Acc (exec l2 (exec l1 start)).tr j (l, k') → k.conflict k' = true →
      Before (exec l2 (exec l1 start)).tr i j ∨ Before (exec l2 (exec l1 start)).tr j i ∨
        l = .flag c ∧ (i = w ∧ k = .write ∧ k' = .read ∨ j = w ∧ k' = .write ∧ k = .read) := by
  have h0 := solo_start l1 start (fun j hj => absurd hj (Nat.not_lt_zero j)) hsolo
  have hs : Solo (exec l1 start).tr.length (exec l1 start) := by
    refine ⟨h0, ?_, ?_⟩
    · intro u hu hu0
      exact absurd (hsolo u hu) hu0
    · intro j u hj hu
      obtain ⟨x, h1, h2⟩ := hj
      obtain ⟨y, h3, h4⟩ := h0 j (get_lt h1)
      rw [h1] at h3
      cases h3
      exact absurd (h2.symm.trans h4) hu
  have hs2 := hs.exec l2
  refine C51_ordered_late_partial l1 l2 c 0 hflag ?_ ?_ ?_
  · rw [hidle]
    intro h
    cases h
  · rintro j ⟨l, k, _, ha⟩
    exact h0 j ha.lt
  · intro i j t hi _ _ hj ht
    exact hs2.later j t hj ht i hi.lt

/-- Thread `t` calls `init()` of type `c`, which has not been initialized, up to its end.  (No code of its own: used to
state properties and examples.) -/
def initCall (t c : Nat) : List (Nat × Act) := [(t, .call c), (t, .run), (t, .run), (t, .run), (t, .run)]

/-- The usual case: two types initialized dynamically, one by one, before threads are started.  (No code of its
own: used to state an example.) -/
def usual1 : List (Nat × Act) :=
  [(0, .dyn 7), (0, .run), (0, .run), (0, .run), (0, .run), (0, .run), (0, .call 3), (0, .run), (0, .run), (0, .run),
   (0, .run), (0, .dyn 3), (0, .run)]

/-- Threads use both types, and one starts another.  (No code of its own: used to state an example.) -/
def usual2 : List (Nat × Act) :=
  [(0, .spawn 1), (1, .call 7), (0, .use 7), (1, .use 7), (1, .spawn 2), (2, .call 3), (2, .use 3), (0, .call 3)]

example : RaceFreeOn 7 (exec usual2 (exec usual1 start)).tr ∧ RaceFreeOn 3 (exec usual2 (exec usual1 start)).tr := by
  have hsolo : ∀ u, (exec usual1 start).on u = true → u = 0 := fun u hu => by
    have h : (exec usual1 start).on = start.on := rfl
    rw [h] at hu
    exact beq_iff_eq.1 hu
  have hdyn : ∀ c t, (t, Act.dyn c) ∉ usual2 := by
    intro c t
    simp [usual2]
  exact ⟨(C51_started_partial usual1 usual2 7 rfl rfl hsolo (hdyn 7)).1,
    (C51_started_partial usual1 usual2 3 rfl rfl hsolo (hdyn 3)).1⟩
-- all eight actions take place
example : (exec usual2 (exec usual1 start)).tr.length = 13 + 8 := rfl

/-- Thread 1 is started first and then initializes type 5.  (No code of its own: used to state an example.) -/
def handed1 : List (Nat × Act) := (0, .spawn 1) :: initCall 1 5

/-- It tells thread 0 by means of the program's own, and both go on.  (No code of its own: used to state an example.) -/
def handed2 : List (Nat × Act) := [(1, .post 4), (0, .wait 4), (0, .call 5), (1, .use 5), (0, .use 5)]

/-- `C51_ordered_partial` applies to programs that `C51_started_partial` does not apply to. -/
example : RaceFreeOn 5 (exec handed2 (exec handed1 start)).tr := by
  refine (C51_ordered_partial handed1 handed2 5 1 rfl ?_ ?_ ?_ ?_).1
  · intro h; cases h
  · rintro (_ | _ | _ | _ | _ | _ | j) ⟨l, k, _, x, hx, hm⟩
    · cases hx; cases hm
    · exact ⟨_, rfl, rfl⟩
    · exact ⟨_, rfl, rfl⟩
    · exact ⟨_, rfl, rfl⟩
    · exact ⟨_, rfl, rfl⟩
    · exact ⟨_, rfl, rfl⟩
    · cases hx
  · intro t; simp [handed2]
  · -- by the program's own synchronization (events 6 and 7)
    rintro i j t ⟨x, hx, hx'⟩ hj ⟨l, k, _, y, hy, hm⟩ ⟨z, hz, hz'⟩ ht
    have hi : i < 6 := get_lt hx
    obtain ⟨es, he⟩ := exec_tr handed2 _ (exec_inv handed1 start inv_start)
    have hx2 : (exec handed2 (exec handed1 start)).tr[i]? = some x := by
      rw [he, List.getElem?_append_left hi, hx]
    have h1 : Before (exec handed2 (exec handed1 start)).tr i 6 := .single ⟨hi, x, _, hx2, rfl, .inl hx'⟩
    have h2 : Edge (exec handed2 (exec handed1 start)).tr 6 7 :=
      ⟨by decide, _, _, rfl, rfl, .inr ⟨.user 4, by decide, by decide⟩⟩
    have h3 : ∀ j y, 7 < j → (exec handed2 (exec handed1 start)).tr[j]? = some y → y.thr = 0 →
        Before (exec handed2 (exec handed1 start)).tr i j := fun j y hj hy h0 =>
      (h1.tail h2).tail ⟨hj, _, y, rfl, hy, .inl h0.symm⟩
    have hj6 : 6 ≤ j := hj
    have hlt : j < 11 := get_lt hy
    have h4 : j = 6 ∨ j = 7 ∨ j = 8 ∨ j = 9 ∨ j = 10 := by omega
    rcases h4 with rfl | rfl | rfl | rfl | rfl
    · cases hy; cases hm
    · cases hy; cases hm
    · exact h3 8 _ (by decide) rfl rfl
    · cases hz; exact absurd hz'.symm ht
    · exact h3 10 _ (by decide) rfl rfl

/-- `C51_ordered_late_partial` applies as well, and to programs in which dynamic initialization comes afterwards. -/
example : ∃ w, ∀ i j l k k', l.type = 5 → i ≠ j →
    Acc (exec (handed2 ++ [(0, .dyn 5), (0, .run)]) (exec handed1 start)).tr i (l, k) →
    Acc (exec (handed2 ++ [(0, .dyn 5), (0, .run)]) (exec handed1 start)).tr j (l, k') → k.conflict k' = true →
    Before (exec (handed2 ++ [(0, .dyn 5), (0, .run)]) (exec handed1 start)).tr i j ∨
      Before (exec (handed2 ++ [(0, .dyn 5), (0, .run)]) (exec handed1 start)).tr j i ∨
        l = .flag 5 ∧ (i = w ∧ k = .write ∧ k' = .read ∨ j = w ∧ k' = .write ∧ k = .read) := by
  refine (C51_ordered_late_partial handed1 (handed2 ++ [(0, .dyn 5), (0, .run)]) 5 1 rfl ?_ ?_ ?_).2
  · intro h; cases h
  · rintro (_ | _ | _ | _ | _ | _ | j) ⟨l, k, _, x, hx, hm⟩
    · cases hx; cases hm
    · exact ⟨_, rfl, rfl⟩
    · exact ⟨_, rfl, rfl⟩
    · exact ⟨_, rfl, rfl⟩
    · exact ⟨_, rfl, rfl⟩
    · exact ⟨_, rfl, rfl⟩
    · cases hx
  · rintro i j t ⟨x, hx, hx'⟩ hj ⟨l, k, _, y, hy, hm⟩ ⟨z, hz, hz'⟩ ht
    have hi : i < 6 := get_lt hx
    obtain ⟨es, he⟩ := exec_tr (handed2 ++ [(0, .dyn 5), (0, .run)]) _ (exec_inv handed1 start inv_start)
    have hx2 : (exec (handed2 ++ [(0, .dyn 5), (0, .run)]) (exec handed1 start)).tr[i]? = some x := by
      rw [he, List.getElem?_append_left hi, hx]
    have h1 : Before (exec (handed2 ++ [(0, .dyn 5), (0, .run)]) (exec handed1 start)).tr i 6 :=
      .single ⟨hi, x, _, hx2, rfl, .inl hx'⟩
    have h2 : Edge (exec (handed2 ++ [(0, .dyn 5), (0, .run)]) (exec handed1 start)).tr 6 7 :=
      ⟨by decide, _, _, rfl, rfl, .inr ⟨.user 4, by decide, by decide⟩⟩
    have h3 : ∀ j y, 7 < j → (exec (handed2 ++ [(0, .dyn 5), (0, .run)]) (exec handed1 start)).tr[j]? = some y → y.thr = 0 →
        Before (exec (handed2 ++ [(0, .dyn 5), (0, .run)]) (exec handed1 start)).tr i j := fun j y hj hy h0 =>
      (h1.tail h2).tail ⟨hj, _, y, rfl, hy, .inl h0.symm⟩
    have hj6 : 6 ≤ j := hj
    have hlt : j < 13 := get_lt hy
    have h4 : j = 6 ∨ j = 7 ∨ j = 8 ∨ j = 9 ∨ j = 10 ∨ j = 11 ∨ j = 12 := by omega
    rcases h4 with rfl | rfl | rfl | rfl | rfl | rfl | rfl
    · cases hy; cases hm
    · cases hy; cases hm
    · exact h3 8 _ (by decide) rfl rfl
    · cases hz; exact absurd hz'.symm ht
    · exact h3 10 _ (by decide) rfl rfl
    · exact h3 11 _ (by decide) rfl rfl
    · exact h3 12 _ (by decide) rfl rfl

/-- What the documentation recommends (/repo/doc/tutorial/technical.html:89-120): a static object calls `init()` and then
starts threads that use the type.  The dynamic initialization of `static_initializer` comes later, since the order is
unspecified.  (No code of its own: used to state a property.) -/
def recipe : List (Nat × Act) := [(0, .spawn 1), (1, .call 0), (0, .dyn 0), (0, .run)]

/-- **C51, violated.**  The type is initialized by thread 0 before the only other thread is started, which does nothing but
call `init()` (as every insertion does); still there is a data race: `static_initializer` is written when it is dynamically
initialized. -/
theorem C51_violated :
    (exec (initCall 0 0) start).flag 0 = true ∧ (exec (initCall 0 0) start).pc 0 = .idle ∧
      (∀ u, (exec (initCall 0 0) start).on u = true → u = 0) ∧
      ¬ RaceFreeOn 0 (exec recipe (exec (initCall 0 0) start)).tr := by
  refine ⟨rfl, rfl, ?_, ?_⟩
  · intro u hu
    have h : (exec (initCall 0 0) start).on = start.on := rfl
    rw [h] at hu
    exact beq_iff_eq.1 hu
  · intro h
    -- thread 1 reads it in event 6, thread 0 writes it in event 8
    rcases h 6 8 (.flag 0) .read .write rfl (by decide) ⟨_, rfl, by decide⟩ ⟨_, rfl, by decide⟩ rfl with h | h
    · exact not_before_of (fun i => i != 6) (by decide +kernel) (by decide) (by decide) h
    · exact absurd h.lt (by decide)

/-- In the execution of `C51_violated` the pointers are used by both threads without a data race. -/
example : ∀ i j k k', i ≠ j → Acc (exec (recipe ++ [(0, .use 0), (1, .use 0)]) (exec (initCall 0 0) start)).tr i (.fptr 0, k) →
    Acc (exec (recipe ++ [(0, .use 0), (1, .use 0)]) (exec (initCall 0 0) start)).tr j (.fptr 0, k') → k.conflict k' = true →
    Before (exec (recipe ++ [(0, .use 0), (1, .use 0)]) (exec (initCall 0 0) start)).tr i j ∨
      Before (exec (recipe ++ [(0, .use 0), (1, .use 0)]) (exec (initCall 0 0) start)).tr j i := by
  obtain ⟨_, w, h⟩ := C51_recipe_partial (initCall 0 0) (recipe ++ [(0, .use 0), (1, .use 0)]) 0 rfl rfl (fun u hu => by
    have h : (exec (initCall 0 0) start).on = start.on := rfl
    rw [h] at hu
    exact beq_iff_eq.1 hu)
  intro i j k k' hne h1 h2 hc
  rcases h i j (.fptr 0) k k' rfl hne h1 h2 hc with h | h | ⟨h, _⟩
  · exact .inl h
  · exact .inr h
  · cases h

/-- **C51.**  The value that is written is the one already there: dynamic initialization of a type that is initialized
already, at any time, changes no static data. -/
theorem C51_same_value (l : List (Nat × Act)) (t c : Nat) (hf : (exec l start).flag c = true)
    (hp : (exec l start).pc t = .idle) :
    (exec [(t, .dyn c), (t, .run)] (exec l start)).flag = (exec l start).flag ∧
    (exec [(t, .dyn c), (t, .run)] (exec l start)).fptr = (exec l start).fptr ∧
    (exec [(t, .dyn c), (t, .run)] (exec l start)).mptr = (exec l start).mptr ∧
    (exec [(t, .dyn c), (t, .run)] (exec l start)).built = (exec l start).built := by
  generalize exec l start = s at hf hp
  cases ho : s.on t with
  | false => simp [exec, act, ho]
  | true =>
    cases hd : s.dyn c with
    | true => simp [exec, act, ho, hp, hd, run]
    | false =>
      simp only [exec, act, ho, hp, hd, hf, run, Statics.set_self, if_true, Bool.false_eq_true, if_false, and_true]
      funext i
      by_cases hi : i = c
      · subst hi; rw [Statics.set_self, hf]
      · rw [Statics.set_ne _ _ hi]

example : (exec (initCall 0 0) start).flag 0 = true ∧ (exec (initCall 0 0) start).on 0 = true ∧
    (exec (initCall 0 0) start).dyn 0 = false := ⟨rfl, rfl, rfl⟩

/-- Two threads that both find the type uninitialized.  (No code of its own: used to state a property.) -/
def both : List (Nat × Act) :=
  [(0, .spawn 1), (0, .call 0), (1, .call 0), (0, .run), (1, .run), (0, .run), (1, .run)]

/-- **C51.**  The initialization before other threads is necessary: otherwise the pointers are written by two threads at
once. -/
theorem C51_needed : ¬ RaceFreeOn 0 (exec both start).tr := by
  intro h
  rcases h 5 6 (.fptr 0) .write .write rfl (by decide) ⟨_, rfl, by decide⟩ ⟨_, rfl, by decide⟩ rfl with h | h
  · exact not_before_of (fun i => i != 5) (by decide +kernel) (by decide) (by decide) h
  · exact absurd h.lt (by decide)

/-- **C51.**  Factory and mutex of a type, on the contrary, are constructed only once, however many threads are initializing the
type at the same time and whichever comes first; and once a thread within `init()` has obtained them, their construction
happens before all that it does next. -/
theorem C51_constructed (l : List (Nat × Act)) (t c : Nat) (d : Bool) (s : St) (hp : (exec l start).pc t = .get c d)
    (hr : act (exec l start) t .run = .ok s) :
    ∃ i, Acc s.tr i (.holder c, .write) ∧ (∀ j, Acc s.tr j (.holder c, .write) → j = i) ∧
      ∀ l2 j, s.tr.length ≤ j → By (exec l2 s).tr j t → Before (exec l2 s).tr i j := by
  have hinv := exec_inv l start inv_start
  have ho := exec_once l start once_start
  have ho' := act_once ho hr
  have hinv' : Inv s := by
    obtain ⟨_, _, hs⟩ := act_step hinv hr
    exact hs.inv hinv
  -- the event by which it obtains them
  have hlast : ∃ i ev, s.tr = (exec l start).tr ++ [ev] ∧ ev.thr = t ∧ Acc s.tr i (.holder c, .write) ∧
      (i = (exec l start).tr.length ∨ Edge s.tr i (exec l start).tr.length) := by
    generalize exec l start = s0 at *
    unfold act at hr
    split at hr
    rotate_left
    · cases hr
    dsimp only at hr
    rw [hp] at hr
    cases hr
    cases hb : s0.built c with
    | true =>
      obtain ⟨i, x, h1, h2, h3⟩ := ho.built c hb
      simp only [if_true]
      exact ⟨i, _, rfl, rfl, ⟨x, get_old h1, h2⟩,
        .inr ⟨get_lt h1, x, _, get_old h1, get_new, .inr ⟨.guard c, h3, by simp⟩⟩⟩
    | false =>
      simp only [Bool.false_eq_true, if_false]
      exact ⟨_, _, rfl, rfl, acc_new (by simp), .inl rfl⟩
  obtain ⟨i, ev, h1, h2, h3, h4⟩ := hlast
  refine ⟨i, h3, fun j hj => ho'.unique c j i hj h3, ?_⟩
  rintro l2 j hj ⟨x, hx, hxt⟩
  obtain ⟨es, he⟩ := exec_tr l2 s hinv'
  have hlen : s.tr.length = (exec l start).tr.length + 1 := by rw [h1]; simp
  have hget : ∀ (k : Nat) (y : Event), s.tr[k]? = some y → (exec l2 s).tr[k]? = some y := by
    intro k y hk
    rw [he, List.getElem?_append_left (get_lt hk)]
    exact hk
  have hn : s.tr[(exec l start).tr.length]? = some ev := by rw [h1]; exact get_new
  have hlast : Edge (exec l2 s).tr (exec l start).tr.length j :=
    ⟨by omega, ev, x, hget _ _ hn, hx, .inl (h2.trans hxt.symm)⟩
  rcases h4 with rfl | ⟨h5, a, b, h6, h7, h8⟩
  · exact .single hlast
  · exact .tail (.single ⟨h5, a, b, hget _ _ h6, hget _ _ h7, h8⟩) hlast

/-- Both threads of `both` obtain the objects; thread 0 has constructed them, and this happens before what thread 1 does. -/
example : Before (exec both start).tr 3 6 := by
  obtain ⟨i, h1, h2, h3⟩ := C51_constructed (both.take 4) 1 0 false (exec (both.take 5) start) rfl rfl
  have h4 := h3 (both.drop 5) 6 (by decide) ⟨_, rfl, rfl⟩
  have h5 := h2 3 ⟨_, rfl, by decide⟩
  subst h5
  exact h4

/-- **C51.**  The initialization is necessary in another way, too: as long as no thread has called `init()` of a type and its
`static_initializer` has not been initialized, all its static data are zero, whatever else happens; a thread that uses the
type then dereferences a null pointer. -/
theorem C51_untouched (l : List (Nat × Act)) (c : Nat) (hc : ∀ t, (t, Act.call c) ∉ l) (hd : ∀ t, (t, Act.dyn c) ∉ l) :
    ((exec l start).flag c = false ∧ (exec l start).fptr c = false ∧ (exec l start).mptr c = false ∧
      (exec l start).built c = false ∧ (exec l start).dyn c = false) ∧ (∀ j, ¬ Touch (exec l start).tr c j) ∧
    ∀ t, (exec l start).on t = true → (exec l start).pc t = .idle → act (exec l start) t (.use c) = .ub := by
  suffices h : ∀ (l : List (Nat × Act)) (s : St), (∀ t, (t, Act.call c) ∉ l) → (∀ t, (t, Act.dyn c) ∉ l) →
      ((s.flag c = false ∧ s.fptr c = false ∧ s.mptr c = false ∧ s.built c = false ∧ s.dyn c = false) ∧
        (∀ j, ¬ Touch s.tr c j) ∧ ∀ t, (s.pc t).type ≠ some c) →
      (((exec l s).flag c = false ∧ (exec l s).fptr c = false ∧ (exec l s).mptr c = false ∧ (exec l s).built c = false ∧
        (exec l s).dyn c = false) ∧ (∀ j, ¬ Touch (exec l s).tr c j) ∧ ∀ t, ((exec l s).pc t).type ≠ some c) by
    have h0 : ∀ j, ¬ Touch start.tr c j := by
      rintro j ⟨_, _, _, x, h, _⟩
      cases h
    obtain ⟨h1, h2, h3⟩ := h l start hc hd ⟨⟨rfl, rfl, rfl, rfl, rfl⟩, h0, fun t h => (nomatch h)⟩
    refine ⟨h1, h2, fun t ht hp => ?_⟩
    simp [act, ht, hp, h1.2.1]
  intro l
  induction l with
  | nil => exact fun s _ _ h => h
  | cons p l ih =>
    obtain ⟨t, a⟩ := p
    intro s hc hd ⟨h1, h2, h3⟩
    have hc' : ∀ t, (t, Act.call c) ∉ l := fun t h => hc t (.tail _ h)
    have hd' : ∀ t, (t, Act.dyn c) ∉ l := fun t h => hd t (.tail _ h)
    unfold exec
    cases hs : act s t a with
    | no => exact ih s hc' hd' ⟨h1, h2, h3⟩
    | ub => exact ⟨h1, h2, h3⟩
    | ok s' =>
      refine ih s' hc' hd' ?_
      have hcall : ∀ c', a = .call c' → c' ≠ c := by rintro c' rfl rfl; exact hc t (.head _)
      have hdyn : ∀ c', a = .dyn c' → c' ≠ c := by rintro c' rfl rfl; exact hd t (.head _)
      have h4 := h3 t
      have touch : ∀ ev : Event, (∀ x ∈ ev.accs, x.1.type ≠ c) → ∀ j, ¬ Touch (s.tr ++ [ev]) c j := by
        rintro ev hev j ⟨l, k, hl, x, hx, hm⟩
        rcases List.getElem?_append .. ▸ hx with hx
        split at hx
        · exact h2 j ⟨l, k, hl, x, hx, hm⟩
        · cases hj : j - s.tr.length with
          | zero => rw [hj] at hx; cases hx; exact hev _ hm hl
          | succ n => rw [hj] at hx; cases hx
      unfold act at hs
      split at hs
      case isFalse => cases hs
      cases a with
      | run =>
        dsimp only at hs
        cases hp : s.pc t <;> rw [hp] at hs h4 <;> simp only [run] at hs <;> cases hs <;>
          simp only [Pc.type, ne_eq, Option.some.injEq] at h4
        all_goals refine ⟨?_, touch _ ?_, ?_⟩
        all_goals grind [Statics.set, Loc.type, Pc.type]
      | call c' =>
        have := hcall c' rfl
        dsimp only at hs
        split at hs <;> cases hs
        refine ⟨h1, touch _ ?_, ?_⟩
        all_goals grind [Statics.set, Loc.type, Pc.type]
      | dyn c' =>
        have := hdyn c' rfl
        dsimp only at hs
        split at hs
        · split at hs <;> cases hs
          refine ⟨?_, touch _ ?_, ?_⟩
          all_goals grind [Statics.set, Loc.type, Pc.type]
        · cases hs
      | use c' =>
        dsimp only at hs
        split at hs
        · split at hs <;> cases hs
          refine ⟨h1, touch _ ?_, h3⟩
          grind [Loc.type]
        · cases hs
      | spawn u =>
        dsimp only at hs
        split at hs
        · split at hs <;> cases hs
          exact ⟨h1, touch _ (by simp), h3⟩
        · cases hs
      | post o =>
        dsimp only at hs
        split at hs <;> cases hs
        exact ⟨h1, touch _ (by simp), h3⟩
      | wait o =>
        dsimp only at hs
        split at hs <;> cases hs
        exact ⟨h1, touch _ (by simp), h3⟩

/-- Threads 0 and 1 use type 0, which has been initialized, and not type 1. -/
example : act (exec (initCall 0 0 ++ [(0, .use 0), (0, .spawn 1), (1, .call 0), (1, .use 0)]) start) 1 (.use 1) = .ub :=
  (C51_untouched _ 1 (by simp [initCall]) (by simp [initCall])).2.2 1 rfl rfl

end Verif.Props

import Verif.TrackerRun
import Verif.Library

/-!
# Some tracking policies

The library's own policies written as policies of the user's, a policy that keeps a number of unused
values, and a wrong one.
-/

set_option autoImplicit false

namespace Verif
open Setup

/-! ## `no_tracking` -/

/-- `no_tracking`: handles are the factory's handles, so that nothing happens when they are copied or destroyed,
/repo/include/boost/flyweight/no_tracking.hpp:27-40. -/
def Tracker.keepAll : Tracker Unit where
  start := ()
  wraps := false
  made t _ := t
  gone t _ := t
  fails _ _ := Option.none
  ctor t _ := .ret t
  copy t _ := .ret t
  assign t _ _ := .ret t
  swap t _ _ := .ret t
  dtor t _ := .ret t

/-- The values of flyweights are stored.  (No code of its own: used in statements and proofs.) -/
def KeepAllOk (_ : Unit) (r : Nat → Nat) (p : Nat → Bool) : Prop := ∀ i, 0 < r i → p i = true

/-- The same with a value that has no handle yet.  (No code of its own: used in statements and proofs.) -/
def KeepAllNew (h : Nat) (_ : Unit) (r : Nat → Nat) (p : Nat → Bool) : Prop :=
  r h = 0 ∧ ∀ i, 0 < r i → p i = true

theorem Tracker.keepAll_sound : Tracker.keepAll.Sound KeepAllOk KeepAllNew where
  firstFails _ _ _ _ _ _ _ _ h := (by cases h)
  fails _ _ _ _ _ _ _ h := (by cases h)
  start i h := absurd h (Nat.lt_irrefl 0)
  made _ r p h hj _ hr := ⟨hr, fun i hi => by
    have := hj i hi
    simp only [storing]
    split <;> simp_all⟩
  gone _ r p h hn i hi := by
    have := hn.2 i hi
    have h0 := hn.1
    simp only [removing]
    split
    · subst_vars; omega
    · exact this
  first _ r p h hn hp _ _ i hi := by
    by_cases he : i = h
    · rw [he]; exact hp
    · exact hn.2 i (by simpa [more, he] using hi)
  ctor _ r p h hj hp _ i hi := by
    by_cases he : i = h
    · rw [he]; exact hp
    · exact hj i (by simpa [more, he] using hi)
  copy _ r p h hj hp _ i hi := by
    by_cases he : i = h
    · rw [he]; exact hp
    · exact hj i (by simpa [more, he] using hi)
  assign _ r p old h hj _ _ hp _ i hi := by
    by_cases he : i = h
    · rw [he]; exact hp
    · refine hj i ?_
      simp only [fewer, more, he, if_false] at hi
      split at hi <;> omega
  swap _ r p h h' hj _ _ _ _ := hj
  dtor _ r p h hj _ _ i hi := by
    refine hj i ?_
    simp only [fewer] at hi
    split at hi <;> omega

/-! ## `refcounted` -/

/-- The two counts of each entry, /repo/include/boost/flyweight/refcounted.hpp:104-105. -/
structure Counts where
  ref : Nat → Int
  del : Nat → Int

/-- A count changes.  (No code of its own: C++ language.) -/
abbrev bump (f : Nat → Int) (h : Nat) (d : Int) : Nat → Int := fun i => if i = h then f i + d else f i

/-- `~refcounted_handle`, /repo/include/boost/flyweight/refcounted.hpp:130-135, with `check_erase`,
/repo/include/boost/flyweight/refcounted.hpp:145-148. -/
def Counts.release (t : Counts) (h : Nat) : Code Counts :=
  if t.ref h - 1 = 0 then
    .erase { t with ref := bump t.ref h (-1) } h
      (fun t => ({ t with del := bump t.del h (-1) }, decide (t.del h - 1 = 0))) .ret
  else .ret { t with ref := bump t.ref h (-1) }

/-- `refcounted` as a policy of the user's own: `refcounted_value`,
/repo/include/boost/flyweight/refcounted.hpp:53-106, and `refcounted_handle`,
/repo/include/boost/flyweight/refcounted.hpp:108-151. -/
def Tracker.counted : Tracker Counts where
  start := ⟨fun _ => 0, fun _ => 0⟩
  wraps := true
  made t h := ⟨fun i => if i = h then 0 else t.ref i, fun i => if i = h then 0 else t.del i⟩
  gone t _ := t
  fails _ _ := Option.none
  ctor t h := .ret ⟨bump t.ref h 1, if t.ref h + 1 = 1 then bump t.del h 1 else t.del⟩
  copy t h := .ret { t with ref := bump t.ref h 1 }
  assign t old h := Counts.release { t with ref := bump t.ref h 1 } old
  swap t _ _ := .ret t
  dtor t h := Counts.release t h

/-- The counts are right and no value without flyweights is stored.  (No code of its own: used in statements and
proofs.) -/
def CountedOk (t : Counts) (r : Nat → Nat) (p : Nat → Bool) : Prop :=
  ∀ i, (0 < r i → p i = true) ∧ (p i = true → 0 < r i ∧ t.ref i = r i ∧ t.del i = 1)

/-- The same with a value that has no handle yet.  (No code of its own: used in statements and proofs.) -/
def CountedNew (h : Nat) (t : Counts) (r : Nat → Nat) (p : Nat → Bool) : Prop :=
  r h = 0 ∧ t.ref h = 0 ∧ t.del h = 0 ∧
    ∀ i, i ≠ h → (0 < r i → p i = true) ∧ (p i = true → 0 < r i ∧ t.ref i = r i ∧ t.del i = 1)

theorem Counts.release_ok {t : Counts} {r : Nat → Nat} {p : Nat → Bool} {h : Nat} (hp : p h = true) (hr : 0 < r h)
    (hj : CountedOk t r p) : (t.release h).Ok Tracker.counted CountedOk (fewer r h) p := by
  obtain ⟨_, h1, h2⟩ := (hj h).2 hp
  unfold Counts.release
  by_cases h0 : t.ref h - 1 = 0
  · rw [if_pos h0]
    simp only [Code.Ok, h2, Tracker.counted]
    rw [if_pos (by decide)]
    refine ⟨hp, by simp only [fewer, if_true]; omega, fun i => ?_⟩
    have hi := hj i
    by_cases he : i = h
    · subst he
      simp only [fewer, removing, if_true]
      exact ⟨fun h => by omega, fun h => (by cases h)⟩
    · simpa [fewer, removing, bump, he] using hi
  · rw [if_neg h0]
    intro i
    have hi := hj i
    by_cases he : i = h
    · subst he
      simp only [fewer, bump, if_true]
      exact ⟨fun _ => hp, fun _ => by omega⟩
    · simpa [fewer, bump, he] using hi

theorem Tracker.counted_sound : Tracker.counted.Sound CountedOk CountedNew where
  firstFails _ _ _ _ _ _ _ _ h := (by cases h)
  fails _ _ _ _ _ _ _ h := (by cases h)
  start i := ⟨fun h => absurd h (Nat.lt_irrefl 0), fun h => (by cases h)⟩
  made t r p h hj _ hr := by
    refine ⟨hr, by simp [Tracker.counted], by simp [Tracker.counted], fun i hi => ?_⟩
    simpa [Tracker.counted, storing, hi] using hj i
  gone t r p h hn i := by
    by_cases he : i = h
    · subst he
      simp only [removing, if_true]
      exact ⟨fun h => absurd h (by have := hn.1; omega), fun h => (by cases h)⟩
    · simpa [removing, he, Tracker.counted] using hn.2.2.2 i he
  first t r p h hn hp hr _ i := by
    obtain ⟨_, h1, h2, h3⟩ := hn
    by_cases he : i = h
    · subst he
      simp only [more, bump, if_true, h1]
      exact ⟨fun _ => hp, fun _ => by simp [hr, bump, h2]⟩
    · have := h3 i he
      simp only [more, bump, he, if_false, h1]
      simpa [he, bump] using this
  ctor t r p h hj hp _ i := by
    have h1 := (hj h).2 hp
    have hne : ¬ t.ref h + 1 = 1 := by omega
    simp only [hne, if_false]
    by_cases he : i = h
    · subst he
      simp only [more, bump, if_true]
      exact ⟨fun _ => hp, fun _ => by omega⟩
    · simpa [more, bump, he] using hj i
  copy t r p h hj hp _ i := by
    have h1 := (hj h).2 hp
    by_cases he : i = h
    · subst he
      simp only [more, bump, if_true]
      exact ⟨fun _ => hp, fun _ => by omega⟩
    · simpa [more, bump, he] using hj i
  assign t r p old h hj ho hro hp hr := by
    refine Counts.release_ok ho (by simp only [more]; split <;> omega) fun i => ?_
    have h1 := (hj h).2 hp
    by_cases he : i = h
    · subst he
      simp only [more, bump, if_true]
      exact ⟨fun _ => hp, fun _ => by omega⟩
    · simpa [more, bump, he] using hj i
  swap _ _ _ _ _ hj _ _ _ _ := hj
  dtor t r p h hj hp hr := Counts.release_ok hp hr hj

/-! ## A cache -/

/-- Counts, and the values that no flyweight has, oldest first.  (The user's program, no code of the library.) -/
structure CacheData where
  refs : Nat → Nat
  idle : List Nat

/-- A handle is made.  (The user's program, no code of the library.) -/
def CacheData.acquire (t : CacheData) (h : Nat) : CacheData :=
  ⟨more t.refs h, t.idle.filter fun i => i ≠ h⟩

/-- A handle is destroyed.  (The user's program, no code of the library.) -/
def CacheData.drop (t : CacheData) (h : Nat) : CacheData :=
  ⟨fewer t.refs h, if t.refs h = 1 then t.idle ++ [h] else t.idle⟩

/-- If more than `n` values are unused, the oldest of them goes.  (The user's program, no code of the library.) -/
def CacheData.trim (n : Nat) (t : CacheData) : Code CacheData :=
  match t.idle with
  | [] => .ret t
  | i :: rest =>
    if n ≤ rest.length then .erase { t with idle := rest } i (fun t => (t, t.refs i == 0)) .ret else .ret t

/-- A policy that keeps the last `n` values that went out of use.  (The user's program, no code of the library.) -/
def Tracker.cache (n : Nat) : Tracker CacheData where
  start := ⟨fun _ => 0, []⟩
  wraps := true
  made t _ := t
  gone t _ := t
  fails _ _ := Option.none
  ctor t h := .ret (t.acquire h)
  copy t h := .ret (t.acquire h)
  assign t old h := ((t.acquire h).drop old).trim n
  swap t _ _ := .ret t
  dtor t h := (t.drop h).trim n

/-- The counts are right, the list is that of the unused values, and it has at most `n` of them.  (No code of its own: used in
statements and proofs.) -/
structure CacheOk (n : Nat) (t : CacheData) (r : Nat → Nat) (p : Nat → Bool) : Prop where
  refs : t.refs = r
  nodup : t.idle.Nodup
  idle : ∀ i, i ∈ t.idle ↔ p i = true ∧ r i = 0
  used : ∀ i, 0 < r i → p i = true
  size : t.idle.length ≤ n

theorem CacheOk.acquire {n : Nat} {t : CacheData} {r : Nat → Nat} {p : Nat → Bool} {h : Nat} (hj : CacheOk n t r p)
    (hp : p h = true) : CacheOk n (t.acquire h) (more r h) p where
  refs := by rw [← hj.refs]; rfl
  nodup := hj.nodup.sublist List.filter_sublist
  idle i := by
    simp only [CacheData.acquire, List.mem_filter, hj.idle, decide_eq_true_eq, more]
    by_cases he : i = h
    · simp [he]
    · simp [he]
  used i hi := by
    by_cases he : i = h
    · rw [he]; exact hp
    · exact hj.used i (by simpa [more, he] using hi)
  size := Nat.le_trans (List.length_filter_le _ _) hj.size

theorem CacheOk.drop {n : Nat} {t : CacheData} {r : Nat → Nat} {p : Nat → Bool} {h : Nat} (hj : CacheOk n t r p)
    (hp : p h = true) (hr : 0 < r h) : CacheOk (n + 1) (t.drop h) (fewer r h) p where
  refs := by rw [← hj.refs]; rfl
  nodup := by
    simp only [CacheData.drop]
    split
    · refine List.nodup_append.2 ⟨hj.nodup, by simp, ?_⟩
      intro a ha b hb he
      simp only [List.mem_singleton] at hb
      subst he hb
      have := (hj.idle _).1 ha
      omega
    · exact hj.nodup
  idle i := by
    have hi := hj.idle i
    have hrf := hj.refs
    simp only [CacheData.drop, hrf, fewer]
    by_cases he : i = h
    · subst he
      split
      · simp [hp]; omega
      · simp only [hi, if_true]; omega
    · split <;> simp [he, hi]
  used i hi := hj.used i (by simp only [fewer] at hi; split at hi <;> omega)
  size := by
    have := hj.size
    simp only [CacheData.drop]
    split <;> simp <;> omega

theorem CacheOk.trim {n : Nat} {t : CacheData} {r : Nat → Nat} {p : Nat → Bool} (hj : CacheOk (n + 1) t r p) :
    (t.trim n).Ok (Tracker.cache n) (CacheOk n) r p := by
  unfold CacheData.trim
  cases hi : t.idle with
  | nil =>
    exact ⟨hj.refs, hj.nodup, hj.idle, hj.used, by rw [hi]; simp⟩
  | cons i rest =>
    have hs := hj.size
    have hn := hj.nodup
    have hm := hj.idle
    rw [hi] at hs hn hm
    simp only [List.length_cons] at hs
    obtain ⟨h1, h2⟩ := (hm i).1 (by simp)
    by_cases hl : n ≤ rest.length
    · simp only [hl, if_true, Code.Ok, hj.refs, h2, beq_self_eq_true, Tracker.cache]
      refine ⟨h1, trivial, rfl, (List.nodup_cons.1 hn).2, fun j => ?_, fun j hjr => ?_, by simp only; omega⟩
      · have h3 := hm j
        by_cases he : j = i
        · subst he
          simp [removing, (List.nodup_cons.1 hn).1]
        · simpa [removing, he] using h3
      · have := hj.used j hjr
        by_cases he : j = i
        · subst he; omega
        · simpa [removing, he] using this
    · simp only [hl, if_false]
      exact ⟨hj.refs, hj.nodup, hj.idle, hj.used, by rw [hi]; simp only [List.length_cons]; omega⟩

theorem Tracker.cache_sound (n : Nat) :
    (Tracker.cache n).Sound (CacheOk n) fun h t r p => r h = 0 ∧ CacheOk n t r (removing p h) where
  firstFails _ _ _ _ _ _ _ _ h := (by cases h)
  fails _ _ _ _ _ _ _ h := (by cases h)
  start := ⟨rfl, List.nodup_nil, fun i => by simp [Tracker.cache], fun i h => absurd h (Nat.lt_irrefl 0), Nat.zero_le _⟩
  made t r p h hj hp hr := by
    refine ⟨hr, ?_⟩
    have : removing (storing p h) h = p := by
      funext i
      by_cases he : i = h <;> simp [removing, storing, he, hp]
    rw [this]
    exact hj
  gone t r p h hn := hn.2
  first t r p h hn hp hr _ := by
    have hj := hn.2
    refine ⟨by rw [← hj.refs]; rfl, hj.nodup.sublist List.filter_sublist, fun i => ?_, fun i hi => ?_,
      Nat.le_trans (List.length_filter_le _ _) hj.size⟩
    · simp only [CacheData.acquire, List.mem_filter, hj.idle, decide_eq_true_eq, more, removing]
      by_cases he : i = h
      · simp [he]
      · simp [he]
    · by_cases he : i = h
      · rw [he]; exact hp
      · have := hj.used i (by simpa [more, he] using hi)
        simpa [removing, he] using this
  ctor t r p h hj hp _ := hj.acquire hp
  copy t r p h hj hp _ := hj.acquire hp
  assign t r p old h hj ho hro hp hr :=
    ((hj.acquire hp).drop ho (by simp only [more]; split <;> omega)).trim
  swap _ _ _ _ _ hj _ _ _ _ := hj
  dtor t r p h hj hp hr := (hj.drop hp hr).trim

/-! ## A policy whose handles may fail to be made -/

/-- The number of handles to each value, and of all handles.  (The user's program, no code of the library.) -/
structure QuotaData where
  refs : Nat → Nat
  live : Nat

/-- A handle is destroyed.  (The user's program, no code of the library.) -/
def QuotaData.drop (t : QuotaData) (h : Nat) : Code QuotaData :=
  if t.refs h = 1 then .erase ⟨fewer t.refs h, t.live - 1⟩ h (fun t => (t, t.refs h == 0)) .ret
  else .ret ⟨fewer t.refs h, t.live - 1⟩

/-- Reference counting with a quota: while there are `n` handles, no handle can be made but by copying.  If the policy `cleans`, it then has the value
erased if there is no handle to it.  (The user's program, no code of the library.) -/
def Tracker.quota (n : Nat) (cleans : Bool) : Tracker QuotaData where
  start := ⟨fun _ => 0, 0⟩
  wraps := true
  made t _ := t
  gone t _ := t
  fails t h :=
    if n ≤ t.live then some (if cleans then .erase t h (fun t => (t, t.refs h == 0)) .ret else .ret t) else Option.none
  ctor t h := .ret ⟨more t.refs h, t.live + 1⟩
  copy t h := .ret ⟨more t.refs h, t.live + 1⟩
  assign t old h := QuotaData.drop ⟨more t.refs h, t.live + 1⟩ old
  swap t _ _ := .ret t
  dtor t h := t.drop h

/-- The counts are right, and if the policy `cleans`, no value without flyweights is stored.  (No code of its own: used in statements and
proofs.) -/
structure QuotaOk (cleans : Bool) (t : QuotaData) (r : Nat → Nat) (p : Nat → Bool) : Prop where
  refs : t.refs = r
  used : ∀ i, 0 < r i → p i = true
  prompt : cleans = true → ∀ i, p i = true → 0 < r i

theorem QuotaOk.acquire {cleans : Bool} {t : QuotaData} {r : Nat → Nat} {p : Nat → Bool} {h : Nat} (hj : QuotaOk cleans t r p)
    (hp : p h = true) (n : Nat) : QuotaOk cleans ⟨more t.refs h, n⟩ (more r h) p where
  refs := by rw [← hj.refs]
  used i hi := by
    by_cases he : i = h
    · rw [he]; exact hp
    · exact hj.used i (by simpa [more, he] using hi)
  prompt hc i hi := by
    have := hj.prompt hc i hi
    simp only [more]
    split <;> omega

theorem QuotaOk.drop {n : Nat} {cleans : Bool} {t : QuotaData} {r : Nat → Nat} {p : Nat → Bool} {h : Nat} (hj : QuotaOk cleans t r p)
    (hp : p h = true) (hr : 0 < r h) : (t.drop h).Ok (Tracker.quota n cleans) (QuotaOk cleans) (fewer r h) p := by
  unfold QuotaData.drop
  rw [hj.refs]
  by_cases h1 : r h = 1
  · simp only [h1, if_true, Code.Ok, fewer, Tracker.quota]
    refine ⟨hp, trivial, rfl, fun i hi => ?_, fun hc i hi => ?_⟩
    · by_cases he : i = h
      · simp [fewer, he, h1] at hi
      · simpa [removing, he] using hj.used i (by simpa [fewer, he] using hi)
    · by_cases he : i = h
      · simp [removing, he] at hi
      · simpa [fewer, he] using hj.prompt hc i (by simpa [removing, he] using hi)
  · simp only [h1, if_false]
    refine ⟨rfl, fun i hi => hj.used i (by simp only [fewer] at hi; split at hi <;> omega), fun hc i hi => ?_⟩
    have := hj.prompt hc i hi
    simp only [fewer]
    split
    · subst_vars; omega
    · exact this

theorem Tracker.quota_sound (n : Nat) (cleans : Bool) :
    (Tracker.quota n cleans).Sound (QuotaOk cleans) fun h t r p => r h = 0 ∧ QuotaOk cleans t r (removing p h) where
  start := ⟨rfl, fun i h => absurd h (Nat.lt_irrefl 0), fun _ i h => (by cases h)⟩
  made t r p h hj hp hr := by
    refine ⟨hr, ?_⟩
    have : removing (storing p h) h = p := by
      funext i
      by_cases he : i = h <;> simp [removing, storing, he, hp]
    rw [this]
    exact hj
  gone t r p h hn := hn.2
  first t r p h hn hp hr _ := by
    have hj := hn.2
    refine ⟨by rw [← hj.refs], fun i hi => ?_, fun hc i hi => ?_⟩
    · by_cases he : i = h
      · rw [he]; exact hp
      · have := hj.used i (by simpa [more, he] using hi)
        simpa [removing, he] using this
    · by_cases he : i = h
      · simp [more, he]
      · simpa [more, he] using hj.prompt hc i (by simpa [removing, he] using hi)
  ctor t r p h hj hp _ := hj.acquire hp _
  firstFails t r p h c hn hp hr hc := by
    have hj := hn.2
    simp only [Tracker.quota] at hc
    split at hc
    case isFalse => cases hc
    cases hc
    cases cleans with
    | true =>
      simp only [if_true, Code.Ok, hj.refs, hr, beq_self_eq_true]
      exact ⟨hp, trivial, hj⟩
    | false =>
      refine ⟨hj.refs, fun i hi => ?_, fun hc => (by cases hc)⟩
      have := hj.used i hi
      simp only [removing] at this
      split at this
      · cases this
      · exact this
  fails t r p h c hj hp hc := by
    simp only [Tracker.quota] at hc
    split at hc
    case isFalse => cases hc
    cases hc
    cases cleans with
    | true =>
      have := hj.prompt rfl h hp
      have hne : ¬ r h = 0 := by omega
      simp only [if_true, Code.Ok, hj.refs, beq_iff_eq, hne, if_false]
      exact hj
    | false => exact hj
  copy t r p h hj hp _ := hj.acquire hp _
  assign t r p old h hj ho hro hp hr := (hj.acquire hp _).drop ho (by simp only [more]; split <;> omega)
  swap _ _ _ _ _ hj _ _ _ _ := hj
  dtor t r p h hj hp hr := hj.drop hp hr

/-! ## A wrong policy -/

/-- A policy that forgets to count copies: each destruction removes the value.  (The user's program, no code of the library.) -/
def Tracker.hasty : Tracker Unit where
  start := ()
  wraps := false
  made t _ := t
  gone t _ := t
  fails _ _ := Option.none
  ctor t _ := .ret t
  copy t _ := .ret t
  assign t old _ := .erase t old (fun t => (t, true)) .ret
  swap t _ _ := .ret t
  dtor t h := .erase t h (fun t => (t, true)) .ret

end Verif

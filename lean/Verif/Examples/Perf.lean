import Verif.Simple
import Verif.Distinct

/-!
# The performance example

Models /repo/example/perf.cpp: a text is stored as a vector of strings or of
flyweights, copied, searched and read.
-/

set_option autoImplicit false

namespace Verif.Perf
open Client
variable {T α : Type}

/-- `txt.push_back(String(it->c_str()))` for all tokens, /repo/example/perf.cpp:195-198.  Variable 0 is the temporary, `i + 1` the `i`-th
element.  Simplification: the moves made when a vector grows are omitted, here and in `copyAll`. -/
def pushAll : Nat → List T → End T α → End T α
  | _, [], k => k
  | i, t :: ts, k => stmt (.make 0 (.key t)) (stmt (.move (i + 1) 0) (stmt (.destroy 0) (pushAll (i + 1) ts k)))

/-- `txt2.insert(txt2.end(),txt.begin(),txt.end())`, /repo/example/perf.cpp:208: `n` elements from the one at `i` on are copied to those
at `j` on. -/
def copyAll : Nat → Nat → Nat → End T α → End T α
  | _, _, 0, k => k
  | j, i, n + 1, k => stmt (.copy (j + 1) (i + 1)) (copyAll (j + 1) (i + 1) n k)

/-- The loop of /repo/example/perf.cpp:206-209, with any number of passes. -/
def insertAll (n : Nat) : Nat → Nat → End T α → End T α
  | 0, _, k => k
  | r + 1, j, k => copyAll j 0 n (insertAll n r (j + n) k)

/-- `std::count(txt.begin(),txt.end(),x)`, /repo/example/perf.cpp:219, `x` being the element at `x`. -/
def countAll (x : Nat) : Nat → Nat → Nat → (Nat → End T α) → End T α
  | _, 0, m, k => k m
  | i, n + 1, m, k => equal (i + 1) (x + 1) fun b => countAll x (i + 1) n (if b then m + 1 else m) k

/-- The loop of /repo/example/perf.cpp:217-220, with any number of passes, for `n` not 0: for an empty vector the code computes a
remainder by 0, which is undefined behaviour.  Simplification: numbers do not wrap around, here and in `sums`. -/
def counts (n : Nat) : Nat → Nat → (Nat → End T α) → End T α
  | 0, c, k => k c
  | r + 1, c, k => countAll (c % n) 0 n 0 fun m => counts n r (c + m) k

/-- `std::accumulate(txt2.begin(),txt2.end(),s,length_adder())`, /repo/example/perf.cpp:230, 151-157. -/
def accumulate (len : T → Nat) : Nat → Nat → Nat → (Nat → End T α) → End T α
  | _, 0, a, k => k a
  | j, n + 1, a, k => reading (j + 1) fun v => accumulate len (j + 1) n (a + len v) k

/-- The loop of /repo/example/perf.cpp:228-231, with any number of passes. -/
def sums (len : T → Nat) (j n : Nat) : Nat → Nat → (Nat → End T α) → End T α
  | 0, s, k => k s
  | r + 1, s, k => accumulate len j n s fun a => sums len j n r (s + a) k

/-- `test<String>::run` up to its `return`, /repo/example/perf.cpp:159-245, for any tokens (how the text is divided is modelled in
`Archive`) and any numbers of passes, which are 10, 100 and 20 in
the example. -/
def run (len : T → Nat) (toks : List T) (a b d : Nat) : End T Nat :=
  pushAll 0 toks <| insertAll toks.length a toks.length <|
  counts toks.length b 0 fun c => sums len toks.length (a * toks.length) d 0 fun s => .ret (some (c + s))

/-- The first sum, /repo/example/perf.cpp:217-220, in terms of strings.  (No code of its own: used in statements and proofs.) -/
def occurrences [DecidableEq T] (toks : List T) : Nat → Nat → Nat
  | 0, c => c
  | r + 1, c => occurrences toks r (c + ((toks[c % toks.length]?).elim 0 fun t => toks.count t))

/-! ## With plain strings -/

section
variable [DecidableEq T] {thr : Prop} {w w' : Nat → Option T} {r : Option α}

/-- The elements from `i` on.  (No code of its own: used in statements and proofs.) -/
def Vec (w : Nat → Option T) (i : Nat) (ts : List T) : Prop :=
  ∀ j t, ts[j]? = some t → w (i + j + 1) = some t

omit [DecidableEq T] in
theorem Vec.head {i : Nat} {t : T} {ts : List T} (h : Vec w i (t :: ts)) : w (i + 1) = some t := by
  simpa using h 0 t (by simp)

omit [DecidableEq T] in
theorem Vec.tail {i : Nat} {t : T} {ts : List T} (h : Vec w i (t :: ts)) : Vec w (i + 1) ts := by
  intro j t' hj
  have := h (j + 1) t' (by simpa using hj)
  rwa [show i + (j + 1) + 1 = i + 1 + j + 1 by omega] at this

omit [DecidableEq T] in
theorem Vec.append {i : Nat} {ts us : List T} (h : Vec w i ts) (h' : Vec w (i + ts.length) us) : Vec w i (ts ++ us) := by
  intro j t hj
  by_cases hl : j < ts.length
  · exact h j t (by rwa [List.getElem?_append_left hl] at hj)
  · rw [List.getElem?_append_right (by omega)] at hj
    have := h' _ t hj
    rwa [show i + ts.length + (j - ts.length) + 1 = i + j + 1 by omega] at this

theorem run_move {x y : Nat} {v : T} {k : End T α} (h : Runs thr (stmt (.move x y) k) w r w')
    (hx : w x = none) (hy : w y = some v) : Runs thr k (upd w x (some v)) r w' := by
  cases h with
  | op _ _ _ fail _ _ hf h => simpa only [Prog.plainStep, hx, hy] using h

/-- Only elements at `j` and after have changed.  (No code of its own: used in statements and proofs.) -/
def Kept (j : Nat) (w w1 : Nat → Option T) : Prop := ∀ y, y ≤ j → w1 y = w y

theorem run_pushAll {ts : List T} {i : Nat} {k : End T α} {w : Nat → Option T} (h : Runs thr (pushAll i ts k) w r w')
    (h0 : w 0 = none) (hn : ∀ y, i + 1 ≤ y → w y = none) :
    Died thr r ∨ ∃ w1, Runs thr k w1 r w' ∧ Vec w1 i ts ∧ Kept i w w1 ∧ ∀ y, i + ts.length + 1 ≤ y → w1 y = none := by
  induction ts generalizing i w with
  | nil => exact .inr ⟨w, h, fun j t hj => by simp at hj, fun _ _ => rfl, by simpa using hn⟩
  | cons t ts ih =>
    rcases run_make (v := t) h h0 rfl with h | h
    · exact .inl h
    have h := run_move (v := t) h (by simp only [upd_get]; simpa using hn (i + 1) (by omega)) (by simp [upd_get])
    have h := run_destroy (d := t) h (by simp [upd_get])
    rcases ih h (by simp [upd_get]) (fun y hy => by
      simp only [upd_get]
      rw [if_neg (by omega), if_neg (by omega), if_neg (by omega)]
      exact hn y (by omega)) with h | ⟨w1, h, hv, hk, hl⟩
    · exact .inl h
    · refine .inr ⟨w1, h, ?_, ?_, fun y hy => hl y (by simp only [List.length_cons] at hy; omega)⟩
      · intro j t' hj
        cases j with
        | zero =>
          simp only [List.getElem?_cons_zero, Option.some.injEq] at hj
          subst hj
          rw [hk _ (by omega)]
          simp [upd_get]
        | succ j =>
          have := hv j t' (by simpa using hj)
          rwa [show i + 1 + j + 1 = i + (j + 1) + 1 by omega] at this
      · intro y hy
        rw [hk y (by omega)]
        simp only [upd_get]
        by_cases hy0 : y = 0
        · rw [if_pos hy0, hy0, h0]
        · rw [if_neg hy0, if_neg (by omega), if_neg hy0]

theorem run_copyAll {ts : List T} {i j : Nat} {k : End T α} {w : Nat → Option T}
    (h : Runs thr (copyAll j i ts.length k) w r w') (hv : Vec w i ts) (hij : i + ts.length ≤ j)
    (hn : ∀ y, j + 1 ≤ y → w y = none) :
    ∃ w1, Runs thr k w1 r w' ∧ Vec w1 j ts ∧ Kept j w w1 ∧ ∀ y, j + ts.length + 1 ≤ y → w1 y = none := by
  induction ts generalizing i j w with
  | nil => exact ⟨w, h, fun j t hj => by simp at hj, fun _ _ => rfl, by simpa using hn⟩
  | cons t ts ih =>
    simp only [List.length_cons] at hij
    have h := run_copy h (hn (j + 1) (by omega)) hv.head
    obtain ⟨w1, h, g, hk, hl⟩ := ih h (by
      intro a t' ha
      have hlt : a < ts.length := by
        rcases Nat.lt_or_ge a ts.length with h | h
        · exact h
        · rw [List.getElem?_eq_none h] at ha; cases ha
      rw [upd_get, if_neg (by omega)]
      exact hv.tail a t' ha) (by omega) (fun y hy => by
      rw [upd_get, if_neg (by omega)]
      exact hn y (by omega))
    refine ⟨w1, h, ?_, ?_, fun y hy => hl y (by simp only [List.length_cons] at hy; omega)⟩
    · intro a t' ha
      cases a with
      | zero =>
        simp only [List.getElem?_cons_zero, Option.some.injEq] at ha
        subst ha
        rw [hk _ (by omega)]
        simp [upd_get]
      | succ a =>
        have := g a t' (by simpa using ha)
        rwa [show j + 1 + a + 1 = j + (a + 1) + 1 by omega] at this
    · intro y hy
      rw [hk y (by omega), upd_get, if_neg (by omega)]

theorem run_insertAll {ts : List T} {a j : Nat} {k : End T α} {w : Nat → Option T}
    (h : Runs thr (insertAll ts.length a j k) w r w') (hv : Vec w 0 ts) (hij : ts.length ≤ j)
    (hn : ∀ y, j + 1 ≤ y → w y = none) :
    ∃ w1, Runs thr k w1 r w' ∧ Vec w1 j (List.replicate a ts).flatten ∧ Kept j w w1 ∧
      ∀ y, j + a * ts.length + 1 ≤ y → w1 y = none := by
  induction a generalizing j w with
  | zero => exact ⟨w, h, fun j t hj => by simp at hj, fun _ _ => rfl, by simpa using hn⟩
  | succ a ih =>
    obtain ⟨w1, h, g, hk, hl⟩ := run_copyAll h hv (by omega) hn
    obtain ⟨w2, h, g2, hk2, hl2⟩ := ih h (by
      intro b t hb
      have hlt : b < ts.length := by
        rcases Nat.lt_or_ge b ts.length with h | h
        · exact h
        · rw [List.getElem?_eq_none h] at hb; cases hb
      rw [hk _ (by omega)]
      exact hv b t hb) (by omega) hl
    refine ⟨w2, h, ?_, fun y hy => by rw [hk2 y (by omega), hk y hy], fun y hy => hl2 y (by
      rw [Nat.succ_mul] at hy; omega)⟩
    rw [List.replicate_succ, List.flatten_cons]
    refine Vec.append (fun b t hb => ?_) g2
    have hlt : b < ts.length := by
      rcases Nat.lt_or_ge b ts.length with h | h
      · exact h
      · rw [List.getElem?_eq_none h] at hb; cases hb
    rw [hk2 _ (by omega)]
    exact g b t hb

theorem run_countAll {ts : List T} {x i m : Nat} {t : T} {k : Nat → End T α}
    (h : Runs thr (countAll x i ts.length m k) w r w') (hv : Vec w i ts) (hx : w (x + 1) = some t) :
    Runs thr (k (m + ts.count t)) w r w' := by
  induction ts generalizing i m with
  | nil => exact h
  | cons u ts ih =>
    have h := ih (run_equal h hv.head hx) hv.tail
    refine (?_ : _ = m + (u :: ts).count t) ▸ h
    rw [List.count_cons]
    by_cases he : u = t
    · simp [he]; omega
    · simp [he]

theorem run_counts {ts : List T} {b c : Nat} {k : Nat → End T α} (h : Runs thr (counts ts.length b c k) w r w')
    (hv : Vec w 0 ts) (hne : ts ≠ []) : Runs thr (k (occurrences ts b c)) w r w' := by
  induction b generalizing c with
  | zero => exact h
  | succ b ih =>
    have hlt : c % ts.length < ts.length := Nat.mod_lt _ (List.length_pos_iff.2 hne)
    have hx : w (c % ts.length + 1) = some ts[c % ts.length] := by
      simpa using hv _ _ (List.getElem?_eq_getElem hlt)
    have h := ih (run_countAll h hv hx)
    simpa [occurrences, List.getElem?_eq_getElem hlt] using h

theorem run_accumulate {len : T → Nat} {ts : List T} {j a : Nat} {k : Nat → End T α}
    (h : Runs thr (accumulate len j ts.length a k) w r w') (hv : Vec w j ts) : Runs thr (k (a + (ts.map len).sum)) w r w' := by
  induction ts generalizing j a with
  | nil => exact h
  | cons t ts ih =>
    have h := ih (run_reading h hv.head) hv.tail
    simpa [Nat.add_assoc] using h

theorem run_sums {len : T → Nat} {ts : List T} {j d s : Nat} {k : Nat → End T α}
    (h : Runs thr (sums len j ts.length d s k) w r w') (hv : Vec w j ts) :
    Runs thr (k (2 ^ d * s + (2 ^ d - 1) * (ts.map len).sum)) w r w' := by
  induction d generalizing s with
  | zero =>
    simp only [Nat.pow_zero, Nat.one_mul, Nat.sub_self, Nat.zero_mul, Nat.add_zero]
    exact h
  | succ d ih =>
    have h := ih (run_accumulate h hv)
    refine (?_ : _ = 2 ^ (d + 1) * s + (2 ^ (d + 1) - 1) * (ts.map len).sum) ▸ h
    have h1 : 1 ≤ 2 ^ d := Nat.one_le_two_pow
    rw [Nat.pow_succ]
    generalize 2 ^ d = p at *
    obtain ⟨q, rfl⟩ : ∃ q, p = q + 1 := ⟨p - 1, by omega⟩
    rw [show (q + 1) * 2 - 1 = 2 * q + 1 by omega, show q + 1 - 1 = q by omega]
    grind

omit [DecidableEq T] in
theorem sum_passes (len : T → Nat) (ts : List T) (a : Nat) :
    ((List.replicate a ts).flatten.map len).sum = a * (ts.map len).sum := by
  induction a with
  | zero => simp
  | succ a ih => rw [List.replicate_succ, List.flatten_cons, List.map_append, List.sum_append, ih, Nat.succ_mul, Nat.add_comm]

/-- The whole program with plain strings. -/
theorem run_run {len : T → Nat} {ts : List T} {a b d : Nat} {r : Option Nat} (hne : ts ≠ [])
    (h : Runs thr (run len ts a b d) (fun _ => none) r w') :
    Died thr r ∨ r = some (occurrences ts b 0 + (2 ^ d - 1) * (a * (ts.map len).sum)) ∧
      ∀ t, t ∈ ts ↔ ∃ x, w' x = some t := by
  rcases run_pushAll h rfl (fun _ _ => rfl) with h | ⟨w1, h, hv, hk, hl⟩
  · exact .inl h
  rw [Nat.zero_add] at hl
  obtain ⟨w2, h, hv2, hk2, hl2⟩ := run_insertAll h hv (Nat.le_refl _) hl
  have hlt : ∀ {us : List T} {j : Nat} {t : T}, us[j]? = some t → j < us.length := by
    intro us j t hj
    rcases Nat.lt_or_ge j us.length with h | h
    · exact h
    · rw [List.getElem?_eq_none h] at hj; cases hj
  have hv1 : Vec w2 0 ts := fun j t hj => by
    rw [hk2 _ (by have := hlt hj; omega)]
    exact hv j t hj
  have h := run_counts h hv1 hne
  have e : a * ts.length = (List.replicate a ts).flatten.length := by simp
  rw [e] at h
  have h := run_sums h hv2
  rw [Nat.mul_zero, Nat.zero_add, sum_passes] at h
  cases h
  refine .inr ⟨rfl, fun t => ⟨fun ht => ?_, ?_⟩⟩
  · obtain ⟨j, hj⟩ := List.mem_iff_getElem?.1 ht
    exact ⟨_, hv1 j t hj⟩
  · rintro ⟨x, hx⟩
    have find : ∀ {us : List T} {i : Nat}, Vec w' i us → i + 1 ≤ x → x < i + us.length + 1 → t ∈ us := by
      intro us i hv h1 h2
      have hj : x - (i + 1) < us.length := by omega
      have := hv _ _ (List.getElem?_eq_getElem hj)
      rw [show i + (x - (i + 1)) + 1 = x by omega, hx] at this
      rw [Option.some.inj this]
      exact List.getElem_mem hj
    by_cases h0 : x = 0
    · subst h0
      rw [hk2 0 (by omega), hk 0 (by omega)] at hx
      cases hx
    · by_cases h1 : x < 0 + ts.length + 1
      · exact find hv1 (by omega) h1
      · by_cases h2 : x < ts.length + a * ts.length + 1
        · have := find (i := ts.length) hv2 (by omega) (by rw [← e]; exact h2)
          simp only [List.mem_flatten, List.mem_replicate] at this
          obtain ⟨us, ⟨_, rfl⟩, hm⟩ := this
          exact hm
        · rw [hl2 x (by omega)] at hx
          cases hx

end

/-! ## The strings the program creates -/

section
variable {Q : Op T T → Prop}

theorem all_stmt {o : Op T T} {k : End T α} (ho : Q o) (hk : k.All Q) : (stmt o k).All Q := by
  refine ⟨ho, fun r => ?_⟩
  cases r <;> first | exact hk | trivial

theorem all_pushAll {ts us : List T} {i : Nat} {k : End T α} (h : ∀ t ∈ ts, t ∈ us)
    (hk : k.All fun o => ∀ src, o.creates = some src → (SrcSpec.default T).key0 src ∈ us) :
    (pushAll i ts k).All fun o => ∀ src, o.creates = some src → (SrcSpec.default T).key0 src ∈ us := by
  induction ts generalizing i with
  | nil => exact hk
  | cons t ts ih =>
    refine all_stmt (fun src hs => ?_) (all_stmt (fun _ hs => by cases hs) (all_stmt (fun _ hs => by cases hs)
      (ih fun t ht => h t (by simp [ht]))))
    cases hs
    exact h t (by simp)

theorem all_copyAll {i j n : Nat} {k : End T α} (hQ : ∀ o, o.creates = none → Q o) (hk : k.All Q) : (copyAll j i n k).All Q := by
  induction n generalizing i j with
  | zero => exact hk
  | succ n ih => exact all_stmt (hQ _ rfl) ih

theorem all_insertAll {n a j : Nat} {k : End T α} (hQ : ∀ o, o.creates = none → Q o) (hk : k.All Q) :
    (insertAll n a j k).All Q := by
  induction a generalizing j with
  | zero => exact hk
  | succ a ih => exact all_copyAll hQ ih

theorem all_countAll {x i n m : Nat} {k : Nat → End T α} (hQ : ∀ o, o.creates = none → Q o) (hk : ∀ m, (k m).All Q) :
    (countAll x i n m k).All Q := by
  induction n generalizing i m with
  | zero => exact hk m
  | succ n ih =>
    refine ⟨hQ _ rfl, fun r => ?_⟩
    cases r <;> first | exact ih | trivial

theorem all_counts {n b c : Nat} {k : Nat → End T α} (hQ : ∀ o, o.creates = none → Q o) (hk : ∀ m, (k m).All Q) :
    (counts n b c k).All Q := by
  induction b generalizing c with
  | zero => exact hk c
  | succ b ih => exact all_countAll hQ fun _ => ih

theorem all_accumulate {len : T → Nat} {j n a : Nat} {k : Nat → End T α} (hQ : ∀ o, o.creates = none → Q o)
    (hk : ∀ m, (k m).All Q) : (accumulate len j n a k).All Q := by
  induction n generalizing j a with
  | zero => exact hk a
  | succ n ih =>
    refine ⟨hQ _ rfl, fun r => ?_⟩
    cases r <;> first | exact ih | trivial

theorem all_sums {len : T → Nat} {j n d s : Nat} {k : Nat → End T α} (hQ : ∀ o, o.creates = none → Q o)
    (hk : ∀ m, (k m).All Q) : (sums len j n d s k).All Q := by
  induction d generalizing s with
  | zero => exact hk s
  | succ d ih => exact all_accumulate hQ fun _ => ih

/-- The program creates flyweights of its tokens only. -/
theorem all_run (len : T → Nat) (toks : List T) (a b d : Nat) :
    (run len toks a b d).All fun o => ∀ src, o.creates = some src → (SrcSpec.default T).key0 src ∈ toks := by
  have hQ : ∀ o : Op T T, o.creates = none → ∀ src, o.creates = some src → (SrcSpec.default T).key0 src ∈ toks := by
    intro o ho src hs
    rw [ho] at hs
    cases hs
  exact all_pushAll (fun _ h => h) (all_insertAll hQ (all_counts hQ fun _ => all_sums hQ fun _ => trivial))

end
end Verif.Perf

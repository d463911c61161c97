/-!
# The parallel tokenizer of example/parallel.cpp

Iterators into the text are positions; dereferencing or moving one outside the
text is undefined behaviour, written `none`.  Threads are sequences of writes
to a shared vector, interleaved by an arbitrary schedule.
-/

set_option autoImplicit false

namespace Verif.Parallel

variable {α β : Type}

/-! ## The code -/

mutual
/-- `tokenize` from its label `start` on, /repo/example/parallel.cpp:34-43 (the
`goto start` enters the inner loop of lines 37-43 behind its increment).  The
result lists the calls `f(begin_word,first)` in order.  `first` and `last` are
positions; past the end of the text, `*first` is undefined (`none`). -/
def start (m : α → Bool) (txt : List α) (last first : Nat) : Option (List (Nat × Nat)) :=
  if first = last then some []
  else if h : first < txt.length then
    if m txt[first] then word m txt last first first
    else start m txt last (first + 1)
  else none
termination_by 2 * (txt.length - first) + 1

/-- The loop over the characters of a word, /repo/example/parallel.cpp:45-52;
leaving it by `break` goes on with the increment of line 38.  `first` has been
dereferenced before, so `++first` is defined. -/
def word (m : α → Bool) (txt : List α) (last begin_ first : Nat) : Option (List (Nat × Nat)) :=
  if first + 1 = last then some [(begin_, first + 1)]
  else if h : first + 1 < txt.length then
    if m txt[first + 1] then word m txt last begin_ (first + 1)
    else (start m txt last (first + 2)).map ((begin_, first + 1) :: ·)
  else none
termination_by 2 * (txt.length - first)
end

/-- `tokenize(first,last,f)`, /repo/example/parallel.cpp:31-54. -/
def tokenize (m : α → Bool) (txt : List α) (first last : Nat) : Option (List (Nat × Nat)) :=
  start m txt last first

/-- `while(it!=in.end()&&match(*it))++it;`, /repo/example/parallel.cpp:78. -/
def advance (m : α → Bool) (txt : List α) (it : Nat) : Option Nat :=
  if it = txt.length then some it
  else if h : it < txt.length then
    if m txt[it] then advance m txt (it + 1) else some it
  else none
termination_by txt.length - it

/-- The boundaries after `boundaries[i]`, for `k` remaining iterations
(`k = num_threads-i`), /repo/example/parallel.cpp:75-79. -/
def cuts (m : α → Bool) (txt : List α) : Nat → Nat → Option (List Nat)
  | 0, _ => some []
  | k + 1, b =>
    match advance m txt (b + (txt.length - b) / (k + 1)) with
    | none => none
    | some b' => (cuts m txt k b').map (b' :: ·)

/-- The chunks `[boundaries[i],boundaries[i+1])` in order,
/repo/example/parallel.cpp:72-79.  Boundary 0 is `in.begin()`. -/
def chunks (b : Nat) : List Nat → List (Nat × Nat)
  | [] => []
  | c :: cs => (b, c) :: chunks c cs

/-- `std::string(first,last)`: the characters of a range,
/repo/example/parallel.cpp:115. -/
def slice (txt : List α) (r : Nat × Nat) : List α := (txt.drop r.1).take (r.2 - r.1)

/-- What remains to be written by a thread: positions of a shared vector and
values, /repo/example/parallel.cpp:87-93 (one write) and 110-117. -/
abbrev Thread (β : Type) := List (Nat × β)

/-- The threads run, the schedule telling which one makes the next write;
writing outside the vector is undefined.  Models the concurrent execution of
the threads started in /repo/example/parallel.cpp:86-94 and 109-118.
Simplification: reading the text and computing tokens, which touch nothing
shared that is written, are not interleaved. -/
def runs : List Nat → List β → List (Thread β) → Option (List β × List (Thread β))
  | [], mem, ths => some (mem, ths)
  | t :: sched, mem, ths =>
    match ths[t]? with
    | some ((p, v) :: rest) =>
      if p < mem.length then runs sched (mem.set p v) (ths.set t rest) else none
    | _ => runs sched mem ths

/-- What `parse` has come to. (No code of its own.) -/
inductive Outcome (γ : Type) where
  | ub
  | running
  | finished (a : γ)
  deriving DecidableEq

/-- Join all threads, /repo/example/parallel.cpp:99-103 and 119: goes on only
when every thread has finished. -/
def join (r : Option (List β × List (Thread β))) : Outcome (List β) :=
  match r with
  | none => .ub
  | some (mem, ths) => if ths.all List.isEmpty then .finished mem else .running

/-- `thread_output_starts[i]=num_words; num_words+=partial_num_words[i];`,
/repo/example/parallel.cpp:99-103: the start of each thread, and the total. -/
def starts : Nat → List Nat → List Nat × Nat
  | n, [] => ([], n)
  | n, c :: cs => let r := starts (n + c) cs; (n :: r.1, r.2)

/-- The writes `*out++=String(first,last)` of one thread,
/repo/example/parallel.cpp:111-116. -/
def outputs (out : Nat) : List β → Thread β
  | [] => []
  | w :: ws => (out, w) :: outputs (out + 1) ws

/-- `parse(in,type_name,num_threads)`, /repo/example/parallel.cpp:60-127,
without timing and printing; `words` is returned.  `s₁` and `s₂` are the
schedules of the two groups of threads.  A `String` is represented by its
value. -/
def parse (m : α → Bool) (txt : List α) (n : Nat) (s₁ s₂ : List Nat) :
    Outcome (List (List α)) :=
  match cuts m txt n 0 with
  | none => .ub
  | some bs =>
    match (chunks 0 bs).mapM (fun r => tokenize m txt r.1 r.2) with
    | none => .ub
    | some toks =>
      match join (runs s₁ (List.replicate n 0) (toks.mapIdx fun i t => [(i, t.length)])) with
      | .ub => .ub
      | .running => .running
      | .finished counts =>
        let st := starts 0 counts
        join (runs s₂ (List.replicate st.2 [])
          (List.zipWith (fun s t => outputs s (t.map (slice txt))) st.1 toks))

/-- `match(ch)`, /repo/example/parallel.cpp:26-29. -/
def letter (ch : Char) : Bool := ('a' ≤ ch && ch ≤ 'z') || ('A' ≤ ch && ch ≤ 'Z')

/-! ## The words of a text -/

/-- The maximal runs of characters satisfying `m`, in order.  (Specification.) -/
def words (m : α → Bool) : List α → List (List α)
  | [] => []
  | c :: l => if m c then (c :: l.takeWhile m) :: words m (l.dropWhile m) else words m l
termination_by l => l.length
decreasing_by
  · have := (List.dropWhile_sublist m (l := l)).length_le
    simp only [List.length_cons]; omega
  · simp

/-! ## Proofs -/

theorem words_nil (m : α → Bool) : words m [] = [] := by unfold words; rfl

theorem words_pos {m : α → Bool} {c : α} {l : List α} (h : m c = true) :
    words m (c :: l) = (c :: l.takeWhile m) :: words m (l.dropWhile m) := by
  rw [words, if_pos h]

theorem words_neg {m : α → Bool} {c : α} {l : List α} (h : m c = false) :
    words m (c :: l) = words m l := by
  rw [words, if_neg (by simp [h])]

theorem takeWhile_cut {m : α → Bool} (l r : List α)
    (h : ∀ c, r.head? = some c → m c = false) :
    (l ++ r).takeWhile m = l.takeWhile m := by
  induction l with
  | nil =>
    cases r with
    | nil => rfl
    | cons d r => simp [h d rfl]
  | cons c l ih => cases hc : m c <;> simp [hc, ih]

theorem dropWhile_cut {m : α → Bool} (l r : List α)
    (h : ∀ c, r.head? = some c → m c = false) :
    (l ++ r).dropWhile m = l.dropWhile m ++ r := by
  induction l with
  | nil =>
    cases r with
    | nil => rfl
    | cons d r => simp [h d rfl]
  | cons c l ih => cases hc : m c <;> simp [hc, ih]

/-- A cut before a character that is not part of a word (or at the end) does
not change the words. -/
theorem words_append {m : α → Bool} (l r : List α) (h : ∀ c, r.head? = some c → m c = false) :
    words m (l ++ r) = words m l ++ words m r := by
  induction hn : l.length using Nat.strongRecOn generalizing l with
  | _ n ih =>
    cases l with
    | nil => simp [words_nil]
    | cons c l =>
      cases hc : m c with
      | false =>
        rw [List.cons_append, words_neg hc, words_neg hc]
        exact ih l.length (by subst hn; simp) l rfl
      | true =>
        rw [List.cons_append, words_pos hc, words_pos hc, List.cons_append]
        rw [takeWhile_cut l r h, dropWhile_cut l r h, ih (l.dropWhile m).length ?_ _ rfl]
        subst hn
        have := (List.dropWhile_sublist m (l := l)).length_le
        simp only [List.length_cons]; omega

theorem slice_cons {txt : List α} {i j : Nat} (hij : i < j) (hj : j ≤ txt.length) :
    slice txt (i, j) = txt[i] :: slice txt (i + 1, j) := by
  unfold slice
  rw [List.drop_eq_getElem_cons (by omega), show j - i = (j - (i + 1)) + 1 by omega,
    List.take_succ_cons]

theorem slice_nil {txt : List α} {i : Nat} : slice txt (i, i) = [] := by
  unfold slice; simp

theorem slice_append {txt : List α} {i j k : Nat} (hij : i ≤ j) (hjk : j ≤ k) :
    slice txt (i, k) = slice txt (i, j) ++ slice txt (j, k) := by
  unfold slice
  have : k - i = (j - i) + (k - j) := by omega
  simp only
  rw [this, List.take_add, List.drop_drop, show i + (j - i) = j by omega]

theorem tok {m : α → Bool} {txt : List α} {last : Nat} (hl : last ≤ txt.length) :
    ∀ n first, last - first = n → first ≤ last →
      (∃ rs, start m txt last first = some rs ∧
        rs.map (slice txt) = words m (slice txt (first, last))) ∧
      (∀ b, first < last → ∃ e rs, word m txt last b first = some ((b, e) :: rs) ∧
        first < e ∧ e ≤ last ∧
        slice txt (first + 1, e) = (slice txt (first + 1, last)).takeWhile m ∧
        rs.map (slice txt) = words m ((slice txt (first + 1, last)).dropWhile m)) := by
  intro n
  induction n using Nat.strongRecOn with
  | _ n ih =>
    intro first hn hf
    have hw : ∀ b, first < last → ∃ e rs, word m txt last b first = some ((b, e) :: rs) ∧
        first < e ∧ e ≤ last ∧
        slice txt (first + 1, e) = (slice txt (first + 1, last)).takeWhile m ∧
        rs.map (slice txt) = words m ((slice txt (first + 1, last)).dropWhile m) := by
      intro b hlt
      rw [word]
      by_cases he : first + 1 = last
      · rw [if_pos he]
        refine ⟨first + 1, [], rfl, by omega, by omega, ?_, ?_⟩
        · rw [he, slice_nil]; rfl
        · rw [he, slice_nil]; simp [words_nil]
      · rw [if_neg he, dif_pos (by omega)]
        have hs := slice_cons (txt := txt) (i := first + 1) (j := last) (by omega) hl
        cases hm : m txt[first + 1] with
        | true =>
          rw [if_pos rfl]
          obtain ⟨e, rs, h1, h2, h3, h4, h5⟩ :=
            (ih (last - (first + 1)) (by omega) (first + 1) rfl (by omega)).2 b (by omega)
          refine ⟨e, rs, h1, by omega, h3, ?_, ?_⟩
          · rw [slice_cons (by omega) (by omega), h4, hs, List.takeWhile_cons_of_pos hm]
          · rw [h5, hs, List.dropWhile_cons_of_pos hm]
        | false =>
          simp only [Bool.false_eq_true, if_false]
          obtain ⟨rs, h1, h2⟩ :=
            (ih (last - (first + 2)) (by omega) (first + 2) rfl (by omega)).1
          refine ⟨first + 1, rs, by rw [h1]; rfl, by omega, by omega, ?_, ?_⟩
          · rw [slice_nil, hs, List.takeWhile_cons_of_neg (by simp [hm])]
          · rw [h2, hs, List.dropWhile_cons_of_neg (by simp [hm]), words_neg hm]
    refine ⟨?_, hw⟩
    rw [start]
    by_cases he : first = last
    · rw [if_pos he]
      exact ⟨[], rfl, by rw [he, slice_nil, words_nil]; rfl⟩
    · rw [if_neg he, dif_pos (by omega)]
      have hs := slice_cons (txt := txt) (i := first) (j := last) (by omega) hl
      cases hm : m txt[first] with
      | true =>
        rw [if_pos rfl]
        obtain ⟨e, rs, h1, h2, h3, h4, h5⟩ := hw first (by omega)
        refine ⟨_, h1, ?_⟩
        rw [List.map_cons, slice_cons (by omega) (by omega), h4, h5, hs, words_pos hm]
      | false =>
        simp only [Bool.false_eq_true, if_false]
        obtain ⟨rs, h1, h2⟩ := (ih (last - (first + 1)) (by omega) (first + 1) rfl (by omega)).1
        exact ⟨rs, h1, by rw [h2, hs, words_neg hm]⟩

/-- `tokenize` never leaves its range and finds the words of the range. -/
theorem tokenize_words {m : α → Bool} {txt : List α} {first last : Nat}
    (h : first ≤ last) (hl : last ≤ txt.length) :
    ∃ rs, tokenize m txt first last = some rs ∧
      rs.map (slice txt) = words m (slice txt (first, last)) :=
  (tok hl _ first rfl h).1

/-- A good place to cut: the end of the text, or a character outside words.  (No code of its
own: used in statements and proofs.) -/
def Cut (m : α → Bool) (txt : List α) (b : Nat) : Prop :=
  b ≤ txt.length ∧ ∀ c, txt[b]? = some c → m c = false

theorem advance_cut {m : α → Bool} {txt : List α} :
    ∀ n it, txt.length - it = n → it ≤ txt.length →
      ∃ b, advance m txt it = some b ∧ it ≤ b ∧ Cut m txt b := by
  intro n
  induction n with
  | zero =>
    intro it hn hi
    rw [advance, if_pos (by omega)]
    exact ⟨it, rfl, Nat.le_refl _, hi, by
      intro c hc; rw [List.getElem?_eq_none (by omega)] at hc; cases hc⟩
  | succ n ih =>
    intro it hn hi
    rw [advance, if_neg (by omega), dif_pos (by omega)]
    cases hm : m txt[it] with
    | true =>
      obtain ⟨b, h1, h2, h3⟩ := ih (it + 1) (by omega) (by omega)
      exact ⟨b, h1, by omega, h3⟩
    | false =>
      refine ⟨it, rfl, Nat.le_refl _, hi, ?_⟩
      intro c hc
      rw [List.getElem?_eq_getElem (by omega)] at hc
      cases hc
      exact hm

/-- The boundaries: increasing, good places to cut, the last one the end. -/
theorem cuts_spec {m : α → Bool} {txt : List α} :
    ∀ k b, b ≤ txt.length → ∃ bs, cuts m txt k b = some bs ∧ bs.length = k ∧
      (∀ c ∈ bs, Cut m txt c) ∧ (b :: bs).Pairwise (· ≤ ·) ∧
      (0 < k → bs.getLast? = some txt.length) := by
  intro k
  induction k with
  | zero => intro b _; exact ⟨[], rfl, rfl, by simp, by simp, by simp⟩
  | succ k ih =>
    intro b hb
    have hd : (txt.length - b) / (k + 1) ≤ txt.length - b := Nat.div_le_self _ _
    obtain ⟨b', h1, h2, h3⟩ := advance_cut (m := m) (txt := txt) _
      (b + (txt.length - b) / (k + 1)) rfl (by omega)
    obtain ⟨bs, h4, h5, h6, h7, h8⟩ := ih b' h3.1
    have hbb : b ≤ b' := Nat.le_trans (Nat.le_add_right _ _) h2
    refine ⟨b' :: bs, ?_, by simp [h5], ?_, ?_, ?_⟩
    · rw [cuts, h1]; simp only; rw [h4]; rfl
    · intro c hc
      rcases List.mem_cons.1 hc with rfl | hc
      · exact h3
      · exact h6 c hc
    · rw [List.pairwise_cons]
      refine ⟨?_, h7⟩
      intro c hc
      rcases List.mem_cons.1 hc with rfl | hc
      · exact hbb
      · exact Nat.le_trans hbb ((List.pairwise_cons.1 h7).1 c hc)
    · intro _
      cases k with
      | zero =>
        have : bs = [] := List.length_eq_zero_iff.1 h5
        subst this
        have : txt.length ≤ b' := by simpa [show b + (txt.length - b) = txt.length by omega] using h2
        have := h3.1
        simp only [List.getLast?_singleton]
        congr 1; omega
      | succ k =>
        rw [List.getLast?_cons, h8 (by omega)]; rfl

theorem slice_head {txt : List α} {i j : Nat} {c : α} (h : (slice txt (i, j)).head? = some c) :
    txt[i]? = some c := by
  unfold slice at h
  simp only [List.head?_take] at h
  split at h
  · cases h
  · rw [List.head?_drop] at h; exact h

/-- Tokenizing the chunks gives, chunk by chunk, the words of the text. -/
theorem chunks_words {m : α → Bool} {txt : List α} :
    ∀ (bs : List Nat) (b : Nat), (∀ c ∈ bs, Cut m txt c) → (b :: bs).Pairwise (· ≤ ·) →
      bs.getLastD b = txt.length →
      ∃ toks, (chunks b bs).mapM (fun r => tokenize m txt r.1 r.2) = some toks ∧
        toks.length = bs.length ∧
        (toks.map fun t => t.map (slice txt)).flatten = words m (slice txt (b, txt.length)) := by
  intro bs
  induction bs with
  | nil =>
    intro b _ _ hb
    refine ⟨[], rfl, rfl, ?_⟩
    simp only [List.getLastD_nil] at hb
    rw [hb, slice_nil, words_nil]; rfl
  | cons c cs ih =>
    intro b hc hp hlast
    rw [List.pairwise_cons] at hp
    have hcc := hc c (by simp)
    obtain ⟨toks, h1, h2, h3⟩ := ih c (fun d hd => hc d (by simp [hd])) hp.2 (by
      rw [List.getLastD_cons] at hlast; exact hlast)
    obtain ⟨rs, h4, h5⟩ := tokenize_words (m := m) (txt := txt) (hp.1 c (by simp)) hcc.1
    refine ⟨rs :: toks, ?_, by simp [h2], ?_⟩
    · rw [chunks, List.mapM_cons]
      simp only [h4, h1]; rfl
    · rw [List.map_cons, List.flatten_cons, h3, h5, ← words_append, ← slice_append]
      · exact hp.1 c (by simp)
      · exact hcc.1
      · intro d hd; exact hcc.2 d (slice_head hd)

/-! ### Threads -/

/-- All writes still to be made.  (No code of its own: used in statements and proofs.) -/
def pending (ths : List (Thread β)) : List (Nat × β) := ths.flatten

theorem flatten_set {γ : Type} {l : List (List γ)} {t : Nat} {x : γ} {rest : List γ}
    (h : l[t]? = some (x :: rest)) : l.flatten.Perm (x :: (l.set t rest).flatten) := by
  induction l generalizing t with
  | nil => simp at h
  | cons a l ih =>
    cases t with
    | zero =>
      simp only [List.getElem?_cons_zero, Option.some.injEq] at h
      subst h
      simp
    | succ t =>
      simp only [List.getElem?_cons_succ] at h
      simp only [List.flatten_cons, List.set_cons_succ]
      exact (List.Perm.append_left a (ih h)).trans List.perm_middle

/-- If the pending writes go to different places of the vector, the threads
run without undefined behaviour under every schedule, and what is in the vector
together with what is pending stays the same. -/
theorem runs_spec (want : Nat → Option β) :
    ∀ (sched : List Nat) (mem : List β) (ths : List (Thread β)),
      ((pending ths).map (·.1)).Nodup →
      (∀ p v, (p, v) ∈ pending ths → p < mem.length ∧ want p = some v) →
      (∀ p, p < mem.length → (∀ v, (p, v) ∉ pending ths) → want p = mem[p]?) →
      ∃ mem' ths', runs sched mem ths = some (mem', ths') ∧ mem'.length = mem.length ∧
        (∀ p, p < mem'.length → (∀ v, (p, v) ∉ pending ths') → want p = mem'[p]?) := by
  intro sched
  induction sched with
  | nil => intro mem ths _ _ h; exact ⟨mem, ths, rfl, rfl, h⟩
  | cons t sched ih =>
    intro mem ths hnd hin hout
    rw [runs]
    cases ht : ths[t]? with
    | none => exact ih mem ths hnd hin hout
    | some th =>
      cases th with
      | nil => exact ih mem ths hnd hin hout
      | cons x rest =>
        obtain ⟨p, v⟩ := x
        have hp : (pending ths).Perm ((p, v) :: pending (ths.set t rest)) := flatten_set ht
        have hpv := hin p v (hp.mem_iff.2 (by simp))
        simp only
        rw [if_pos hpv.1]
        have hnd' := (hp.map (·.1)).nodup_iff.1 hnd
        rw [List.map_cons, List.nodup_cons] at hnd'
        obtain ⟨mem', ths', h1, h2, h3⟩ := ih (mem.set p v) (ths.set t rest) hnd'.2
          (fun q w hq => by
            rw [List.length_set]
            exact hin q w (hp.mem_iff.2 (by simp [hq])))
          (fun q hq hno => by
            rw [List.length_set] at hq
            by_cases hqp : q = p
            · subst hqp
              rw [List.getElem?_set_self hq]; exact hpv.2
            · rw [List.getElem?_set_ne (Ne.symm hqp)]
              refine hout q hq (fun w hw => ?_)
              rcases List.mem_cons.1 (hp.mem_iff.1 hw) with h | h
              · exact hqp (by cases h; rfl)
              · exact hno w h)
        exact ⟨mem', ths', h1, by rw [h2, List.length_set], h3⟩

/-- Threads whose writes go to different places and fill the vector: under
every schedule, once all have finished, the vector is as wanted. -/
theorem join_runs {want mem : List β} {ths : List (Thread β)} (sched : List Nat)
    (hlen : mem.length = want.length)
    (hp : (pending ths).Perm (want.mapIdx fun i v => (i, v))) :
    join (runs sched mem ths) = .running ∨ join (runs sched mem ths) = .finished want := by
  have hmem : ∀ p v, (p, v) ∈ pending ths ↔ want[p]? = some v := by
    intro p v
    rw [hp.mem_iff, List.mem_mapIdx]
    constructor
    · rintro ⟨i, hi, h⟩
      simp only [Prod.mk.injEq] at h
      obtain ⟨rfl, rfl⟩ := h
      exact List.getElem?_eq_getElem hi
    · intro h
      obtain ⟨hi, h⟩ := List.getElem?_eq_some_iff.1 h
      exact ⟨p, hi, by rw [h]⟩
  have hnd : ((pending ths).map (·.1)).Nodup := by
    rw [(hp.map (·.1)).nodup_iff]
    have : (want.mapIdx fun i v => (i, v)).map (·.1) = List.range want.length := by
      apply List.ext_getElem
      · simp
      · intro i h1 h2; simp
    rw [this]; exact List.nodup_range
  obtain ⟨mem', ths', h1, h2, h3⟩ := runs_spec (fun p => want[p]?) sched mem ths hnd
    (fun p v h => by
      have h := (hmem p v).1 h
      exact ⟨by rw [hlen]; exact (List.getElem?_eq_some_iff.1 h).1, h⟩)
    (fun p hp' hno => by
      rw [hlen] at hp'
      exact absurd ((hmem p want[p]).2 (List.getElem?_eq_getElem hp')) (hno _))
  rw [h1]
  unfold join
  simp only
  by_cases hd : ths'.all List.isEmpty = true
  · right
    rw [if_pos hd]
    congr 1
    have hno : pending ths' = [] := by
      unfold pending
      rw [List.flatten_eq_nil_iff]
      intro l hl
      have := List.all_eq_true.1 hd l hl
      simpa using this
    apply List.ext_getElem?
    intro p
    by_cases hlt : p < mem'.length
    · exact (h3 p hlt (fun v hv => by rw [hno] at hv; cases hv)).symm
    · rw [List.getElem?_eq_none (by omega), List.getElem?_eq_none (by omega)]
  · left; rw [if_neg hd]

theorem outputs_eq (out : Nat) (ws : List β) :
    outputs out ws = ws.mapIdx fun i v => (out + i, v) := by
  induction ws generalizing out with
  | nil => rfl
  | cons w ws ih =>
    rw [outputs, ih, List.mapIdx_cons]
    simp [Nat.add_assoc, Nat.add_comm 1]

theorem starts_total (n : Nat) (cs : List Nat) : (starts n cs).2 = n + cs.sum := by
  induction cs generalizing n with
  | nil => simp [starts]
  | cons c cs ih => simp only [starts, ih, List.sum_cons]; omega

theorem outputs_flatten {γ : Type} (f : γ → List β) (n : Nat) (toks : List γ) :
    (List.zipWith (fun s t => outputs s (f t))
      (starts n (toks.map fun t => (f t).length)).1 toks).flatten =
    (toks.map f).flatten.mapIdx fun i v => (n + i, v) := by
  induction toks generalizing n with
  | nil => rfl
  | cons t toks ih =>
    simp only [List.map_cons, starts, List.zipWith_cons_cons, List.flatten_cons]
    rw [ih, outputs_eq, List.mapIdx_append]
    simp [Nat.add_assoc, Nat.add_comm (f t).length]

theorem runs_lengths :
    ∀ (sched : List Nat) (mem mem' : List β) (ths ths' : List (Thread β)),
      runs sched mem ths = some (mem', ths') →
      ths'.length = ths.length ∧
      ∀ t (h : t < ths.length) (h' : t < ths'.length),
        ths'[t].length = ths[t].length - sched.count t := by
  intro sched
  induction sched with
  | nil =>
    intro mem mem' ths ths' h
    rw [runs] at h
    cases h
    exact ⟨rfl, fun t h _ => by simp⟩
  | cons u sched ih =>
    intro mem mem' ths ths' h
    rw [runs] at h
    have idle : runs sched mem ths = some (mem', ths') →
        (∀ (h : u < ths.length), ths[u] = []) →
        ths'.length = ths.length ∧ ∀ t (h : t < ths.length) (h' : t < ths'.length),
          ths'[t].length = ths[t].length - (u :: sched).count t := by
      intro hr he
      obtain ⟨h1, h2⟩ := ih mem mem' ths ths' hr
      refine ⟨h1, fun t ht ht' => ?_⟩
      rw [h2 t ht ht', List.count_cons]
      by_cases htu : u = t
      · subst htu; rw [he ht]; simp
      · simp [htu]
    cases hu : ths[u]? with
    | none =>
      rw [hu] at h
      refine idle h (fun hlt => ?_)
      rw [List.getElem?_eq_getElem hlt] at hu; cases hu
    | some th =>
      obtain ⟨hlt, hth⟩ := List.getElem?_eq_some_iff.1 hu
      cases th with
      | nil => rw [hu] at h; exact idle h (fun _ => hth)
      | cons x rest =>
        obtain ⟨p, v⟩ := x
        rw [hu] at h
        simp only at h
        split at h
        · obtain ⟨h1, h2⟩ := ih _ _ _ _ h
          rw [List.length_set] at h1
          refine ⟨h1, fun t ht ht' => ?_⟩
          rw [h2 t (by rw [List.length_set]; exact ht) ht', List.count_cons]
          by_cases htu : u = t
          · subst htu
            rw [List.getElem_set_self, hth]
            simp only [List.length_cons, beq_self_eq_true, if_true]; omega
          · rw [List.getElem_set_ne htu]; simp [htu]
        · cases h

/-- Once the schedule has run every thread often enough, all have finished. -/
theorem join_done {mem : List β} {ths : List (Thread β)} {sched : List Nat}
    (h : ∀ t (h : t < ths.length), ths[t].length ≤ sched.count t) :
    join (runs sched mem ths) ≠ .running := by
  cases hr : runs sched mem ths with
  | none => simp [join]
  | some r =>
    cases r with
    | mk mem' ths' =>
      obtain ⟨h1, h2⟩ := runs_lengths sched mem mem' ths ths' hr
      unfold join
      simp only
      rw [if_pos]
      · simp
      · rw [List.all_eq_true]
        intro l hl
        obtain ⟨t, ht, rfl⟩ := List.getElem_of_mem hl
        have := h2 t (by omega) ht
        have := h t (by omega)
        rw [List.isEmpty_iff_length_eq_zero]; omega

theorem words_length (m : α → Bool) (l : List α) : (words m l).length ≤ l.length := by
  induction hn : l.length using Nat.strongRecOn generalizing l with
  | _ n ih =>
    subst hn
    cases l with
    | nil => simp [words_nil]
    | cons c l =>
      cases hc : m c with
      | false =>
        rw [words_neg hc]
        have := ih l.length (by simp) l rfl
        simp only [List.length_cons]; omega
      | true =>
        rw [words_pos hc]
        have h1 := (List.dropWhile_sublist m (l := l)).length_le
        have := ih (l.dropWhile m).length (by simp only [List.length_cons]; omega) _ rfl
        simp only [List.length_cons]; omega

/-- What `parse` computes before its threads write anything. -/
theorem parse_parts (m : α → Bool) (txt : List α) {n : Nat} (hn : 0 < n) :
    ∃ bs toks, cuts m txt n 0 = some bs ∧
      (chunks 0 bs).mapM (fun r => tokenize m txt r.1 r.2) = some toks ∧
      toks.length = n ∧ (toks.map fun t => t.map (slice txt)).flatten = words m txt := by
  obtain ⟨bs, h1, h2, h3, h4, h5⟩ := cuts_spec (m := m) (txt := txt) n 0 (Nat.zero_le _)
  obtain ⟨toks, h6, h7, h8⟩ := chunks_words bs 0 h3 h4 (by
    rw [List.getLastD_eq_getLast?, h5 hn]; rfl)
  refine ⟨bs, toks, h1, h6, by omega, ?_⟩
  rw [h8]
  congr 1
  unfold slice; simp

theorem parse_spec (m : α → Bool) (txt : List α) {n : Nat} (hn : 0 < n) (s₁ s₂ : List Nat) :
    (parse m txt n s₁ s₂ = .running ∨ parse m txt n s₁ s₂ = .finished (words m txt)) ∧
    ((∀ t, t < n → 1 ≤ s₁.count t) → (∀ t, t < n → txt.length ≤ s₂.count t) →
      parse m txt n s₁ s₂ = .finished (words m txt)) := by
  obtain ⟨bs, toks, h1, h2, h3, h4⟩ := parse_parts m txt hn
  have hp : parse m txt n s₁ s₂ =
      match join (runs s₁ (List.replicate n 0) (toks.mapIdx fun i t => [(i, t.length)])) with
      | .ub => .ub
      | .running => .running
      | .finished counts =>
        let st := starts 0 counts
        join (runs s₂ (List.replicate st.2 [])
          (List.zipWith (fun s t => outputs s (t.map (slice txt))) st.1 toks)) := by
    unfold parse; rw [h1]; simp only; rw [h2]
  have hf : (toks.mapIdx fun i t => [(i, t.length)]).flatten =
      (toks.map List.length).mapIdx fun i v => (i, v) := by
    have hm : (toks.map List.length).mapIdx (fun i v => (i, v)) =
        toks.mapIdx fun i t => (i, t.length) := by
      apply List.ext_getElem
      · simp
      · intro i h1 h2; simp
    rw [hm]
    clear hm hp h1 h2 h3 h4
    have : ∀ (k : Nat), (toks.mapIdx fun i t => [(k + i, t.length)]).flatten =
        toks.mapIdx (fun i t => (k + i, t.length)) := by
      induction toks with
      | nil => intro k; rfl
      | cons t toks ih =>
        intro k
        simp only [List.mapIdx_cons, List.flatten_cons, List.singleton_append, List.cons.injEq,
          true_and]
        have := ih (k + 1)
        simpa [Nat.add_assoc, Nat.add_comm 1] using this
    simpa using this 0
  have hj := join_runs (want := toks.map List.length) (mem := List.replicate n 0)
    (ths := toks.mapIdx fun i t => [(i, t.length)]) s₁ (by simp [h3])
    (by unfold pending; rw [hf])
  have hst : (starts 0 (toks.map List.length)).2 = (words m txt).length := by
    rw [starts_total, ← h4, List.length_flatten, List.map_map]
    simp [Function.comp_def]
  have hj2 := join_runs (want := words m txt)
    (mem := List.replicate (starts 0 (toks.map List.length)).2 [])
    (ths := List.zipWith (fun s t => outputs s (t.map (slice txt)))
      (starts 0 (toks.map List.length)).1 toks) s₂ (by simp [hst])
    (by
      unfold pending
      have := outputs_flatten (fun t : List (Nat × Nat) => t.map (slice txt)) 0 toks
      simp only [List.length_map, Nat.zero_add] at this
      rw [h4] at this
      rw [this])
  rw [hp]
  refine ⟨?_, fun hc1 hc2 => ?_⟩
  · rcases hj with hj | hj
    · rw [hj]; exact .inl rfl
    · rw [hj]; exact hj2
  · have hd1 := join_done (mem := List.replicate n 0)
      (ths := toks.mapIdx fun i t => [(i, t.length)]) (sched := s₁) (by
        intro t ht
        simp only [List.length_mapIdx, h3] at ht
        simpa using hc1 t ht)
    have hd2 := join_done (mem := List.replicate (starts 0 (toks.map List.length)).2 [])
      (ths := List.zipWith (fun s t => outputs s (t.map (slice txt)))
        (starts 0 (toks.map List.length)).1 toks) (sched := s₂) (by
        intro t ht
        simp only [List.length_zipWith] at ht
        refine Nat.le_trans ?_ (hc2 t (by omega))
        rw [List.getElem_zipWith, outputs_eq, List.length_mapIdx, List.length_map]
        refine Nat.le_trans ?_ (words_length m txt)
        have := (List.sublist_flatten_of_mem (List.mem_map_of_mem (f := fun t => t.map (slice txt))
          (List.getElem_mem (l := toks) (n := t) (by omega)))).length_le
        rw [h4] at this
        simpa using this)
    rcases hj with hj | hj
    · exact absurd hj hd1
    · rw [hj]
      exact hj2.resolve_left hd2

end Verif.Parallel

import Verif.Examples.Tests

/-!
# Serialization of the flyweights of a program

Models `save` and `load` of /repo/include/boost/flyweight/serialize.hpp with their helpers
(/repo/include/boost/flyweight/detail/serialization_helper.hpp) as programs that use the sequential
core: the helpers hold flyweights.  Keys are plain data here; `Serial` treats keys
that contain flyweights, on an abstract level.
-/

set_option autoImplicit false

namespace Verif.SerialCore
open Client Tests
variable {K V Rep F : Type}

/-- What is in an archive: indices and keys.  Models the two items written by
/repo/include/boost/flyweight/serialize.hpp:58-61. -/
inductive Tok (K : Type) where
  | idx (n : Nat)
  | key (k : K)
  deriving DecidableEq

/-- Leave by an exception.  (No code of its own.) -/
def fail {α : Type} : M (St Rep F) α := fun s => .exc s

/-- An operation of the archive, or an allocation of a helper, that may throw.  (The user's; called by
/repo/include/boost/flyweight/serialize.hpp:58-61, 81-90.) -/
def step : M (St Rep F) Unit := Core.env mayThrow

/-- `save_helper::find`, /repo/include/boost/flyweight/detail/serialization_helper.hpp:61-65: the index of the exemplar with the
address `a`, the number of exemplars if there is none.  The exemplars are the flyweights `h`, `h + 1`, …; `i` is the next index to
look at and `m` the number of exemplars left.  Simplification: the hashed index is a linear search. -/
def find (S : Setup K V Rep F) (h a : Nat) : Nat → Nat → M (St Rep F) Nat
  | i, 0 => pure i
  | i, m + 1 => do
    let p ← Core.get S.P S.Fa (h + i)
    if p.1 = a then pure i else find S h a (i + 1) m

/-- `save` for one flyweight after the other, /repo/include/boost/flyweight/serialize.hpp:43-63, with `m` exemplars in the helper; the helper is
destroyed with the archive, after the last flyweight or by an exception. -/
def save (S : Setup K V Rep F) (h : Nat) : Nat → List Nat → M (St Rep F) (List (Tok K))
  | _, [] => pure []
  | m, x :: xs => do
    let p ← Core.get S.P S.Fa x
    let n ← find S h p.1 0 m
    step
    if n = m then do
      let k ← Core.getKey S.P S.Fa x
      step
      local' S (h + m) (do step; Core.copy S.Fa S.trk (h + m) x) (do
        let ts ← save S h (m + 1) xs
        pure (.idx n :: .key k :: ts))
    else do
      let ts ← save S h m xs
      pure (.idx n :: ts)

/-- `f=hlp[n]`, /repo/include/boost/flyweight/serialize.hpp:90: `operator[]` of the helper returns a copy
(/repo/include/boost/flyweight/detail/serialization_helper.hpp:84). -/
def fetch (S : Setup K V Rep F) (h tmp n f : Nat) : M (St Rep F) Unit :=
  local' S tmp (Core.copy S.Fa S.trk tmp (h + n)) (Core.assign S.P S.Fa S.trk f tmp)

/-- `load` for one flyweight after the other, /repo/include/boost/flyweight/serialize.hpp:65-91, with `m` exemplars in the helper.  `src k`
is what a flyweight is constructed from given an lvalue of type `key_type`.  Reading anything else than what is asked for
throws. -/
def load (S : Setup K V Rep F) (src : K → Src K V) (h tmp : Nat) : Nat → List Nat → List (Tok K) → M (St Rep F) Unit
  | _, [], _ => pure ()
  | m, f :: fs, .idx n :: ts => do
    step
    if n > m then fail
    else if n = m then
      match ts with
      | .key k :: ts =>
        local' S (h + m) (do
          step
          local' S tmp (Core.make S.P S.Fa S.trk tmp (src k)) (do
            step
            Core.copy S.Fa S.trk (h + m) tmp)) (do
          fetch S h tmp n f
          load S src h tmp (m + 1) fs ts)
      | _ => fail
    else do
      fetch S h tmp n f
      load S src h tmp m fs ts
  | _, _ :: _, _ => fail

/-- A vector of `c` flyweights `v`, `v + 1`, …, made from `dflt`, in the rest of the block.  (The user's program, no code of the
library; what Boost.Serialization does before it loads the elements of a vector.) -/
def withVector {α : Type} (S : Setup K V Rep F) (dflt : K) : Nat → Nat → M (St Rep F) α → M (St Rep F) α
  | _, 0, rest => rest
  | v, c + 1, rest => local' S v (Core.make S.P S.Fa S.trk v (.key dflt)) (withVector S dflt (v + 1) c rest)

/-- Addresses and keys of flyweights.  (The user's program, no code of the library.) -/
def observe (S : Setup K V Rep F) : List Nat → M (St Rep F) (List (Nat × K))
  | [] => pure []
  | x :: xs => do
    let p ← Core.get S.P S.Fa x
    let k ← Core.getKey S.P S.Fa x
    let r ← observe S xs
    pure ((p.1, k) :: r)

/-- Loading a vector of `c` flyweights from an archive; the result is what the elements refer to.  (The user's program, no code of the library.) -/
def loading (S : Setup K V Rep F) (src : K → Src K V) (dflt : K) (n c : Nat) (ts : List (Tok K)) :
    M (St Rep F) (List (Nat × K)) :=
  withVector S dflt (n + 1) c (do
    load S src (n + 1 + c) n 0 (List.range' (n + 1) c) ts
    observe S (List.range' (n + 1) c))

/-- `v1==v2` for vectors of the same size, /repo/test/test_serialization_template.hpp:94. -/
def same (S : Setup K V Rep F) : List Nat → List Nat → M (St Rep F) (List Bool)
  | x :: xs, y :: ys => do
    let b ← Core.eq S.P S.Fa x y
    let bs ← same S xs ys
    pure (b :: bs)
  | _, _ => pure []

/-- `test_serialization_template` after the elements of `v1`, the flyweights `xs`, have been made,
/repo/test/test_serialization_template.hpp:80-94. -/
def test (S : Setup K V Rep F) (src : K → Src K V) (dflt : K) (n : Nat) (xs : List Nat) : M (St Rep F) (List Bool) := do
  let ts ← save S (n + 1) 0 xs
  withVector S dflt (n + 1) xs.length (do
    load S src (n + 1 + xs.length) n 0 (List.range' (n + 1) xs.length) ts
    same S xs (List.range' (n + 1) xs.length))

/-! ## What archives contain and mean -/

/-- What is written for flyweights with these addresses and keys, those of `seen` having been written already.  (No code of its
own: used in statements and proofs.) -/
def encode (seen : List Nat) : List (Nat × K) → List (Tok K)
  | [] => []
  | (a, k) :: ps =>
    if a ∈ seen then .idx (seen.idxOf a) :: encode seen ps
    else .idx seen.length :: .key k :: encode (seen ++ [a]) ps

/-- The keys of `c` flyweights in an archive, `table` being those read already; `none`: the archive is not a saved one.  (No code
of its own: used in statements and proofs.) -/
def decode (table : List K) : Nat → List (Tok K) → Option (List K)
  | 0, _ => some []
  | c + 1, .idx n :: ts =>
    match table[n]? with
    | some k => (decode table c ts).map (k :: ·)
    | none =>
      if n = table.length then
        match ts with
        | .key k :: ts => (decode (table ++ [k]) c ts).map (k :: ·)
        | _ => none
      else none
  | _ + 1, _ => none

/-! ## Proofs -/

section
variable {S : Setup K V Rep F} {fl : Nat → Bool} {v w : Store K V} {α : Type}

theorem step_then {f : Unit → M (St Rep F) α} {Q : α → St Rep F → Prop} {E : St Rep F → Prop}
    (h : Triple (View S fl v) (f ()) Q E) (hE : ∀ s, View S fl v s → (∃ n, fl n = true) → E s) :
    Triple (View S fl v) (step >>= f) Q E := by
  intro s hs
  have ht := View.tick hs
  simp only [bind, M.bind, step, Core.env, mayThrow]
  by_cases hf : s.env.faults s.env.tick = true
  · simp only [hf, if_true]
    exact hE _ ht ⟨_, by rw [← View.flags hs]; exact hf⟩
  · simp only [hf]
    exact h _ ht

/-- A block with a local variable; what is known of the variables afterwards. -/
theorem local_post {x : Nat} {ctor : M (St Rep F) Unit} {rest : M (St Rep F) α} {I : Bind K V → Prop}
    {Q : α → Store K V → Prop} {E : Store K V → Prop}
    (h1 : Triple (View S fl v) ctor (fun _ s => ∃ b, I b ∧ View S fl (upd v x (some b)) s)
      (fun s => ∃ v', View S fl v' s ∧ E v'))
    (h2 : ∀ b, I b → Triple (View S fl (upd v x (some b))) rest
      (fun r s => ∃ v', View S fl v' s ∧ (∃ c, v' x = some c) ∧ Q r (upd v' x none))
      (fun s => ∃ v', View S fl v' s ∧ (∃ c, v' x = some c) ∧ E (upd v' x none))) :
    Triple (View S fl v) (local' S x ctor rest) (fun r s => ∃ v', View S fl v' s ∧ Q r v')
      (fun s => ∃ v', View S fl v' s ∧ E v') := by
  refine Triple.bind h1 fun _ => ?_
  refine Triple.scope (R := fun r s => ∃ v', View S fl v' s ∧ (∃ c, v' x = some c) ∧ Q r (upd v' x none))
    (RE := fun s => ∃ v', View S fl v' s ∧ (∃ c, v' x = some c) ∧ E (upd v' x none)) ?_ ?_ ?_
  · rintro s ⟨b, hb, hv⟩
    exact h2 b hb s hv
  · rintro r s ⟨v', hv, ⟨c, hc⟩, hq⟩
    obtain ⟨s', g1, g2⟩ := hv.destroy hc
    rw [g1]
    exact ⟨_, g2, hq⟩
  · rintro s ⟨v', hv, ⟨c, hc⟩, hq⟩
    obtain ⟨s', g1, g2⟩ := hv.destroy hc
    rw [g1]
    exact ⟨_, g2, hq⟩

theorem upd_none {x : Nat} {o : Option (Bind K V)} (h : v x = none) : upd (upd v x o) x none = v := by
  funext y
  by_cases hy : y = x
  · simp [upd, hy, h]
  · simp [upd, hy]

/-! ### Saving -/

theorem find_eq {h a : Nat} {B : List (Bind K V)} (hB : ∀ i b, B[i]? = some b → v (h + i) = some b) {s : St Rep F}
    (hs : View S fl v s) {m i : Nat} (hm : i + m = B.length) :
    find S h a i m s = .ok (i + ((B.drop i).map Bind.addr).idxOf a) s := by
  induction m generalizing i with
  | zero =>
    rw [List.drop_eq_nil_of_le (by omega)]
    rfl
  | succ m ih =>
    have hi : i < B.length := by omega
    have hg := hs.get (hB i _ (List.getElem?_eq_getElem hi))
    unfold find
    simp only [bind, M.bind, hg]
    rw [List.drop_eq_getElem_cons hi, List.map_cons, List.idxOf_cons]
    by_cases ha : B[i].addr = a
    · rw [if_pos ha]
      simp [ha, pure, M.ret]
    · rw [if_neg ha, ih (by omega)]
      have : (B[i].addr == a) = false := by simpa using ha
      simp only [this, cond_false]
      rw [show i + 1 + ((B.drop (i + 1)).map Bind.addr).idxOf a = i + (((B.drop (i + 1)).map Bind.addr).idxOf a + 1) by omega]

theorem save_ok {h : Nat} {xs : List Nat} {bs : List (Bind K V)} (hx : xs.map v = bs.map some) {B : List (Bind K V)}
    (hB : ∀ i b, B[i]? = some b → v (h + i) = some b) (hn : ∀ j, v (h + B.length + j) = none) :
    Triple (View S fl v) (save S h B.length xs)
      (fun r s => View S fl v s ∧ r = encode (B.map Bind.addr) (bs.map fun b => (b.addr, b.key)))
      (fun s => View S fl v s ∧ ∃ n, fl n = true) := by
  induction xs generalizing v B bs with
  | nil =>
    cases bs with
    | nil => exact Triple.ret fun s hs => ⟨hs, rfl⟩
    | cons b bs => cases hx
  | cons x xs ih =>
    cases bs with
    | nil => cases hx
    | cons b bs =>
      simp only [List.map_cons, List.cons.injEq] at hx
      unfold save
      refine get_then hx.1 ?_
      have hf : Triple (View S fl v) (find S h b.addr 0 B.length)
          (fun n s => n = (B.map Bind.addr).idxOf b.addr ∧ View S fl v s) (fun _ => False) := by
        intro s hs
        rw [find_eq hB hs (by omega)]
        exact ⟨by simp, hs⟩
      refine Triple.bind (hf.conseq (fun _ h => h) (fun _ _ h => h) (fun _ h => h.elim)) fun n => Triple.pull fun hn' => ?_
      refine step_then ?_ fun s hs hf => ⟨hs, hf⟩
      simp only [List.map_cons, encode]
      by_cases hm : b.addr ∈ B.map Bind.addr
      · have hlt : n < B.length := by
          rw [hn']
          simpa using List.idxOf_lt_length_of_mem hm
        rw [if_neg (by omega), if_pos hm]
        refine Triple.bind (ih hx.2 hB hn) fun r => Triple.ret ?_
        rintro s ⟨h1, h2⟩
        exact ⟨h1, by rw [h2, hn']⟩
      · have he : n = B.length := by
          rw [hn', List.idxOf_eq_length hm]
          simp
        rw [if_pos he, if_neg hm]
        refine getKey_then hx.1 (step_then ?_ fun s hs hf => ⟨hs, hf⟩)
        have hv0 : v (h + B.length) = none := hn 0
        have key := local_post (S := S) (fl := fl) (v := v) (x := h + B.length)
          (ctor := do step; Core.copy S.Fa S.trk (h + B.length) x)
          (rest := do
            let ts ← save S h (B.length + 1) xs
            pure (Tok.idx n :: Tok.key b.key :: ts))
          (I := fun c => c = b)
          (Q := fun r v' => v' = v ∧
            r = .idx B.length :: .key b.key :: encode (B.map Bind.addr ++ [b.addr]) (bs.map fun b => (b.addr, b.key)))
          (E := fun v' => v' = v ∧ ∃ n, fl n = true) ?_ ?_
        · refine key.conseq (fun _ h => h) ?_ ?_
          · rintro r s ⟨v', h1, rfl, h2⟩
            exact ⟨h1, by rw [h2]; simp⟩
          · rintro s ⟨v', h1, rfl, h2⟩
            exact ⟨h1, h2⟩
        · refine step_then ?_ fun s hs hf => ⟨v, hs, rfl, hf⟩
          intro s hs
          obtain ⟨s', g1, g2⟩ := hs.copy hv0 hx.1
          rw [g1]
          exact ⟨b, rfl, g2⟩
        · rintro c rfl
          have ihh := ih (v := upd v (h + B.length) (some c)) (bs := bs) (B := B ++ [c]) (by
              rw [← hx.2]
              refine List.map_congr_left fun y hy => ?_
              have : v y ≠ none := by
                intro e
                have := hx.2 ▸ List.mem_map_of_mem (f := v) hy
                rw [e] at this
                simp at this
              rw [upd_ne]
              intro e
              exact this (e ▸ hv0)) (by
              intro i d hi
              by_cases hl : i < B.length
              · rw [upd_ne _ _ (by omega)]
                exact hB i d (by rwa [List.getElem?_append_left hl] at hi)
              · rw [List.getElem?_append_right (by omega)] at hi
                have : i = B.length := by
                  rcases Nat.lt_or_ge 0 (i - B.length) with h | h
                  · rw [List.getElem?_eq_none (by simp only [List.length_cons, List.length_nil]; omega)] at hi; cases hi
                  · omega
                subst this
                simp at hi
                rw [hi, upd_self]) (by
              intro j
              rw [upd_ne _ _ (by simp; omega), show h + (B ++ [c]).length + j = h + B.length + (1 + j) by simp; omega]
              exact hn _)
          rw [show (B ++ [c]).length = B.length + 1 by simp] at ihh
          refine Triple.bind (ihh.conseq (fun _ h => h) (fun _ _ h => h) ?_) fun r => Triple.ret ?_
          · rintro s ⟨h1, h2⟩
            exact ⟨_, h1, ⟨c, upd_self _ _ _⟩, upd_none hv0, h2⟩
          · rintro s ⟨h1, h2⟩
            exact ⟨_, h1, ⟨c, upd_self _ _ _⟩, upd_none hv0, by rw [h2, he]; simp⟩

/-! ### Loading -/

/-- The variables other than `L` are as in `w`, and those of `L` exist.  (No code of its own: used in statements and proofs.) -/
def Off (w : Store K V) (L : List Nat) (v : Store K V) : Prop :=
  (∀ y, y ∉ L → v y = w y) ∧ ∀ y ∈ L, ∃ b, v y = some b

theorem fetch_ok {h tmp n f : Nat} {b d : Bind K V} (hb : v (h + n) = some b) (ht : v tmp = none) (hf : v f = some d) :
    Triple (View S fl v) (fetch S h tmp n f) (fun _ s => View S fl (upd v f (some b)) s) (fun _ => False) := by
  have hft : f ≠ tmp := by rintro rfl; rw [ht] at hf; cases hf
  have key := local_post (S := S) (fl := fl) (v := v) (x := tmp) (ctor := Core.copy S.Fa S.trk tmp (h + n))
    (rest := Core.assign S.P S.Fa S.trk f tmp) (I := fun c => c = b) (Q := fun _ v' => v' = upd v f (some b))
    (E := fun _ => False) ?_ ?_
  · refine key.conseq (fun _ h => h) ?_ ?_
    · rintro _ s ⟨v', h1, rfl⟩
      exact h1
    · rintro s ⟨v', _, h⟩
      exact h
  · intro s hs
    obtain ⟨s', g1, g2⟩ := hs.copy ht hb
    rw [g1]
    exact ⟨b, rfl, g2⟩
  · rintro _ rfl s hs
    obtain ⟨s', g1, g2⟩ := hs.assign (x := f) (y := tmp) (d := d) (by rw [upd_ne _ _ hft]; exact hf) (upd_self _ _ _)
    rw [g1]
    refine ⟨_, g2, ⟨_, by rw [upd_ne _ _ (Ne.symm hft)]; exact upd_self _ _ _⟩, ?_⟩
    funext y
    by_cases h1 : y = tmp
    · subst h1
      rw [upd_self, upd_ne _ _ (Ne.symm hft), ht]
    · rw [upd_ne _ _ h1]
      by_cases h2 : y = f
      · subst h2
        rw [upd_self, upd_self]
      · rw [upd_ne _ _ h2, upd_ne _ _ h1, upd_ne _ _ h2]

/-- The flyweights refer to values with keys equivalent to these.  (No code of its own: used in statements and proofs.) -/
def Agree (S : Setup K V Rep F) : List (Bind K V) → List K → Prop
  | [], [] => True
  | b :: bs, k :: ks => S.keq b.key k = true ∧ Agree S bs ks
  | _, _ => False

theorem Agree.length {bs : List (Bind K V)} {ks : List K} (h : Agree S bs ks) : bs.length = ks.length := by
  induction bs generalizing ks with
  | nil => cases ks with
    | nil => rfl
    | cons _ _ => exact h.elim
  | cons b bs ih => cases ks with
    | nil => exact h.elim
    | cons k ks => simp [ih h.2]

theorem Agree.snoc {bs : List (Bind K V)} {ks : List K} {b : Bind K V} {k : K} (h : Agree S bs ks) (hk : S.keq b.key k = true) :
    Agree S (bs ++ [b]) (ks ++ [k]) := by
  induction bs generalizing ks with
  | nil => cases ks with
    | nil => exact ⟨hk, trivial⟩
    | cons _ _ => exact h.elim
  | cons b bs ih => cases ks with
    | nil => exact h.elim
    | cons k ks => exact ⟨h.1, ih h.2⟩

theorem Agree.get {bs : List (Bind K V)} {ks : List K} (h : Agree S bs ks) {n : Nat} {b : Bind K V} (hb : bs[n]? = some b) :
    ∃ k, ks[n]? = some k ∧ S.keq b.key k = true := by
  induction bs generalizing ks n with
  | nil => simp at hb
  | cons c bs ih => cases ks with
    | nil => exact h.elim
    | cons k ks =>
      cases n with
      | zero =>
        simp at hb
        exact ⟨k, rfl, hb ▸ h.1⟩
      | succ n => exact ih h.2 (by simpa using hb)

theorem decode_end {table : List K} {n c : Nat} (h : n = table.length) : decode table (c + 1) [.idx n] = none := by
  simp [decode, h]

theorem decode_idx {table : List K} {n m c : Nat} {ts : List (Tok K)} (h : n = table.length) :
    decode table (c + 1) (.idx n :: .idx m :: ts) = none := by
  simp [decode, h]

theorem decode_key {table : List K} {n c : Nat} {k : K} {ts : List (Tok K)} (h : n = table.length) :
    decode table (c + 1) (.idx n :: .key k :: ts) = (decode (table ++ [k]) c ts).map (k :: ·) := by
  simp [decode, h]

theorem load_ok {src : K → Src K V} (hsrc : ∀ k, S.sp.supports (src k) = true ∧ S.sp.key0 (src k) = k) {h tmp : Nat} (htmp : tmp < h)
    {fs : List Nat} {ts : List (Tok K)} {B : List (Bind K V)} {table : List K} (hT : Agree S B table)
    (hB : ∀ i b, B[i]? = some b → v (h + i) = some b) (hn : ∀ j, v (h + B.length + j) = none) (ht : v tmp = none)
    (hnd : fs.Nodup) (hfs : ∀ f ∈ fs, f < h ∧ ∃ d, v f = some d) :
    Triple (View S fl v) (load S src h tmp B.length fs ts)
      (fun _ s => ∃ v', View S fl v' s ∧ ∃ ks cs, decode table fs.length ts = some ks ∧ fs.map v' = cs.map some ∧ Agree S cs ks ∧
        ∀ y, y ∉ fs → v' y = v y)
      (fun s => ∃ v', View S fl v' s ∧ Off v fs v' ∧ ((∃ n, fl n = true) ∨ decode table fs.length ts = none)) := by
  induction fs generalizing v B table ts with
  | nil =>
    unfold load
    exact Triple.ret fun s hs => ⟨v, hs, [], [], rfl, rfl, trivial, fun _ _ => rfl⟩
  | cons f fs ih =>
    obtain ⟨hfh, d, hd⟩ := hfs f (by simp)
    have hfs' : ∀ g ∈ fs, g < h ∧ ∃ d, v g = some d := fun g hg => hfs g (by simp [hg])
    have hnf : f ∉ fs := (List.nodup_cons.1 hnd).1
    have hnd' : fs.Nodup := (List.nodup_cons.1 hnd).2
    have hoff : Off v (f :: fs) v := ⟨fun _ _ => rfl, fun y hy => (hfs y hy).2⟩
    have hbad : decode table (f :: fs).length ts = none → ∀ s, View S fl v s →
        ∃ v', View S fl v' s ∧ Off v (f :: fs) v' ∧ ((∃ n, fl n = true) ∨ decode table (f :: fs).length ts = none) :=
      fun e s hs => ⟨v, hs, hoff, .inr e⟩
    have hflt : ∀ s, View S fl v s → (∃ n, fl n = true) →
        ∃ v', View S fl v' s ∧ Off v (f :: fs) v' ∧ ((∃ n, fl n = true) ∨ decode table (f :: fs).length ts = none) :=
      fun s hs e => ⟨v, hs, hoff, .inl e⟩
    have hlen := hT.length
    match ts with
    | [] => exact fun s hs => hbad rfl s hs
    | .key _ :: _ => exact fun s hs => hbad rfl s hs
    | .idx n :: ts =>
      unfold load
      refine step_then ?_ hflt
      by_cases h1 : n > B.length
      · rw [if_pos h1]
        refine fun s hs => hbad ?_ s hs
        simp only [List.length_cons, decode]
        rw [List.getElem?_eq_none (by omega)]
        simp only
        rw [if_neg (by omega)]
      · rw [if_neg h1]
        by_cases h2 : n = B.length
        · rw [if_pos h2]
          have hnt : n = table.length := by omega
          match ts with
          | [] => exact fun s hs => hbad (decode_end hnt) s hs
          | .idx _ :: _ => exact fun s hs => hbad (decode_idx hnt) s hs
          | .key k :: ts =>
            have hdec := decode_key (c := fs.length) (k := k) (ts := ts) hnt
            rw [← List.length_cons (a := f)] at hdec
            simp only
            have hv0 : v (h + B.length) = none := hn 0
            have hne : ∀ g, g < h → g ≠ h + B.length := fun g hg => by omega
            have key := local_post (S := S) (fl := fl) (v := v) (x := h + B.length)
              (ctor := do
                step
                local' S tmp (Core.make S.P S.Fa S.trk tmp (src k)) (do
                  step
                  Core.copy S.Fa S.trk (h + B.length) tmp))
              (rest := do
                fetch S h tmp n f
                load S src h tmp (B.length + 1) fs ts)
              (I := fun c => S.keq c.key k = true)
              (Q := fun _ v' => ∃ ks cs, decode table (f :: fs).length (.idx n :: .key k :: ts) = some ks ∧
                (f :: fs).map v' = cs.map some ∧ Agree S cs ks ∧ ∀ y, y ∉ f :: fs → v' y = v y)
              (E := fun v' => Off v (f :: fs) v' ∧
                ((∃ n, fl n = true) ∨ decode table (f :: fs).length (.idx n :: .key k :: ts) = none)) ?_ ?_
            · exact key
            · refine step_then ?_ hflt
              have key := local_post (S := S) (fl := fl) (v := v) (x := tmp)
                (ctor := Core.make S.P S.Fa S.trk tmp (src k))
                (rest := do
                  step
                  Core.copy S.Fa S.trk (h + B.length) tmp)
                (I := fun c => S.keq c.key k = true)
                (Q := fun _ v' => ∃ c, S.keq c.key k = true ∧ v' = upd v (h + B.length) (some c))
                (E := fun v' => v' = v ∧ ∃ n, fl n = true) ?_ ?_
              · refine key.conseq (fun _ h => h) ?_ ?_
                · rintro _ s ⟨_, hv, c, hc, rfl⟩
                  exact ⟨c, hc, hv⟩
                · rintro s ⟨_, hv, rfl, hf⟩
                  exact hflt s hv hf
              · intro s hs
                have := hs.make ht (hsrc k).1
                cases hm : Core.make S.P S.Fa S.trk tmp (src k) s with
                | ok a s' =>
                  rw [hm] at this
                  obtain ⟨b, g1, g2⟩ := this
                  exact ⟨b, by rwa [(hsrc k).2] at g2, g1⟩
                | exc s' =>
                  rw [hm] at this
                  exact ⟨v, this.1, rfl, this.2⟩
                | ub =>
                  rw [hm] at this
                  exact this
              · intro c hc
                refine step_then ?_ fun s hs hf => ⟨_, hs, ⟨c, upd_self _ _ _⟩, upd_none ht, hf⟩
                intro s hs
                obtain ⟨s', g1, g2⟩ := hs.copy (x := h + B.length) (y := tmp) (b := c)
                  (by rw [upd_ne _ _ (Ne.symm (hne tmp htmp))]; exact hv0) (upd_self _ _ _)
                rw [g1]
                refine ⟨_, g2, ⟨c, by rw [upd_ne _ _ (hne tmp htmp)]; exact upd_self _ _ _⟩, c, hc, ?_⟩
                funext y
                by_cases hy : y = tmp
                · subst hy
                  rw [upd_self, upd_ne _ _ (hne _ htmp), ht]
                · rw [upd_ne _ _ hy]
                  by_cases hy2 : y = h + B.length
                  · rw [hy2, upd_self, upd_self]
                  · rw [upd_ne _ _ hy2, upd_ne _ _ hy2, upd_ne _ _ hy]
            · intro c hc
              have hgoals : ∀ v', (∀ y, y ∉ fs → v' y = upd (upd v (h + B.length) (some c)) f (some c) y) →
                  v' (h + B.length) = some c ∧ v' f = some c ∧ ∀ y, y ∉ f :: fs → upd v' (h + B.length) none y = v y := by
                intro v' hv'
                have hnb : h + B.length ∉ fs := fun hm => absurd rfl (hne _ (hfs' _ hm).1)
                refine ⟨?_, ?_, fun y hy => ?_⟩
                · rw [hv' _ hnb, upd_ne _ _ (Ne.symm (hne f hfh)), upd_self]
                · rw [hv' _ hnf, upd_self]
                · simp only [List.mem_cons, not_or] at hy
                  by_cases hyb : y = h + B.length
                  · rw [hyb, upd_self, hv0]
                  · rw [upd_ne _ _ hyb, hv' _ hy.2, upd_ne _ _ hy.1, upd_ne _ _ hyb]
              have hf1 := fetch_ok (S := S) (fl := fl) (v := upd v (h + B.length) (some c)) (h := h) (tmp := tmp) (n := n) (f := f)
                (b := c) (d := d) (by rw [h2, upd_self]) (by rw [upd_ne _ _ (hne _ htmp)]; exact ht)
                (by rw [upd_ne _ _ (hne _ hfh)]; exact hd)
              refine Triple.bind (hf1.conseq (fun _ h => h) (fun _ _ h => h) (fun _ h => h.elim)) fun _ => ?_
              have ihh := ih (v := upd (upd v (h + B.length) (some c)) f (some c)) (ts := ts) (B := B ++ [c]) (table := table ++ [k])
                (hT.snoc hc) (by
                  intro i e hi
                  rw [upd_ne _ _ (by omega)]
                  by_cases hl : i < B.length
                  · rw [upd_ne _ _ (by omega)]
                    exact hB i e (by rwa [List.getElem?_append_left hl] at hi)
                  · rw [List.getElem?_append_right (by omega)] at hi
                    have : i = B.length := by
                      rcases Nat.lt_or_ge 0 (i - B.length) with h | h
                      · rw [List.getElem?_eq_none (by simp only [List.length_cons, List.length_nil]; omega)] at hi; cases hi
                      · omega
                    subst this
                    simp at hi
                    rw [hi, upd_self]) (by
                  intro j
                  simp only [List.length_append, List.length_cons, List.length_nil]
                  rw [upd_ne _ _ (by omega), upd_ne _ _ (by omega), show h + (B.length + (0 + 1)) + j = h + B.length + (1 + j) by omega]
                  exact hn _) (by
                  rw [upd_ne _ _ (by rintro rfl; rw [ht] at hd; cases hd), upd_ne _ _ (hne _ htmp)]
                  exact ht) hnd' (by
                  intro g hg
                  obtain ⟨g1, e, he⟩ := hfs' g hg
                  refine ⟨g1, e, ?_⟩
                  rw [upd_ne _ _ (by rintro rfl; exact hnf hg), upd_ne _ _ (hne _ g1)]
                  exact he)
              rw [show (B ++ [c]).length = B.length + 1 by simp] at ihh
              refine ihh.conseq (fun _ h => h) ?_ ?_
              · rintro _ s ⟨v', g1, ks, cs, g2, g3, g4, g5⟩
                obtain ⟨e1, e2, e3⟩ := hgoals v' g5
                refine ⟨v', g1, ⟨c, e1⟩, k :: ks, c :: cs, by rw [hdec, g2]; rfl, ?_, ⟨hc, g4⟩, e3⟩
                simp only [List.map_cons, ← g3]
                rw [upd_ne _ _ (hne _ hfh), e2]
                congr 1
                exact List.map_congr_left fun y hy => upd_ne _ _ (hne _ (hfs' y hy).1)
              · rintro s ⟨v', g1, ⟨g2, g3⟩, g4⟩
                obtain ⟨e1, e2, e3⟩ := hgoals v' g2
                refine ⟨v', g1, ⟨c, e1⟩, ⟨e3, ?_⟩, g4.imp id fun e => by rw [hdec, e]; rfl⟩
                intro y hy
                rw [upd_ne _ _ (hne _ (hfs y hy).1)]
                rcases List.mem_cons.1 hy with rfl | hy
                · exact ⟨c, e2⟩
                · exact g3 y hy
        · rw [if_neg h2]
          have hlt : n < B.length := by omega
          obtain ⟨k, hk1, hk2⟩ := hT.get (List.getElem?_eq_getElem hlt)
          have hdec : decode table (f :: fs).length (.idx n :: ts) = (decode table fs.length ts).map (k :: ·) := by
            simp only [List.length_cons, decode, hk1]
          have hf1 := fetch_ok (S := S) (fl := fl) (v := v) (h := h) (tmp := tmp) (n := n) (f := f)
            (hB n _ (List.getElem?_eq_getElem hlt)) ht hd
          refine Triple.bind (hf1.conseq (fun _ h => h) (fun _ _ h => h) (fun _ h => h.elim)) fun _ => ?_
          have ihh := ih (v := upd v f (some B[n])) (ts := ts) hT (by
              intro i e hi
              rw [upd_ne _ _ (by omega)]
              exact hB i e hi) (by
              intro j
              rw [upd_ne _ _ (by omega)]
              exact hn j) (by
              rw [upd_ne _ _ (by rintro rfl; rw [ht] at hd; cases hd)]
              exact ht) hnd' (by
              intro g hg
              obtain ⟨g1, e, he⟩ := hfs' g hg
              exact ⟨g1, e, by rw [upd_ne _ _ (by rintro rfl; exact hnf hg)]; exact he⟩)
          refine ihh.conseq (fun _ h => h) ?_ ?_
          · rintro _ s ⟨v', g1, ks, cs, g2, g3, g4, g5⟩
            refine ⟨v', g1, k :: ks, B[n] :: cs, by rw [hdec, g2]; rfl, ?_, ⟨hk2, g4⟩, fun y hy => ?_⟩
            · simp only [List.map_cons, g3]
              rw [g5 f hnf, upd_self]
            · simp only [List.mem_cons, not_or] at hy
              rw [g5 y hy.2, upd_ne _ _ hy.1]
          · rintro s ⟨v', g1, ⟨g2, g3⟩, g4⟩
            refine ⟨v', g1, ⟨fun y hy => ?_, fun y hy => ?_⟩, g4.imp id fun e => by rw [hdec, e]; rfl⟩
            · simp only [List.mem_cons, not_or] at hy
              rw [g2 y hy.2, upd_ne _ _ hy.1]
            · rcases List.mem_cons.1 hy with rfl | hy
              · exact ⟨_, by rw [g2 _ hnf, upd_self]⟩
              · exact g3 y hy

/-! ### The programs -/

theorem withVector_ok {dflt : K} (hd : S.sp.supports (.key dflt) = true) {rest : M (St Rep F) α} {Q : α → Prop} {C : Prop}
    (hC : (∃ n, fl n = true) → C) {c v0 : Nat} {L : List Nat} (hv : Off w L v) (h0 : ∀ y ∈ List.range' v0 c, y ∉ L ∧ w y = none)
    (hr : ∀ v', Off w (L ++ List.range' v0 c) v' → Triple (View S fl v') rest
      (fun r s => ∃ v', View S fl v' s ∧ Off w (L ++ List.range' v0 c) v' ∧ Q r)
      (fun s => ∃ v', View S fl v' s ∧ Off w (L ++ List.range' v0 c) v' ∧ C)) :
    Triple (View S fl v) (withVector S dflt v0 c rest) (fun r s => ∃ v', View S fl v' s ∧ Off w L v' ∧ Q r)
      (fun s => ∃ v', View S fl v' s ∧ Off w L v' ∧ C) := by
  induction c generalizing v0 v L with
  | zero =>
    simp only [List.range'_zero, List.append_nil] at hr
    exact hr v hv
  | succ c ih =>
    have hmem : v0 ∈ List.range' v0 (c + 1) := by simp
    have hvn : v v0 = none := (hv.1 v0 (h0 v0 hmem).1).trans (h0 v0 hmem).2
    have hback : ∀ v', Off w (L ++ [v0]) v' → (∃ c, v' v0 = some c) ∧ Off w L (upd v' v0 none) := by
      intro v' h'
      refine ⟨h'.2 v0 (by simp), fun y hy => ?_, fun y hy => ?_⟩
      · by_cases e : y = v0
        · rw [e, upd_self, (h0 v0 hmem).2]
        · rw [upd_ne _ _ e]
          exact h'.1 y (by simp [hy, e])
      · rw [upd_ne _ _ (by rintro rfl; exact (h0 _ hmem).1 hy)]
        exact h'.2 y (by simp [hy])
    unfold withVector
    refine local_post (I := fun _ => True) (Q := fun r v' => Off w L v' ∧ Q r) (E := fun v' => Off w L v' ∧ C) ?_ ?_
    · intro s hs
      have := hs.make hvn hd
      cases hm : Core.make S.P S.Fa S.trk v0 (.key dflt) s with
      | ok a s' =>
        rw [hm] at this
        obtain ⟨b, g1, _⟩ := this
        exact ⟨b, trivial, g1⟩
      | exc s' =>
        rw [hm] at this
        exact ⟨v, this.1, hv, hC this.2⟩
      | ub =>
        rw [hm] at this
        exact this
    · intro b _
      have he : L ++ [v0] ++ List.range' (v0 + 1) c = L ++ List.range' v0 (c + 1) := by simp [List.range'_succ]
      refine (ih (v0 := v0 + 1) (L := L ++ [v0]) (v := upd v v0 (some b)) ⟨fun y hy => ?_, fun y hy => ?_⟩ ?_ ?_).conseq
        (fun _ h => h) ?_ ?_
      · simp only [List.mem_append, List.mem_singleton, not_or] at hy
        rw [upd_ne _ _ hy.2]
        exact hv.1 y hy.1
      · rcases List.mem_append.1 hy with g | g
        · rw [upd_ne _ _ (by rintro rfl; exact (h0 _ hmem).1 g)]
          exact hv.2 y g
        · rw [List.mem_singleton.1 g, upd_self]
          exact ⟨b, rfl⟩
      · intro y hy
        obtain ⟨g1, g2⟩ := h0 y (by simp only [List.mem_range'_1] at hy ⊢; omega)
        simp only [List.mem_range'_1] at hy
        exact ⟨by simp only [List.mem_append, List.mem_singleton, not_or]; exact ⟨g1, by omega⟩, g2⟩
      · rw [he]
        exact hr
      · rintro r s ⟨v', g1, g2, g3⟩
        obtain ⟨e1, e2⟩ := hback v' g2
        exact ⟨v', g1, e1, e2, g3⟩
      · rintro s ⟨v', g1, g2, g3⟩
        obtain ⟨e1, e2⟩ := hback v' g2
        exact ⟨v', g1, e1, e2, g3⟩

theorem observe_ok {xs : List Nat} {bs : List (Bind K V)} (hx : xs.map v = bs.map some) {s : St Rep F} (hs : View S fl v s) :
    observe S xs s = .ok (bs.map fun b => (b.addr, b.key)) s := by
  induction xs generalizing bs with
  | nil => cases bs with
    | nil => rfl
    | cons _ _ => cases hx
  | cons x xs ih => cases bs with
    | nil => cases hx
    | cons b bs =>
      simp only [List.map_cons, List.cons.injEq] at hx
      unfold observe
      simp only [bind, M.bind, hs.get hx.1, hs.getKey hx.1, ih hx.2]
      rfl

theorem same_ok {xs ys : List Nat} {bs cs : List (Bind K V)} (hx : xs.map v = bs.map some) (hy : ys.map v = cs.map some)
    {s : St Rep F} (hs : View S fl v s) : same S xs ys s = .ok (List.zipWith (fun b c => b.addr == c.addr) bs cs) s := by
  induction xs generalizing ys bs cs with
  | nil => cases bs with
    | nil =>
      unfold same
      rfl
    | cons _ _ => cases hx
  | cons x xs ih => cases bs with
    | nil => cases hx
    | cons b bs => cases ys with
      | nil => cases cs with
        | nil => rfl
        | cons _ _ => cases hy
      | cons y ys => cases cs with
        | nil => cases hy
        | cons c cs =>
          simp only [List.map_cons, List.cons.injEq] at hx hy
          unfold same
          simp only [Core.eq, bind, M.bind, hs.get hx.1, hs.get hy.1, pure, M.ret, ih hx.2 hy.2]
          rfl

/-- What has been saved is loaded. -/
theorem decode_encode {ps : List (Nat × K)} (hc : ∀ p ∈ ps, ∀ q ∈ ps, p.1 = q.1 → p.2 = q.2) {seen : List Nat} {table : List K}
    (hl : seen.length = table.length) (ht : ∀ p ∈ ps, ∀ i : Nat, seen[i]? = some p.1 → table[i]? = some p.2) :
    decode table ps.length (encode seen ps) = some (ps.map Prod.snd) := by
  induction ps generalizing seen table with
  | nil => rfl
  | cons p ps ih =>
    obtain ⟨a, k⟩ := p
    have hc' : ∀ p ∈ ps, ∀ q ∈ ps, p.1 = q.1 → p.2 = q.2 := fun p hp q hq => hc p (by simp [hp]) q (by simp [hq])
    simp only [encode, List.length_cons]
    by_cases ha : a ∈ seen
    · rw [if_pos ha]
      have hi : seen[seen.idxOf a]? = some a := by
        rw [List.getElem?_eq_getElem (List.idxOf_lt_length_of_mem ha), List.getElem_idxOf]
      have hk := ht (a, k) (by simp) _ hi
      simp only [decode, hk]
      rw [ih hc' hl fun p hp i h => ht p (by simp [hp]) i h]
      rfl
    · rw [if_neg ha, decode_key hl]
      rw [ih hc' (by simp [hl]) ?_]
      · rfl
      · intro q hq i hi
        by_cases hlt : i < seen.length
        · rw [List.getElem?_append_left hlt] at hi
          rw [List.getElem?_append_left (by omega)]
          exact ht q (by simp [hq]) i hi
        · rw [List.getElem?_append_right (by omega)] at hi
          have : i = seen.length := by
            rcases Nat.lt_or_ge 0 (i - seen.length) with h | h
            · rw [List.getElem?_eq_none (by simp only [List.length_cons, List.length_nil]; omega)] at hi; cases hi
            · omega
          subst this
          simp at hi
          rw [hl]
          simpa using (hc (a, k) (by simp) q (by simp [hq]) hi)

/-- The keys in an archive.  (No code of its own: used in statements and proofs.) -/
def keysIn (ts : List (Tok K)) : List K := ts.filterMap fun
  | .key k => some k
  | .idx _ => none

/-- The keys that are written are those of the flyweights not written before, one for each address. -/
theorem keys_encode {ps : List (Nat × K)} (seen : List Nat) : ∃ qs : List (Nat × K), keysIn (encode seen ps) = qs.map Prod.snd ∧
    (∀ q ∈ qs, q ∈ ps ∧ q.1 ∉ seen) ∧ (qs.map Prod.fst).Nodup ∧ ∀ p ∈ ps, p.1 ∈ seen ∨ ∃ q ∈ qs, q.1 = p.1 := by
  induction ps generalizing seen with
  | nil => exact ⟨[], rfl, by simp, by simp, by simp⟩
  | cons p ps ih =>
    obtain ⟨a, k⟩ := p
    simp only [encode]
    by_cases ha : a ∈ seen
    · obtain ⟨qs, h1, h2, h3, h4⟩ := ih seen
      rw [if_pos ha]
      refine ⟨qs, ?_, fun q hq => ⟨by simp [(h2 q hq).1], (h2 q hq).2⟩, h3, fun p hp => ?_⟩
      · rw [← h1]
        simp [keysIn]
      · rcases List.mem_cons.1 hp with rfl | hp
        · exact .inl ha
        · exact h4 p hp
    · obtain ⟨qs, h1, h2, h3, h4⟩ := ih (seen ++ [a])
      rw [if_neg ha]
      refine ⟨(a, k) :: qs, ?_, fun q hq => ?_, ?_, fun p hp => ?_⟩
      · rw [List.map_cons, ← h1]
        simp [keysIn]
      · rcases List.mem_cons.1 hq with rfl | hq
        · exact ⟨by simp, ha⟩
        · obtain ⟨g1, g2⟩ := h2 q hq
          simp only [List.mem_append, not_or] at g2
          exact ⟨by simp [g1], g2.1⟩
      · rw [List.map_cons, List.nodup_cons]
        refine ⟨fun hm => ?_, h3⟩
        obtain ⟨q, hq, e⟩ := List.mem_map.1 hm
        exact (h2 q hq).2 (by simp [e])
      · rcases List.mem_cons.1 hp with rfl | hp
        · exact .inr ⟨(a, k), by simp, rfl⟩
        · rcases h4 p hp with g | ⟨q, hq, e⟩
          · rcases List.mem_append.1 g with g | g
            · exact .inl g
            · exact .inr ⟨(a, k), by simp, (List.mem_singleton.1 g).symm⟩
          · exact .inr ⟨q, by simp [hq], e⟩

theorem bound_list {xs : List Nat} (hx : ∀ x ∈ xs, ∃ b, v x = some b) : ∃ bs : List (Bind K V), xs.map v = bs.map some := by
  induction xs with
  | nil => exact ⟨[], rfl⟩
  | cons x xs ih =>
    obtain ⟨b, hb⟩ := hx x (by simp)
    obtain ⟨bs, hbs⟩ := ih fun y hy => hx y (by simp [hy])
    exact ⟨b :: bs, by simp [hb, hbs]⟩

theorem bound_mem {xs : List Nat} {bs : List (Bind K V)} (hx : xs.map v = bs.map some) {b : Bind K V} (hb : b ∈ bs) :
    ∃ x ∈ xs, v x = some b := by
  have : some b ∈ xs.map v := hx ▸ List.mem_map_of_mem hb
  exact List.mem_map.1 this

/-- Loading into the elements of a vector, and then `check`. -/
theorem loaded_ok {src : K → Src K V} (hsrc : ∀ k, S.sp.supports (src k) = true ∧ S.sp.key0 (src k) = k) {dflt : K}
    (hd : S.sp.supports (.key dflt) = true) {n c : Nat} (hw : ∀ y, n ≤ y → w y = none) {ts : List (Tok K)}
    {check : M (St Rep F) α} {Q : α → Prop}
    (hq : ∀ v cs ks s, View S fl v s → (∀ y, y ∉ List.range' (n + 1) c → v y = w y) →
      (List.range' (n + 1) c).map v = cs.map some → decode [] c ts = some ks → Agree S cs ks →
      ∃ r, check s = .ok r s ∧ Q r) :
    Triple (View S fl w) (withVector S dflt (n + 1) c (do
        load S src (n + 1 + c) n 0 (List.range' (n + 1) c) ts
        check))
      (fun r s => View S fl w s ∧ Q r)
      (fun s => View S fl w s ∧ ((∃ n, fl n = true) ∨ decode [] c ts = none)) := by
  have key := withVector_ok (S := S) (fl := fl) (v := w) (w := w) (dflt := dflt) hd (Q := Q) (c := c) (v0 := n + 1) (L := [])
    (C := (∃ n, fl n = true) ∨ decode [] c ts = none) .inl ⟨fun _ _ => rfl, by simp⟩ (rest := do
        load S src (n + 1 + c) n 0 (List.range' (n + 1) c) ts
        check) (by
      intro y hy
      simp only [List.mem_range'_1] at hy
      exact ⟨by simp, hw y (by omega)⟩) ?_
  · refine key.conseq (fun _ h => h) ?_ ?_
    · rintro r s ⟨v', h1, h2, h3⟩
      have : v' = w := funext fun y => h2.1 y (by simp)
      exact ⟨this ▸ h1, h3⟩
    · rintro s ⟨v', h1, h2, h3⟩
      have : v' = w := funext fun y => h2.1 y (by simp)
      exact ⟨this ▸ h1, h3⟩
  · intro v hv
    rw [List.nil_append] at hv ⊢
    have hl := load_ok (S := S) (fl := fl) (v := v) hsrc (h := n + 1 + c) (tmp := n) (by omega) (fs := List.range' (n + 1) c)
      (ts := ts) (B := []) (table := []) trivial (by simp) (by
        intro j
        simp only [List.length_nil]
        rw [hv.1 _ (by simp only [List.mem_range'_1]; omega)]
        exact hw _ (by omega)) (by
        rw [hv.1 _ (by simp only [List.mem_range'_1]; omega)]
        exact hw _ (by omega)) List.nodup_range' (by
        intro f hf
        refine ⟨?_, hv.2 f hf⟩
        simp only [List.mem_range'_1] at hf
        omega)
    simp only [List.length_nil, List.length_range'] at hl
    refine Triple.bind (hl.conseq (fun _ h => h) (fun _ _ h => h) ?_) fun _ => ?_
    · rintro s ⟨v', h1, h2, h3⟩
      exact ⟨v', h1, ⟨fun y hy => (h2.1 y hy).trans (hv.1 y hy), h2.2⟩, h3⟩
    · rintro s ⟨v', h1, ks, cs, h2, h3, h4, h5⟩
      obtain ⟨r, e1, e2⟩ := hq v' cs ks s h1 (fun y hy => (h5 y hy).trans (hv.1 y hy)) h3 h2 h4
      rw [e1]
      refine ⟨v', h1, ⟨fun y hy => (h5 y hy).trans (hv.1 y hy), fun y hy => ?_⟩, e2⟩
      have : v' y ∈ cs.map some := h3 ▸ List.mem_map_of_mem hy
      obtain ⟨b, _, e⟩ := List.mem_map.1 this
      exact ⟨b, e.symm⟩

end
end Verif.SerialCore

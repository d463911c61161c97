import Verif.CoreMoves

/-!
# How often the core constructs, copies and moves objects of the user

Counting of one kind of `Act` across the operations of the core.
-/

set_option autoImplicit false

namespace Verif

/-- Number of times that `a` has happened.  (No code of its own: used in statements and proofs.) -/
def Env.tally (e : Env) (a : Act) : Nat := e.acts.count a

namespace Count
variable {K V Rep F : Type}

/-- `a` happens no more often.  (No code of its own: used in statements and proofs.) -/
def Still (a : Act) (e e' : Env) : Prop := e'.tally a = e.tally a

theorem good_still (a : Act) : Moves.Good (Still a) where
  refl _ := rfl
  trans _ _ _ h h' := h'.trans h
  tick e := by
    unfold mayThrow
    split <;> (rename_i h; split at h <;> cases h <;> rfl)

/-- If `m` returns, `a` has happened `c` more times and `Q` holds of the result; if it throws, `a`
has happened at most `c` more times.  (No code of its own: used in statements and proofs.) -/
def Adds (a : Act) (c : Nat) {α : Type} (m : M Env α) (Q : α → Prop) : Prop :=
  ∀ n, Weak (fun e => e.tally a = n) m (fun r e => e.tally a = n + c ∧ Q r) (fun e => e.tally a ≤ n + c)

/-- How often `a` happens when a flyweight is created from `src`: `c0` times to make the
representation, `c1` times to move it, `cn` times to make a node from it and `cv` times to make the
value of an entry that is `bare`.  (No code of its own: used in statements and proofs.) -/
structure Toll {P : Policy K V Rep} {sp : SrcSpec K V} (L : P.Lawful sp) (take : Take) (src : Src K V) (a : Act) where
  bare : Rep → Bool
  c0 : Nat
  c1 : Nat
  cn : Nat
  cv : Nat
  idle : ∀ {r k v}, L.Full r k v → (if bare r then cv else 0) = 0
  ofSrc : Adds a c0 (P.ofSrc src) fun r => bare r = true
  move : ∀ r, bare r = true → Adds a c1 (P.move r) fun p => bare p.1 = true ∧ bare p.2 = true
  node : ∀ r, bare r = true → Adds a cn (Core.makeNode P take r) fun p => bare p.1 = true ∧ bare p.2 = true
  destroy : ∀ r, Moves.ThruE (Still a) (P.destroy r)
  visit : ∀ r, Adds a (if bare r then cv else 0) (P.visit src r) fun _ => True

/-- Whether a representation made from `src` is moved into the entry, or the entry made directly from `src`.  (No code of
its own: used in statements and proofs; cf. `Core.insert`, `Core.entryOf`.) -/
def moved (trk : Tracking) : Src K V → Bool
  | .key _ => true
  | _ => trk == .refcounted

/-- How often `a` happens when the representation is moved into the entry, if it is.  (No code of its own: used in
statements and proofs.) -/
def Toll.ce {P : Policy K V Rep} {sp : SrcSpec K V} {L : P.Lawful sp} {take : Take} {src : Src K V} {a : Act}
    (T : Toll L take src a) (trk : Tracking) : Nat := if moved trk src then T.c1 else 0

theorem thru_weak {a : Act} {α : Type} {m : M (St Rep F) α} (h : Moves.Thru (Still a) m) {n B : Nat} (hB : n ≤ B) :
    Weak (fun s => s.env.tally a = n) m (fun _ s => s.env.tally a = n) (fun s => s.env.tally a ≤ B) := by
  intro s hs
  have := h s
  cases hm : m s <;> rw [hm] at this
  · exact this.trans hs
  · exact Nat.le_trans (Nat.le_of_eq (this.trans hs)) hB
  · trivial

theorem thru_le {a : Act} {α : Type} {m : M (St Rep F) α} (h : Moves.Thru (Still a) m) {B : Nat} :
    Weak (fun s => s.env.tally a ≤ B) m (fun _ s => s.env.tally a ≤ B) (fun s => s.env.tally a ≤ B) := by
  intro s hs
  have := h s
  cases hm : m s <;> rw [hm] at this
  · exact Nat.le_trans (Nat.le_of_eq this) hs
  · exact Nat.le_trans (Nat.le_of_eq this) hs
  · trivial

end Count

namespace Setup
variable {K V Rep F : Type} {S : Setup K V Rep F} {src : Src K V} {a : Act} (T : Count.Toll S.L S.Fa.take src a)
include T

/-- Cost of an insertion that returns `h`, after the representation has been made and moved, from the contents `f`
before the insertion.  (No code of its own: used in statements and proofs.) -/
def toll (f : F) (h : Nat) : Nat :=
  match S.Fa.entry f h with
  | none => T.cn + T.cv
  | some e => if T.bare e.rep then T.cv else 0

/-- What an insertion relies on.  (No code of its own: used in statements and proofs.) -/
structure Stocked (f : F) (N n : Nat) (s : St Rep F) : Prop where
  fac : s.fac = f
  next : s.nextId = N
  tally : s.env.tally a = n
  bare : ∀ r ∈ s.locals, T.bare r = true

theorem stocked_env {α : Type} {m : M Env α} {f : F} {N n c B : Nat} {Q : α → Prop} (h : Count.Adds a c m Q)
    (hB : n + c ≤ B) :
    Weak (Stocked T f N n) (Core.env m : M (St Rep F) α) (fun r s => Stocked T f N (n + c) s ∧ Q r) (fun s => s.env.tally a ≤ B) :=
  Weak.env (h n) (fun _ h => h.tally) (fun _ h _ _ h' => ⟨⟨h.fac, h.next, h'.1, h.bare⟩, h'.2⟩) (fun _ _ _ h => Nat.le_trans h hB)

theorem stocked_deref {f : F} {N n B : Nat} : Weak (Stocked T f N n) (Core.deref : M (St Rep F) Unit)
    (fun _ => Stocked T f N n) (fun s => s.env.tally a ≤ B) := by
  refine Weak.bind (R := fun a s => Stocked T f N n s) (.read fun _ h => h) fun a => ?_
  split
  · exact .ret fun _ h => h
  · exact .undef

theorem stocked_setTop {f : F} {N n B : Nat} {r : Rep} (hr : T.bare r = true) :
    Weak (Stocked T f N n) (Core.setTop r : M (St Rep F) Unit) (fun _ => Stocked T f N n) (fun s => s.env.tally a ≤ B) :=
  .update fun s h => ⟨h.fac, h.next, h.tally, fun q hq => by
    rcases List.mem_cons.1 hq with rfl | hq
    · exact hr
    · exact h.bare q (List.mem_of_mem_tail hq)⟩

theorem toll_le (f : F) (h : Nat) : toll T f h ≤ T.cn + T.cv := by
  unfold toll
  split
  · exact Nat.le_refl _
  · split <;> omega

theorem still_pop : Moves.Thru (Count.Still a) (do
    let s ← (M.read : M (St Rep F) (St Rep F))
    match s.locals with
    | [] => M.undef
    | r :: rest => do
      M.update fun s => { s with locals := rest }
      Core.env (S.P.destroy r)) := by
  have G := Count.good_still a
  refine Moves.bind G (Moves.read_ G) fun s => ?_
  split
  · exact Moves.undef_
  · exact Moves.bind G (Moves.update G fun _ => rfl) fun _ => Moves.env (T.destroy _)

theorem stocked_pop {f : F} {N n B : Nat} (hB : n ≤ B) : Weak (Stocked T f N n) (do
    let s ← (M.read : M (St Rep F) (St Rep F))
    match s.locals with
    | [] => M.undef
    | r :: rest => do
      M.update fun s => { s with locals := rest }
      Core.env (S.P.destroy r)) (fun _ => Stocked T f N n) (fun s => s.env.tally a ≤ B) := by
  refine Weak.bind (R := fun a s => (∀ r ∈ a.locals, T.bare r = true) ∧ Stocked T f N n s) (.read fun _ h => ⟨h.bare, h⟩) fun a => ?_
  cases hl : a.locals with
  | nil => exact .undef
  | cons r l =>
    refine Weak.bind (R := fun _ => Stocked T f N n)
      (.update fun s h => ⟨h.2.fac, h.2.next, h.2.tally, fun q hq => h.1 q (List.mem_cons_of_mem _ hq)⟩) fun _ => ?_
    intro s hs
    have := T.destroy r s.env
    unfold Core.env
    cases hm : S.P.destroy r s.env <;> rw [hm] at this
    · exact ⟨hs.fac, hs.next, this.trans hs.tally, hs.bare⟩
    · exact Nat.le_trans (Nat.le_of_eq (this.trans hs.tally)) hB
    · trivial

theorem tally_withLocal {α : Type} {r : Rep} {m : M (St Rep F) α} {f : F} {N n B : Nat} {c : α → Nat} (hr : T.bare r = true)
    (hB : ∀ h, c h ≤ B)
    (hm : Weak (Stocked T f N n) m (fun h s => s.env.tally a = c h) (fun s => s.env.tally a ≤ B)) :
    Weak (Stocked T f N n) (Core.withLocal S.P r m) (fun h s => s.env.tally a = c h) (fun s => s.env.tally a ≤ B) := by
  unfold Core.withLocal
  refine Weak.bind (R := fun _ => Stocked T f N n) (.update fun s h => ⟨h.fac, h.next, h.tally, fun q hq => ?_⟩) fun _ => ?_
  · rcases List.mem_cons.1 hq with rfl | hq
    · exact hr
    · exact h.bare q hq
  exact Weak.scope (R := fun h s => s.env.tally a = c h) (RE := fun s => s.env.tally a ≤ B) hm
    (fun h => Count.thru_weak (still_pop T) (hB h)) (Count.thru_le (still_pop T))

theorem tally_facInsert {f : F} {N n B : Nat} (hB : n + T.cn + T.cv ≤ B) (hf : S.LF.Inv f)
    (hN : ∀ i, (S.Fa.entry f i).isSome → i < N) :
    Weak (Stocked T f N n) (Core.facInsert S.P S.Fa)
      (fun h s => ∀ e, S.Fa.entry s.fac h = some e →
        s.env.tally a + (if T.bare e.rep then T.cv else 0) = n + toll T f h)
      (fun s => s.env.tally a ≤ B) := by
  unfold Core.facInsert
  refine Weak.bind (stocked_deref T) fun _ => ?_
  have ht : Weak (Stocked T f N n) (Core.topLocal : M (St Rep F) Rep) (fun r s => T.bare r = true ∧ Stocked T f N n s)
      (fun s => s.env.tally a ≤ B) := by
    refine Weak.bind (R := fun a s => (∀ r ∈ a.locals, T.bare r = true) ∧ Stocked T f N n s) (.read fun _ h => ⟨h.bare, h⟩) fun a => ?_
    cases a.locals with
    | nil => exact .undef
    | cons r l => exact .ret fun _ h => ⟨h.1 r List.mem_cons_self, h.2⟩
  refine Weak.bind ht fun e => Weak.pre fun he => ?_
  have hk : Weak (Stocked T f N n) (Core.keysReadable S.P S.Fa e : M (St Rep F) Unit) (fun _ => Stocked T f N n)
      (fun s => s.env.tally a ≤ B) := by
    refine Weak.bind (R := fun a s => Stocked T f N n s) (.read fun _ h => h) fun a => ?_
    split
    · exact .ret fun _ h => h
    · exact .undef
  refine Weak.bind hk fun _ => ?_
  have hm : Weak (Stocked T f N n) (Core.env mayThrow : M (St Rep F) Unit) (fun _ => Stocked T f N n) (fun s => s.env.tally a ≤ B) := by
    refine Weak.conseq (stocked_env T (c := 0) (Q := fun _ => True) (fun n e he => ?_) (by omega)) (fun _ h => h) (fun _ _ h => h.1)
      (fun _ h => h)
    have := (Count.good_still a).tick e
    cases hm : mayThrow e <;> rw [hm] at this
    · exact ⟨this.trans he, trivial⟩
    · exact Nat.le_of_eq (this.trans he)
    · trivial
  refine Weak.bind hm fun _ => ?_
  refine Weak.bind (R := fun b s => (b.fac = f ∧ b.nextId = N) ∧ Stocked T f N n s)
    (.read fun s h => ⟨⟨h.fac, h.next⟩, h⟩) fun b => Weak.pre fun hn => ?_
  obtain ⟨ha, haN⟩ := hn
  rw [ha]
  have hle := fun i => S.LF.lookup_entry (f := f) ⟨e, 0, 0⟩ i hf
  have hli := S.LF.lookup_inv (f := f) ⟨e, 0, 0⟩ hf
  generalize S.Fa.lookup f ⟨e, 0, 0⟩ = p at hle hli
  obtain ⟨f', o⟩ := p
  cases o with
  | some i =>
    simp only
    refine Weak.bind (P := Stocked T f N n) (R := fun _ s => s.fac = f' ∧ s.env.tally a = n)
      (.update fun s h => ⟨rfl, h.tally⟩) fun _ => .ret fun s h e' he => ?_
    rw [h.1, hle i] at he
    unfold toll
    rw [he, h.2]
  | none =>
    simp only
    refine Weak.bind (P := Stocked T f N n) (R := fun _ s => Stocked T f' N n s)
      (.update fun s h => ⟨rfl, h.next, h.tally, h.bare⟩) fun _ => ?_
    refine Weak.bind (stocked_env T (T.node e he) (by omega)) fun p => Weak.at fun s hs => ?_
    obtain ⟨hs, hp⟩ := hs
    refine Weak.bind (R := fun _ s => Stocked T f' N (n + T.cn) s)
      ((stocked_setTop T hp.2).conseq (fun _ h => by rw [h]; exact hs) (fun _ _ h => h) fun _ h => h) fun _ => ?_
    refine Weak.bind (R := fun _ s => s.fac = S.Fa.link f' N ⟨p.1, 0, 0⟩ ∧ s.env.tally a = n + T.cn)
      (.update fun s h => ⟨by show S.Fa.link s.fac s.nextId _ = _; rw [h.fac, h.next], h.tally⟩)
      fun _ => .ret fun s h e' he => ?_
    have hno : S.Fa.entry f' N = none := by
      rw [hle N]
      cases h' : S.Fa.entry f N with
      | none => rfl
      | some x => exact absurd (hN N (by rw [h']; rfl)) (Nat.lt_irrefl _)
    rw [haN, h.1, S.LF.link_entry _ _ _ hli hno, if_pos rfl] at he
    cases he
    unfold toll
    rw [haN, ← hle N, hno, h.2]
    simp [hp.1]
    omega

theorem tally_insertLocked {f : F} {N n B : Nat} (hB : n + T.cn + T.cv ≤ B) (hf : S.LF.Inv f)
    (hN : ∀ i, (S.Fa.entry f i).isSome → i < N) :
    Weak (Stocked T f N n) (Core.insertLocked S.P S.Fa S.trk src)
      (fun h s => s.env.tally a = n + toll T f h) (fun s => s.env.tally a ≤ B) := by
  have G := Count.good_still a
  have hle : ∀ h, n + toll T f h ≤ B := fun h => by have := toll_le T f h; omega
  unfold Core.insertLocked
  have hd : Weak (Stocked T f N n) (Core.lock : M (St Rep F) Unit) (fun _ => Stocked T f N n) (fun s => s.env.tally a ≤ B) := by
    unfold Core.lock
    exact Weak.bind (stocked_deref T) fun _ => .update fun s h => ⟨h.fac, h.next, h.tally, h.bare⟩
  refine Weak.bind hd fun _ => ?_
  refine Weak.scope (R := fun h s => s.env.tally a = n + toll T f h) (RE := fun s => s.env.tally a ≤ B) ?_
    (fun h => Count.thru_weak (Moves.unlock G) (hle h)) (Count.thru_le (Moves.unlock G))
  refine Weak.bind (R := fun h s => s.env.tally a = n + toll T f h) ?_ fun h =>
    Weak.bind (Count.thru_weak (Moves.handleCtor G S.Fa S.trk h) (hle h)) fun _ => .ret fun _ h => h
  unfold Core.insertAndVisit
  refine Weak.bind (tally_facInsert T hB hf hN) fun h => ?_
  refine Weak.bind (R := fun _ s => s.env.tally a = n + toll T f h) ?_ fun _ => .ret fun _ h => h
  refine Weak.onExc (RE := fun s => s.env.tally a ≤ B) ?_ (Count.thru_le (Moves.facErase G T.destroy S.Fa h))
  unfold Core.visitEntry
  refine Weak.bind (R := fun e s => s.env.tally a + (if T.bare e.rep then T.cv else 0) = n + toll T f h) ?_ fun e => ?_
  · unfold Core.entry
    refine Weak.bind (R := fun _ s => ∀ e, S.Fa.entry s.fac h = some e →
      s.env.tally a + (if T.bare e.rep then T.cv else 0) = n + toll T f h) ?_ fun _ => ?_
    · refine Weak.bind (R := fun _ s => ∀ e, S.Fa.entry s.fac h = some e →
        s.env.tally a + (if T.bare e.rep then T.cv else 0) = n + toll T f h) (.read fun _ h => h) fun a => ?_
      split
      · exact .ret fun _ h => h
      · exact .undef
    · refine Weak.bind (R := fun b s => ∀ e, S.Fa.entry b.fac h = some e →
        s.env.tally a + (if T.bare e.rep then T.cv else 0) = n + toll T f h) (.read fun _ h => h) fun b => ?_
      cases he : S.Fa.entry b.fac h with
      | none => exact .undef
      | some e => exact .ret fun s hs => hs e rfl
  · refine Weak.bind (R := fun _ s => s.env.tally a = n + toll T f h) ?_ fun _ => .update fun _ h => h
    refine Weak.at fun s hc => ?_
    refine Weak.env (T.visit e.rep (s.env.tally a)) (fun s' h => by rw [h]) (fun s' _ b e' h' => ?_) (fun _ _ e' h' => ?_)
    · rw [← hc]
      exact h'.1
    · show e'.tally a ≤ B
      have := hle h
      omega

theorem tally_insert {f : F} {N n B : Nat} (hB : n + T.c0 + T.ce S.trk + T.cn + T.cv ≤ B) (hf : S.LF.Inv f)
    (hN : ∀ i, (S.Fa.entry f i).isSome → i < N) :
    Weak (Stocked T f N n) (Core.insert S.P S.Fa S.trk src)
      (fun h s => s.env.tally a = n + T.c0 + T.ce S.trk + toll T f h) (fun s => s.env.tally a ≤ B) := by
  have hle : ∀ h, n + T.c0 + T.ce S.trk + toll T f h ≤ B := fun h => by have := toll_le T f h; omega
  have hin : ∀ n, Weak (Stocked T f N n) (Core.init : M (St Rep F) Unit) (fun _ => Stocked T f N n) (fun s => s.env.tally a ≤ B) :=
    fun n => .update fun s h => ⟨h.fac, h.next, h.tally, h.bare⟩
  have hof := stocked_env T (f := f) (N := N) (n := n) (B := B) T.ofSrc (by omega)
  have hend : ∀ r, T.bare r = true → Weak (Stocked T f N (n + T.c0 + T.ce S.trk))
      (Core.withLocal S.P r (Core.insertLocked S.P S.Fa S.trk src))
      (fun h s => s.env.tally a = n + T.c0 + T.ce S.trk + toll T f h) (fun s => s.env.tally a ≤ B) := fun r hr =>
    tally_withLocal T hr hle (tally_insertLocked T hB hf hN)
  have pull : ∀ {α β : Type} {m : M (St Rep F) α} {g : α → M (St Rep F) β} {P : St Rep F → Prop} {n' : Nat} {q : α → Prop}
      {Q : β → St Rep F → Prop}, Weak P m (fun r s => Stocked T f N n' s ∧ q r) (fun s => s.env.tally a ≤ B) →
      (∀ r, q r → Weak (Stocked T f N n') (g r) Q (fun s => s.env.tally a ≤ B)) → Weak P (m >>= g) Q (fun s => s.env.tally a ≤ B) := by
    intro α β m g P n' q Q h h'
    refine Weak.bind h fun r => ?_
    intro s hs
    exact h' r hs.2 s hs.1
  have hent : (∀ k, src ≠ .key k) → Weak (Stocked T f N n) (Core.entryOf S.P S.trk src)
      (fun e s => Stocked T f N (n + T.c0 + T.ce S.trk) s ∧ T.bare e = true) (fun s => s.env.tally a ≤ B) := by
    intro hk
    unfold Core.entryOf Count.Toll.ce
    have hm : Count.moved S.trk src = (S.trk == .refcounted) := by
      cases src with
      | key k => exact absurd rfl (hk k)
      | copy v => rfl
      | move v => rfl
    unfold Count.Toll.ce at hB
    rw [hm] at hB ⊢
    cases ht : S.trk with
    | noTracking => exact hof
    | refcounted =>
      rw [ht] at hB
      have hB : n + T.c0 + T.c1 + T.cn + T.cv ≤ B := hB
      refine pull hof fun x hx => ?_
      show Weak _ _ (fun e s => Stocked T f N (n + T.c0 + T.c1) s ∧ T.bare e = true) _
      unfold Core.withLocal
      refine Weak.bind (R := fun _ => Stocked T f N (n + T.c0)) (.update fun s h => ⟨h.fac, h.next, h.tally, fun q hq => ?_⟩)
        fun _ => ?_
      · rcases List.mem_cons.1 hq with rfl | hq
        · exact hx
        · exact h.bare q hq
      refine Weak.scope (R := fun e s => Stocked T f N (n + T.c0 + T.c1) s ∧ T.bare e = true) (RE := fun s => s.env.tally a ≤ B) ?_ (fun e => ?_)
        (Count.thru_le (still_pop T))
      · refine pull (stocked_env T (T.move x hx) (by omega)) fun p hp => Weak.bind (stocked_setTop T hp.2) fun _ => .ret fun s h => ⟨h, hp.1⟩
      · intro s hs
        exact ((stocked_pop T (by omega)).conseq (fun _ h => h) (fun _ _ h => ⟨h, hs.2⟩) (fun _ h => h)) s hs.1
  have hval : (∀ k, src ≠ .key k) → Weak (Stocked T f N n) (do
      Core.init
      let e ← Core.entryOf S.P S.trk src
      Core.withLocal S.P e (Core.insertLocked S.P S.Fa S.trk src))
      (fun h s => s.env.tally a = n + T.c0 + T.ce S.trk + toll T f h) (fun s => s.env.tally a ≤ B) := fun hk =>
    Weak.bind (hin n) fun _ => pull (hent hk) hend
  cases src with
  | key k =>
    have hce : T.ce S.trk = T.c1 := rfl
    refine pull hof fun x hx => tally_withLocal T hx hle ?_
    refine Weak.bind (hin _) fun _ => pull (stocked_env T (T.move x hx) (by omega)) fun p hp =>
      Weak.bind (stocked_setTop T hp.2) fun _ => hend _ hp.1
  | copy v => exact hval fun _ => nofun
  | move v => exact hval fun _ => nofun

/-- How often `a` happens in an operation that creates a flyweight, depending on whether an equivalent entry was stored. -/
theorem tally_step {ext : Nat → Nat} {s : St Rep F} (hI : S.Inv ext s) (hl : s.locals = []) (hp : Nat → Nat) {op : Op K V}
    (hop : op.creates = some src) (hs : S.sp.supports src = true) :
    Weak (· = s) (Core.step S.P S.Fa S.trk hp op)
      (fun _ s' =>
        (s'.env.tally a = s.env.tally a + T.c0 + T.ce S.trk ∧ ∃ i b, S.At s i b ∧ S.keq b.key (S.sp.key0 src) = true) ∨
        (s'.env.tally a = s.env.tally a + T.c0 + T.ce S.trk + T.cn + T.cv ∧
          ∀ i b, S.At s i b → S.keq b.key (S.sp.key0 src) = false))
      (fun s' => s'.env.tally a ≤ s.env.tally a + T.c0 + T.ce S.trk + T.cn + T.cv) := by
  have G := Count.good_still a
  have hins : Weak (· = s) (Core.insert S.P S.Fa S.trk src)
      (fun _ s' =>
        (s'.env.tally a = s.env.tally a + T.c0 + T.ce S.trk ∧ ∃ i b, S.At s i b ∧ S.keq b.key (S.sp.key0 src) = true) ∨
        (s'.env.tally a = s.env.tally a + T.c0 + T.ce S.trk + T.cn + T.cv ∧
          ∀ i b, S.At s i b → S.keq b.key (S.sp.key0 src) = false))
      (fun s' => s'.env.tally a ≤ s.env.tally a + T.c0 + T.ce S.trk + T.cn + T.cv) := by
    have hw : Weak (· = s) (Core.insert S.P S.Fa S.trk src) _ _ :=
      (tally_insert T (n := s.env.tally a) (Nat.le_refl _) hI.fac hI.lt).conseq
        (fun s' h => by subst h; exact ⟨rfl, rfl, rfl, by rw [hl]; intro r hr; cases hr⟩) (fun _ _ h => h) (fun _ h => h)
    refine ((insert_spec hI hs).weak hw).toWeak.conseq (fun _ h => h) ?_ (fun _ h => h.2)
    rintro h s' ⟨⟨hok, _⟩, hm⟩
    rcases hok.created with ⟨b, hat, hk, _⟩ | ⟨hno, hn, _⟩
    · refine .inl ⟨?_, h, b, hat, hk⟩
      obtain ⟨e, he, hf, _⟩ := hat
      rw [hm]
      simp only [toll, he, T.idle hf, Nat.add_zero]
    · refine .inr ⟨?_, hno⟩
      rw [hm]
      simp only [toll, hn, Nat.add_assoc]
  have hkeep : ∀ {α : Type} {m : M (St Rep F) α}, Moves.Thru (Count.Still a) m → Weak
      (fun s' => (s'.env.tally a = s.env.tally a + T.c0 + T.ce S.trk ∧ ∃ i b, S.At s i b ∧ S.keq b.key (S.sp.key0 src) = true) ∨
        (s'.env.tally a = s.env.tally a + T.c0 + T.ce S.trk + T.cn + T.cv ∧
          ∀ i b, S.At s i b → S.keq b.key (S.sp.key0 src) = false)) m
      (fun _ s' => (s'.env.tally a = s.env.tally a + T.c0 + T.ce S.trk ∧ ∃ i b, S.At s i b ∧ S.keq b.key (S.sp.key0 src) = true) ∨
        (s'.env.tally a = s.env.tally a + T.c0 + T.ce S.trk + T.cn + T.cv ∧
          ∀ i b, S.At s i b → S.keq b.key (S.sp.key0 src) = false))
      (fun s' => s'.env.tally a ≤ s.env.tally a + T.c0 + T.ce S.trk + T.cn + T.cv) := by
    intro α m hm s' hs'
    have := hm s'
    revert this
    cases hms : m s' with
    | ok r s'' =>
      intro (h : s''.env.tally a = s'.env.tally a)
      show (s''.env.tally a = _ ∧ _) ∨ (s''.env.tally a = _ ∧ _)
      rw [h]
      exact hs'
    | exc s'' =>
      intro (h : s''.env.tally a = s'.env.tally a)
      show s''.env.tally a ≤ _
      rw [h]
      rcases hs' with ⟨h, _⟩ | ⟨h, _⟩ <;> omega
    | ub => exact fun _ => trivial
  cases op with
  | make x s' =>
    cases hop
    exact Weak.bind (Weak.bind hins fun _ => hkeep (Moves.update G fun _ => rfl)) fun _ => hkeep (Moves.pure_ G _)
  | assignVal x s' =>
    cases hop
    exact Weak.bind (Weak.bind hins fun _ => Weak.bind (hkeep (Moves.assignHandle G T.destroy S.Fa S.trk x _))
      fun _ => hkeep (Moves.handleDtor G T.destroy S.Fa S.trk _)) fun _ => hkeep (Moves.pure_ G _)
  | _ => cases hop

end Setup
end Verif

import Verif.Exit

/-!
# Termination with flyweights alive: the order of holders is needed
-/

set_option autoImplicit false

namespace Verif.Exit
open Verif.Conc
variable {K : Type} {next : Nat} {fix pend : List (Fw K)} {s : XSt K}

/-- Reference counts are right: `fix` are the flyweights that are never destroyed, `pend` those inside
program objects or values being destroyed.  (No code of its own: used in statements and proofs.) -/
structure Acc (next : Nat) (fix pend : List (Fw K)) (s : XSt K) : Prop where
  bound : ∀ e x, s.ents e = some x → e < next
  refs : ∀ e x, s.ents e = some x → x.ref = fwCount e fix + fwCount e pend + kidsTo s.ents next e

/-- Entries only disappear, and those that flyweights in `fix` refer to stay unless they are in `l`.  (No code of its
own: used in statements and proofs.) -/
structure Keep (fix : List (Fw K)) (l : List Nat) (s s' : XSt K) : Prop where
  gone : ∀ e, s.ents e = none → s'.ents e = none
  keep : ∀ e x, s.ents e = some x → 0 < fwCount e fix → e ∉ l → ∃ x', s'.ents e = some x' ∧ x'.kids = x.kids

theorem Keep.refl (s : XSt K) : Keep fix [] s s := ⟨fun _ h => h, fun _ x hx _ _ => ⟨x, hx, rfl⟩⟩

theorem Keep.trans {l l' : List Nat} {a b c : XSt K} (h : Keep fix l a b) (h' : Keep fix l' b c) :
    Keep fix (l ++ l') a c := by
  refine ⟨fun e he => h'.gone e (h.gone e he), fun e x hx hf hl => ?_⟩
  simp only [List.mem_append, not_or] at hl
  obtain ⟨y, hy, hk⟩ := h.keep e x hx hf hl.1
  obtain ⟨z, hz, hk'⟩ := h'.keep e y hy hf hl.2
  exact ⟨z, hz, hk'.trans hk⟩

theorem Acc.remove (h : Acc next fix pend s) {e : Nat} {x : Ent K} (hx : s.ents e = some x) :
    Acc next fix (x.kids ++ pend)
      { s with
        ents := setEnt s.ents e none
        log := s.log ++ [e] } := by
  have old : ∀ i z, setEnt s.ents e none i = some z → s.ents i = some z := by
    intro i z hz
    by_cases hi : i = e
    · simp [setEnt, hi] at hz
    · simpa [setEnt, hi] using hz
  refine ⟨fun i z hz => h.bound i z (old i z hz), fun i z hz => ?_⟩
  have h1 := h.refs i z (old i z hz)
  have h3 := kidsTo_set (ents := s.ents) (h.bound e x hx) none i
  simp only [hx, kidsOf] at h3
  rw [h1, fwCount_append]
  simp only
  omega

theorem Acc.set (h : Acc next fix pend s) {w : Fw K} {pend' : List (Fw K)} (hp : pend = w :: pend') {x y : Ent K}
    (hx : s.ents w.h = some x) (hy : y.ref = x.ref - 1) (hk : y.kids = x.kids) :
    Acc next fix pend' { s with ents := setEnt s.ents w.h (some y) } := by
  subst hp
  refine ⟨fun i z hz => ?_, fun i z hz => ?_⟩
  · by_cases hi : i = w.h
    · rw [hi]; exact h.bound _ x hx
    · simp only [setEnt, if_neg hi] at hz; exact h.bound i z hz
  · have h3 := kidsTo_set (ents := s.ents) (h.bound _ x hx) (some y) i
    simp only [hx, kidsOf, hk] at h3
    by_cases hi : i = w.h
    · subst hi
      simp only [setEnt, if_true, Option.some.injEq] at hz
      subst hz
      have h1 := h.refs _ x hx
      simp only [fwCount_cons, if_true] at h1
      rw [hy, h1]
      simp only
      omega
    · simp only [setEnt, if_neg hi] at hz
      have h1 := h.refs i z hz
      simp only [fwCount_cons, if_neg (Ne.symm hi)] at h1
      rw [h1]
      simp only
      omega

theorem each_acc {f : Fw K → XSt K → Out K}
    (hf : ∀ w pend s s', Acc next fix (w :: pend) s → f w s = .ok s' → Acc next fix pend s' ∧ Keep fix [] s s')
    (l : List (Fw K)) : ∀ pend s s', Acc next fix (l ++ pend) s → each f l s = .ok s' →
      Acc next fix pend s' ∧ Keep fix [] s s' := by
  induction l with
  | nil =>
    intro pend s s' h hs
    simp only [each, Out.ok.injEq] at hs
    subst hs
    exact ⟨h, Keep.refl s⟩
  | cons w l ih =>
    intro pend s s' h hs
    simp only [each] at hs
    cases h1 : f w s with
    | ub => rw [h1] at hs; cases hs
    | deep => rw [h1] at hs; cases hs
    | ok s1 =>
      rw [h1] at hs
      obtain ⟨h2, h3⟩ := hf w (l ++ pend) s s1 h h1
      obtain ⟨h4, h5⟩ := ih pend s1 s' h2 hs
      exact ⟨h4, h3.trans h5⟩

theorem Keep.remove {e : Nat} : Keep fix [e] s
      { s with
        ents := setEnt s.ents e none
        log := s.log ++ [e] } := by
  refine ⟨fun i hi => ?_, fun i y hy _ hl => ?_⟩
  · simp only [setEnt]; split <;> simp [hi]
  · simp only [List.mem_singleton] at hl
    exact ⟨y, by simpa [setEnt, hl] using hy, rfl⟩

theorem Keep.drop_list {e : Nat} {s' : XSt K} (h : Keep fix [e] s s') (he : fwCount e fix = 0) : Keep fix [] s s' := by
  refine ⟨h.gone, fun i x hx hf _ => h.keep i x hx hf ?_⟩
  simp only [List.mem_singleton]
  intro hi
  subst hi
  omega

theorem drop_acc (n : Nat) : ∀ (w : Fw K) (pend : List (Fw K)) (s s' : XSt K), Acc next fix (w :: pend) s →
    drop n w s = .ok s' → Acc next fix pend s' ∧ Keep fix [] s s' := by
  induction n with
  | zero => intro w pend s s' _ hs; simp [drop] at hs
  | succ n ih =>
    intro w pend s s' h hs
    simp only [drop] at hs
    cases hx : s.ents w.h with
    | none => simp [hx] at hs
    | some x =>
      simp only [hx] at hs
      have hset : ∀ y : Ent K, y.ref = x.ref - 1 → y.kids = x.kids →
          Acc next fix pend { s with ents := setEnt s.ents w.h (some y) } ∧
          Keep fix [] s { s with ents := setEnt s.ents w.h (some y) } := by
        intro y hy hk
        refine ⟨h.set rfl hx hy hk, fun i hi => ?_, fun i z hz _ _ => ?_⟩
        · by_cases hi' : i = w.h
          · rw [hi', hx] at hi; cases hi
          · simpa [setEnt, hi'] using hi
        · by_cases hi' : i = w.h
          · subst hi'
            rw [hx, Option.some.injEq] at hz
            subst hz
            exact ⟨y, by simp [setEnt], hk⟩
          · exact ⟨z, by simpa [setEnt, hi'] using hz, rfl⟩
      split at hs
      · rename_i h0
        split at hs
        · cases hs
        · split at hs
          · -- the entry is erased: nothing else refers to it
            have hr := h.refs _ x hx
            simp only [fwCount_cons, if_true] at hr
            have h1 := (h.set (y := { x with ref := x.ref - 1 }) rfl hx rfl rfl).remove (e := w.h)
              (x := { x with ref := x.ref - 1 }) (by simp [setEnt])
            have hss : setEnt (setEnt s.ents w.h (some { x with ref := x.ref - 1 })) w.h none =
                setEnt s.ents w.h none := by
              funext i
              simp only [setEnt]
              split <;> rfl
            simp only [hss] at h1
            obtain ⟨h2, h3⟩ := each_acc ih x.kids pend _ s' h1 hs
            exact ⟨h2, ((Keep.remove (fix := fix)).trans h3).drop_list (by omega)⟩
          · simp only [Out.ok.injEq] at hs
            subst hs
            exact hset _ rfl rfl
      · simp only [Out.ok.injEq] at hs
        subst hs
        exact hset _ rfl rfl

/-- If flyweights are destroyed without undefined behaviour, the values they refer to existed. -/
theorem each_present {n : Nat} (l : List (Fw K)) : ∀ pend s s', Acc next fix (l ++ pend) s →
    each (drop n) l s = .ok s' → ∀ w ∈ l, s.ents w.h ≠ none := by
  induction l with
  | nil => intro _ _ _ _ _ w hw; cases hw
  | cons v l ih =>
    intro pend s s' h hs w hw hnone
    simp only [each] at hs
    cases h1 : drop n v s with
    | ub => rw [h1] at hs; cases hs
    | deep => rw [h1] at hs; cases hs
    | ok s1 =>
      rw [h1] at hs
      rcases List.mem_cons.1 hw with rfl | hw
      · cases n with
        | zero => simp [drop] at h1
        | succ n => simp [drop, hnone] at h1
      · obtain ⟨h2, h3⟩ := drop_acc n v (l ++ pend) s s1 h h1
        exact ih pend s1 s' h2 hs w hw (h3.gone _ hnone)

theorem clear_acc {n : Nat} (l : List Nat) : ∀ s s', Acc next fix pend s → clear n l s = .ok s' →
    Acc next fix pend s' ∧ Keep fix l s s' ∧ ∀ e ∈ l, s'.ents e = none := by
  induction l with
  | nil =>
    intro s s' h hs
    simp only [clear, Out.ok.injEq] at hs
    subst hs
    exact ⟨h, Keep.refl s, by simp⟩
  | cons e l ih =>
    intro s s' h hs
    simp only [clear] at hs
    cases hx : s.ents e with
    | none =>
      simp only [hx] at hs
      obtain ⟨h1, h2, h3⟩ := ih s s' h hs
      refine ⟨h1, ⟨h2.gone, fun i x hi hf hl => h2.keep i x hi hf fun h' => hl (List.mem_cons_of_mem _ h')⟩, ?_⟩
      intro i hi
      rcases List.mem_cons.1 hi with rfl | hi
      · exact h2.gone _ hx
      · exact h3 i hi
    | some x =>
      simp only [hx] at hs
      cases h1 : destroy (drop n) e x s with
      | ub => rw [h1] at hs; cases hs
      | deep => rw [h1] at hs; cases hs
      | ok s1 =>
        rw [h1] at hs
        obtain ⟨h2, h3⟩ := each_acc (drop_acc n) x.kids pend _ s1 (h.remove hx) h1
        obtain ⟨h4, h5, h6⟩ := ih s1 s' h2 hs
        have h7 := (Keep.remove (fix := fix) (s := s) (e := e)).trans (h3.trans h5)
        refine ⟨h4, h7, ?_⟩
        intro i hi
        rcases List.mem_cons.1 hi with rfl | hi
        · exact h5.gone _ (h3.gone _ (by simp [setEnt]))
        · exact h6 i hi

/-- The entries of the factories destroyed, in order.  (No code of its own: used in statements and
proofs.) -/
def orders : List (Item K) → List Nat
  | [] => []
  | .holder _ ord :: l => ord ++ orders l
  | .user _ :: l => orders l

theorem exit_acc {n : Nat} (items : List (Item K)) : ∀ pend s s', Acc next fix (inUsers items ++ pend) s →
    exit n items s = .ok s' →
    Acc next fix pend s' ∧ Keep fix (orders items) s s' ∧ ∀ e ∈ orders items, s'.ents e = none := by
  induction items with
  | nil =>
    intro pend s s' h hs
    simp only [exit, Out.ok.injEq] at hs
    subst hs
    exact ⟨h, Keep.refl s, by simp [orders]⟩
  | cons i items ih =>
    intro pend s s' h hs
    simp only [exit] at hs
    cases h1 : i.destroy n s with
    | ub => rw [h1] at hs; cases hs
    | deep => rw [h1] at hs; cases hs
    | ok s1 =>
      rw [h1] at hs
      cases i with
      | user l =>
        simp only [inUsers, List.append_assoc] at h
        obtain ⟨h2, h3⟩ := each_acc (drop_acc n) l (inUsers items ++ pend) s s1 h h1
        obtain ⟨h4, h5, h6⟩ := ih pend s1 s' h2 hs
        exact ⟨h4, h3.trans h5, h6⟩
      | holder c ord =>
        have h' : Acc next fix (inUsers items ++ pend) { s with down := fun d => if d = c then true else s.down d } :=
          ⟨h.bound, h.refs⟩
        obtain ⟨h2, h3, h3'⟩ := clear_acc ord _ s1 h' h1
        have h3 : Keep fix ord s s1 := ⟨h3.gone, h3.keep⟩
        obtain ⟨h4, h5, h6⟩ := ih pend s1 s' h2 hs
        refine ⟨h4, h3.trans h5, fun e he => ?_⟩
        rcases List.mem_append.1 he with he | he
        · exact h5.gone _ (h3' e he)
        · exact h6 e he

theorem exit_append {n : Nat} (a b : List (Item K)) (s : XSt K) :
    exit n (a ++ b) s = (exit n a s).bind (exit n b) := by
  induction a generalizing s with
  | nil => rfl
  | cons i a ih =>
    simp only [List.cons_append, exit]
    cases i.destroy n s with
    | ub => rfl
    | deep => rfl
    | ok s1 => exact ih s1

theorem inUsers_append (a b : List (Item K)) : inUsers (a ++ b) = inUsers a ++ inUsers b := by
  induction a with
  | nil => rfl
  | cons i a ih => cases i <;> simp [inUsers, ih]

theorem clear_append {n : Nat} (a b : List Nat) (s : XSt K) :
    clear n (a ++ b) s = (clear n a s).bind (clear n b) := by
  induction a generalizing s with
  | nil => rfl
  | cons e a ih =>
    simp only [List.cons_append, clear]
    cases s.ents e with
    | none => exact ih s
    | some x =>
      simp only
      cases destroy (drop n) e x s with
      | ub => rfl
      | deep => rfl
      | ok s1 => exact ih s1

/-- A value kept by a flyweight that is never destroyed contains a flyweight whose value goes first: not
defined. -/
theorem not_ok {n : Nat} {A C : List (Item K)} {c e : Nat} {o₁ o₂ : List Nat} {x : Ent K} {w : Fw K} {s' : XSt K}
    (h : Acc next fix (inUsers (A ++ .holder c (o₁ ++ e :: o₂) :: C)) s)
    (he : s.ents e = some x) (hw : w ∈ x.kids) (hfix : 0 < fwCount e fix)
    (hnot : e ∉ orders A ++ o₁) (hgone : w.h ∈ orders A ++ o₁)
    (hs : exit n (A ++ .holder c (o₁ ++ e :: o₂) :: C) s = .ok s') : False := by
  rw [exit_append] at hs
  simp only [List.mem_append, not_or] at hnot hgone
  cases h1 : exit n A s with
  | ub => rw [h1] at hs; cases hs
  | deep => rw [h1] at hs; cases hs
  | ok s1 =>
    rw [h1] at hs
    rw [inUsers_append] at h
    obtain ⟨h2, h3, h4⟩ := exit_acc A _ s s1 h h1
    obtain ⟨x1, hx1, hk1⟩ := h3.keep e x he hfix hnot.1
    simp only [Out.bind, exit, Item.destroy, clear_append] at hs
    have h2' : Acc next fix (inUsers (.holder c (o₁ ++ e :: o₂) :: C))
        { s1 with down := fun d => if d = c then true else s1.down d } := ⟨h2.bound, h2.refs⟩
    cases h5 : clear n o₁ { s1 with down := fun d => if d = c then true else s1.down d } with
    | ub => rw [h5] at hs; cases hs
    | deep => rw [h5] at hs; cases hs
    | ok s2 =>
      rw [h5] at hs
      obtain ⟨h6, h7, h8⟩ := clear_acc o₁ _ s2 h2' h5
      obtain ⟨x2, hx2, hk2⟩ := h7.keep e x1 hx1 hfix hnot.2
      have hwn : s2.ents w.h = none := by
        rcases hgone with hg | hg
        · exact h7.gone _ (h4 _ hg)
        · exact h8 _ hg
      simp only [clear, hx2] at hs
      cases h9 : destroy (drop n) e x2 s2 with
      | ub => rw [h9] at hs; cases hs
      | deep => rw [h9] at hs; cases hs
      | ok s3 =>
        refine each_present x2.kids _ _ s3 (h6.remove hx2) h9 w (by rw [hk2, hk1]; exact hw) ?_
        exact (Keep.remove (fix := fix)).gone _ hwn

/-- A static object is destroyed after the value of a flyweight in it: not defined. -/
theorem not_ok_user {n : Nat} {A C : List (Item K)} {l : List (Fw K)} {w : Fw K} {s' : XSt K}
    (h : Acc next fix (inUsers (A ++ .user l :: C)) s) (hw : w ∈ l) (hgone : w.h ∈ orders A)
    (hs : exit n (A ++ .user l :: C) s = .ok s') : False := by
  rw [exit_append] at hs
  cases h1 : exit n A s with
  | ub => rw [h1] at hs; cases hs
  | deep => rw [h1] at hs; cases hs
  | ok s1 =>
    rw [h1] at hs
    rw [inUsers_append] at h
    obtain ⟨h2, h3, h4⟩ := exit_acc A _ s s1 h h1
    simp only [Out.bind, exit, Item.destroy] at hs
    cases h5 : each (drop n) l s1 with
    | ub => rw [h5] at hs; cases hs
    | deep => rw [h5] at hs; cases hs
    | ok s2 => exact each_present l (inUsers C) s1 s2 h2 h5 w hw (h4 _ hgone)

theorem mem_orders (A : List (Item K)) (i : Nat) : i ∈ orders A ↔ ∃ d ord, .holder d ord ∈ A ∧ i ∈ ord := by
  induction A with
  | nil => simp [orders]
  | cons j A ih =>
    cases j with
    | holder d ord =>
      simp only [orders, List.mem_append, ih, List.mem_cons]
      constructor
      · rintro (h' | ⟨d', o', h1, h2⟩)
        · exact ⟨d, ord, .inl rfl, h'⟩
        · exact ⟨d', o', .inr h1, h2⟩
      · rintro ⟨d', o', h1 | h1, h2⟩
        · cases h1; exact .inl h2
        · exact .inr ⟨d', o', h1, h2⟩
    | user l => simp only [orders, ih, List.mem_cons, reduceCtorEq, false_or]

end Verif.Exit

import Verif.NestedInv

/-!
# A constructor that asks for its own key

Partial correctness: what holds if a computation ends normally.
-/

set_option autoImplicit false

namespace Verif

/-- If `m` ends normally, `Q` holds.  (No code of its own: used in statements and proofs.) -/
def PT {σ α : Type} (P : σ → Prop) (m : M σ α) (Q : α → σ → Prop) : Prop :=
  ∀ s a s', P s → m s = .ok a s' → Q a s'

namespace PT
variable {σ α β : Type} {P : σ → Prop}

theorem bind {m : M σ α} {f : α → M σ β} {R : α → σ → Prop} {Q : β → σ → Prop}
    (h : PT P m R) (h' : ∀ a, PT (R a) (f a) Q) : PT P (m >>= f) Q := by
  intro s b s' hs he
  change M.bind m f s = _ at he
  unfold M.bind at he
  cases hm : m s with
  | ok a s1 => rw [hm] at he; exact h' a s1 b s' (h s a s1 hs hm) he
  | exc s1 => rw [hm] at he; cases he
  | ub => rw [hm] at he; cases he

theorem scope_false {m : M σ α} {c : M σ Unit} {Q : α → σ → Prop}
    (h : PT P m fun _ _ => False) : PT P (M.scope m c) Q := by
  intro s b s' hs he
  unfold M.scope at he
  cases hm : m s with
  | ok a s1 => exact (h s a s1 hs hm).elim
  | exc s1 => rw [hm] at he; simp only at he; split at he <;> cases he
  | ub => rw [hm] at he; cases he

theorem onExc {m : M σ α} {c : M σ Unit} {Q : α → σ → Prop} (h : PT P m Q) :
    PT P (M.onExc m c) Q := by
  intro s b s' hs he
  unfold M.onExc at he
  cases hm : m s with
  | ok a s1 => rw [hm] at he; cases he; exact h s _ _ hs hm
  | exc s1 => rw [hm] at he; simp only at he; split at he <;> cases he
  | ub => rw [hm] at he; cases he

theorem apply {m : M σ α} {s s' : σ} {a : α} {Q : α → σ → Prop} (he : m s = .ok a s') (hs : P s)
    (h : PT P m Q) : Q a s' := h s a s' hs he

theorem of_false {m : M σ α} {Q : α → σ → Prop} (h : ∀ s, P s → False) : PT P m Q :=
  fun s _ _ hs _ => (h s hs).elim

theorem update {f : σ → σ} {Q : Unit → σ → Prop} (h : ∀ s, P s → Q () (f s)) :
    PT P (M.update f) Q := by
  intro s a s' hs he; cases he; exact h s hs

theorem read {Q : σ → σ → Prop} (h : ∀ s, P s → Q s s) : PT P M.read Q := by
  intro s a s' hs he; cases he; exact h s hs

theorem ret {a : α} {Q : α → σ → Prop} (h : ∀ s, P s → Q a s) : PT P (pure a) Q := by
  intro s a s' hs he; cases he; exact h s hs

theorem conseq {P' : σ → Prop} {m : M σ α} {Q Q' : α → σ → Prop} (h : PT P m Q)
    (hP : ∀ s, P' s → P s) (hQ : ∀ a s, Q a s → Q' a s) : PT P' m Q' :=
  fun s a s' hs he => hQ _ _ (h s a s' (hP s hs) he)

end PT

namespace Nested
variable {K V F : Type} {Fa : Factory F (Ent (PRep K V))}
  {eqv : Ent (PRep K V) → Ent (PRep K V) → Prop}

/-- No entry of `k` has its value.  (No code of its own: used in statements and proofs.) -/
structure Blank (LF : Fa.Lawful eqv) (k : K) (s : St (PRep K V) F) : Prop where
  inv : LF.Inv s.fac
  blank : ∀ i e, Fa.entry s.fac i = some e → e.rep.key = k → e.rep.cted = false
  lt : ∀ i, (Fa.entry s.fac i).isSome → i < s.nextId

variable {LF : Fa.Lawful eqv} {k : K}

theorem Blank.congr {s s' : St (PRep K V) F} (h : Blank LF k s) (hf : s'.fac = s.fac)
    (hn : s'.nextId = s.nextId) : Blank LF k s' := by
  obtain ⟨h1, h2, h3⟩ := h
  constructor <;> simpa only [hf, hn]

theorem env_blank {α : Type} (m : M Env α) {Q : St (PRep K V) F → Prop}
    (hQ : ∀ s e, Q s → Q { s with env := e }) {R : α → Prop}
    (hR : ∀ e a e', m e = .ok a e' → R a) :
    PT Q (Core.env m) (fun a s => R a ∧ Q s) := by
  intro s a s' hs he
  unfold Core.env at he
  cases hm : m s.env with
  | ok b e => rw [hm] at he; cases he; exact ⟨hR _ _ _ hm, hQ s e hs⟩
  | exc e => rw [hm] at he; cases he
  | ub => rw [hm] at he; cases he

theorem newRep_ok (a : Act) (k : K) (e e' : Env) (r : PRep K V)
    (h : (PRep.newRep a k : M Env (PRep K V)) e = .ok r e') : r = ⟨k, none, false⟩ := by
  have := newRep_quiet (V := V) a k e e rfl
  rw [h] at this
  exact this.1

theorem move_ok (u : UserFns K V) (x : PRep K V) (e e' : Env) (p : PRep K V × PRep K V)
    (h : (PRep.policy u).move x e = .ok p e') : p.1 = ⟨x.key, none, false⟩ := by
  revert h
  refine PT.bind (P := (· = e)) (m := PRep.newRep .keyMove x.key) (R := fun r _ => r = ⟨x.key, none, false⟩)
    (f := fun r => pure (r, { x with key := u.movedK x.key }))
    (Q := fun p _ => p.1 = ⟨x.key, none, false⟩) ?_ (fun r => ?_) e p e' rfl
  · intro s a s' _ hm; exact newRep_ok _ _ _ _ _ hm
  · intro s a s' hr hm; cases hm; exact hr

theorem makeNode_ok (u : UserFns K V) (take : Take) (k : K) (e e' : Env) (p : PRep K V × PRep K V)
    (h : Core.makeNode (PRep.policy u) take ⟨k, none, false⟩ e = .ok p e') : p.1 = ⟨k, none, false⟩ := by
  have := makeNode_quiet u take k e e rfl
  rw [h] at this
  exact this.1.1

/-- An innermost local of key `k`.  (No code of its own: used in statements and proofs.) -/
def Top (k : K) (s : St (PRep K V) F) : Prop := ∃ rest, s.locals = ⟨k, none, false⟩ :: rest

theorem facInsert_blank (u : UserFns K V) (heq : ∀ e e', eqv e e' ↔ e.rep.key = e'.rep.key) :
    PT (fun s : St (PRep K V) F => Blank LF k s ∧ Top k s) (Core.facInsert (PRep.policy u) Fa)
      (fun h s => Blank LF k s ∧ ∃ e, Fa.entry s.fac h = some e ∧ e.rep.key = k) := by
  unfold Core.facInsert
  refine PT.bind (R := fun _ s => Blank LF k s ∧ Top k s) ?_ fun _ => ?_
  · intro s a s' hs he
    simp only [Core.deref, bind, M.bind, M.read] at he
    split at he
    · cases he; exact hs
    · cases he
  refine PT.bind (R := fun x s => x = ⟨k, none, false⟩ ∧ Blank LF k s ∧ Top k s) ?_ fun x => ?_
  · intro s a s' hs he
    obtain ⟨hb, rest, hl⟩ := hs
    simp only [Core.topLocal, bind, M.bind, M.read, hl] at he
    cases he
    exact ⟨rfl, hb, rest, hl⟩
  refine PT.bind (R := fun _ s => x = ⟨k, none, false⟩ ∧ Blank LF k s) ?_ fun _ => ?_
  · intro s a s' hs he
    unfold Core.keysReadable at he
    simp only [bind, M.bind, M.read] at he
    split at he
    · cases he; exact ⟨hs.1, hs.2.1⟩
    · cases he
  refine PT.bind (R := fun _ s => x = ⟨k, none, false⟩ ∧ Blank LF k s)
    ((env_blank mayThrow (R := fun _ => True) (fun s e h => ⟨h.1, h.2.congr rfl rfl⟩)
      fun _ _ _ _ => trivial).conseq (fun _ h => h) fun _ _ h => h.2) fun _ => ?_
  refine PT.bind (PT.read (Q := fun a s => a = s ∧ x = ⟨k, none, false⟩ ∧ Blank LF k s)
    fun s h => ⟨rfl, h⟩) fun sr => ?_
  intro s a s' hs he
  obtain ⟨hsr, rfl, hb⟩ := hs
  subst hsr
  have hlk := fun i => LF.lookup_entry (f := sr.fac) ⟨⟨k, none, false⟩, 0, 0⟩ i hb.inv
  have hlinv := LF.lookup_inv (f := sr.fac) ⟨⟨k, none, false⟩, 0, 0⟩ hb.inv
  cases hlook : Fa.lookup sr.fac ⟨⟨k, none, false⟩, 0, 0⟩ with
  | mk f o =>
  rw [hlook] at hlk hlinv
  simp only at hlk hlinv
  simp only [hlook] at he
  have hbf : ∀ s2 : St (PRep K V) F, s2.fac = f → s2.nextId = sr.nextId → Blank LF k s2 := by
    intro s2 hf hn
    obtain ⟨h1, h2, h3⟩ := hb
    constructor <;> simp only [hf, hn, hlk]
    · exact hlinv
    · exact h2
    · exact h3
  cases o with
  | some i =>
    obtain ⟨e', he', hev⟩ := LF.lookup_some (f := sr.fac) ⟨⟨k, none, false⟩, 0, 0⟩ i hb.inv
      (by rw [hlook])
    cases he
    refine ⟨hbf _ rfl rfl, e', ?_, (heq _ _).1 hev⟩
    exact (hlk _).trans he'
  | none =>
    have hno := LF.lookup_none (f := sr.fac) ⟨⟨k, none, false⟩, 0, 0⟩ hb.inv (by rw [hlook])
    have hfresh : Fa.entry f sr.nextId = none := by
      rw [hlk]
      cases hx : Fa.entry sr.fac sr.nextId with
      | none => rfl
      | some e => exact absurd (hb.lt sr.nextId (by simp [hx])) (Nat.lt_irrefl _)
    refine PT.apply (P := (· = sr)) (Q := fun h s => Blank LF k s ∧
      ∃ e, Fa.entry s.fac h = some e ∧ e.rep.key = k) he rfl ?_
    refine PT.bind (R := fun _ s => s.fac = f ∧ s.nextId = sr.nextId)
      (PT.update fun s h => by subst h; exact ⟨rfl, rfl⟩) (fun _ => ?_)
    refine PT.bind (R := fun p s => p.1 = ⟨k, none, false⟩ ∧ s.fac = f ∧ s.nextId = sr.nextId)
      (env_blank _ (R := fun p : PRep K V × PRep K V => p.1 = ⟨k, none, false⟩)
        (fun s e h => h) fun e a e' h => makeNode_ok u _ _ e e' a h) fun p => ?_
    refine PT.bind (R := fun _ s => p.1 = ⟨k, none, false⟩ ∧ s.fac = f ∧ s.nextId = sr.nextId)
      (PT.update fun s h => h) fun _ => ?_
    intro s2 a s' hs he
    obtain ⟨hp, hf, hn⟩ := hs
    cases he
    refine ⟨?_, ⟨p.1, 0, 0⟩, ?_, by rw [hp]⟩
    · constructor
      · show LF.Inv (Fa.link s2.fac s2.nextId _)
        rw [hf, hn]
        refine LF.link_inv _ _ hlinv hfresh fun j e' hj => ?_
        rw [hlk] at hj
        rw [heq, hp]
        exact fun h => hno j e' hj ((heq _ _).2 h)
      · intro i e he hk
        change Fa.entry (Fa.link s2.fac s2.nextId _) i = _ at he
        rw [hf, hn, LF.link_entry _ _ _ hlinv hfresh] at he
        split at he
        · cases he; rw [hp]
        · rw [hlk] at he; exact hb.blank i e he hk
      · intro i hi
        change (Fa.entry (Fa.link s2.fac s2.nextId _) i).isSome at hi
        show i < s2.nextId + 1
        rw [hf, hn, LF.link_entry _ _ _ hlinv hfresh] at hi
        split at hi
        · omega
        · rw [hlk] at hi; have := hb.lt i hi; omega
    · show Fa.entry (Fa.link s2.fac s2.nextId _) sr.nextId = _
      rw [hf, hn, LF.link_entry _ _ _ hlinv hfresh, if_pos rfl]

theorem own_key (u : UserFns K V) (trk : Tracking) (heq : ∀ e e', eqv e e' ↔ e.rep.key = e'.rep.key)
    {body : K → Body K V} (hb : ∃ f, body k = .ask k f) :
    ∀ (fuel : Nat) (s : St (PRep K V) F), Blank LF k s → ∀ (h : Nat) (s' : St (PRep K V) F),
      request (PRep.policy u) Fa trk body fuel k s ≠ .ok h s' := by
  suffices H : ∀ fuel, PT (fun s : St (PRep K V) F => Blank LF k s)
      (request (PRep.policy u) Fa trk body fuel k) (fun _ _ => False) from
    fun fuel s hs h s' he => H fuel s h s' hs he
  intro fuel
  induction fuel with
  | zero => intro s a s' _ he; cases he
  | succ fuel ih =>
    obtain ⟨f, hb⟩ := hb
    unfold request
    refine PT.bind (R := fun x s => x = ⟨k, none, false⟩ ∧ Blank LF k s)
      (env_blank _ (R := fun x : PRep K V => x = ⟨k, none, false⟩)
        (fun s e h => h.congr rfl rfl) fun e a e' h => newRep_ok _ k _ _ _ h) fun x => ?_
    unfold Core.withLocal
    refine PT.bind (R := fun _ s => x = ⟨k, none, false⟩ ∧ Blank LF k s)
      (PT.update fun s h => ⟨h.1, h.2.congr rfl rfl⟩) fun _ => PT.scope_false ?_
    refine PT.bind (R := fun _ s => x = ⟨k, none, false⟩ ∧ Blank LF k s)
      (PT.update fun s h => ⟨h.1, h.2.congr rfl rfl⟩) fun _ => ?_
    refine PT.bind (R := fun p s => p.1 = ⟨k, none, false⟩ ∧ Blank LF k s) ?_ fun p => ?_
    · intro s a s' hs he
      obtain ⟨rfl, hs⟩ := hs
      refine env_blank _ (R := fun p : PRep K V × PRep K V => p.1 = ⟨k, none, false⟩)
        (fun s e h => h.congr rfl rfl) (fun e a e' h => move_ok u _ e e' a h) s a s' hs he
    refine PT.bind (R := fun _ s => p.1 = ⟨k, none, false⟩ ∧ Blank LF k s)
      (PT.update fun s h => ⟨h.1, h.2.congr rfl rfl⟩) fun _ => ?_
    refine PT.bind (R := fun _ s => Blank LF k s ∧ Top k s)
      (PT.update fun s h => ⟨h.2.congr rfl rfl, s.locals, by rw [← h.1]⟩)
      fun _ => PT.scope_false ?_
    refine PT.bind (R := fun _ s => Blank LF k s ∧ Top k s) ?_ fun _ => PT.scope_false ?_
    · unfold Core.lock
      refine PT.bind (R := fun _ s => Blank LF k s ∧ Top k s) ?_ fun _ =>
        PT.update fun s h => ⟨h.1.congr rfl rfl, h.2⟩
      intro s a s' hs he
      simp only [Core.deref, bind, M.bind, M.read] at he
      split at he
      · cases he; exact hs
      · cases he
    refine PT.bind (facInsert_blank u heq) fun h => ?_
    refine PT.bind (R := fun _ _ => False) (PT.onExc ?_) fun _ => PT.of_false fun _ h => h
    unfold visit
    refine PT.bind (R := fun e s => (e.rep.key = k ∧ e.rep.cted = false) ∧ Blank LF k s) ?_
      fun e => ?_
    · intro s a s' hs he
      obtain ⟨hbl, e, hent, hk⟩ := hs
      simp only [Core.entry, Core.deref, bind, M.bind, M.read] at he
      split at he
      · rename_i hif
        split at hif
        · cases hif
          rw [hent] at he
          cases he
          exact ⟨⟨hk, hbl.blank h _ hent hk⟩, hbl⟩
        · cases hif
      · cases he
      · cases he
    intro s a s' hs he
    obtain ⟨⟨rfl, hc⟩, hbl⟩ := hs
    rw [hc, if_neg Bool.false_ne_true] at he
    refine PT.apply (P := fun s => Blank LF e.rep.key s) (Q := fun _ _ => False) he hbl ?_
    refine PT.bind (R := fun _ _ => False) ?_ (fun _ => PT.of_false fun _ h => h)
    rw [hb]
    unfold runBody
    exact PT.bind ih fun _ => PT.of_false fun _ h => h

end Nested
end Verif

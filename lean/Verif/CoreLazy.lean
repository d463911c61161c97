import Verif.CoreInsert
import Verif.History

/-!
# Sequential core: number of values constructed by an insertion
-/

set_option autoImplicit false

namespace Verif

section Weak
variable {σ α β : Type}

theorem Weak.bind {P : σ → Prop} {m : M σ α} {f : α → M σ β} {R : α → σ → Prop}
    {Q : β → σ → Prop} {E : σ → Prop} (h₁ : Weak P m R E) (h₂ : ∀ a, Weak (R a) (f a) Q E) :
    Weak P (m >>= f) Q E := by
  intro s hs
  show match M.bind m f s with | .ok a s' => Q a s' | .exc s' => E s' | .ub => True
  have h := h₁ s hs
  unfold M.bind
  cases hm : m s <;> rw [hm] at h <;> simp only at h ⊢
  · exact h₂ _ _ h
  · exact h

theorem Weak.conseq {P P' : σ → Prop} {m : M σ α} {Q Q' : α → σ → Prop} {E E' : σ → Prop}
    (h : Weak P m Q E) (hP : ∀ s, P' s → P s) (hQ : ∀ a s, Q a s → Q' a s)
    (hE : ∀ s, E s → E' s) : Weak P' m Q' E' := by
  intro s hs
  have := h s (hP s hs)
  cases hm : m s <;> rw [hm] at this <;> simp only at this ⊢
  · exact hQ _ _ this
  · exact hE _ this

theorem Weak.ret {P : σ → Prop} {a : α} {Q : α → σ → Prop} {E : σ → Prop}
    (h : ∀ s, P s → Q a s) : Weak P (pure a) Q E := fun s hs => h s hs

theorem Weak.read {P : σ → Prop} {Q : σ → σ → Prop} {E : σ → Prop}
    (h : ∀ s, P s → Q s s) : Weak P M.read Q E := fun s hs => h s hs

theorem Weak.update {P : σ → Prop} {f : σ → σ} {Q : Unit → σ → Prop} {E : σ → Prop}
    (h : ∀ s, P s → Q () (f s)) : Weak P (M.update f) Q E := fun s hs => h s hs

theorem Weak.undef {P : σ → Prop} {Q : α → σ → Prop} {E : σ → Prop} :
    Weak P (M.undef : M σ α) Q E := fun _ _ => trivial

theorem Weak.scope {P : σ → Prop} {m : M σ α} {c : M σ Unit} {R : α → σ → Prop}
    {RE : σ → Prop} {Q : α → σ → Prop} {E : σ → Prop}
    (h₁ : Weak P m R RE) (h₂ : ∀ a, Weak (R a) c (fun _ => Q a) E)
    (h₃ : Weak RE c (fun _ => E) E) : Weak P (M.scope m c) Q E := by
  intro s hs
  have h := h₁ s hs
  unfold M.scope
  cases hm : m s with
  | ok a s' =>
    rw [hm] at h
    have h' := h₂ a s' h
    cases hc : c s' <;> rw [hc] at h' <;> simp_all
  | exc s' =>
    rw [hm] at h
    have h' := h₃ s' h
    cases hc : c s' <;> rw [hc] at h' <;> simp_all
  | ub => trivial

theorem Weak.onExc {P : σ → Prop} {m : M σ α} {c : M σ Unit}
    {RE : σ → Prop} {Q : α → σ → Prop} {E : σ → Prop}
    (h₁ : Weak P m Q RE) (h₃ : Weak RE c (fun _ => E) E) : Weak P (M.onExc m c) Q E := by
  intro s hs
  have h := h₁ s hs
  unfold M.onExc
  cases hm : m s with
  | ok a s' => rw [hm] at h; exact h
  | exc s' =>
    rw [hm] at h
    have h' := h₃ s' h
    cases hc : c s' <;> rw [hc] at h' <;> simp_all
  | ub => trivial

theorem Weak.at {P : σ → Prop} {m : M σ α} {Q : α → σ → Prop} {E : σ → Prop}
    (h : ∀ s, P s → Weak (fun s' => s' = s) m Q E) : Weak P m Q E :=
  fun s hs => h s hs s rfl

theorem Weak.pre {φ : Prop} {P : σ → Prop} {m : M σ α} {Q : α → σ → Prop} {E : σ → Prop}
    (h : φ → Weak P m Q E) : Weak (fun s => φ ∧ P s) m Q E :=
  fun s hs => h hs.1 s hs.2

theorem Triple.weak {P : σ → Prop} {m : M σ α} {Q Q' : α → σ → Prop} {E E' : σ → Prop}
    (h : Triple P m Q E) (h' : Weak P m Q' E') :
    Triple P m (fun a s => Q a s ∧ Q' a s) (fun s => E s ∧ E' s) := by
  intro s hs
  have h1 := h s hs
  have h2 := h' s hs
  cases hm : m s <;> rw [hm] at h1 h2 <;> simp_all

theorem Triple.toWeak {P : σ → Prop} {m : M σ α} {Q : α → σ → Prop} {E : σ → Prop}
    (h : Triple P m Q E) : Weak P m Q E := by
  intro s hs
  have h1 := h s hs
  cases hm : m s <;> rw [hm] at h1 <;> simp_all

end Weak

/-- Destroying a representation neither throws nor constructs a value.  (No code of its own:
used in statements and proofs.) -/
def Policy.Tidy {K V Rep : Type} (P : Policy K V Rep) : Prop :=
  ∀ r n, Weak (fun e => e.made = n) (P.destroy r) (fun _ e => e.made = n) (fun _ => False)

theorem VRep.tidy {K V : Type} (u : UserFns K V) : (VRep.policy u).Tidy := (VRep.lazy u).destroy
theorem PRep.tidy {K V : Type} (u : UserFns K V) : (PRep.policy u).Tidy := (PRep.lazy u).destroy
theorem DRep.tidy {V : Type} (u : UserFns V V) : (DRep.policy u).Tidy :=
  fun _ _ => .ofOk fun _ he => ⟨_, _, rfl, he⟩

namespace Setup
variable {K V Rep F : Type} {S : Setup K V Rep F}

/-- A computation that constructs no value and does not throw.  (No code of its own: used in
statements and proofs.) -/
def KeepsSt {α : Type} (m : M (St Rep F) α) : Prop :=
  ∀ n, Weak (fun s => s.env.made = n) m (fun _ s => s.env.made = n) (fun _ => False)

theorem Weak.env {α : Type} {m : M Env α} {P : St Rep F → Prop} {PE : Env → Prop} {QE : α → Env → Prop}
    {EE : Env → Prop} {Q : α → St Rep F → Prop} {E : St Rep F → Prop} (h : Weak PE m QE EE)
    (hP : ∀ s, P s → PE s.env) (hQ : ∀ s, P s → ∀ a e, QE a e → Q a { s with env := e })
    (hE : ∀ s, P s → ∀ e, EE e → E { s with env := e }) :
    Weak P (Core.env m : M (St Rep F) α) Q E := by
  intro s hs
  have h' := h s.env (hP s hs)
  unfold Core.env
  cases hm : m s.env <;> rw [hm] at h' <;> simp only at h' ⊢
  · exact hQ s hs _ _ h'
  · exact hE s hs _ h'

theorem keeps_env {α : Type} {m : M Env α}
    (h : ∀ n, Weak (fun e => e.made = n) m (fun _ e => e.made = n) (fun _ => False)) :
    KeepsSt (Core.env m : M (St Rep F) α) :=
  fun n => Weak.env (h n) (fun _ h => h) (fun _ _ _ _ h => h) (fun _ _ _ h => h)

theorem keeps_mayThrow : Keeps mayThrow := by
  intro n e he
  unfold mayThrow
  by_cases h : e.faults e.tick = true <;> simp [h, he]

theorem keeps_bind {α β : Type} {m : M (St Rep F) α} {f : α → M (St Rep F) β} (h : KeepsSt m)
    (h' : ∀ a, KeepsSt (f a)) : KeepsSt (m >>= f) :=
  fun n => Weak.bind (h n) fun a => h' a n

theorem keeps_pure {α : Type} (a : α) : KeepsSt (pure a : M (St Rep F) α) :=
  fun _ => .ret fun _ h => h

theorem keeps_read : KeepsSt (M.read : M (St Rep F) (St Rep F)) := fun _ => .read fun _ h => h

theorem keeps_undef {α : Type} : KeepsSt (M.undef : M (St Rep F) α) := fun _ => .undef

theorem keeps_update {f : St Rep F → St Rep F} (h : ∀ s, (f s).env.made = s.env.made) :
    KeepsSt (M.update f) := fun _ => .update fun s hs => (h s).trans hs

theorem keeps_scope {α : Type} {m : M (St Rep F) α} {c : M (St Rep F) Unit} (h : KeepsSt m)
    (h' : KeepsSt c) : KeepsSt (M.scope m c) :=
  fun n => Weak.scope (h n) (fun _ => h' n) (fun _ h => h.elim)

theorem keeps_deref : KeepsSt (Core.deref : M (St Rep F) Unit) := by
  refine keeps_bind keeps_read fun s => ?_
  by_cases h : s.inited = true
  · rw [if_pos h]; exact keeps_pure _
  · rw [if_neg h]; exact keeps_undef

theorem keeps_lock : KeepsSt (Core.lock : M (St Rep F) Unit) :=
  keeps_bind keeps_deref fun _ => keeps_update fun _ => rfl

theorem keeps_unlock : KeepsSt (Core.unlock : M (St Rep F) Unit) := by
  refine keeps_bind keeps_read fun s => ?_
  cases s.depth with
  | zero => exact keeps_undef
  | succ n => exact keeps_update fun _ => rfl

theorem keeps_init : KeepsSt (Core.init : M (St Rep F) Unit) := keeps_update fun _ => rfl

theorem keeps_topLocal : KeepsSt (Core.topLocal : M (St Rep F) Rep) := by
  refine keeps_bind keeps_read fun s => ?_
  cases s.locals with
  | nil => exact keeps_undef
  | cons r l => exact keeps_pure _

theorem keeps_entry (Fa : Factory F (Ent Rep)) (h : Nat) : KeepsSt (Core.entry Fa h) := by
  refine keeps_bind keeps_deref fun _ => keeps_bind keeps_read fun s => ?_
  cases Fa.entry s.fac h with
  | none => exact keeps_undef
  | some e => exact keeps_pure _

theorem keeps_setEntry (Fa : Factory F (Ent Rep)) (h : Nat) (e : Ent Rep) :
    KeepsSt (Core.setEntry Fa h e) := keeps_update fun _ => rfl

theorem keeps_addRef (Fa : Factory F (Ent Rep)) (h : Nat) : KeepsSt (Core.addRef Fa h) :=
  keeps_bind (keeps_entry Fa h) fun _ => keeps_bind (keeps_setEntry Fa h _) fun _ => keeps_pure _

theorem keeps_release (Fa : Factory F (Ent Rep)) (h : Nat) : KeepsSt (Core.release Fa h) :=
  keeps_bind (keeps_entry Fa h) fun _ => keeps_bind (keeps_setEntry Fa h _) fun _ => keeps_pure _

theorem keeps_addDeleter (Fa : Factory F (Ent Rep)) (h : Nat) : KeepsSt (Core.addDeleter Fa h) :=
  keeps_bind (keeps_entry Fa h) fun _ => keeps_setEntry Fa h _

theorem keeps_releaseDeleter (Fa : Factory F (Ent Rep)) (h : Nat) :
    KeepsSt (Core.releaseDeleter Fa h) :=
  keeps_bind (keeps_entry Fa h) fun _ => keeps_bind (keeps_setEntry Fa h _) fun _ => keeps_pure _

theorem keeps_handleCtor (Fa : Factory F (Ent Rep)) (trk : Tracking) (h : Nat) :
    KeepsSt (Core.handleCtor Fa trk h) := by
  cases trk with
  | noTracking => exact keeps_pure _
  | refcounted =>
    refine keeps_bind (keeps_addRef Fa h) fun n => ?_
    by_cases hn : (n == 1) = true
    · rw [if_pos hn]; exact keeps_addDeleter Fa h
    · rw [if_neg hn]; exact keeps_pure _

theorem keeps_handleCopy (Fa : Factory F (Ent Rep)) (trk : Tracking) (h : Nat) :
    KeepsSt (Core.handleCopy Fa trk h) := by
  cases trk with
  | noTracking => exact keeps_pure _
  | refcounted => exact keeps_bind (keeps_addRef Fa h) fun n => keeps_pure _

theorem keeps_handleOf (x : Nat) : KeepsSt (Core.handleOf x : M (St Rep F) Nat) := by
  refine keeps_bind keeps_read fun s => ?_
  cases s.objs.lookup x with
  | none => exact keeps_undef
  | some h => exact keeps_pure _

theorem keeps_get {P : Policy K V Rep} (Fa : Factory F (Ent Rep)) (x : Nat) :
    KeepsSt (Core.get P Fa x) := by
  refine keeps_bind (keeps_handleOf x) fun h => keeps_bind (keeps_entry Fa h) fun e =>
    keeps_bind keeps_read fun s => ?_
  cases P.toValue e.rep with
  | none => exact keeps_undef
  | some v => exact keeps_pure _

theorem keeps_getKey {P : Policy K V Rep} (Fa : Factory F (Ent Rep)) (x : Nat) :
    KeepsSt (Core.getKey P Fa x) := by
  refine keeps_bind (keeps_handleOf x) fun h => keeps_bind (keeps_entry Fa h) fun e => ?_
  cases P.toKey e.rep with
  | none => exact keeps_undef
  | some v => exact keeps_pure _

section Tidy
variable {P : Policy K V Rep} (T : P.Tidy)
include T

theorem keeps_facErase (Fa : Factory F (Ent Rep)) (h : Nat) : KeepsSt (Core.facErase P Fa h) :=
  keeps_bind (keeps_entry Fa h) fun _ => keeps_bind (keeps_env (T _)) fun _ =>
    keeps_update fun _ => rfl

theorem keeps_handleDtor (Fa : Factory F (Ent Rep)) (trk : Tracking) (h : Nat) :
    KeepsSt (Core.handleDtor P Fa trk h) := by
  cases trk with
  | noTracking => exact keeps_pure _
  | refcounted =>
    refine keeps_bind (keeps_release Fa h) fun b => ?_
    cases b with
    | false => exact keeps_pure _
    | true =>
      refine keeps_bind keeps_init fun _ => keeps_bind keeps_lock fun _ => keeps_scope ?_ keeps_unlock
      refine keeps_bind (keeps_releaseDeleter Fa h) fun b => ?_
      cases b with
      | false => exact keeps_pure _
      | true => exact keeps_facErase T Fa h

theorem keeps_assignHandle (Fa : Factory F (Ent Rep)) (trk : Tracking) (x h : Nat) :
    KeepsSt (Core.assignHandle P Fa trk x h) :=
  keeps_bind (keeps_handleCopy Fa trk h) fun _ => keeps_bind (keeps_handleOf x) fun _ =>
    keeps_bind (keeps_update fun _ => rfl) fun _ => keeps_handleDtor T Fa trk _

/-- Every operation but construction and assignment from a value constructs nothing. -/
theorem keeps_step (Fa : Factory F (Ent Rep)) (trk : Tracking) (hp : Nat → Nat) (op : Op K V)
    (hop : op.creates = none) : KeepsSt (Core.step P Fa trk hp op) := by
  cases op with
  | init => exact keeps_bind keeps_init fun _ => keeps_pure _
  | make x s => cases hop
  | copy x y =>
    exact keeps_bind (keeps_bind (keeps_handleOf y) fun _ => keeps_bind (keeps_handleCopy Fa trk _)
      fun _ => keeps_update fun _ => rfl) fun _ => keeps_pure _
  | move x y =>
    exact keeps_bind (keeps_bind (keeps_handleOf y) fun _ => keeps_bind (keeps_handleCopy Fa trk _)
      fun _ => keeps_update fun _ => rfl) fun _ => keeps_pure _
  | assign x y =>
    exact keeps_bind (keeps_bind (keeps_handleOf y) fun _ => keeps_assignHandle T Fa trk x _)
      fun _ => keeps_pure _
  | assignVal x s => cases hop
  | swap x y =>
    exact keeps_bind (keeps_bind (keeps_handleOf x) fun _ => keeps_bind (keeps_handleOf y) fun _ =>
      keeps_bind (keeps_update fun _ => rfl) fun _ => keeps_update fun _ => rfl) fun _ => keeps_pure _
  | destroy x =>
    exact keeps_bind (keeps_bind (keeps_handleOf x) fun _ => keeps_bind (keeps_update fun _ => rfl)
      fun _ => keeps_handleDtor T Fa trk _) fun _ => keeps_pure _
  | get x => exact keeps_bind (keeps_get Fa x) fun _ => keeps_pure _
  | getKey x => exact keeps_bind (keeps_getKey Fa x) fun _ => keeps_pure _
  | eq x y =>
    exact keeps_bind (keeps_bind (keeps_get Fa x) fun _ => keeps_bind (keeps_get Fa y) fun _ =>
      keeps_pure _) fun _ => keeps_pure _
  | hash x => exact keeps_bind (keeps_bind (keeps_get Fa x) fun _ => keeps_pure _) fun _ => keeps_pure _

end Tidy

section Lazy
variable (Lz : S.L.Lazy)
include Lz

/-- Popping a local. -/
theorem keeps_pop : KeepsSt (do
    let s ← (M.read : M (St Rep F) (St Rep F))
    match s.locals with
    | [] => M.undef
    | r :: rest => do
      M.update fun s => { s with locals := rest }
      Core.env (S.P.destroy r)) := by
  refine keeps_bind keeps_read fun s => ?_
  cases s.locals with
  | nil => exact keeps_undef
  | cons r l => exact keeps_bind (keeps_update fun _ => rfl) fun _ => keeps_env (Lz.destroy _)

theorem weak_withLocal {α : Type} {r : Rep} {m : M (St Rep F) α} {P P' : St Rep F → Prop} {n : Nat}
    {c : α → Nat}
    (hm : Weak P m (fun a s => s.env.made = n + c a) (fun s => s.env.made = n))
    (hP : ∀ s l, P' s → P { s with locals := l }) :
    Weak P' (Core.withLocal S.P r m) (fun a s => s.env.made = n + c a) (fun s => s.env.made = n) := by
  unfold Core.withLocal
  refine Weak.bind (R := fun _ => P) (.update fun s h => hP s _ h) fun _ => ?_
  refine Weak.scope (R := fun a s => s.env.made = n + c a) (RE := fun s => s.env.made = n) hm ?_ ?_
  · exact fun a => (keeps_pop Lz (n + c a)).conseq (fun _ h => h) (fun _ _ h => h) (fun _ h => h.elim)
  · exact (keeps_pop Lz n).conseq (fun _ h => h) (fun _ _ h => h) (fun _ h => h.elim)

/-- Number of values an insertion that returns `h` constructs, from the contents
`f` before the insertion.  (No code of its own: used in statements and proofs.) -/
def cost (f : F) (h : Nat) : Nat :=
  match S.Fa.entry f h with
  | none => 1
  | some e => if Lz.hasVal e.rep then 0 else 1

/-- What an insertion relies on.  (No code of its own: used in statements and proofs.) -/
structure Ready (f : F) (N n : Nat) (s : St Rep F) : Prop where
  fac : s.fac = f
  next : s.nextId = N
  made : s.env.made = n

omit Lz in
theorem weak_env_ready {α : Type} {m : M Env α} {f : F} {N n : Nat} {Q : α → Prop}
    (h : Weak (fun e => e.made = n) m (fun a e => e.made = n ∧ Q a) (fun e => e.made = n)) :
    Weak (Ready f N n) (Core.env m : M (St Rep F) α) (fun a s => Ready f N n s ∧ Q a)
      (fun s => s.env.made = n) :=
  Weak.env h (fun _ h => h.made) (fun _ h _ _ h' => ⟨⟨h.fac, h.next, h'.1⟩, h'.2⟩) (fun _ _ _ h => h)

theorem weak_makeNode (take : Take) (r : Rep) (n : Nat) :
    Weak (fun e => e.made = n) (Core.makeNode S.P take r) (fun p e => e.made = n ∧ Lz.hasVal p.1 = false)
      (fun e => e.made = n) := by
  cases take with
  | moves => exact (keeps_mayThrow n).bind fun _ => Lz.move r n
  | copies => exact (keeps_mayThrow n).bind fun _ => (Lz.copy r n).bind fun _ => .ret fun _ h => h
  | copiesMoves =>
    refine (Lz.copy r n).bind fun x => Weak.bind (R := fun p e => e.made = n ∧ Lz.hasVal p.1 = false) ?_ fun p =>
      Weak.bind (R := fun _ e => e.made = n ∧ Lz.hasVal p.1 = false) ?_ fun _ => .ret fun _ h => h
    · refine Weak.onExc (RE := fun e => e.made = n) ?_ ?_
      · exact Weak.bind (R := fun _ e => e.made = n)
          ((keeps_mayThrow n).conseq (fun _ h => h.1) (fun _ _ h => h) fun _ h => h) fun _ => Lz.move x n
      · exact (Lz.destroy x n).conseq (fun _ h => h) (fun _ _ h => h) fun _ h => h.elim
    · intro e he
      have := Lz.destroy p.2 n e he.1
      revert this
      cases S.P.destroy p.2 e <;> intro this
      · exact ⟨this, he.2⟩
      · exact this.elim
      · trivial

theorem weak_facInsert {f : F} {N n : Nat} (hf : S.LF.Inv f)
    (hN : ∀ i, (S.Fa.entry f i).isSome → i < N) :
    Weak (Ready f N n) (Core.facInsert S.P S.Fa)
      (fun h s => s.env.made = n ∧ ∀ e, S.Fa.entry s.fac h = some e →
        (if Lz.hasVal e.rep then 0 else 1) = cost Lz f h)
      (fun s => s.env.made = n) := by
  unfold Core.facInsert
  have hd : Weak (Ready f N n) (Core.deref : M (St Rep F) Unit) (fun _ => Ready f N n)
      (fun s => s.env.made = n) := by
    refine Weak.bind (R := fun a s => Ready f N n s) (.read fun _ h => h) fun a => ?_
    by_cases h : a.inited = true
    · rw [if_pos h]; exact .ret fun _ h => h
    · rw [if_neg h]; exact .undef
  refine Weak.bind hd fun _ => ?_
  have ht : Weak (Ready f N n) (Core.topLocal : M (St Rep F) Rep) (fun _ => Ready f N n)
      (fun s => s.env.made = n) := by
    refine Weak.bind (R := fun a s => Ready f N n s) (.read fun _ h => h) fun a => ?_
    cases a.locals with
    | nil => exact .undef
    | cons r l => exact .ret fun _ h => h
  refine Weak.bind ht fun e => ?_
  have hk : Weak (Ready f N n) (Core.keysReadable S.P S.Fa e : M (St Rep F) Unit) (fun _ => Ready f N n)
      (fun s => s.env.made = n) := by
    refine Weak.bind (R := fun a s => Ready f N n s) (.read fun _ h => h) fun a => ?_
    split
    · exact .ret fun _ h => h
    · exact .undef
  refine Weak.bind hk fun _ => ?_
  have hm : Weak (Ready f N n) (Core.env mayThrow : M (St Rep F) Unit)
      (fun _ => Ready f N n) (fun s => s.env.made = n) :=
    (weak_env_ready (Q := fun _ => True) ((keeps_mayThrow n).conseq (fun _ h => h)
      (fun _ _ h => ⟨h, trivial⟩) (fun _ h => h))).conseq (fun _ h => h) (fun _ _ h => h.1) (fun _ h => h)
  refine Weak.bind hm fun _ => ?_
  refine Weak.bind (R := fun a s => (a.fac = f ∧ a.nextId = N) ∧ Ready f N n s)
    (.read fun s h => ⟨⟨h.fac, h.next⟩, h⟩) fun a => Weak.pre fun hn => ?_
  obtain ⟨ha, haN⟩ := hn
  rw [ha]
  have hl := S.LF.lookup_some (f := f) ⟨e, 0, 0⟩
  have hle := fun i => S.LF.lookup_entry (f := f) ⟨e, 0, 0⟩ i hf
  have hli := S.LF.lookup_inv (f := f) ⟨e, 0, 0⟩ hf
  generalize S.Fa.lookup f ⟨e, 0, 0⟩ = p at hl hle hli
  obtain ⟨f', o⟩ := p
  cases o with
  | some i =>
    simp only
    refine Weak.bind (P := Ready f N n) (R := fun _ s => s.fac = f' ∧ s.env.made = n)
      (.update fun s h => ⟨rfl, h.made⟩) fun _ => .ret fun s h => ⟨h.2, fun e' he => ?_⟩
    rw [h.1, hle i] at he
    unfold cost
    rw [he]
  | none =>
    simp only
    refine Weak.bind (P := Ready f N n) (R := fun _ s => Ready f' N n s)
      (.update fun s h => ⟨rfl, h.next, h.made⟩) fun _ => ?_
    refine Weak.bind (weak_env_ready (weak_makeNode Lz S.Fa.take e n)) fun p => ?_
    refine Weak.bind (R := fun _ s => Ready f' N n s ∧ Lz.hasVal p.1 = false)
      (.update fun s h => ⟨⟨h.1.fac, h.1.next, h.1.made⟩, h.2⟩) fun _ => ?_
    refine Weak.bind (R := fun _ s => s.fac = S.Fa.link f' N ⟨p.1, 0, 0⟩ ∧ s.env.made = n ∧
      Lz.hasVal p.1 = false)
      (.update fun s h => ⟨by show S.Fa.link s.fac s.nextId _ = _; rw [h.1.fac, h.1.next], h.1.made, h.2⟩)
      fun _ => .ret fun s h => ⟨h.2.1, fun e' he => ?_⟩
    have hno : S.Fa.entry f' N = none := by
      rw [hle N]
      cases h' : S.Fa.entry f N with
      | none => rfl
      | some x => exact absurd (hN N (by rw [h']; rfl)) (Nat.lt_irrefl _)
    rw [haN, h.1, S.LF.link_entry _ _ _ hli hno, if_pos rfl] at he
    cases he
    unfold cost
    rw [haN, ← hle N, hno]
    simp [h.2.2]

theorem weak_insertLocked {f : F} {N n : Nat} (hf : S.LF.Inv f)
    (hN : ∀ i, (S.Fa.entry f i).isSome → i < N) {src : Src K V} (hs : S.sp.supports src = true) :
    Weak (Ready f N n) (Core.insertLocked S.P S.Fa S.trk src)
      (fun h s => s.env.made = n + cost Lz f h) (fun s => s.env.made = n) := by
  unfold Core.insertLocked
  have hd : Weak (Ready f N n) (Core.lock : M (St Rep F) Unit) (fun _ => Ready f N n)
      (fun s => s.env.made = n) := by
    unfold Core.lock
    refine Weak.bind (R := fun _ s => Ready f N n s) ?_ fun _ =>
      .update fun s h => ⟨h.fac, h.next, h.made⟩
    refine Weak.bind (R := fun a s => Ready f N n s) (.read fun _ h => h) fun a => ?_
    by_cases h : a.inited = true
    · rw [if_pos h]; exact .ret fun _ h => h
    · rw [if_neg h]; exact .undef
  refine Weak.bind hd fun _ => ?_
  refine Weak.scope (R := fun h s => s.env.made = n + cost Lz f h) (RE := fun s => s.env.made = n) ?_
    (fun a => (keeps_unlock (n + cost Lz f a)).conseq (fun _ h => h) (fun _ _ h => h) (fun _ h => h.elim))
    ((keeps_unlock n).conseq (fun _ h => h) (fun _ _ h => h) (fun _ h => h.elim))
  refine Weak.bind (R := fun h s => s.env.made = n + cost Lz f h) ?_ fun h => ?_
  · unfold Core.insertAndVisit
    refine Weak.bind (weak_facInsert Lz hf hN) fun h => ?_
    refine Weak.bind (R := fun _ s => s.env.made = n + cost Lz f h) ?_ fun _ => .ret fun _ h => h
    refine Weak.onExc (RE := fun s => s.env.made = n) ?_
      ((keeps_facErase Lz.destroy S.Fa h n).conseq (fun _ h => h) (fun _ _ h => h) (fun _ h => h.elim))
    unfold Core.visitEntry
    refine Weak.bind (R := fun e s => s.env.made = n ∧ (if Lz.hasVal e.rep then 0 else 1) = cost Lz f h)
      ?_ fun e => ?_
    · unfold Core.entry
      refine Weak.bind (R := fun _ s => s.env.made = n ∧ ∀ e, S.Fa.entry s.fac h = some e →
        (if Lz.hasVal e.rep then 0 else 1) = cost Lz f h) ?_ fun _ => ?_
      · refine Weak.bind (R := fun _ s => s.env.made = n ∧ ∀ e, S.Fa.entry s.fac h = some e →
          (if Lz.hasVal e.rep then 0 else 1) = cost Lz f h) (.read fun _ h => h) fun a => ?_
        by_cases h : a.inited = true
        · rw [if_pos h]; exact .ret fun _ h => h
        · rw [if_neg h]; exact .undef
      · refine Weak.bind (R := fun a s => s.env.made = n ∧ ∀ e, S.Fa.entry a.fac h = some e →
          (if Lz.hasVal e.rep then 0 else 1) = cost Lz f h) (.read fun _ h => h) fun a => ?_
        cases he : S.Fa.entry a.fac h with
        | none => exact .undef
        | some e => exact .ret fun s hs => ⟨hs.1, hs.2 e rfl⟩
    · refine Weak.bind (R := fun _ s => s.env.made = n + cost Lz f h) ?_ fun _ =>
        .update fun _ h => h
      refine Weak.at fun s hc => ?_
      refine Weak.env (Lz.visit src e.rep n hs) (fun s' h => by rw [h]; exact hc.1) ?_ (fun _ _ _ h => h)
      intro s' _ a e' h'
      rw [← hc.2]
      exact h'
  · exact Weak.bind ((keeps_handleCtor S.Fa S.trk h (n + cost Lz f h)).conseq (fun _ h => h)
      (fun _ _ h => h) (fun _ h => h.elim)) fun _ => .ret fun _ h => h

theorem weak_insert {f : F} {N n : Nat} (hf : S.LF.Inv f)
    (hN : ∀ i, (S.Fa.entry f i).isSome → i < N) {src : Src K V} (hs : S.sp.supports src = true) :
    Weak (Ready f N n) (Core.insert S.P S.Fa S.trk src)
      (fun h s => s.env.made = n + cost Lz f h) (fun s => s.env.made = n) := by
  have hof : Weak (Ready f N n) (Core.env (S.P.ofSrc src) : M (St Rep F) Rep)
      (fun _ => Ready f N n) (fun s => s.env.made = n) :=
    (weak_env_ready (Q := fun _ => True) ((Lz.ofSrc src n).conseq (fun _ h => h)
      (fun _ _ h => ⟨h, trivial⟩) (fun _ h => h))).conseq (fun _ h => h) (fun _ _ h => h.1) (fun _ h => h)
  have hin : Weak (Ready f N n) (Core.init : M (St Rep F) Unit) (fun _ => Ready f N n)
      (fun s => s.env.made = n) := .update fun s h => ⟨h.fac, h.next, h.made⟩
  have hst : ∀ r, Weak (Ready f N n) (Core.setTop r : M (St Rep F) Unit) (fun _ => Ready f N n)
      (fun s => s.env.made = n) := fun r => .update fun s h => ⟨h.fac, h.next, h.made⟩
  have hrl : ∀ (s : St Rep F) (l : List Rep), Ready f N n s → Ready f N n { s with locals := l } :=
    fun s l h => ⟨h.fac, h.next, h.made⟩
  have hmv : ∀ r, Weak (Ready f N n) (Core.env (S.P.move r) : M (St Rep F) (Rep × Rep))
      (fun _ => Ready f N n) (fun s => s.env.made = n) := fun r =>
    (weak_env_ready (Lz.move r n)).conseq (fun _ h => h) (fun _ _ h => h.1) (fun _ h => h)
  have hend : ∀ r, Weak (Ready f N n) (Core.withLocal S.P r (Core.insertLocked S.P S.Fa S.trk src))
      (fun h s => s.env.made = n + cost Lz f h) (fun s => s.env.made = n) := fun r =>
    weak_withLocal Lz (weak_insertLocked Lz hf hN hs) hrl
  have hval : Weak (Ready f N n) (do
      Core.init
      let e ← Core.entryOf S.P S.trk src
      Core.withLocal S.P e (Core.insertLocked S.P S.Fa S.trk src))
      (fun h s => s.env.made = n + cost Lz f h) (fun s => s.env.made = n) := by
    refine Weak.bind hin fun _ => Weak.bind (R := fun _ => Ready f N n) ?_ hend
    unfold Core.entryOf
    cases S.trk
    case noTracking => exact hof
    refine Weak.bind hof fun x => ?_
    unfold Core.withLocal
    refine Weak.bind (R := fun _ => Ready f N n) (.update fun s h => hrl s _ h) fun _ => ?_
    refine Weak.scope (R := fun _ => Ready f N n) (RE := fun s => s.env.made = n)
      (Weak.bind (hmv x) fun p => Weak.bind (hst _) fun _ => .ret fun _ h => h) ?_ ?_
    · intro r
      refine Weak.bind (R := fun _ => Ready f N n) (.read fun _ h => h) fun a => ?_
      cases a.locals with
      | nil => exact .undef
      | cons r l =>
        refine Weak.bind (R := fun _ => Ready f N n) (.update fun s h => hrl s _ h) fun _ => ?_
        exact Weak.env (Lz.destroy r n) (fun _ h => h.made) (fun _ h _ _ h' => ⟨h.fac, h.next, h'⟩)
          (fun _ _ _ h => h.elim)
    · exact (keeps_pop Lz n).conseq (fun _ h => h) (fun _ _ h => h) (fun _ h => h.elim)
  cases src with
  | key k =>
    refine Weak.bind hof fun x => weak_withLocal Lz (P := Ready f N n) ?_ hrl
    exact Weak.bind hin fun _ => Weak.bind (hmv x) fun p => Weak.bind (hst _) fun _ => hend _
  | copy v => exact hval
  | move v => exact hval

/-- Values constructed by an operation that creates a flyweight: one if no
equivalent entry was stored, none otherwise, none if it throws. -/
theorem made_step {ext : Nat → Nat} {s : St Rep F} (hI : S.Inv ext s) (hp : Nat → Nat) {op : Op K V} {src : Src K V}
    (hop : op.creates = some src) (hs : S.sp.supports src = true) :
    Weak (· = s) (Core.step S.P S.Fa S.trk hp op)
      (fun _ s' => (s'.env.made = s.env.made ∧ ∃ i b, S.At s i b ∧ S.keq b.key (S.sp.key0 src) = true) ∨
        (s'.env.made = s.env.made + 1 ∧ ∀ i b, S.At s i b → S.keq b.key (S.sp.key0 src) = false))
      (fun s' => s'.env.made = s.env.made) := by
  have hins : Weak (· = s) (Core.insert S.P S.Fa S.trk src)
      (fun _ s' => (s'.env.made = s.env.made ∧ ∃ i b, S.At s i b ∧ S.keq b.key (S.sp.key0 src) = true) ∨
        (s'.env.made = s.env.made + 1 ∧ ∀ i b, S.At s i b → S.keq b.key (S.sp.key0 src) = false))
      (fun s' => s'.env.made = s.env.made) := by
    have hw : Weak (· = s) (Core.insert S.P S.Fa S.trk src) _ _ :=
      (weak_insert Lz (n := s.env.made) hI.fac hI.lt hs).conseq (fun s' h => by subst h; exact ⟨rfl, rfl, rfl⟩)
        (fun _ _ h => h) (fun _ h => h)
    refine ((insert_spec hI hs).weak hw).toWeak.conseq (fun _ h => h) ?_ (fun _ h => h.2)
    rintro h s' ⟨⟨hok, _⟩, hm⟩
    rcases hok.created with ⟨b, hat, hk, _⟩ | ⟨hno, hn, _⟩
    · refine .inl ⟨?_, h, b, hat, hk⟩
      obtain ⟨e, he, hf, _⟩ := hat
      rw [hm]
      simp [cost, he, Lz.full hf]
    · refine .inr ⟨?_, hno⟩
      rw [hm]
      simp [cost, hn]
  have hkeep : ∀ {α : Type} {m : M (St Rep F) α}, KeepsSt m → Weak
      (fun s' => (s'.env.made = s.env.made ∧ ∃ i b, S.At s i b ∧ S.keq b.key (S.sp.key0 src) = true) ∨
        (s'.env.made = s.env.made + 1 ∧ ∀ i b, S.At s i b → S.keq b.key (S.sp.key0 src) = false)) m
      (fun _ s' => (s'.env.made = s.env.made ∧ ∃ i b, S.At s i b ∧ S.keq b.key (S.sp.key0 src) = true) ∨
        (s'.env.made = s.env.made + 1 ∧ ∀ i b, S.At s i b → S.keq b.key (S.sp.key0 src) = false))
      (fun s' => s'.env.made = s.env.made) := by
    intro α m hm s' hs'
    rcases hs' with ⟨h1, h2⟩ | ⟨h1, h2⟩
    · have := hm _ s' h1
      cases hms : m s' <;> rw [hms] at this <;> simp only at this ⊢
      exact .inl ⟨this, h2⟩
    · have := hm _ s' h1
      cases hms : m s' <;> rw [hms] at this <;> simp only at this ⊢
      exact .inr ⟨this, h2⟩
  cases op with
  | make x s' =>
    cases hop
    exact Weak.bind (Weak.bind hins fun _ => hkeep (keeps_update fun _ => rfl)) fun _ => hkeep (keeps_pure _)
  | assignVal x s' =>
    cases hop
    exact Weak.bind (Weak.bind hins fun _ => Weak.bind (hkeep (keeps_assignHandle Lz.destroy S.Fa S.trk x _))
      fun _ => hkeep (keeps_handleDtor Lz.destroy S.Fa S.trk _)) fun _ => hkeep (keeps_pure _)
  | _ => cases hop

end Lazy
end Setup
end Verif

import Verif.CFSeqLib
import Verif.CoreMoves

/-!
# Flyweights with `concurrent_factory`, in detail: values constructed and arguments moved from

A relation between environments that holds across the operations of the policy holds across those of flyweights; and how many values a
creation constructs.
-/

set_option autoImplicit false

namespace Verif.CFSeq
open Verif.CFSpec (Ev LSt)
variable {K V Rep : Type}

/-! ## Relations between environments -/

/-- `R` holds between the environments before and after, whether or not an exception is thrown.  (No code of its own: used in statements and
proofs.) -/
def Thru (R : Env → Env → Prop) {α : Type} (m : M (St Rep) α) : Prop :=
  ∀ s, match m s with
    | .ok _ s' => R s.env s'.env
    | .exc s' => R s.env s'.env
    | .ub => True

namespace Thru
open Moves (ThruE Good Fits)
variable {R : Env → Env → Prop}

theorem env {α : Type} {m : M Env α} (h : ThruE R m) : Thru R (CFSeq.env m : M (St Rep) α) := by
  intro s
  have := h s.env
  unfold CFSeq.env
  cases hm : m s.env <;> rw [hm] at this <;> exact this

theorem undef_ {α : Type} : Thru R (M.undef : M (St Rep) α) := fun _ => trivial

section
variable (G : Good R)
include G

theorem pure_ {α : Type} (a : α) : Thru R (pure a : M (St Rep) α) := fun s => G.refl s.env

theorem bind {α β : Type} {m : M (St Rep) α} {f : α → M (St Rep) β} (h : Thru R m) (hf : ∀ a, Thru R (f a)) : Thru R (m >>= f) := by
  intro s
  have h1 := h s
  show match M.bind m f s with | .ok _ s' => R s.env s'.env | .exc s' => R s.env s'.env | .ub => True
  unfold M.bind
  cases hm : m s with
  | ok a s1 =>
    rw [hm] at h1
    have h2 := hf a s1
    show match f a s1 with | .ok _ s' => R s.env s'.env | .exc s' => R s.env s'.env | .ub => True
    cases hx : f a s1 <;> rw [hx] at h2
    · exact G.trans _ _ _ h1 h2
    · exact G.trans _ _ _ h1 h2
    · trivial
  | exc s1 => rw [hm] at h1; exact h1
  | ub => trivial

theorem update {f : St Rep → St Rep} (h : ∀ s, (f s).env = s.env) : Thru R (M.update f) := by
  intro s
  show R s.env (f s).env
  rw [h]
  exact G.refl _

theorem read_ : Thru R (M.read : M (St Rep) (St Rep)) := fun s => G.refl s.env

theorem scope {α : Type} {m : M (St Rep) α} {c : M (St Rep) Unit} (h : Thru R m) (hc : Thru R c) : Thru R (M.scope m c) := by
  intro s
  have h1 := h s
  unfold M.scope
  cases hm : m s with
  | ok a s1 =>
    rw [hm] at h1
    have h2 := hc s1
    dsimp only
    cases hx : c s1 <;> rw [hx] at h2
    · exact G.trans _ _ _ h1 h2
    · exact G.trans _ _ _ h1 h2
    · trivial
  | exc s1 =>
    rw [hm] at h1
    have h2 := hc s1
    dsimp only
    cases hx : c s1 <;> rw [hx] at h2
    · exact G.trans _ _ _ h1 h2
    · trivial
    · trivial
  | ub => trivial

theorem onExc {α : Type} {m : M (St Rep) α} {c : M (St Rep) Unit} (h : Thru R m) (hc : Thru R c) : Thru R (M.onExc m c) := by
  intro s
  have h1 := h s
  unfold M.onExc
  cases hm : m s with
  | ok a s1 => rw [hm] at h1; exact h1
  | exc s1 =>
    rw [hm] at h1
    have h2 := hc s1
    dsimp only
    cases hx : c s1 <;> rw [hx] at h2
    · exact G.trans _ _ _ h1 h2
    · exact G.trans _ _ _ h1 h2
    · trivial
  | ub => trivial

theorem init : Thru R (CFSeq.init : M (St Rep) Unit) := update G fun _ => rfl

theorem deref : Thru R (CFSeq.deref : M (St Rep) Unit) := by
  refine bind G (read_ G) fun s => ?_
  split
  · exact pure_ G _
  · exact undef_

theorem node (i : Nat) : Thru R (CFSeq.node i : M (St Rep) (Node Rep)) := by
  refine bind G (deref G) fun _ => bind G (read_ G) fun s => ?_
  split
  · exact undef_
  · exact pure_ G _

theorem setNode (i : Nat) (f : Node Rep → Node Rep) : Thru R (CFSeq.setNode i f) := update G fun _ => rfl

theorem handleOf (x : Nat) : Thru R (CFSeq.handleOf x : M (St Rep) Nat) := by
  refine bind G (read_ G) fun s => ?_
  split
  · exact undef_
  · exact pure_ G _

theorem handleCtor (trk : Tracking) (i : Nat) : Thru R (CFSeq.handleCtor trk i : M (St Rep) Unit) := by
  refine bind G (node G i) fun n => ?_
  split
  · cases trk with
    | noTracking => exact pure_ G _
    | refcounted => exact setNode G i _
  · exact undef_

theorem handleCopy (trk : Tracking) (i : Nat) : Thru R (CFSeq.handleCopy trk i : M (St Rep) Unit) :=
  bind G (node G i) fun _ => setNode G i _

theorem handleDtor (trk : Tracking) (i : Nat) : Thru R (CFSeq.handleDtor trk i : M (St Rep) Unit) := by
  refine bind G (node G i) fun _ => ?_
  cases trk with
  | noTracking => exact setNode G i _
  | refcounted => exact bind G (init G) fun _ => bind G (setNode G i _) fun _ => setNode G i _

theorem assignHandle (trk : Tracking) (x h : Nat) : Thru R (CFSeq.assignHandle trk x h : M (St Rep) Unit) :=
  bind G (handleCopy G trk h) fun _ => bind G (handleOf G x) fun _ => bind G (update G fun _ => rfl) fun _ => handleDtor G trk _

theorem get (P : Policy K V Rep) (x : Nat) : Thru R (CFSeq.get P x) := by
  refine bind G (handleOf G x) fun _ => bind G (node G _) fun _ => ?_
  split
  · exact undef_
  · exact pure_ G _

theorem getKey (P : Policy K V Rep) (x : Nat) : Thru R (CFSeq.getKey P x) := by
  refine bind G (handleOf G x) fun _ => bind G (node G _) fun _ => ?_
  split
  · exact undef_
  · exact pure_ G _

variable {P : Policy K V Rep} {src : Option (Src K V)}

theorem visitNode (H : Fits R P src) {s₀ : Src K V} (hs : src = some s₀) (i : Nat) : Thru R (CFSeq.visitNode P s₀ i) :=
  bind G (node G i) fun _ => bind G (env (H.visit s₀ hs _)) fun _ => setNode G i _

theorem emplace (H : Fits R P src) (keq : K → K → Bool) {s₀ : Src K V} (hs : src = some s₀) (t : Rep) : Thru R (CFSeq.emplace P keq s₀ t) := by
  refine bind G (onExc G (bind G (deref G) fun _ => bind G ?_ fun _ => env G.tick) (env (H.destroy _))) fun _ =>
    bind G (read_ G) fun s => ?_
  · refine bind G (read_ G) fun s => ?_
    split
    · exact pure_ G _
    · exact undef_
  · split
    · exact bind G (scope G (visitNode G H hs _) (env (H.destroy _))) fun _ => pure_ G _
    · exact bind G (onExc G (env (Moves.ebind G G.tick fun _ => H.move t)) (env (H.destroy _))) fun p =>
        bind G (fun s => G.refl _) fun i => bind G (scope G (visitNode G H hs _) (env (H.destroy _))) fun _ => pure_ G _

theorem moved (H : Fits R P src) {α : Type} (r : Rep) {m : Rep → M (St Rep) α} (hm : ∀ t, Thru R (m t)) : Thru R (CFSeq.moved P r m) :=
  bind G (onExc G (env (H.move r)) (env (H.destroy r))) fun _ => scope G (hm _) (env (H.destroy _))

theorem entryOf (H : Fits R P src) (trk : Tracking) {s₀ : Src K V} (hs : src = some s₀) : Thru R (CFSeq.entryOf P trk s₀) := by
  cases trk with
  | noTracking => exact env (H.ofSrc s₀ hs)
  | refcounted => exact bind G (env (H.ofSrc s₀ hs)) fun x => moved G H x fun _ => pure_ G _

theorem insert (H : Fits R P src) (keq : K → K → Bool) (trk : Tracking) {s₀ : Src K V} (hs : src = some s₀) :
    Thru R (CFSeq.insert P keq trk s₀) := by
  refine bind G ?_ fun i => bind G (handleCtor G trk i) fun _ => pure_ G _
  have value : Thru R (do CFSeq.init; let e ← CFSeq.entryOf P trk s₀; CFSeq.moved P e fun t => CFSeq.emplace P keq s₀ t) :=
    bind G (init G) fun _ => bind G (entryOf G H trk hs) fun e => moved G H e fun t => emplace G H keq hs t
  cases s₀ with
  | key k =>
    exact bind G (env (H.ofSrc _ hs)) fun x => bind G (init G) fun _ => moved G H x fun e => moved G H e fun t => emplace G H keq hs t
  | copy v => exact value
  | move v => exact value

/-- The relation holds across what the garbage collector does with an element. -/
theorem collect (H : Fits R P src) (i : Nat) : Thru R (CFSeq.collect P i) := by
  refine bind G (read_ G) fun s => ?_
  split
  · exact pure_ G _
  · split
    · exact bind G (env (H.destroy _)) fun _ => update G fun _ => rfl
    · exact pure_ G _

/-- The relation holds across every operation. -/
theorem step (H : Fits R P src) (keq : K → K → Bool) (trk : Tracking) (hp : Nat → Nat) (o : Op K V) (ho : o.creates = src) :
    Thru R (CFSeq.step P keq trk hp o) := by
  cases o with
  | init => exact bind G (init G) fun _ => pure_ G _
  | make x s => exact bind G (bind G (insert G H keq trk ho.symm) fun _ => update G fun _ => rfl) fun _ => pure_ G _
  | copy x y =>
    exact bind G (bind G (handleOf G y) fun _ => bind G (handleCopy G trk _) fun _ => update G fun _ => rfl) fun _ => pure_ G _
  | move x y =>
    exact bind G (bind G (handleOf G y) fun _ => bind G (handleCopy G trk _) fun _ => update G fun _ => rfl) fun _ => pure_ G _
  | assign x y => exact bind G (bind G (handleOf G y) fun _ => assignHandle G trk x _) fun _ => pure_ G _
  | assignVal x s =>
    exact bind G (bind G (insert G H keq trk ho.symm) fun _ => bind G (assignHandle G trk x _) fun _ => handleDtor G trk _)
      fun _ => pure_ G _
  | swap x y =>
    exact bind G (bind G (handleOf G x) fun _ => bind G (handleOf G y) fun _ => bind G (update G fun _ => rfl) fun _ => update G fun _ => rfl)
      fun _ => pure_ G _
  | destroy x =>
    exact bind G (bind G (handleOf G x) fun _ => bind G (update G fun _ => rfl) fun _ => handleDtor G trk _) fun _ => pure_ G _
  | get x => exact bind G (get G P x) fun _ => pure_ G _
  | getKey x => exact bind G (getKey G P x) fun _ => pure_ G _
  | eq x y => exact bind G (bind G (get G P x) fun _ => bind G (get G P y) fun _ => pure_ G _) fun _ => pure_ G _
  | hash x => exact bind G (bind G (get G P x) fun _ => pure_ G _) fun _ => pure_ G _

end

/-! ### Plain flyweights move from an rvalue -/

theorem after {α β : Type} {m : M (St Rep) α} {f : α → M (St Rep) β} (hf : ∀ a, Thru Moves.Mono (f a))
    (h : ∀ s a s', m s = .ok a s' → s'.env.srcMoved = true) (s : St Rep) (b : β) (s' : St Rep)
    (hb : (m >>= f) s = .ok b s') : s'.env.srcMoved = true := by
  have hb' : M.bind m f s = .ok b s' := hb
  unfold M.bind at hb'
  cases hm : m s with
  | ok a s1 =>
    rw [hm] at hb'
    have h2 := hf a s1
    rw [show f a s1 = .ok b s' from hb'] at h2
    exact h2 (h _ _ _ hm)
  | exc s1 => rw [hm] at hb'; cases hb'
  | ub => rw [hm] at hb'; cases hb'

theorem later {α β : Type} {m : M (St Rep) α} {f : α → M (St Rep) β} (h : ∀ a s b s', f a s = .ok b s' → s'.env.srcMoved = true)
    (s : St Rep) (b : β) (s' : St Rep) (hb : (m >>= f) s = .ok b s') : s'.env.srcMoved = true := by
  have hb' : M.bind m f s = .ok b s' := hb
  unfold M.bind at hb'
  cases hm : m s with
  | ok a s1 => rw [hm] at hb'; exact h _ _ _ _ hb'
  | exc s1 => rw [hm] at hb'; cases hb'
  | ub => rw [hm] at hb'; cases hb'

theorem plain_insert (u : UserFns V V) (keq : V → V → Bool) (trk : Tracking) (v : V) (s : St (DRep V)) (b : Nat) (s' : St (DRep V))
    (h : CFSeq.insert (DRep.policy u) keq trk (.move v) s = .ok b s') : s'.env.srcMoved = true := by
  have H := Moves.DRep.mono u (some (.move v))
  have G := Moves.good_mono
  have first : ∀ (s : St (DRep V)) a s', CFSeq.env (DRep.ofSrc (.move v)) s = .ok a s' → s'.env.srcMoved = true := by
    intro s a s' h'
    unfold CFSeq.env at h'
    cases hm : DRep.ofSrc (.move v) s.env with
    | ok r e =>
      rw [hm] at h'
      have := Moves.DRep.ofSrc_moves v _ _ _ hm
      cases h'
      exact this
    | exc e => rw [hm] at h'; cases h'
    | ub => rw [hm] at h'; cases h'
  refine after (fun i => bind G (handleCtor G trk i) fun _ => pure_ G _) (fun s a s' h => ?_) s b s' h
  refine later (fun _ s b s' h => ?_) s a s' h
  refine after (fun e => moved G H e fun t => emplace G H keq rfl t) (fun s a s' h => ?_) s b s' h
  cases trk with
  | noTracking => exact first s a s' h
  | refcounted => exact after (fun x => moved G H x fun _ => pure_ G _) first s a s' h

theorem plain_step (u : UserFns V V) (keq : V → V → Bool) (trk : Tracking) (hp : Nat → Nat) (o : Op V V) (v : V)
    (ho : o.creates = some (.move v)) (s : St (DRep V)) (out : Out V V) (s' : St (DRep V))
    (h : CFSeq.step (DRep.policy u) keq trk hp o s = .ok out s') : s'.env.srcMoved = true := by
  have G := Moves.good_mono
  cases o with
  | make x src =>
    cases ho
    refine after (fun _ => pure_ G _) (fun s a s' h => ?_) s out s' h
    refine after (fun y => ?_) (fun s a s' h => plain_insert u keq trk v s a s' h) s a s' h
    exact update G fun _ => rfl
  | assignVal x src =>
    cases ho
    refine after (fun _ => pure_ G _) (fun s a s' h => ?_) s out s' h
    exact after (fun _ => bind G (assignHandle G trk x _) fun _ => handleDtor G trk _)
      (fun s a s' h => plain_insert u keq trk v s a s' h) s a s' h
  | _ => cases ho

end Thru

/-! ### What never throws and constructs nothing -/

/-- Does not throw and constructs no value.  (No code of its own: used in statements and proofs.) -/
def Calm {α : Type} (m : M (St Rep) α) : Prop :=
  ∀ s, match m s with
    | .ok _ s' => s'.env.made = s.env.made
    | .exc _ => False
    | .ub => True

namespace Calm

theorem pure_ {α : Type} (a : α) : Calm (pure a : M (St Rep) α) := fun _ => rfl
theorem undef_ {α : Type} : Calm (M.undef : M (St Rep) α) := fun _ => trivial
theorem read_ : Calm (M.read : M (St Rep) (St Rep)) := fun _ => rfl
theorem update {f : St Rep → St Rep} (h : ∀ s, (f s).env = s.env) : Calm (M.update f) := fun s => congrArg Env.made (h s)

theorem bind {α β : Type} {m : M (St Rep) α} {f : α → M (St Rep) β} (h : Calm m) (hf : ∀ a, Calm (f a)) : Calm (m >>= f) := by
  intro s
  have h1 := h s
  show match M.bind m f s with | .ok _ s' => s'.env.made = s.env.made | .exc _ => False | .ub => True
  unfold M.bind
  cases hm : m s with
  | ok a s1 =>
    rw [hm] at h1
    have h2 := hf a s1
    show match f a s1 with | .ok _ s' => s'.env.made = s.env.made | .exc _ => False | .ub => True
    cases hx : f a s1 <;> rw [hx] at h2
    · exact Eq.trans h2 h1
    · exact h2
    · trivial
  | exc s1 => rw [hm] at h1; exact h1
  | ub => trivial

theorem init : Calm (CFSeq.init : M (St Rep) Unit) := update fun _ => rfl

theorem node (i : Nat) : Calm (CFSeq.node i : M (St Rep) (Node Rep)) := by
  refine bind (bind read_ fun s => ?_) fun _ => bind read_ fun s => ?_
  · split
    · exact pure_ _
    · exact undef_
  · split
    · exact undef_
    · exact pure_ _

theorem setNode (i : Nat) (f : Node Rep → Node Rep) : Calm (CFSeq.setNode i f) := update fun _ => rfl

theorem newObj (x i : Nat) : Calm (CFSeq.newObj x i : M (St Rep) Unit) := update fun _ => rfl

theorem handleOf (x : Nat) : Calm (CFSeq.handleOf x : M (St Rep) Nat) := by
  refine bind read_ fun s => ?_
  split
  · exact undef_
  · exact pure_ _

theorem handleCtor (trk : Tracking) (i : Nat) : Calm (CFSeq.handleCtor trk i : M (St Rep) Unit) := by
  refine bind (node i) fun n => ?_
  split
  · cases trk with
    | noTracking => exact pure_ _
    | refcounted => exact setNode i _
  · exact undef_

theorem handleCopy (trk : Tracking) (i : Nat) : Calm (CFSeq.handleCopy trk i : M (St Rep) Unit) := bind (node i) fun _ => setNode i _

theorem handleDtor (trk : Tracking) (i : Nat) : Calm (CFSeq.handleDtor trk i : M (St Rep) Unit) := by
  refine bind (node i) fun _ => ?_
  cases trk with
  | noTracking => exact setNode i _
  | refcounted => exact bind init fun _ => bind (setNode i _) fun _ => setNode i _

theorem assignHandle (trk : Tracking) (x h : Nat) : Calm (CFSeq.assignHandle trk x h : M (St Rep) Unit) :=
  bind (handleCopy trk h) fun _ => bind (handleOf x) fun _ => bind (update fun _ => rfl) fun _ => handleDtor trk _

/-- What follows a creation. -/
theorem weak {α : Type} {m : M (St Rep) α} (h : Calm m) {Q E : St Rep → Prop} (hQ : ∀ s s' : St Rep, s'.env.made = s.env.made → Q s → Q s') :
    Weak Q m (fun _ => Q) E := by
  intro s hs
  have := h s
  cases hm : m s <;> rw [hm] at this
  · exact hQ _ _ this hs
  · exact this.elim
  · trivial

end Calm

/-! ## Number of values constructed -/

section
variable {P : Policy K V Rep} {sp : SrcSpec K V} {L : P.Lawful sp} {X : L.Leaves} {keq : K → K → Bool} {ext : Nat → Nat} {src : Src K V}
  {s : St Rep} {n : Nat}

/-- Nothing in the container has changed yet and no value has been constructed.  (No code of its own: used in statements and proofs.) -/
def Still (s : St Rep) (s' : St Rep) : Prop := s'.cont = s.cont ∧ s'.env.made = s.env.made

/-- No value has been constructed.  (No code of its own: used in statements and proofs.) -/
def NoneMade (s : St Rep) (s' : St Rep) : Prop := s'.env.made = s.env.made

/-- A value has been constructed unless the container had one with a key equivalent to that of `src`.  (No code of its own: used in statements
and proofs.) -/
def Cost (Lz : L.Lazy) (keq : K → K → Bool) (src : Src K V) (s : St Rep) (s' : St Rep) : Prop :=
  (s'.env.made = s.env.made ∧ ∃ m ∈ s.cont, Lz.hasVal m.rep = true ∧ ∃ l, P.toKey m.rep = some l ∧ keq l (sp.key0 src) = true) ∨
  (s'.env.made = s.env.made + 1 ∧ ∀ m ∈ s.cont, Lz.hasVal m.rep = true → ∀ l, P.toKey m.rep = some l → keq l (sp.key0 src) = false)

/-- A property of the number of values constructed.  (No code of its own: used in statements and proofs.) -/
def OfMade (Q : St Rep → Prop) : Prop := ∀ s s' : St Rep, s'.env.made = s.env.made → Q s → Q s'

theorem OfMade.none : OfMade (NoneMade s) := fun _ _ h h' => h.trans h'

theorem OfMade.cost (Lz : L.Lazy) : OfMade (Cost Lz keq src s) := by
  intro s1 s2 h h'
  unfold Cost at *
  rwa [h]

theorem destroy_weak (Lz : L.Lazy) (r : Rep) {Q E : St Rep → Prop} (hQ : OfMade Q) : Weak Q (env (P.destroy r)) (fun _ => Q) E := by
  intro s1 h1
  have := Lz.destroy r s1.env.made s1.env rfl
  unfold env
  cases hm : P.destroy r s1.env with
  | ok a e => rw [hm] at this; exact hQ s1 _ this h1
  | exc e => rw [hm] at this; exact this.elim
  | ub => trivial

theorem env_weak {α : Type} {m : M Env α} {Q : α → Prop} (hm : ∀ e, Weak (· = e) m (fun a e' => e'.made = e.made ∧ Q a) (fun e' => e'.made = e.made)) :
    Weak (Still s) (env m) (fun a s' => Q a ∧ Still s s') (NoneMade s) := by
  intro s1 ⟨h1, h2⟩
  have := hm s1.env s1.env rfl
  unfold env
  cases he : m s1.env with
  | ok a e => rw [he] at this; exact ⟨this.2, h1, this.1.trans h2⟩
  | exc e => rw [he] at this; exact Eq.trans this h2
  | ub => trivial

theorem env_keeps {α : Type} {m : M Env α} (hm : Keeps m) : Weak (Still s) (env m) (fun _ => Still s) (NoneMade s) :=
  (env_weak (Q := fun _ => True) fun e => by
    intro e1 h1
    subst h1
    have := hm e1.made e1 rfl
    cases he : m e1 <;> rw [he] at this <;> simp_all).conseq (fun _ h => h) (fun _ _ h => h.2) (fun _ h => h)

theorem move_weak (Lz : L.Lazy) {r : Rep} (hr : L.Fresh src r) (e : Env) :
    Weak (· = e) (P.move r) (fun p e' => e'.made = e.made ∧ L.Fresh src p.1 ∧ Lz.hasVal p.1 = false) (fun e' => e'.made = e.made) := by
  intro e1 h1
  subst h1
  have h2 := L.move src r e1 hr e1 rfl
  have h3 := Lz.move r e1.made e1 rfl
  cases he : P.move r e1 <;> rw [he] at h2 h3
  · exact ⟨h3.1, h2.1, h3.2⟩
  · exact h3
  · trivial

theorem ofSrc_weak (Lz : L.Lazy) (hs : sp.supports src = true) (e : Env) :
    Weak (· = e) (P.ofSrc src) (fun r e' => e'.made = e.made ∧ L.Fresh src r) (fun e' => e'.made = e.made) := by
  intro e1 h1
  subst h1
  have h2 := L.ofSrc src e1 hs e1 rfl
  have h3 := Lz.ofSrc src e1.made e1 rfl
  cases he : P.ofSrc src e1 <;> rw [he] at h2 h3
  · exact ⟨h3, h2.1⟩
  · exact h3
  · trivial

theorem moved_weak (Lz : L.Lazy) {α : Type} {r : Rep} {m : Rep → M (St Rep) α} (hr : L.Fresh src r) {Q : α → St Rep → Prop}
    (hQ : ∀ a s1 e, Q a s1 → e.made = s1.env.made → Q a { s1 with env := e })
    (hm : ∀ t, L.Fresh src t → Weak (Still s) (m t) Q (NoneMade s)) : Weak (Still s) (moved P r m) Q (NoneMade s) := by
  unfold moved
  refine Weak.bind (R := fun p s1 => L.Fresh src p.1 ∧ Still s s1) ?_ fun p => Weak.pre fun hp => ?_
  · refine Weak.onExc (RE := NoneMade s) ?_ (destroy_weak Lz r .none)
    exact (env_weak (Q := fun p : Rep × Rep => L.Fresh src p.1) fun e => (move_weak Lz hr e).conseq (fun _ h => h)
      (fun _ _ h => ⟨h.1, h.2.1⟩) (fun _ h => h))
  · refine Weak.scope (hm _ hp) (fun a => ?_) (destroy_weak Lz _ .none)
    intro s1 h1
    have := Lz.destroy p.2 s1.env.made s1.env rfl
    unfold env
    cases hd : P.destroy p.2 s1.env with
    | ok x e => rw [hd] at this; exact hQ _ _ _ h1 this
    | exc e => rw [hd] at this; exact this.elim
    | ub => trivial

/-- Visiting element `m`. -/
theorem visit_weak (Lz : L.Lazy) (hs : sp.supports src = true) {i : Nat} {m : Node Rep} {s1 : St Rep} (hf : s1.cont.find? (fun m => m.id == i) = some m) :
    Weak (· = s1) (visitNode P src i) (fun _ s2 => s2.env.made = s1.env.made + if Lz.hasVal m.rep then 0 else 1) (NoneMade s1) := by
  intro s2 h2
  subst h2
  by_cases hi : s2.inited = true
  · rw [visitNode_eq hi hf]
    have := Lz.visit src m.rep s2.env.made hs s2.env rfl
    cases hv : P.visit src m.rep s2.env with
    | ok r e => rw [hv] at this; exact this
    | exc e => rw [hv] at this; exact this
    | ub => trivial
  · have hn : visitNode P src i s2 = .ub := by simp [visitNode, node, deref, bind, M.bind, M.read, hi, M.undef]
    rw [hn]
    trivial

theorem emplace_weak (LS : sp.Lawful keq) (Lz : L.Lazy) (hs : sp.supports src = true) (hI : Inv X keq ext s)
    {t : Rep} (ht : L.Fresh src t) : Weak (Still s) (emplace P keq src t) (fun _ => Cost Lz keq src s) (NoneMade s) := by
  have hk := L.fresh_key ht
  unfold emplace
  have tick : Weak (Still s) (env mayThrow : M (St Rep) Unit) (fun _ => Still s) (NoneMade s) := env_keeps Setup.keeps_mayThrow
  refine Weak.bind (R := fun _ => Still s) ?_ fun _ => ?_
  · refine Weak.onExc (RE := NoneMade s) ?_ (destroy_weak Lz t .none)
    refine Weak.bind (R := fun _ => Still s) ?_ fun _ => Weak.bind (R := fun _ => Still s) ?_ fun _ => tick
    · refine Weak.bind (R := fun _ => Still s) (.read fun _ h => h) fun a => ?_
      split
      · exact .ret fun _ h => h
      · exact .undef
    · refine Weak.bind (R := fun _ => Still s) (.read fun _ h => h) fun a => ?_
      split
      · exact .ret fun _ h => h
      · exact .undef
  refine Weak.bind (R := fun a s1 => a = s1 ∧ Still s s1) (.read fun s1 h => ⟨rfl, h⟩) fun a => ?_
  refine Weak.at fun s1 ⟨e, h1⟩ => ?_
  subst e
  cases hf : find P keq a t with
  | some m =>
    obtain ⟨hm, l, hl, hq⟩ := find_some hk hf
    rw [h1.1] at hm
    have hfi : a.cont.find? (fun m' => m'.id == m.id) = some m := by rw [h1.1]; exact find_id hI.ids hm rfl
    refine Weak.bind (R := fun _ => Cost Lz keq src s) (Weak.scope (R := fun _ => Cost Lz keq src s) (RE := NoneMade s) ?_ (fun _ => destroy_weak Lz _ (.cost Lz))
      (destroy_weak Lz _ .none)) fun _ => .ret fun _ h => h
    refine (visit_weak Lz hs hfi).conseq (fun _ h => h) (fun _ s2 h => ?_) (fun s2 h => Eq.trans h h1.2)
    rw [h1.2] at h
    by_cases hv : Lz.hasVal m.rep = true
    · rw [if_pos hv] at h
      exact .inl ⟨h, m, hm, hv, l, hl, hq⟩
    · rw [if_neg hv] at h
      refine .inr ⟨h, fun m' hm' hv' l' hl' => ?_⟩
      have hne : m'.id ≠ m.id := fun e => hv (by rw [← uniq hI.ids hm' hm e]; exact hv')
      have := hI.keys m' hm' m hm hne l' l hl' hl
      cases hc : keq l' (sp.key0 src) with
      | false => rfl
      | true =>
        rw [LS.trans _ _ _ hc (LS.symm _ _ hq)] at this
        cases this
  | none =>
    have hno : ∀ m ∈ s.cont, ∀ l, P.toKey m.rep = some l → keq l (sp.key0 src) = false := by
      intro m hm l hl
      exact find_none hk hf (by rw [h1.1]; exact hm) hl
    refine Weak.bind (R := fun p s2 => (L.Fresh src p.1 ∧ Lz.hasVal p.1 = false) ∧ Still s s2) ?_ fun p => Weak.pre fun ⟨_, hp⟩ => ?_
    · refine Weak.onExc (RE := NoneMade s) ?_ (destroy_weak Lz t .none)
      intro s2 h2'
      subst h2'
      have hm : Weak (· = s2.env) (do mayThrow; P.move t) (fun p e' => e'.made = s2.env.made ∧ L.Fresh src p.1 ∧ Lz.hasVal p.1 = false)
          (fun e' => e'.made = s2.env.made) := by
        refine Weak.bind (R := fun _ e' => e'.made = s2.env.made) ?_ fun _ => Weak.at fun e he => (move_weak Lz ht e).conseq (fun _ h => h)
          (fun _ _ h => ⟨h.1.trans he, h.2⟩) (fun _ h => h.trans he)
        intro e he
        subst he
        exact Setup.keeps_mayThrow s2.env.made s2.env rfl
      have := hm s2.env rfl
      unfold env
      cases he : (do mayThrow; P.move t : M Env (Rep × Rep)) s2.env with
      | ok p e => rw [he] at this; exact ⟨this.2, h1.1, this.1.trans h1.2⟩
      | exc e => rw [he] at this; exact Eq.trans this h1.2
      | ub => trivial
    · refine Weak.at fun s2 g1 => ?_
      refine Weak.bind (R := fun i s3 => s3.env.made = s.env.made ∧ ∃ m, s3.cont.find? (fun m => m.id == i) = some m ∧ m.rep = p.1) ?_ fun i => ?_
      · intro s3 h3
        subst h3
        exact ⟨g1.2, ⟨s3.nextId, s3.alloc s3.nextId (s3.cont.map Node.addr), p.1, 0, 0, 0⟩, by simp, rfl⟩
      · refine Weak.at fun s3 ⟨g3, m, g4, g5⟩ => ?_
        refine Weak.bind (R := fun _ => Cost Lz keq src s) (Weak.scope (R := fun _ => Cost Lz keq src s) (RE := NoneMade s) ?_ (fun _ => destroy_weak Lz _ (.cost Lz))
          (destroy_weak Lz _ .none)) fun _ => .ret fun _ h => h
        refine (visit_weak Lz hs g4).conseq (fun _ h => h) (fun _ s4 h => ?_) (fun s4 h => Eq.trans h g3)
        rw [g3, g5, hp] at h
        exact .inr ⟨h, fun m hm _ l hl => hno m hm l hl⟩

theorem insert_weak (LS : sp.Lawful keq) (Lz : L.Lazy) (trk : Tracking) (hs : sp.supports src = true) (hI : Inv X keq ext s) :
    Weak (· = s) (insert P keq trk src) (fun _ => Cost Lz keq src s) (NoneMade s) := by
  have hQ : ∀ (a : Nat) (s1 : St Rep) (e : Env), Cost Lz keq src s s1 → e.made = s1.env.made → Cost Lz keq src s { s1 with env := e } :=
    fun _ s1 e h he => OfMade.cost Lz s1 _ he h
  have one : ∀ {t : Rep}, L.Fresh src t → Weak (Still s) (moved P t fun t => emplace P keq src t) (fun _ => Cost Lz keq src s) (NoneMade s) :=
    fun ht => moved_weak Lz ht hQ fun _ h => emplace_weak LS Lz hs hI h
  have ini : Weak (Still s) (init : M (St Rep) Unit) (fun _ => Still s) (NoneMade s) := .update fun _ h => h
  have of : Weak (Still s) (env (P.ofSrc src)) (fun r s1 => L.Fresh src r ∧ Still s s1) (NoneMade s) := env_weak fun e => ofSrc_weak Lz hs e
  have value : Weak (Still s) (do init; let e ← entryOf P trk src; moved P e fun t => emplace P keq src t) (fun _ => Cost Lz keq src s) (NoneMade s) := by
    refine ini.bind fun _ => Weak.bind (R := fun r s1 => L.Fresh src r ∧ Still s s1) ?_ fun e => Weak.pre fun he => one he
    cases trk with
    | noTracking => exact of
    | refcounted =>
      refine of.bind fun x => Weak.pre fun hx => ?_
      exact moved_weak (Q := fun r s1 => L.Fresh src r ∧ Still s s1) Lz hx (fun _ _ _ h he => ⟨h.1, h.2.1, he.trans h.2.2⟩)
        fun t ht => .ret fun _ h => ⟨ht, h⟩
  unfold insert
  refine Weak.bind (R := fun _ => Cost Lz keq src s) (Weak.conseq (P := Still s) (Q := fun _ => Cost Lz keq src s) (E := NoneMade s) ?_
    (fun s1 h => by subst h; exact ⟨rfl, rfl⟩) (fun _ _ h => h) (fun _ h => h)) fun i => ?_
  · cases src with
    | key k =>
      refine of.bind fun x => Weak.pre fun hx => ini.bind fun _ => ?_
      exact moved_weak Lz hx hQ fun _ h => one h
    | copy v => exact value
    | move v => exact value
  · refine Weak.bind (R := fun _ => Cost Lz keq src s) ?_ fun _ => .ret fun _ h => h
    exact (Calm.handleCtor trk i).weak (OfMade.cost Lz)

/-- Number of values constructed by a creation or assignment. -/
theorem step_made (LS : sp.Lawful keq) (Lz : L.Lazy) (trk : Tracking) (hp : Nat → Nat) (hs : sp.supports src = true) (hI : Inv X keq ext s)
    {o : Op K V} (ho : o.creates = some src) : Weak (· = s) (step P keq trk hp o) (fun _ => Cost Lz keq src s) (NoneMade s) := by
  have hi := insert_weak (X := X) LS Lz trk hs hI
  cases o with
  | make x src' =>
    cases ho
    refine Weak.bind (R := fun _ => Cost Lz keq src s) (hi.bind fun i => ?_) fun _ => .ret fun _ h => h
    exact (Calm.newObj x i).weak (OfMade.cost Lz)
  | assignVal x src' =>
    cases ho
    refine Weak.bind (R := fun _ => Cost Lz keq src s) (hi.bind fun i => ?_) fun _ => .ret fun _ h => h
    exact (Calm.bind (Calm.assignHandle trk x i) fun _ => Calm.handleDtor trk i).weak (OfMade.cost Lz)
  | _ => cases ho

/-- The same, in terms of what the container holds. -/
theorem step_at (LS : sp.Lawful keq) (Lz : L.Lazy) (hX : ∀ k r, X.Left k r → Lz.hasVal r = false) (trk : Tracking) (hp : Nat → Nat)
    (hs : sp.supports src = true) (hI : Inv X keq ext s) {o : Op K V} (ho : o.creates = some src) :
    Weak (· = s) (step P keq trk hp o) (fun _ s' =>
      (s'.env.made = s.env.made ∧ ∃ i b, At L s i b ∧ keq b.key (sp.key0 src) = true) ∨
      (s'.env.made = s.env.made + 1 ∧ ∀ i b, At L s i b → keq b.key (sp.key0 src) = false)) (NoneMade s) := by
  refine (step_made (X := X) LS Lz trk hp hs hI ho).conseq (fun _ h => h) (fun _ s' h => ?_) (fun _ h => h)
  rcases h with ⟨h1, m, hm, hv, l, hl, hq⟩ | ⟨h1, h2⟩
  · refine .inl ⟨h1, m.id, ?_⟩
    rcases hI.good m hm with ⟨k, v, hF⟩ | ⟨_, k, hL⟩
    · have := (L.full_key hF).symm.trans hl
      cases this
      exact ⟨⟨m.addr, l, v⟩, ⟨m, hm, rfl, rfl, hF⟩, hq⟩
    · rw [hX k _ hL] at hv
      cases hv
  · refine .inr ⟨h1, fun i b hb => ?_⟩
    obtain ⟨m, hm, _, _, hF⟩ := hb
    exact h2 m hm (Lz.full hF) _ (L.full_key hF)

end

/-! ## History -/

/-- The operations among the events.  (No code of its own: used in statements and proofs.) -/
def opsOf : List (Ev K V) → List (Op K V)
  | [] => []
  | .op o :: evs => o :: opsOf evs
  | .collect _ :: evs => opsOf evs

section
variable {keq : K → K → Bool} {sp : SrcSpec K V} {hp : Nat → Nat}

/-- Whatever is available has been asked for with an equivalent key. -/
theorem asked_of_run (LS : sp.Lawful keq) (hsup : ∀ s k, sp.supports s = true → sp.supports (CFSpec.on s k) = true)
    (hk0 : ∀ s k, sp.key0 (CFSpec.on s k) = k ∨ sp.key0 (CFSpec.on s k) = sp.key0 s) {t t' : LSt K V} {evs : List (Ev K V)}
    {outs : List (Out K V)} (hr : CFSpec.Run keq sp hp t evs outs t') : ∀ A : List K, CFSpec.Ok keq sp t →
      (∀ b, t.pool b → ∃ k ∈ A, keq b.key k = true) → ∀ b, t'.pool b → ∃ k, (k ∈ A ∨ k ∈ asked sp (opsOf evs) outs) ∧ keq b.key k = true := by
  have create : ∀ {t : LSt K V} {src : Src K V} {b : Bind K V} {pool' : Bind K V → Prop} {A : List K}, CFSpec.Ok keq sp t → sp.supports src = true →
      (∀ b, t.pool b → ∃ k ∈ A, keq b.key k = true) → CFSpec.Create keq sp t src b pool' → ∀ c, pool' c → ∃ k ∈ sp.key0 src :: A, keq c.key k = true := by
    intro t src b pool' A hO hs hA hc c hc'
    obtain ⟨_, h1, _⟩ := hO.create LS hsup hk0 hs hc (fun _ => False)
    cases hc with
    | share _ _ _ _ h3 =>
      obtain ⟨k, hk, e⟩ := hA c ((h3 c).1 hc')
      exact ⟨k, .tail _ hk, e⟩
    | fresh a src' _ _ _ _ h4 =>
      rcases (h4 c).1 hc' with h | rfl
      · obtain ⟨k, hk, e⟩ := hA c h
        exact ⟨k, .tail _ hk, e⟩
      · exact ⟨_, .head _, h1⟩
  induction hr with
  | nil => exact fun A _ hA b hb => (hA b hb).imp fun k h => ⟨.inl h.1, h.2⟩
  | @step t o out t1 evs outs t2 hv hs hr ih =>
    intro A hO hA b hb
    have hO1 := hO.step LS hsup hk0 hv hs
    have same : (∀ c, t1.pool c → t.pool c) → asked sp (opsOf evs) outs ⊆ asked sp (opsOf (.op o :: evs)) (out :: outs) →
        ∃ k, (k ∈ A ∨ k ∈ asked sp (opsOf (.op o :: evs)) (out :: outs)) ∧ keq b.key k = true := by
      intro h1 h2
      obtain ⟨k, h3, h4⟩ := ih A hO1 (fun c hc => hA c (h1 c hc)) b hb
      exact ⟨k, h3.imp id fun h => h2 h, h4⟩
    cases hs with
    | make x src b' pool' left' hc _ =>
      simp [Op.valid] at hv
      obtain ⟨k, h3, h4⟩ := ih (sp.key0 src :: A) hO1 (create hO hv.2 hA hc) b hb
      refine ⟨k, ?_, h4⟩
      simp only [opsOf, asked, Op.creates, List.mem_cons] at h3 ⊢
      rcases h3 with (h | h) | h
      · exact .inr (.inl h)
      · exact .inl h
      · exact .inr (.inr h)
    | assignVal x src b' pool' left' hc _ =>
      simp [Op.valid] at hv
      obtain ⟨k, h3, h4⟩ := ih (sp.key0 src :: A) hO1 (create hO hv.2 hA hc) b hb
      refine ⟨k, ?_, h4⟩
      simp only [opsOf, asked, Op.creates, List.mem_cons] at h3 ⊢
      rcases h3 with (h | h) | h
      · exact .inr (.inl h)
      · exact .inl h
      · exact .inr (.inr h)
    | makeThrow x src pool' left' h1 _ => exact same (fun c hc => (h1 c).1 hc) fun _ h => h
    | assignValThrow x src pool' left' h1 _ => exact same (fun c hc => (h1 c).1 hc) fun _ h => h
    | _ => exact same (fun _ h => h) fun _ h => h
  | @skip t o evs outs t2 hv hr ih =>
    intro A hO hA b hb
    obtain ⟨k, h3, h4⟩ := ih A hO hA b hb
    refine ⟨k, h3.imp id fun h => ?_, h4⟩
    simp only [opsOf, asked]
    cases o.creates <;> exact h
  | @collect t i t1 evs outs t2 hc hr ih =>
    intro A hO hA b hb
    exact ih A (hO.collect hc) (fun c h => hA c (hc.pool c h)) b hb

end
end Verif.CFSeq

import Verif.CoreLazy

/-!
# What the core does to the objects of the user

A relation between environments that holds across the operations of the policy holds
across the operations of the core.
-/

set_option autoImplicit false

namespace Verif
namespace Moves
variable {K V Rep F : Type}

/-- `R` holds between the environments before and after, whether or not an exception is thrown.
(No code of its own: used in statements and proofs.) -/
def Thru (R : Env → Env → Prop) {α : Type} (m : M (St Rep F) α) : Prop :=
  ∀ s, match m s with
    | .ok _ s' => R s.env s'.env
    | .exc s' => R s.env s'.env
    | .ub => True

/-- The same for the operations of policies.  (No code of its own: used in statements and
proofs.) -/
def ThruE (R : Env → Env → Prop) {α : Type} (m : M Env α) : Prop :=
  ∀ e, match m e with
    | .ok _ e' => R e e'
    | .exc e' => R e e'
    | .ub => True

/-- What is required of the relation.  (No code of its own: used in statements and proofs.) -/
structure Good (R : Env → Env → Prop) : Prop where
  refl : ∀ e, R e e
  trans : ∀ e e' e'', R e e' → R e' e'' → R e e''
  tick : ThruE R mayThrow

/-- What is required of the policy for operations with source `src`.  (No code of its own: used
in statements and proofs.) -/
structure Fits (R : Env → Env → Prop) (P : Policy K V Rep) (src : Option (Src K V)) : Prop where
  ofSrc : ∀ s, src = some s → ThruE R (P.ofSrc s)
  copy : ∀ r, ThruE R (P.copy r)
  move : ∀ r, ThruE R (P.move r)
  destroy : ∀ r, ThruE R (P.destroy r)
  visit : ∀ s, src = some s → ∀ r, ThruE R (P.visit s r)

/-- The same, for factories whose nodes take entries in a given way.  (No code of its own: used
in statements and proofs.) -/
structure FitsT (R : Env → Env → Prop) (P : Policy K V Rep) (take : Take) (src : Option (Src K V)) : Prop where
  ofSrc : ∀ s, src = some s → ThruE R (P.ofSrc s)
  move : ∀ s, src = some s → ∀ r, ThruE R (P.move r)
  node : ∀ s, src = some s → ∀ r, ThruE R (Core.makeNode P take r)
  destroy : ∀ r, ThruE R (P.destroy r)
  visit : ∀ s, src = some s → ∀ r, ThruE R (P.visit s r)

variable {R : Env → Env → Prop}

theorem env {α : Type} {m : M Env α} (h : ThruE R m) : Thru R (Core.env m : M (St Rep F) α) := by
  intro s
  have := h s.env
  unfold Core.env
  cases hm : m s.env <;> rw [hm] at this <;> exact this

theorem ebind {α β : Type} (G : Good R) {m : M Env α} {f : α → M Env β} (h : ThruE R m) (hf : ∀ a, ThruE R (f a)) :
    ThruE R (m >>= f) := by
  intro s
  have h1 := h s
  show match M.bind m f s with | .ok _ s' => R s s' | .exc s' => R s s' | .ub => True
  unfold M.bind
  cases hm : m s with
  | ok a s1 =>
    rw [hm] at h1
    have h2 := hf a s1
    show match f a s1 with | .ok _ s' => R s s' | .exc s' => R s s' | .ub => True
    cases hx : f a s1 <;> rw [hx] at h2
    · exact G.trans _ _ _ h1 h2
    · exact G.trans _ _ _ h1 h2
    · trivial
  | exc s1 => rw [hm] at h1; exact h1
  | ub => trivial

theorem epure {α : Type} (G : Good R) (a : α) : ThruE R (pure a : M Env α) := fun e => G.refl e

theorem eundef {α : Type} : ThruE R (M.undef : M Env α) := fun _ => trivial

theorem eupdate {f : Env → Env} (h : ∀ e, R e (f e)) : ThruE R (M.update f) := fun e => h e

theorem eonExc (G : Good R) {α : Type} {m : M Env α} {c : M Env Unit} (h : ThruE R m) (hc : ThruE R c) :
    ThruE R (M.onExc m c) := by
  intro s
  have h1 := h s
  unfold M.onExc
  cases hm : m s with
  | ok a s1 => rw [hm] at h1; exact h1
  | exc s1 =>
    rw [hm] at h1
    have h2 := hc s1
    dsimp only
    cases hx : c s1 <;> rw [hx] at h2
    · exact G.trans _ _ _ h1 h2
    · exact G.trans _ _ _ h1 h2
    · trivial
  | ub => trivial

theorem makeNode (G : Good R) {P : Policy K V Rep} {src : Option (Src K V)} (H : Fits R P src) (take : Take) (r : Rep) :
    ThruE R (Core.makeNode P take r) := by
  cases take with
  | moves => exact ebind G G.tick fun _ => H.move r
  | copies => exact ebind G G.tick fun _ => ebind G (H.copy r) fun _ => epure G _
  | copiesMoves =>
    exact ebind G (H.copy r) fun x => ebind G (eonExc G (ebind G G.tick fun _ => H.move x) (H.destroy x)) fun p =>
      ebind G (H.destroy p.2) fun _ => epure G _

theorem Fits.toT (G : Good R) {P : Policy K V Rep} {src : Option (Src K V)} (H : Fits R P src) {take : Take} :
    FitsT R P take src :=
  ⟨H.ofSrc, fun _ _ => H.move, fun _ _ => makeNode G H _, H.destroy, H.visit⟩

section
variable (G : Good R)
include G

theorem pure_ {α : Type} (a : α) : Thru R (pure a : M (St Rep F) α) := fun s => G.refl s.env

theorem bind {α β : Type} {m : M (St Rep F) α} {f : α → M (St Rep F) β} (h : Thru R m) (hf : ∀ a, Thru R (f a)) :
    Thru R (m >>= f) := by
  intro s
  have h1 := h s
  show match M.bind m f s with | .ok _ s' => R s.env s'.env | .exc s' => R s.env s'.env | .ub => True
  unfold M.bind
  cases hm : m s with
  | ok a s1 =>
    rw [hm] at h1
    have h2 := hf a s1
    show match f a s1 with | .ok _ s' => R s.env s'.env | .exc s' => R s.env s'.env | .ub => True
    cases hx : f a s1 <;> rw [hx] at h2
    · exact G.trans _ _ _ h1 h2
    · exact G.trans _ _ _ h1 h2
    · trivial
  | exc s1 => rw [hm] at h1; exact h1
  | ub => trivial

theorem update {f : St Rep F → St Rep F} (h : ∀ s, (f s).env = s.env) : Thru R (M.update f) := by
  intro s
  show R s.env (f s).env
  rw [h]
  exact G.refl _

theorem read_ : Thru R (M.read : M (St Rep F) (St Rep F)) := fun s => G.refl s.env

theorem scope {α : Type} {m : M (St Rep F) α} {c : M (St Rep F) Unit} (h : Thru R m) (hc : Thru R c) :
    Thru R (M.scope m c) := by
  intro s
  have h1 := h s
  unfold M.scope
  cases hm : m s with
  | ok a s1 =>
    rw [hm] at h1
    have h2 := hc s1
    dsimp only
    cases hx : c s1 <;> rw [hx] at h2
    · exact G.trans _ _ _ h1 h2
    · exact G.trans _ _ _ h1 h2
    · trivial
  | exc s1 =>
    rw [hm] at h1
    have h2 := hc s1
    dsimp only
    cases hx : c s1 <;> rw [hx] at h2
    · exact G.trans _ _ _ h1 h2
    · trivial
    · trivial
  | ub => trivial

theorem onExc {α : Type} {m : M (St Rep F) α} {c : M (St Rep F) Unit} (h : Thru R m) (hc : Thru R c) :
    Thru R (M.onExc m c) := by
  intro s
  have h1 := h s
  unfold M.onExc
  cases hm : m s with
  | ok a s1 => rw [hm] at h1; exact h1
  | exc s1 =>
    rw [hm] at h1
    have h2 := hc s1
    dsimp only
    cases hx : c s1 <;> rw [hx] at h2
    · exact G.trans _ _ _ h1 h2
    · exact G.trans _ _ _ h1 h2
    · trivial
  | ub => trivial

omit G in
theorem undef_ {α : Type} : Thru R (M.undef : M (St Rep F) α) := fun _ => trivial

theorem deref : Thru R (Core.deref : M (St Rep F) Unit) := by
  refine bind G (read_ G) fun s => ?_
  split
  · exact pure_ G _
  · exact undef_

theorem lock : Thru R (Core.lock : M (St Rep F) Unit) := bind G (deref G) fun _ => update G fun _ => rfl

theorem unlock : Thru R (Core.unlock : M (St Rep F) Unit) := by
  refine bind G (read_ G) fun s => ?_
  split
  · exact undef_
  · exact update G fun _ => rfl

theorem init : Thru R (Core.init : M (St Rep F) Unit) := update G fun _ => rfl

theorem topLocal : Thru R (Core.topLocal : M (St Rep F) Rep) := by
  refine bind G (read_ G) fun s => ?_
  split
  · exact undef_
  · exact pure_ G _

theorem setTop (r : Rep) : Thru R (Core.setTop r : M (St Rep F) Unit) := update G fun _ => rfl

theorem entry (Fa : Factory F (Ent Rep)) (h : Nat) : Thru R (Core.entry Fa h) := by
  refine bind G (deref G) fun _ => bind G (read_ G) fun s => ?_
  split
  · exact undef_
  · exact pure_ G _

theorem setEntry (Fa : Factory F (Ent Rep)) (h : Nat) (e : Ent Rep) : Thru R (Core.setEntry Fa h e) :=
  update G fun _ => rfl

theorem addRef (Fa : Factory F (Ent Rep)) (h : Nat) : Thru R (Core.addRef Fa h) :=
  bind G (entry G Fa h) fun _ => bind G (setEntry G Fa h _) fun _ => pure_ G _

theorem release (Fa : Factory F (Ent Rep)) (h : Nat) : Thru R (Core.release Fa h) :=
  bind G (entry G Fa h) fun _ => bind G (setEntry G Fa h _) fun _ => pure_ G _

theorem addDeleter (Fa : Factory F (Ent Rep)) (h : Nat) : Thru R (Core.addDeleter Fa h) :=
  bind G (entry G Fa h) fun _ => setEntry G Fa h _

theorem releaseDeleter (Fa : Factory F (Ent Rep)) (h : Nat) : Thru R (Core.releaseDeleter Fa h) :=
  bind G (entry G Fa h) fun _ => bind G (setEntry G Fa h _) fun _ => pure_ G _

theorem handleCtor (Fa : Factory F (Ent Rep)) (trk : Tracking) (h : Nat) : Thru R (Core.handleCtor Fa trk h) := by
  cases trk with
  | noTracking => exact pure_ G _
  | refcounted =>
    refine bind G (addRef G Fa h) fun n => ?_
    split
    · exact addDeleter G Fa h
    · exact pure_ G _

theorem handleCopy (Fa : Factory F (Ent Rep)) (trk : Tracking) (h : Nat) : Thru R (Core.handleCopy Fa trk h) := by
  cases trk with
  | noTracking => exact pure_ G _
  | refcounted => exact bind G (addRef G Fa h) fun _ => pure_ G _

theorem handleOf (x : Nat) : Thru R (Core.handleOf x : M (St Rep F) Nat) := by
  refine bind G (read_ G) fun s => ?_
  split
  · exact undef_
  · exact pure_ G _

section
variable {P : Policy K V Rep} (hd : ∀ r, ThruE R (P.destroy r))
include hd

theorem withLocal {α : Type} (r : Rep) {m : M (St Rep F) α} (h : Thru R m) : Thru R (Core.withLocal P r m) := by
  refine bind G (update G fun _ => rfl) fun _ => scope G h ?_
  refine bind G (read_ G) fun s => ?_
  split
  · exact undef_
  · exact bind G (update G fun _ => rfl) fun _ => env (hd _)

theorem facErase (Fa : Factory F (Ent Rep)) (h : Nat) : Thru R (Core.facErase P Fa h) :=
  bind G (entry G Fa h) fun _ => bind G (env (hd _)) fun _ => update G fun _ => rfl

theorem handleDtor (Fa : Factory F (Ent Rep)) (trk : Tracking) (h : Nat) : Thru R (Core.handleDtor P Fa trk h) := by
  cases trk with
  | noTracking => exact pure_ G _
  | refcounted =>
    refine bind G (release G Fa h) fun b => ?_
    split
    · refine bind G (init G) fun _ => bind G (lock G) fun _ => scope G ?_ (unlock G)
      refine bind G (releaseDeleter G Fa h) fun b => ?_
      split
      · exact facErase G hd Fa h
      · exact pure_ G _
    · exact pure_ G _

theorem assignHandle (Fa : Factory F (Ent Rep)) (trk : Tracking) (x h : Nat) :
    Thru R (Core.assignHandle P Fa trk x h) :=
  bind G (handleCopy G Fa trk h) fun _ => bind G (handleOf G x) fun _ =>
    bind G (update G fun _ => rfl) fun _ => handleDtor G hd Fa trk _

omit hd in
theorem get (Fa : Factory F (Ent Rep)) (x : Nat) : Thru R (Core.get P Fa x) := by
  refine bind G (handleOf G x) fun _ => bind G (entry G Fa _) fun _ => bind G (read_ G) fun _ => ?_
  split
  · exact undef_
  · exact pure_ G _

end

variable {P : Policy K V Rep} {src : Option (Src K V)}

theorem facInsert (Fa : Factory F (Ent Rep)) {s₀ : Src K V} (hs : src = some s₀) (H : FitsT R P Fa.take src) : Thru R (Core.facInsert P Fa) := by
  refine bind G (deref G) fun _ => bind G (topLocal G) fun e => bind G ?_ fun _ => bind G (env G.tick) fun _ =>
    bind G (read_ G) fun s => ?_
  · refine bind G (read_ G) fun s => ?_
    split
    · exact pure_ G _
    · exact undef_
  · split
    · exact bind G (update G fun _ => rfl) fun _ => pure_ G _
    · exact bind G (update G fun _ => rfl) fun _ => bind G (env (H.node _ hs _)) fun _ =>
        bind G (setTop G _) fun _ => bind G (update G fun _ => rfl) fun _ => pure_ G _

theorem insertLocked (Fa : Factory F (Ent Rep)) (H : FitsT R P Fa.take src) (trk : Tracking) (s : Src K V) (hs : src = some s) :
    Thru R (Core.insertLocked P Fa trk s) := by
  refine bind G (lock G) fun _ => scope G ?_ (unlock G)
  refine bind G ?_ fun _ => bind G (handleCtor G Fa trk _) fun _ => pure_ G _
  refine bind G (facInsert G Fa hs H) fun h => bind G (onExc G ?_ (facErase G H.destroy Fa h)) fun _ => pure_ G _
  exact bind G (entry G Fa h) fun _ => bind G (env (H.visit s hs _)) fun _ => setEntry G Fa h _

theorem insert (Fa : Factory F (Ent Rep)) (H : FitsT R P Fa.take src) (trk : Tracking) (s : Src K V) (hs : src = some s) :
    Thru R (Core.insert P Fa trk s) := by
  have he : ∀ s : Src K V, src = some s → Thru R (Core.entryOf P trk s : M (St Rep F) Rep) := by
    intro s hs
    unfold Core.entryOf
    cases trk with
    | noTracking => exact env (H.ofSrc s hs)
    | refcounted =>
      exact bind G (env (H.ofSrc s hs)) fun x => withLocal G H.destroy x (bind G (env (H.move _ hs _)) fun _ =>
        bind G (setTop G _) fun _ => pure_ G _)
  have h : ∀ s : Src K V, src = some s → Thru R (do
      Core.init
      let e ← Core.entryOf P trk s
      Core.withLocal P e (Core.insertLocked P Fa trk s)) := fun s hs =>
    bind G (init G) fun _ => bind G (he s hs) fun e => withLocal G H.destroy e (insertLocked G Fa H trk s hs)
  cases s with
  | key k =>
    exact bind G (env (H.ofSrc _ hs)) fun x => withLocal G H.destroy x (bind G (init G) fun _ => bind G (env (H.move _ hs _)) fun _ =>
      bind G (setTop G _) fun _ => withLocal G H.destroy _ (insertLocked G Fa H trk _ hs))
  | copy v => exact h _ hs
  | move v => exact h _ hs

/-- The relation holds across every operation. -/
theorem stepT (Fa : Factory F (Ent Rep)) (H : FitsT R P Fa.take src) (trk : Tracking) (hp : Nat → Nat) (op : Op K V)
    (hop : op.creates = src) : Thru R (Core.step P Fa trk hp op) := by
  cases op with
  | init => exact bind G (init G) fun _ => pure_ G _
  | make x s =>
    exact bind G (bind G (insert G Fa H trk s hop.symm) fun _ => update G fun _ => rfl) fun _ => pure_ G _
  | copy x y =>
    exact bind G (bind G (handleOf G y) fun _ => bind G (handleCopy G Fa trk _) fun _ => update G fun _ => rfl)
      fun _ => pure_ G _
  | move x y =>
    exact bind G (bind G (handleOf G y) fun _ => bind G (handleCopy G Fa trk _) fun _ => update G fun _ => rfl)
      fun _ => pure_ G _
  | assign x y =>
    exact bind G (bind G (handleOf G y) fun _ => assignHandle G H.destroy Fa trk x _) fun _ => pure_ G _
  | assignVal x s =>
    exact bind G (bind G (insert G Fa H trk s hop.symm) fun _ => bind G (assignHandle G H.destroy Fa trk x _) fun _ =>
      handleDtor G H.destroy Fa trk _) fun _ => pure_ G _
  | swap x y =>
    exact bind G (bind G (handleOf G x) fun _ => bind G (handleOf G y) fun _ => bind G (update G fun _ => rfl)
      fun _ => update G fun _ => rfl) fun _ => pure_ G _
  | destroy x =>
    exact bind G (bind G (handleOf G x) fun _ => bind G (update G fun _ => rfl) fun _ => handleDtor G H.destroy Fa trk _)
      fun _ => pure_ G _
  | get x => exact bind G (get G Fa x) fun _ => pure_ G _
  | getKey x =>
    refine bind G (bind G (handleOf G x) fun _ => bind G (entry G Fa _) fun _ => ?_) fun _ => pure_ G _
    split
    · exact undef_
    · exact pure_ G _
  | eq x y =>
    exact bind G (bind G (get G Fa x) fun _ => bind G (get G Fa y) fun _ => pure_ G _) fun _ => pure_ G _
  | hash x => exact bind G (bind G (get G Fa x) fun _ => pure_ G _) fun _ => pure_ G _

/-- The relation holds across every operation. -/
theorem step (H : Fits R P src) (Fa : Factory F (Ent Rep)) (trk : Tracking) (hp : Nat → Nat) (op : Op K V)
    (hop : op.creates = src) : Thru R (Core.step P Fa trk hp op) :=
  stepT G Fa (H.toT G) trk hp op hop

end

/-! ## The objects that creations are given -/

/-- `srcMoved` is as before.  (No code of its own: used in statements and proofs.) -/
def Same (e e' : Env) : Prop := e'.srcMoved = e.srcMoved

/-- Moved from exactly if a value has been constructed.  (No code of its own: used in statements
and proofs.) -/
def IffMade (e e' : Env) : Prop :=
  (e'.made = e.made ∧ e'.srcMoved = e.srcMoved) ∨ (e.made < e'.made ∧ e'.srcMoved = true)

/-- Once moved from, always moved from.  (No code of its own: used in statements and proofs.) -/
def Mono (e e' : Env) : Prop := e.srcMoved = true → e'.srcMoved = true

theorem good_same : Good Same where
  refl _ := rfl
  trans _ _ _ h h' := h'.trans h
  tick e := by
    unfold mayThrow
    split <;> (rename_i h; split at h <;> cases h <;> rfl)

theorem good_iffMade : Good IffMade where
  refl _ := .inl ⟨rfl, rfl⟩
  trans e e' e'' h h' := by
    unfold IffMade at *
    rcases h with ⟨h1, h2⟩ | ⟨h1, h2⟩ <;> rcases h' with ⟨h3, h4⟩ | ⟨h3, h4⟩
    · exact .inl ⟨h3.trans h1, h4.trans h2⟩
    · exact .inr ⟨by omega, h4⟩
    · exact .inr ⟨by omega, h4.trans h2⟩
    · exact .inr ⟨by omega, h4⟩
  tick e := by
    unfold mayThrow
    split <;> (rename_i h; split at h <;> cases h <;> exact .inl ⟨rfl, rfl⟩)

theorem good_mono : Good Mono where
  refl _ := id
  trans _ _ _ h h' := h' ∘ h
  tick e := by
    unfold mayThrow
    split <;> (rename_i h; split at h <;> cases h <;> exact id)

end Moves

/-- The policy moves from nothing when given a key or an lvalue, and never from
anything when it is not given an rvalue.  (No code of its own: used in statements and proofs.) -/
def Policy.Courteous {K V Rep : Type} (P : Policy K V Rep) : Prop :=
  ∀ src : Option (Src K V), (∀ v, src ≠ some (.move v)) → Moves.Fits Moves.Same P src

namespace Moves
variable {K V Rep F : Type}

section
variable {R : Env → Env → Prop} {α β : Type}

/-- A relation that says nothing of the counts of live objects.  (No code of its own: used in
statements and proofs.) -/
structure Blind (R : Env → Env → Prop) : Prop extends Good R where
  keys : ∀ (e : Env) (n : Int) (l : List Act), R e { e with keys := n, acts := l }
  vals : ∀ (e : Env) (n : Int) (l : List Act), R e { e with vals := n, acts := l }

theorem blind_same : Blind Same := ⟨good_same, fun _ _ _ => rfl, fun _ _ _ => rfl⟩
theorem blind_iffMade : Blind IffMade := ⟨good_iffMade, fun _ _ _ => .inl ⟨rfl, rfl⟩, fun _ _ _ => .inl ⟨rfl, rfl⟩⟩
theorem blind_mono : Blind Mono := ⟨good_mono, fun _ _ _ => id, fun _ _ _ => id⟩

end

/-! ### variant_key_value -/

section
variable {R : Env → Env → Prop} (B : Blind R) (u : UserFns K V)
include B

theorem v_newKey (a : Act) (r : VRep K V) (k : K) : ThruE R (VRep.newKey a r k) := by
  refine ebind B.toGood B.tick fun _ => ?_
  split
  · exact eundef
  · exact ebind B.toGood (eupdate fun e => B.keys e _ _) fun _ => epure B.toGood _

theorem v_delKey (r : VRep K V) : ThruE R (VRep.delKey r) := by
  unfold VRep.delKey
  split
  · exact eundef
  · exact ebind B.toGood (eupdate fun e => B.keys e _ _) fun _ => epure B.toGood _

theorem v_delVal (r : VRep K V) : ThruE R (VRep.delVal r) := by
  unfold VRep.delVal
  split
  · exact eundef
  · exact ebind B.toGood (eupdate fun e => B.vals e _ _) fun _ => epure B.toGood _

theorem v_ofSrc (s : Src K V) : ThruE R (VRep.ofSrc u s) := by
  cases s <;> (unfold VRep.ofSrc; exact v_newKey B _ _ _)

theorem v_move (r : VRep K V) : ThruE R (VRep.move u r) := by
  unfold VRep.move
  split <;> split
  · exact eundef
  · exact ebind B.toGood (v_newKey B _ _ _) fun _ => epure B.toGood _
  · exact eundef
  · exact ebind B.toGood (v_newKey B _ _ _) fun _ => epure B.toGood _

theorem v_copy (r : VRep K V) : ThruE R (VRep.copy u r) := by
  unfold VRep.copy
  split <;> split
  · exact eundef
  · exact v_newKey B _ _ _
  · exact eundef
  · exact v_newKey B _ _ _

theorem v_destroy (r : VRep K V) : ThruE R (VRep.destroy r) := by
  unfold VRep.destroy
  split
  · exact ebind B.toGood (v_delVal B _) fun _ => epure B.toGood _
  · exact ebind B.toGood (v_delKey B _) fun _ => epure B.toGood _
end

theorem v_newVal (a : Act) (r : VRep K V) (v : V) : ThruE Same (VRep.newVal a r v) := by
  refine ebind good_same good_same.tick fun _ => ?_
  split
  · exact eundef
  · exact ebind good_same (eupdate fun e => rfl) fun _ => epure good_same _

theorem VRep.courteous (u : UserFns K V) : (VRep.policy u).Courteous := by
  intro src hs
  refine ⟨fun s _ => v_ofSrc blind_same u s, v_copy blind_same u, v_move blind_same u, v_destroy blind_same, fun s h r => ?_⟩
  show ThruE Same (VRep.visit u s r)
  unfold VRep.visit
  split
  · exact epure good_same _
  · refine ebind good_same ?_ fun _ => ebind good_same (v_delKey blind_same _) fun _ => epure good_same _
    cases s with
    | key k =>
      dsimp only
      split
      · exact eundef
      · exact v_newVal _ _ _
    | copy v => exact v_newVal _ _ _
    | move v => exact absurd h (hs v)

/-- An rvalue is moved from exactly when a value is constructed. -/
theorem VRep.moves (u : UserFns K V) (v : V) : Fits IffMade (VRep.policy u) (some (.move v)) := by
  refine ⟨fun s _ => v_ofSrc blind_iffMade u s, v_copy blind_iffMade u, v_move blind_iffMade u, v_destroy blind_iffMade, ?_⟩
  intro s h r
  cases h
  show ThruE IffMade (VRep.visit u (.move v) r)
  unfold VRep.visit
  split
  · exact epure good_iffMade _
  · refine ebind good_iffMade ?_ fun _ => ebind good_iffMade (v_delKey blind_iffMade _) fun _ => epure good_iffMade _
    dsimp only
    unfold VRep.newVal
    intro e
    by_cases hf : e.faults e.tick = true
    · simp [Bind.bind, M.bind, mayThrow, hf, IffMade]
    · cases hv : r.val <;> simp [Bind.bind, Pure.pure, mayThrow, hf, IffMade, M.bind, M.ret, M.update, M.undef]

/-! ### product_key_value -/

theorem p_newRep (a : Act) (k : K) : ThruE Same (PRep.newRep a k : M Env (PRep K V)) :=
  ebind good_same good_same.tick fun _ => ebind good_same (eupdate fun _ => rfl) fun _ => epure good_same _

theorem PRep.courteous (u : UserFns K V) : (PRep.policy u).Courteous := by
  intro src hs
  refine ⟨fun s _ => ?_, fun r => p_newRep _ _, fun r => ebind good_same (p_newRep _ _) fun _ => epure good_same _, fun r => ?_, fun s h r => ?_⟩
  · cases s
    · exact p_newRep _ _
    · exact eundef
    · exact eundef
  · show ThruE Same (PRep.destroy r)
    unfold PRep.destroy
    split
    · dsimp only
      split
      · exact ebind good_same eundef fun _ => eupdate fun _ => rfl
      · exact ebind good_same (eupdate fun _ => rfl) fun _ => eupdate fun _ => rfl
    · exact eupdate fun _ => rfl
  · show ThruE Same (PRep.visit u s r)
    unfold PRep.visit
    cases s with
    | key k =>
      dsimp only
      split
      · exact epure good_same _
      · refine ebind good_same good_same.tick fun _ => ?_
        split
        · exact eundef
        · exact ebind good_same (eupdate fun _ => rfl) fun _ => epure good_same _
    | copy v => exact epure good_same _
    | move v => exact epure good_same _

/-! ### default_value_policy -/

theorem d_newRep {R : Env → Env → Prop} (G : Good R) (h : ∀ (e : Env) (n : Int) (m : Nat) (l : List Act), R e { e with vals := n, made := m, acts := l })
    (a : Act) (v : V) : ThruE R (DRep.newRep a v) :=
  ebind G G.tick fun _ => ebind G (eupdate fun e => h e _ _ _) fun _ => epure G _

theorem DRep.courteous (u : UserFns V V) : (DRep.policy u).Courteous := by
  intro src hs
  have hn := d_newRep (V := V) good_same fun _ _ _ _ => rfl
  refine ⟨fun s h => ?_, fun r => hn _ _, fun r => ebind good_same (hn _ _) fun _ => epure good_same _, fun r => eupdate fun _ => rfl,
    fun s h r => epure good_same _⟩
  cases s with
  | key k => exact hn _ _
  | copy v => exact hn _ _
  | move v => exact absurd h (hs v)

theorem DRep.mono (u : UserFns V V) (src : Option (Src V V)) : Fits Mono (DRep.policy u) src := by
  have hn := d_newRep (V := V) good_mono fun _ _ _ _ => id
  refine ⟨fun s h => ?_, fun r => hn _ _, fun r => ebind good_mono (hn _ _) fun _ => epure good_mono _, fun r => eupdate fun _ => id,
    fun s h r => epure good_mono _⟩
  cases s with
  | key k => exact hn _ _
  | copy v => exact hn _ _
  | move v => exact ebind good_mono (hn _ _) fun _ => ebind good_mono (eupdate fun _ _ => rfl) fun _ => epure good_mono _

/-- Successful construction from an rvalue moves from it. -/
theorem DRep.ofSrc_moves (v : V) (e e' : Env) (r : DRep V) (h : DRep.ofSrc (.move v) e = .ok r e') :
    e'.srcMoved = true := by
  simp only [DRep.ofSrc, DRep.newRep, Bind.bind, M.bind, mayThrow, M.update, Pure.pure, M.ret] at h
  by_cases hf : e.faults e.tick = true
  · simp [hf] at h
  · simp [hf] at h
    rw [← h.2]

/-- If the first part makes `Q` true of the environment and the rest preserves
it, it is true in the end. -/
theorem after {α β : Type} {m : M (St Rep F) α} {f : α → M (St Rep F) β} (hf : ∀ a, Thru Mono (f a))
    (h : ∀ s a s', m s = .ok a s' → s'.env.srcMoved = true) (s : St Rep F) (b : β) (s' : St Rep F)
    (hb : (m >>= f) s = .ok b s') : s'.env.srcMoved = true := by
  have hb' : M.bind m f s = .ok b s' := hb
  unfold M.bind at hb'
  cases hm : m s with
  | ok a s1 =>
    rw [hm] at hb'
    have h2 := hf a s1
    rw [show f a s1 = .ok b s' from hb'] at h2
    exact h2 (h _ _ _ hm)
  | exc s1 => rw [hm] at hb'; cases hb'
  | ub => rw [hm] at hb'; cases hb'

/-- If the rest makes it true, it is true in the end. -/
theorem later {α β : Type} {m : M (St Rep F) α} {f : α → M (St Rep F) β}
    (h : ∀ a s b s', f a s = .ok b s' → s'.env.srcMoved = true) (s : St Rep F) (b : β) (s' : St Rep F)
    (hb : (m >>= f) s = .ok b s') : s'.env.srcMoved = true := by
  have hb' : M.bind m f s = .ok b s' := hb
  unfold M.bind at hb'
  cases hm : m s with
  | ok a s1 => rw [hm] at hb'; exact h _ _ _ _ hb'
  | exc s1 => rw [hm] at hb'; cases hb'
  | ub => rw [hm] at hb'; cases hb'

/-- With the default policy, a successful creation from an rvalue moves from it. -/
theorem DRep.insert_moves (u : UserFns V V) (Fa : Factory F (Ent (DRep V))) (trk : Tracking) (v : V)
    (s : St (DRep V) F) (b : Nat) (s' : St (DRep V) F)
    (h : Core.insert (DRep.policy u) Fa trk (.move v) s = .ok b s') : s'.env.srcMoved = true := by
  have H := DRep.mono u (some (.move v))
  have first : ∀ (s : St (DRep V) F) a s', Core.env (DRep.ofSrc (.move v)) s = .ok a s' → s'.env.srcMoved = true := by
    intro s a s' h'
    unfold Core.env at h'
    cases hm : DRep.ofSrc (.move v) s.env with
    | ok r e =>
      rw [hm] at h'
      have := DRep.ofSrc_moves v _ _ _ hm
      cases h'
      exact this
    | exc e => rw [hm] at h'; cases h'
    | ub => rw [hm] at h'; cases h'
  refine later (fun _ s b s' h => ?_) s b s' h
  refine after (fun e => ?_) (fun s a s' h => ?_) s b s' h
  · exact withLocal good_mono H.destroy e (insertLocked good_mono Fa (H.toT good_mono) trk _ rfl)
  · cases trk with
    | noTracking => exact first s a s' h
    | refcounted =>
      refine after (fun x => ?_) first s a s' h
      exact withLocal good_mono H.destroy x (bind good_mono (env (H.move _)) fun _ =>
        bind good_mono (setTop good_mono _) fun _ => pure_ good_mono _)

theorem DRep.step_moves (u : UserFns V V) (Fa : Factory F (Ent (DRep V))) (trk : Tracking) (hp : Nat → Nat)
    (op : Op V V) (v : V) (hop : op.creates = some (.move v)) (s : St (DRep V) F) (out : Out V V)
    (s' : St (DRep V) F) (h : Core.step (DRep.policy u) Fa trk hp op s = .ok out s') : s'.env.srcMoved = true := by
  have H := DRep.mono u (some (.move v))
  cases op with
  | make x src =>
    cases hop
    refine after (fun x => pure_ good_mono _) (fun s a s' h => ?_) s out s' h
    refine after (fun y => ?_) (fun s a s' h => DRep.insert_moves u Fa trk v s a s' h) s a s' h
    exact update good_mono fun _ => rfl
  | assignVal x src =>
    cases hop
    refine after (fun x => pure_ good_mono _) (fun s a s' h => ?_) s out s' h
    exact after (fun y => bind good_mono (assignHandle good_mono H.destroy Fa trk x _) fun _ => handleDtor good_mono H.destroy Fa trk _)
      (fun s a s' h => DRep.insert_moves u Fa trk v s a s' h) s a s' h
  | _ => cases hop

end Moves
end Verif

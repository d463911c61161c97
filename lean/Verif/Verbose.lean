import Verif.Observe
import Verif.CoreLazy

/-!
# The notes of the verbose factory

What /repo/example/custom_factory.cpp:36-74 prints, as a list of notes, and how it evolves.
-/

set_option autoImplicit false

namespace Verif

deriving instance DecidableEq for Note

/-- The same kind of note about something else.  (No code of its own: used in statements and proofs.) -/
def Note.map {E E' : Type} (f : E → E') : Note E → Note E'
  | .new e => .new (f e)
  | .hit e => .hit (f e)
  | .del e => .del (f e)

/-- What the note is about.  (No code of its own: used in statements and proofs.) -/
def Note.arg {E : Type} : Note E → E
  | .new e => e
  | .hit e => e
  | .del e => e

/-- Reading a note: which keys are stored after it, from those stored before; a note that makes no
sense then has no meaning.  (No code of its own: used in statements and proofs.) -/
def Note.read {K : Type} (keq : K → K → Bool) (o : List K) : Note K → Option (List K)
  | .new k => if o.any (keq · k) then none else some (k :: o)
  | .hit k => if o.any (keq · k) then some o else none
  | .del k => if o.any (keq · k) then some (o.filter fun l => !keq l k) else none

/-- Reading notes one after the other.  (No code of its own: used in statements and proofs.) -/
def readNotes {K : Type} (keq : K → K → Bool) : List K → List (Note K) → Option (List K)
  | o, [] => some o
  | o, n :: ns => (n.read keq o).bind fun o' => readNotes keq o' ns

section Read
variable {K : Type} {keq : K → K → Bool}

theorem readNotes_append (o : List K) (l l' : List (Note K)) :
    readNotes keq o (l ++ l') = (readNotes keq o l).bind fun o' => readNotes keq o' l' := by
  induction l generalizing o with
  | nil => rfl
  | cons n l ih =>
    simp only [List.cons_append, readNotes]
    cases n.read keq o with
    | none => rfl
    | some o' => exact ih o'

theorem readNotes_snoc {o o' : List K} {l : List (Note K)} (h : readNotes keq o l = some o') (n : Note K) :
    readNotes keq o (l ++ [n]) = n.read keq o' := by
  rw [readNotes_append, h]
  simp only [Option.bind_some, readNotes]
  cases n.read keq o' <;> rfl

/-- Reading translated notes. -/
theorem readNotes_map {E : Type} {eqv : E → E → Bool} {f : E → K} {o : List E} {l : List (Note E)}
    (hl : ∀ n ∈ l, ∀ a, (a ∈ o ∨ ∃ m ∈ l, m.arg = a) → keq (f a) (f n.arg) = eqv a n.arg) :
    readNotes keq (o.map f) (l.map (Note.map f)) = (readNotes eqv o l).map (List.map f) := by
  induction l generalizing o with
  | nil => rfl
  | cons n l ih =>
    simp only [List.map_cons, readNotes]
    have any : (o.map f).any (keq · (f n.arg)) = o.any (eqv · n.arg) := by
      rw [List.any_map, Bool.eq_iff_iff]
      simp only [List.any_eq_true, Function.comp]
      constructor
      · rintro ⟨a, ha, h⟩
        exact ⟨a, ha, by rw [← hl n (by simp) a (.inl ha)]; exact h⟩
      · rintro ⟨a, ha, h⟩
        exact ⟨a, ha, by rw [hl n (by simp) a (.inl ha)]; exact h⟩
    have hrec : ∀ o' : List E, (∀ a ∈ o', a ∈ o ∨ a = n.arg) →
        readNotes keq (o'.map f) (l.map (Note.map f)) = (readNotes eqv o' l).map (List.map f) := by
      intro o' ho'
      refine ih fun m hm a ha => hl m (List.mem_cons_of_mem _ hm) a ?_
      rcases ha with ha | ⟨m', hm', rfl⟩
      · rcases ho' a ha with ha | rfl
        · exact .inl ha
        · exact .inr ⟨n, by simp, rfl⟩
      · exact .inr ⟨m', List.mem_cons_of_mem _ hm', rfl⟩
    have filt : (o.map f).filter (fun k => !keq k (f n.arg)) = (o.filter fun a => !eqv a n.arg).map f := by
      rw [List.filter_map]
      congr 1
      refine List.filter_congr fun a ha => ?_
      simp only [Function.comp]
      rw [hl n (by simp) a (.inl ha)]
    cases n with
    | new e =>
      simp only [Note.map, Note.read, Note.arg] at any ⊢
      rw [any]
      cases o.any (eqv · e) with
      | true => rfl
      | false => exact hrec (e :: o) fun a ha => (List.mem_cons.1 ha).symm.imp id id
    | hit e =>
      simp only [Note.map, Note.read, Note.arg] at any ⊢
      rw [any]
      cases o.any (eqv · e) with
      | true => exact hrec o fun a ha => .inl ha
      | false => rfl
    | del e =>
      simp only [Note.map, Note.read, Note.arg] at any filt ⊢
      rw [any]
      cases o.any (eqv · e) with
      | true =>
        simp only [if_true, Option.bind_some]
        rw [filt]
        exact hrec _ fun a ha => .inl (List.mem_filter.1 ha).1
      | false => rfl

end Read

/-! ## The factory keeps its notes in step with its contents -/

/-- The keys `o` are those of the stored entries.  (No code of its own: used in statements and proofs.) -/
structure Stored {F E : Type} (Fa : Factory F E) (eqv : E → E → Bool) (f : F) (o : List E) : Prop where
  sub : ∀ a ∈ o, ∃ i e, Fa.entry f i = some e ∧ eqv a e = true
  all : ∀ i e, Fa.entry f i = some e → ∃ a ∈ o, eqv a e = true
  apart : o.Pairwise fun a b => eqv a b = false
  uniq : ∀ i j e e', Fa.entry f i = some e → Fa.entry f j = some e' → eqv e e' = true → i = j

theorem verboseFactory.lookup_eq {E : Type} (lt : E → E → Bool) (f : List (Nat × E) × List (Note E)) (e : E) :
    ((verboseFactory lt).lookup f e).1.1 = f.1 ∧
      ((verboseFactory lt).lookup f e).2 = ((setFactory lt).lookup f.1 e).2 ∧
      ((verboseFactory lt).lookup f e).1.2 = f.2 ++ (if ((setFactory lt).lookup f.1 e).2.isSome then [.hit e] else []) := by
  have h1 : ((setFactory lt).lookup f.1 e).1 = f.1 := rfl
  simp only [verboseFactory]
  cases h : (setFactory lt).lookup f.1 e with
  | mk g o =>
    rw [h] at h1
    cases o with
    | none => exact ⟨h1, rfl, by simp⟩
    | some i => exact ⟨h1, rfl, by simp⟩

/-- The laws of factories with an invariant that relates notes and contents.  (No code of its own: used in
statements and proofs.) -/
def verboseFactory.noted {E : Type} {lt : E → E → Bool} (ok : OrderOk lt) :
    (verboseFactory lt).Lawful (fun e e' => incomparable lt e e' = true) := by
  have L' := verboseFactory.lawful ok
  have Q := ok.equiv
  have hl := verboseFactory.lookup_eq lt
  have any : ∀ (o : List E) e, o.any (incomparable lt · e) = true ↔ ∃ a ∈ o, incomparable lt a e = true := by
    intro o e; exact List.any_eq_true
  let Inv' (f : List (Nat × E) × List (Note E)) : Prop :=
    L'.Inv f ∧ ∃ o, readNotes (incomparable lt) [] f.2 = some o ∧ Stored (verboseFactory lt) (incomparable lt) f o
  exact
  { Inv := Inv'
    inv_empty := ⟨L'.inv_empty, [], rfl, by
      constructor
      · intro a ha; cases ha
      · intro i e he; cases he
      · exact .nil
      · intro i j e e' he; cases he⟩
    entry_empty := fun i => L'.entry_empty i
    lookup_inv := by
      rintro f e ⟨h, o, ho, hs⟩
      obtain ⟨h1, h2, h3⟩ := hl f e
      refine ⟨L'.lookup_inv e h, o, ?_, ?_⟩
      · rw [h3]
        cases hx : ((setFactory lt).lookup f.1 e).2 with
        | none => simpa using ho
        | some i =>
          simp only [Option.isSome_some, if_true]
          rw [readNotes_snoc ho]
          obtain ⟨e', he', hev⟩ := L'.lookup_some e i h (h2.trans hx)
          obtain ⟨a, ha, hae⟩ := hs.all i e' he'
          simp only [Note.read]
          rw [if_pos ((any o e).2 ⟨a, ha, Q.trans _ _ _ hae hev⟩)]
      · have : ∀ i, (verboseFactory lt).entry ((verboseFactory lt).lookup f e).1 i = (verboseFactory lt).entry f i := by
          intro i
          show ((verboseFactory lt).lookup f e).1.1.lookup i = f.1.lookup i
          rw [h1]
        obtain ⟨a, b, c, d⟩ := hs
        constructor <;> (try simp only [this])
        · exact a
        · exact b
        · exact c
        · exact d
    lookup_entry := fun {f} e i h => L'.lookup_entry e i h.1
    lookup_some := fun {f} e i h h' => L'.lookup_some e i h.1 h'
    lookup_none := fun {f} e h h' => L'.lookup_none e h.1 h'
    link_inv := by
      rintro f i e ⟨h, o, ho, hs⟩ hi hn
      have hv := fun j => L'.link_entry (f := f) i e j h hi
      have hno : ¬ ∃ a ∈ o, incomparable lt a e = true := by
        rintro ⟨a, ha, hae⟩
        obtain ⟨j, e', he', hev⟩ := hs.sub a ha
        exact hn j e' he' (Q.trans _ _ _ (Q.symm _ _ hev) hae)
      refine ⟨L'.link_inv i e h hi hn, e :: o, ?_, ?_⟩
      · show readNotes _ [] (f.2 ++ [.new e]) = _
        rw [readNotes_snoc ho]
        simp only [Note.read]
        rw [if_neg fun hh => hno ((any o e).1 hh)]
      · constructor <;> (try simp only [hv])
        · intro a ha
          rcases List.mem_cons.1 ha with rfl | ha
          · exact ⟨i, a, if_pos rfl, Q.refl _⟩
          · obtain ⟨j, e', he', hev⟩ := hs.sub a ha
            refine ⟨j, e', ?_, hev⟩
            rw [if_neg]
            · exact he'
            · rintro rfl; rw [hi] at he'; cases he'
        · intro j e' he'
          by_cases hj : j = i
          · rw [if_pos hj] at he'; cases he'; exact ⟨e, by simp, Q.refl _⟩
          · rw [if_neg hj] at he'
            obtain ⟨a, ha, hae⟩ := hs.all j e' he'
            exact ⟨a, List.mem_cons_of_mem _ ha, hae⟩
        · refine .cons (fun a ha => ?_) hs.apart
          rw [Bool.eq_false_iff]
          exact fun hh => hno ⟨a, ha, Q.symm _ _ hh⟩
        · intro j j' e1 e2 h1 h2 hev
          by_cases hj : j = i
          · by_cases hj' : j' = i
            · rw [hj, hj']
            · rw [if_pos hj] at h1; rw [if_neg hj'] at h2; cases h1
              exact absurd (Q.symm _ _ hev) (hn j' e2 h2)
          · rw [if_neg hj] at h1
            by_cases hj' : j' = i
            · rw [if_pos hj'] at h2; cases h2
              exact absurd hev (hn j e1 h1)
            · rw [if_neg hj'] at h2
              exact hs.uniq j j' e1 e2 h1 h2 hev
    link_entry := fun i e j h => L'.link_entry i e j h.1
    erase_inv := by
      rintro f i ⟨h, o, ho, hs⟩
      have hv := fun j => L'.erase_entry (f := f) i j h
      refine ⟨L'.erase_inv i h, ?_⟩
      cases hx : f.1.lookup i with
      | none =>
        refine ⟨o, ?_, ?_⟩
        · simp only [verboseFactory, hx]
          exact ho
        · have hsame : ∀ j, (verboseFactory lt).entry ((verboseFactory lt).erase f i) j = (verboseFactory lt).entry f j := by
            intro j
            rw [hv j]
            by_cases hj : j = i
            · subst hj; rw [if_pos rfl]; exact hx.symm
            · rw [if_neg hj]
          obtain ⟨a, b, c, d⟩ := hs
          constructor <;> (try simp only [hsame])
          · exact a
          · exact b
          · exact c
          · exact d
      | some e =>
        have he : (verboseFactory lt).entry f i = some e := hx
        obtain ⟨a, ha, hae⟩ := hs.all i e he
        refine ⟨o.filter fun b => !incomparable lt b e, ?_, ?_⟩
        · simp only [verboseFactory, hx]
          rw [readNotes_snoc ho]
          simp only [Note.read]
          rw [if_pos ((any o e).2 ⟨a, ha, hae⟩)]
        · constructor <;> (try simp only [hv])
          · intro b hb
            obtain ⟨hb, hbe⟩ := List.mem_filter.1 hb
            obtain ⟨j, e', he', hev⟩ := hs.sub b hb
            refine ⟨j, e', ?_, hev⟩
            rw [if_neg]
            · exact he'
            · rintro rfl
              rw [he] at he'; cases he'
              rw [hev] at hbe; cases hbe
          · intro j e' he'
            by_cases hj : j = i
            · rw [if_pos hj] at he'; cases he'
            · rw [if_neg hj] at he'
              obtain ⟨b, hb, hbe⟩ := hs.all j e' he'
              refine ⟨b, List.mem_filter.2 ⟨hb, ?_⟩, hbe⟩
              rw [Bool.not_eq_true', Bool.eq_false_iff]
              intro hh
              exact hj (hs.uniq j i e' e he' he (Q.trans _ _ _ (Q.symm _ _ hbe) hh))
          · exact hs.apart.filter _
          · intro j j' e1 e2 h1 h2
            by_cases hj : j = i
            · rw [if_pos hj] at h1; cases h1
            · rw [if_neg hj] at h1
              by_cases hj' : j' = i
              · rw [if_pos hj'] at h2; cases h2
              · rw [if_neg hj'] at h2
                exact hs.uniq j j' e1 e2 h1 h2
    erase_entry := fun i j h => L'.erase_entry i j h.1
    update_inv := by
      rintro f i e e' ⟨h, o, ho, hs⟩ he h1 h2
      have hv := fun j => L'.update_entry (f := f) i e e' j h he h1 h2
      refine ⟨L'.update_inv i e e' h he h1 h2, o, ho, ?_⟩
      constructor <;> (try simp only [hv])
      · intro a ha
        obtain ⟨j, x, hx, hax⟩ := hs.sub a ha
        by_cases hj : j = i
        · subst hj
          rw [he] at hx; cases hx
          exact ⟨j, e', if_pos rfl, Q.trans _ _ _ hax h1⟩
        · exact ⟨j, x, by rw [if_neg hj]; exact hx, hax⟩
      · intro j x hx
        by_cases hj : j = i
        · rw [if_pos hj] at hx; cases hx
          obtain ⟨a, ha, hae⟩ := hs.all i e he
          exact ⟨a, ha, Q.trans _ _ _ hae h1⟩
        · rw [if_neg hj] at hx; exact hs.all j x hx
      · exact hs.apart
      · intro j j' x x' hx hx' hev
        by_cases hj : j = i <;> by_cases hj' : j' = i
        · rw [hj, hj']
        · rw [if_pos hj] at hx; rw [if_neg hj'] at hx'; cases hx
          rw [hj]; exact hs.uniq i j' e x' he hx' (Q.trans _ _ _ h1 hev)
        · rw [if_neg hj] at hx; rw [if_pos hj'] at hx'; cases hx'
          rw [hj']; exact hs.uniq j i x e hx he (Q.trans _ _ _ hev h2)
        · rw [if_neg hj] at hx; rw [if_neg hj'] at hx'
          exact hs.uniq j j' x x' hx hx' hev
    update_entry := fun i e e' j h => L'.update_entry i e e' j h.1
    ids_nodup := fun h => L'.ids_nodup h.1
    mem_ids := fun i h => L'.mem_ids i h.1 }

/-! ## What each function prints -/

namespace Verbose
variable {K V Rep : Type}

/-- Notes taken so far.  (No code of its own: used in statements and proofs.) -/
abbrev VFac (Rep : Type) := List (Nat × Ent Rep) × List (Note (Ent Rep))

section Quiet
variable {α β : Type}

/-- A computation that prints nothing.  (No code of its own: used in statements and proofs.) -/
def Quiet (m : M (St Rep (VFac Rep)) α) : Prop :=
  ∀ l, Weak (fun s => s.fac.2 = l) m (fun _ s => s.fac.2 = l) (fun s => s.fac.2 = l)

theorem Quiet.bind {m : M (St Rep (VFac Rep)) α} {f : α → M (St Rep (VFac Rep)) β} (h : Quiet m)
    (h' : ∀ a, Quiet (f a)) : Quiet (m >>= f) :=
  fun l => Weak.bind (h l) fun a => h' a l

theorem Quiet.pure (a : α) : Quiet (Pure.pure a : M (St Rep (VFac Rep)) α) := fun _ => .ret fun _ h => h

theorem Quiet.read : Quiet (M.read : M (St Rep (VFac Rep)) _) := fun _ => .read fun _ h => h

theorem Quiet.undef : Quiet (M.undef : M (St Rep (VFac Rep)) α) := fun _ => .undef

theorem Quiet.update {f : St Rep (VFac Rep) → St Rep (VFac Rep)} (h : ∀ s, (f s).fac.2 = s.fac.2) :
    Quiet (M.update f) := fun _ => .update fun s hs => (h s).trans hs

theorem Quiet.env (m : M Env α) : Quiet (Core.env m : M (St Rep (VFac Rep)) α) := by
  intro l s hs
  unfold Core.env
  cases m s.env <;> simp only
  · exact hs
  · exact hs

theorem Quiet.deref : Quiet (Core.deref : M (St Rep (VFac Rep)) Unit) := by
  refine .bind .read fun s => ?_
  by_cases h : s.inited = true
  · rw [if_pos h]; exact .pure _
  · rw [if_neg h]; exact .undef

theorem Quiet.lock : Quiet (Core.lock : M (St Rep (VFac Rep)) Unit) :=
  .bind .deref fun _ => .update fun _ => rfl

theorem Quiet.unlock : Quiet (Core.unlock : M (St Rep (VFac Rep)) Unit) := by
  refine .bind .read fun s => ?_
  cases s.depth with
  | zero => exact .undef
  | succ n => exact .update fun _ => rfl

theorem Quiet.init : Quiet (Core.init : M (St Rep (VFac Rep)) Unit) := .update fun _ => rfl

theorem Quiet.handleOf (x : Nat) : Quiet (Core.handleOf x : M (St Rep (VFac Rep)) Nat) := by
  refine .bind .read fun s => ?_
  cases s.objs.lookup x with
  | none => exact .undef
  | some h => exact .pure _

variable (lt : Ent Rep → Ent Rep → Bool)

theorem Quiet.entry (h : Nat) : Quiet (Core.entry (verboseFactory lt) h) := by
  refine .bind .deref fun _ => .bind .read fun s => ?_
  cases (verboseFactory lt).entry s.fac h with
  | none => exact .undef
  | some e => exact .pure _

theorem Quiet.setEntry (h : Nat) (e : Ent Rep) : Quiet (Core.setEntry (verboseFactory lt) h e) :=
  .update fun _ => rfl

theorem Quiet.addRef (h : Nat) : Quiet (Core.addRef (verboseFactory lt) h) :=
  .bind (.entry lt h) fun _ => .bind (.setEntry lt h _) fun _ => .pure _

theorem Quiet.handleCopy (trk : Tracking) (h : Nat) : Quiet (Core.handleCopy (verboseFactory lt) trk h) := by
  cases trk with
  | noTracking => exact .pure _
  | refcounted => exact .bind (.addRef lt h) fun n => .pure _

theorem Quiet.handleCtor (trk : Tracking) (h : Nat) : Quiet (Core.handleCtor (verboseFactory lt) trk h) := by
  cases trk with
  | noTracking => exact .pure _
  | refcounted =>
    refine .bind (.addRef lt h) fun n => ?_
    by_cases hn : (n == 1) = true
    · rw [if_pos hn]; exact .bind (.entry lt h) fun _ => .setEntry lt h _
    · rw [if_neg hn]; exact .pure _

theorem Quiet.get (P : Policy K V Rep) (x : Nat) : Quiet (Core.get P (verboseFactory lt) x) := by
  refine .bind (.handleOf x) fun h => .bind (.entry lt h) fun e => .bind .read fun s => ?_
  cases P.toValue e.rep with
  | none => exact .undef
  | some v => exact .pure _

theorem Quiet.getKey (P : Policy K V Rep) (x : Nat) : Quiet (Core.getKey P (verboseFactory lt) x) := by
  refine .bind (.handleOf x) fun h => .bind (.entry lt h) fun e => ?_
  cases P.toKey e.rep with
  | none => exact .undef
  | some v => exact .pure _

/-- The operations that neither create nor give up a handle, and copies. -/
theorem Quiet.step (P : Policy K V Rep) (trk : Tracking) (hp : Nat → Nat) {op : Op K V}
    (hop : match op with
      | .make .. | .assign .. | .assignVal .. | .destroy .. => False
      | _ => True) : Quiet (Core.step P (verboseFactory lt) trk hp op) := by
  have hc : ∀ x y, Quiet (Core.copy (verboseFactory lt) trk x y) := fun x y =>
    .bind (.handleOf y) fun _ => .bind (.handleCopy lt trk _) fun _ => .update fun _ => rfl
  cases op with
  | init => exact .bind .init fun _ => .pure _
  | copy x y => exact .bind (hc x y) fun _ => .pure _
  | move x y => exact .bind (hc x y) fun _ => .pure _
  | swap x y =>
    exact .bind (.bind (.handleOf x) fun _ => .bind (.handleOf y) fun _ =>
      .bind (.update fun _ => rfl) fun _ => .update fun _ => rfl) fun _ => .pure _
  | get x => exact .bind (.get lt P x) fun _ => .pure _
  | getKey x => exact .bind (.getKey lt P x) fun _ => .pure _
  | eq x y => exact .bind (.bind (.get lt P x) fun _ => .bind (.get lt P y) fun _ => .pure _) fun _ => .pure _
  | hash x => exact .bind (.bind (.get lt P x) fun _ => .pure _) fun _ => .pure _
  | make x s => exact hop.elim
  | assign x y => exact hop.elim
  | assignVal x s => exact hop.elim
  | destroy x => exact hop.elim

end Quiet

/-! ### Giving up a handle -/

/-- What is printed, which flyweights there are, and the keys of the stored entries.  (No code of its own:
used in statements and proofs.) -/
structure View (P : Policy K V Rep) (κ : Nat → Option K) (l : List (Note (Ent Rep))) (o : List (Nat × Nat))
    (s : St Rep (VFac Rep)) : Prop where
  log : s.fac.2 = l
  objs : s.objs = o
  keys : ∀ i e, s.fac.1.lookup i = some e → P.toKey e.rep = κ i

/-- Any state is viewed somehow. -/
theorem View.of (P : Policy K V Rep) (s : St Rep (VFac Rep)) :
    View P (fun i => (s.fac.1.lookup i).bind fun e => P.toKey e.rep) s.fac.2 s.objs s :=
  ⟨rfl, rfl, fun i e h => by simp [h]⟩

section Dtor
variable {P : Policy K V Rep} (lt : Ent Rep → Ent Rep → Bool) {κ : Nat → Option K}
  {l : List (Note (Ent Rep))} {o : List (Nat × Nat)}

theorem weak_view {α : Type} {m : M (St Rep (VFac Rep)) α} {E : St Rep (VFac Rep) → Prop}
    (h : ∀ s, match m s with | .ok _ s' => s'.fac = s.fac ∧ s'.objs = s.objs | .exc _ => False | .ub => True) :
    Weak (View P κ l o) m (fun _ => View P κ l o) E := by
  intro s hs
  have := h s
  revert this
  cases m s <;> intro this
  · exact ⟨by rw [this.1]; exact hs.log, by rw [this.2]; exact hs.objs, by rw [this.1]; exact hs.keys⟩
  · exact this.elim
  · trivial

theorem view_deref {E : St Rep (VFac Rep) → Prop} :
    Weak (View P κ l o) (Core.deref : M (St Rep (VFac Rep)) Unit) (fun _ => View P κ l o) E := by
  refine Weak.bind (R := fun _ => View P κ l o) (.read fun _ h => h) fun s => ?_
  by_cases h : s.inited = true
  · rw [if_pos h]; exact .ret fun _ h => h
  · rw [if_neg h]; exact .undef

theorem view_entry (h : Nat) {E : St Rep (VFac Rep) → Prop} :
    Weak (View P κ l o) (Core.entry (verboseFactory lt) h)
      (fun e s => View P κ l o s ∧ s.fac.1.lookup h = some e) E := by
  refine Weak.bind view_deref fun _ => ?_
  refine Weak.bind (R := fun a s => View P κ l o s ∧ a = s) (.read fun s h => ⟨h, rfl⟩) fun a => ?_
  cases he : (verboseFactory lt).entry a.fac h with
  | none => exact .undef
  | some e => exact .ret fun s hs => ⟨hs.1, hs.2 ▸ he⟩

theorem view_setEntry (h : Nat) (e : Ent Rep) (c d : Int) {E : St Rep (VFac Rep) → Prop} :
    Weak (fun s => View P κ l o s ∧ s.fac.1.lookup h = some e) (Core.setEntry (verboseFactory lt) h ⟨e.rep, c, d⟩)
      (fun _ => View P κ l o) E := by
  refine .update fun s hs => ⟨hs.1.log, hs.1.objs, fun i x hx => ?_⟩
  have hx' : (Assoc.modifyAt s.fac.1 h fun _ => ⟨e.rep, c, d⟩).lookup i = some x := hx
  rw [Assoc.lookup_modifyAt] at hx'
  by_cases hi : i = h
  · rw [if_pos hi, hs.2] at hx'
    cases hx'
    rw [hi]
    exact hs.1.keys h e hs.2
  · rw [if_neg hi] at hx'
    exact hs.1.keys i x hx'

theorem view_addRef (h : Nat) {E : St Rep (VFac Rep) → Prop} :
    Weak (View P κ l o) (Core.addRef (verboseFactory lt) h) (fun _ => View P κ l o) E :=
  Weak.bind (view_entry lt h) fun e => Weak.bind (view_setEntry lt h e _ _) fun _ => .ret fun _ h => h

theorem view_handleCopy (trk : Tracking) (h : Nat) {E : St Rep (VFac Rep) → Prop} :
    Weak (View P κ l o) (Core.handleCopy (verboseFactory lt) trk h) (fun _ => View P κ l o) E := by
  cases trk with
  | noTracking => exact .ret fun _ h => h
  | refcounted => exact Weak.bind (view_addRef lt h) fun _ => .ret fun _ h => h

theorem view_handleCtor (trk : Tracking) (h : Nat) {E : St Rep (VFac Rep) → Prop} :
    Weak (View P κ l o) (Core.handleCtor (verboseFactory lt) trk h) (fun _ => View P κ l o) E := by
  cases trk with
  | noTracking => exact .ret fun _ h => h
  | refcounted =>
    refine Weak.bind (view_addRef lt h) fun n => ?_
    by_cases hn : (n == 1) = true
    · rw [if_pos hn]
      exact Weak.bind (view_entry lt h) fun e => view_setEntry lt h e _ _
    · rw [if_neg hn]; exact .ret fun _ h => h

theorem view_release (h : Nat) {E : St Rep (VFac Rep) → Prop} :
    Weak (View P κ l o) (Core.release (verboseFactory lt) h) (fun _ => View P κ l o) E :=
  Weak.bind (view_entry lt h) fun e => Weak.bind (view_setEntry lt h e _ _) fun _ => .ret fun _ h => h

theorem view_releaseDeleter (h : Nat) {E : St Rep (VFac Rep) → Prop} :
    Weak (View P κ l o) (Core.releaseDeleter (verboseFactory lt) h) (fun _ => View P κ l o) E :=
  Weak.bind (view_entry lt h) fun e => Weak.bind (view_setEntry lt h e _ _) fun _ => .ret fun _ h => h

theorem view_lock {E : St Rep (VFac Rep) → Prop} :
    Weak (View P κ l o) (Core.lock : M (St Rep (VFac Rep)) Unit) (fun _ => View P κ l o) E :=
  Weak.bind view_deref fun _ => .update fun _ h => ⟨h.log, h.objs, h.keys⟩

theorem view_unlock {E : St Rep (VFac Rep) → Prop} :
    Weak (View P κ l o) (Core.unlock : M (St Rep (VFac Rep)) Unit) (fun _ => View P κ l o) E := by
  refine Weak.bind (R := fun _ => View P κ l o) (.read fun _ h => h) fun s => ?_
  cases s.depth with
  | zero => exact .undef
  | succ n => exact .update fun _ h => ⟨h.log, h.objs, h.keys⟩

/-- The entry `h` has been erased, and a note says so.  (No code of its own: used in statements and proofs.) -/
def Gone (P : Policy K V Rep) (κ : Nat → Option K) (l : List (Note (Ent Rep))) (o : List (Nat × Nat)) (h : Nat)
    (s : St Rep (VFac Rep)) : Prop :=
  ∃ e, P.toKey e.rep = κ h ∧ View P κ (l ++ [.del e]) o s ∧ s.fac.1.lookup h = none

theorem view_facErase (T : P.Tidy) (h : Nat) {E : St Rep (VFac Rep) → Prop} :
    Weak (View P κ l o) (Core.facErase P (verboseFactory lt) h) (fun _ => Gone P κ l o h) E := by
  refine Weak.bind (view_entry lt h) fun e => ?_
  refine Weak.bind (R := fun _ s => View P κ l o s ∧ s.fac.1.lookup h = some e) ?_ fun _ => ?_
  · refine Weak.at fun s hs => Setup.Weak.env (T e.rep s.env.made) (fun s' h => by rw [h]) ?_ (fun _ _ _ h => h.elim)
    intro s' h' _ _ _
    subst h'
    exact ⟨⟨hs.1.log, hs.1.objs, hs.1.keys⟩, hs.2⟩
  · refine .update fun s hs => ⟨e, hs.1.keys h e hs.2, ⟨?_, hs.1.objs, ?_⟩, ?_⟩
    · simp only [verboseFactory, hs.2]
      rw [hs.1.log]
    · intro i x hx
      have hx' : (s.fac.1.filter fun p => p.1 ≠ h).lookup i = some x := hx
      rw [Assoc.lookup_filter] at hx'
      by_cases hi : i = h
      · rw [if_pos hi] at hx'; cases hx'
      · rw [if_neg hi] at hx'; exact hs.1.keys i x hx'
    · show (s.fac.1.filter fun p => p.1 ≠ h).lookup h = none
      rw [Assoc.lookup_filter, if_pos rfl]

/-- Giving up a handle prints nothing, or that the entry is deleted. -/
theorem view_handleDtor (T : P.Tidy) (trk : Tracking) (h : Nat) {E : St Rep (VFac Rep) → Prop} :
    Weak (View P κ l o) (Core.handleDtor P (verboseFactory lt) trk h)
      (fun _ s => View P κ l o s ∨ trk = .refcounted ∧ Gone P κ l o h s) E := by
  cases trk with
  | noTracking => exact .ret fun _ h => .inl h
  | refcounted =>
    refine Weak.bind (view_release lt h) fun b => ?_
    cases b with
    | false => exact .ret fun _ h => .inl h
    | true =>
      refine Weak.bind (R := fun _ => View P κ l o) (.update fun _ h => ⟨h.log, h.objs, h.keys⟩) fun _ => ?_
      refine Weak.bind view_lock fun _ => ?_
      refine Weak.scope (R := fun _ s => View P κ l o s ∨ Gone P κ l o h s) (RE := fun _ => False) ?_
        (fun _ => ?_) fun _ h => h.elim
      · refine Weak.bind (view_releaseDeleter lt h) fun b => ?_
        cases b with
        | false => exact .ret fun _ h => .inl h
        | true => exact (view_facErase lt T h).conseq (fun _ h => h) (fun _ _ h => .inr h) fun _ h => h
      · refine Weak.bind (R := fun _ s => View P κ l o s ∨ Gone P κ l o h s) (.read fun _ h => h) fun s => ?_
        cases s.depth with
        | zero => exact .undef
        | succ n =>
          refine .update fun _ h => ?_
          rcases h with h | ⟨e, h1, h2, h3⟩
          · exact .inl ⟨h.log, h.objs, h.keys⟩
          · exact .inr ⟨rfl, e, h1, ⟨h2.log, h2.objs, h2.keys⟩, h3⟩

end Dtor

/-! ### Creating a flyweight -/

section Insert
variable {P : Policy K V Rep} {sp : SrcSpec K V} (L : P.Lawful sp) (T : P.Tidy) (lt : Ent Rep → Ent Rep → Bool)
  (src : Src K V) {l : List (Note (Ent Rep))}

/-- An entry with the key of the source.  (No code of its own: used in statements and proofs.) -/
def Key0 (P : Policy K V Rep) (sp : SrcSpec K V) (src : Src K V) (e : Ent Rep) : Prop :=
  P.toKey e.rep = some (sp.key0 src)

/-- Notes of an insertion.  (No code of its own: used in statements and proofs.) -/
def Told (P : Policy K V Rep) (sp : SrcSpec K V) (src : Src K V) (l : List (Note (Ent Rep)))
    (s : St Rep (VFac Rep)) : Prop :=
  ∃ e, Key0 P sp src e ∧ (s.fac.2 = l ++ [.hit e] ∨ s.fac.2 = l ++ [.new e])

/-- Notes of an insertion that failed.  (No code of its own: used in statements and proofs.) -/
def Retold (P : Policy K V Rep) (sp : SrcSpec K V) (src : Src K V) (l : List (Note (Ent Rep)))
    (s : St Rep (VFac Rep)) : Prop :=
  s.fac.2 = l ∨ ∃ e e', Key0 P sp src e ∧
    (s.fac.2 = l ++ [.hit e, .del e'] ∨ Key0 P sp src e' ∧ s.fac.2 = l ++ [.new e, .del e'])

/-- The innermost local is `r`.  (No code of its own: used in statements and proofs.) -/
structure Top (r : Rep) (l : List (Note (Ent Rep))) (s : St Rep (VFac Rep)) : Prop where
  log : s.fac.2 = l
  top : ∃ rest, s.locals = r :: rest
  fresh : s.fac.1.lookup s.nextId = none

/-- Notes of `insert` of the factory.  (No code of its own: used in statements and proofs.) -/
def Put (P : Policy K V Rep) (sp : SrcSpec K V) (src : Src K V) (l : List (Note (Ent Rep))) (h : Nat)
    (s : St Rep (VFac Rep)) : Prop :=
  ∃ e, Key0 P sp src e ∧ (s.fac.2 = l ++ [.hit e] ∨ s.fac.2 = l ++ [.new e] ∧
    ∃ e', s.fac.1.lookup h = some e' ∧ Key0 P sp src e')

theorem lookup_insertSorted (i : Nat) (e : Ent Rep) (l : List (Nat × Ent Rep)) (h : l.lookup i = none) :
    (insertSorted lt i e l).lookup i = some e := by
  induction l with
  | nil => simp [insertSorted]
  | cons p l ih =>
    obtain ⟨j, x⟩ := p
    unfold insertSorted
    rw [List.lookup_cons] at h
    cases hb : i == j with
    | true => simp [hb] at h
    | false =>
      simp only [hb] at h
      split
      · rw [List.lookup_cons]; simp only [hb]; exact ih h
      · simp

theorem put_facInsert {r : Rep} (hr : L.Fresh src r) :
    Weak (Top r l) (Core.facInsert P (verboseFactory lt)) (fun h => Put P sp src l h) (fun s => s.fac.2 = l) := by
  unfold Core.facInsert
  refine Weak.bind (R := fun _ => Top r l) ?_ fun _ => ?_
  · refine Weak.bind (R := fun _ => Top r l) (.read fun _ h => h) fun s => ?_
    by_cases h : s.inited = true
    · rw [if_pos h]; exact .ret fun _ h => h
    · rw [if_neg h]; exact .undef
  refine Weak.bind (R := fun e s => e = r ∧ s.fac.2 = l ∧ s.fac.1.lookup s.nextId = none) ?_ fun e =>
    Weak.pre fun he => ?_
  · refine Weak.bind (R := fun a s => a = s ∧ Top r l s) (.read fun s h => ⟨rfl, h⟩) fun a => ?_
    intro s hs
    obtain ⟨rfl, h1, ⟨rest, h2⟩, h3⟩ := hs
    rw [h2]
    exact ⟨rfl, h1, h3⟩
  subst he
  refine Weak.bind (R := fun _ s => s.fac.2 = l ∧ s.fac.1.lookup s.nextId = none) ?_ fun _ => ?_
  · refine Weak.bind (R := fun _ s => s.fac.2 = l ∧ s.fac.1.lookup s.nextId = none) (.read fun _ h => h) fun a => ?_
    split
    · exact .ret fun _ h => h
    · exact .undef
  refine Weak.bind (R := fun _ s => s.fac.2 = l ∧ s.fac.1.lookup s.nextId = none) ?_ fun _ => ?_
  · intro s hs
    unfold Core.env
    cases mayThrow s.env <;> simp only
    · exact hs
    · exact hs.1
  refine Weak.bind (R := fun a s => (a.fac.2 = l ∧ a.fac.1.lookup a.nextId = none) ∧ a = s)
    (.read fun s h => ⟨h, rfl⟩) fun a => Weak.pre fun ha => ?_
  have hk : Key0 P sp src ⟨e, 0, 0⟩ := L.fresh_key hr
  have hl : ((verboseFactory lt).lookup a.fac ⟨e, 0, 0⟩).1.2 =
      a.fac.2 ++ (if ((verboseFactory lt).lookup a.fac ⟨e, 0, 0⟩).2.isSome then [.hit ⟨e, 0, 0⟩] else []) ∧
      ((verboseFactory lt).lookup a.fac ⟨e, 0, 0⟩).1.1 = a.fac.1 := by
    obtain ⟨h1, h2, h3⟩ := verboseFactory.lookup_eq lt a.fac ⟨e, 0, 0⟩
    exact ⟨by rw [h3, h2], h1⟩
  cases hf : (verboseFactory lt).lookup a.fac ⟨e, 0, 0⟩ with
  | mk f i =>
    rw [hf] at hl
    cases i with
    | some i =>
      simp only
      refine Weak.bind (R := fun _ s => s.fac.2 = l ++ [.hit ⟨e, 0, 0⟩])
        (.update fun s h => ?_) fun _ => .ret fun s h => ⟨_, hk, .inl h⟩
      show f.2 = _
      rw [← ha.1]
      simpa using hl.1
    | none =>
      simp only
      refine Weak.bind (R := fun _ s => s.fac = f ∧ s.nextId = a.nextId)
        (.update fun s h => ⟨rfl, by rw [h]⟩) fun _ => ?_
      have hfl : f.2 = l := by rw [← ha.1]; simpa using hl.1
      have hfi : f.1.lookup a.nextId = none := by
        have : f.1 = a.fac.1 := hl.2
        rw [this]; exact ha.2
      refine Weak.bind (R := fun p s => L.Fresh src p.1 ∧ s.fac = f ∧ s.nextId = a.nextId) ?_ fun p =>
        Weak.pre fun hp => ?_
      · intro s hs
        have h := Setup.makeNode_law L (verboseFactory lt).take src e s.env hr s.env rfl
        unfold Core.env
        cases hm : Core.makeNode P (verboseFactory lt).take e s.env <;> rw [hm] at h <;> simp only at h ⊢
        · exact ⟨h.1, hs⟩
        · show s.fac.2 = l
          rw [hs.1]; exact hfl
      refine Weak.bind (R := fun _ s => s.fac = f ∧ s.nextId = a.nextId) (.update fun s h => h) fun _ => ?_
      refine Weak.bind (R := fun _ s => s.fac = (verboseFactory lt).link f a.nextId ⟨p.1, 0, 0⟩)
        (.update fun s h => ?_) fun _ => .ret fun s h => ?_
      · show (verboseFactory lt).link s.fac s.nextId _ = _
        rw [h.1, h.2]
      · refine ⟨⟨p.1, 0, 0⟩, L.fresh_key hp, .inr ⟨?_, ?_⟩⟩
        · rw [h]
          show f.2 ++ _ = _
          rw [hfl]
        · refine ⟨⟨p.1, 0, 0⟩, ?_, L.fresh_key hp⟩
          rw [h]
          exact lookup_insertSorted lt _ _ _ hfi

include T in
theorem put_insertAndVisit {r : Rep} (hr : L.Fresh src r) :
    Weak (Top r l) (Core.insertAndVisit P (verboseFactory lt) src) (fun _ => Told P sp src l) (Retold P sp src l) := by
  unfold Core.insertAndVisit
  refine Weak.bind ((put_facInsert L lt src hr).conseq (fun _ h => h) (fun _ _ h => h) fun _ h => .inl h) fun h => ?_
  refine Weak.bind (R := fun _ => Told P sp src l) ?_ fun _ => .ret fun _ h => h
  refine Weak.at fun s0 h0 => ?_
  obtain ⟨e0, hk0, h0⟩ := h0
  refine Weak.onExc (RE := View P (fun i => (s0.fac.1.lookup i).bind fun e => P.toKey e.rep) s0.fac.2 s0.objs) ?_ ?_
  · refine Weak.bind (R := fun _ => View P (fun i => (s0.fac.1.lookup i).bind fun e => P.toKey e.rep) s0.fac.2 s0.objs)
      ((view_entry lt h).conseq (fun s hs => by rw [hs]; exact .of P s0) (fun _ _ h => h.1) fun _ h => h) fun e => ?_
    refine Weak.bind (R := fun _ s => s.fac.2 = s0.fac.2) ?_ fun r' => .update fun s hs => ?_
    · intro s hs
      unfold Core.env
      cases P.visit src e.rep s.env <;> simp only
      · exact hs.log
      · exact ⟨hs.log, hs.objs, hs.keys⟩
    · refine ⟨e0, hk0, ?_⟩
      show s.fac.2 = _ ∨ s.fac.2 = _
      rw [hs]
      exact h0.imp id fun h => h.1
  · refine (view_facErase lt T h).conseq (fun _ h => h) (fun _ s hs => ?_) fun _ h => h
    obtain ⟨e, hk, hv, _⟩ := hs
    refine .inr ⟨e0, e, hk0, ?_⟩
    rw [hv.log]
    rcases h0 with h0 | ⟨h0, h1⟩
    · exact .inl (by rw [h0, List.append_assoc]; rfl)
    · refine .inr ⟨?_, by rw [h0, List.append_assoc]; rfl⟩
      obtain ⟨e', he', hk'⟩ := h1
      unfold Key0
      rw [hk]
      show (s0.fac.1.lookup h).bind _ = _
      rw [he']
      exact hk'

/-- The part of the state that local objects and locks do not affect.  (No code of its own: used in statements
and proofs.) -/
def Fixed (Q : St Rep (VFac Rep) → Prop) : Prop :=
  ∀ s s', s'.fac = s.fac → s'.nextId = s.nextId → Q s → Q s'

theorem told_fixed : Fixed (Told P sp src l) := by
  intro s s' h _ ht
  unfold Told at *; rw [h]; exact ht

theorem retold_fixed : Fixed (Retold P sp src l) := by
  intro s s' h _ ht
  unfold Retold at *; rw [h]; exact ht

/-- Before an insertion.  (No code of its own: used in statements and proofs.) -/
structure Before (l : List (Note (Ent Rep))) (s : St Rep (VFac Rep)) : Prop where
  log : s.fac.2 = l
  fresh : s.fac.1.lookup s.nextId = none

theorem before_fixed : Fixed (Before (Rep := Rep) l) := by
  intro s s' h h' hs
  exact ⟨by rw [h]; exact hs.log, by rw [h, h']; exact hs.fresh⟩

theorem Fixed.unlock {Q E : St Rep (VFac Rep) → Prop} (h : Fixed Q) :
    Weak Q (Core.unlock : M (St Rep (VFac Rep)) Unit) (fun _ => Q) E := by
  refine Weak.bind (R := fun _ => Q) (.read fun _ h => h) fun s => ?_
  cases s.depth with
  | zero => exact .undef
  | succ n => exact .update fun s hs => h s _ rfl rfl hs

/-- A computation on the environment only. -/
theorem Fixed.env {α : Type} {m : M Env α} {Q E : St Rep (VFac Rep) → Prop} (h : Fixed Q) (hE : ∀ s, Q s → E s)
    (hF : Fixed E) : Weak Q (Core.env m) (fun _ => Q) E := by
  intro s hs
  unfold Core.env
  cases m s.env <;> simp only
  · exact h s _ rfl rfl hs
  · exact hF s _ rfl rfl (hE s hs)

include T in
theorem Fixed.pop {Q E : St Rep (VFac Rep) → Prop} (h : Fixed Q) : Weak Q (do
    let s ← (M.read : M (St Rep (VFac Rep)) _)
    match s.locals with
    | [] => M.undef
    | r :: rest => do
      M.update fun s => { s with locals := rest }
      Core.env (P.destroy r)) (fun _ => Q) E := by
  refine Weak.bind (R := fun _ => Q) (.read fun _ h => h) fun s => ?_
  cases s.locals with
  | nil => exact .undef
  | cons r rest =>
    refine Weak.bind (R := fun _ => Q) (.update fun s hs => h s _ rfl rfl hs) fun _ => ?_
    intro s hs
    have := T r s.env.made s.env rfl
    unfold Core.env
    revert this
    cases P.destroy r s.env <;> intro this
    · exact h s _ rfl rfl hs
    · exact this.elim
    · trivial

include T in
theorem Fixed.withLocal {α : Type} {r : Rep} {m : M (St Rep (VFac Rep)) α} {Q : α → St Rep (VFac Rep) → Prop}
    {E : St Rep (VFac Rep) → Prop} (hQ : ∀ a, Fixed (Q a)) (hE : Fixed E) (hm : Weak (Top r l) m Q E) :
    Weak (Before l) (Core.withLocal P r m) Q E := by
  unfold Core.withLocal
  refine Weak.bind (R := fun _ => Top r l) (.update fun s h => ⟨h.log, ⟨_, rfl⟩, h.fresh⟩) fun _ => ?_
  exact Weak.scope (R := Q) (RE := E) hm (fun a => Fixed.pop T (hQ a)) (Fixed.pop T hE)

include T in
theorem told_insertLocked (trk : Tracking) {r : Rep} (hr : L.Fresh src r) :
    Weak (Top r l) (Core.insertLocked P (verboseFactory lt) trk src) (fun _ => Told P sp src l)
      (Retold P sp src l) := by
  unfold Core.insertLocked
  refine Weak.bind (R := fun _ => Top r l) ?_ fun _ => ?_
  · unfold Core.lock
    refine Weak.bind (R := fun _ => Top r l) ?_ fun _ => .update fun _ h => ⟨h.log, h.top, h.fresh⟩
    refine Weak.bind (R := fun _ => Top r l) (.read fun _ h => h) fun s => ?_
    by_cases h : s.inited = true
    · rw [if_pos h]; exact .ret fun _ h => h
    · rw [if_neg h]; exact .undef
  · refine Weak.scope (R := fun _ => Told P sp src l) (RE := Retold P sp src l) ?_
      (fun _ => (told_fixed src).unlock) (retold_fixed src).unlock
    refine Weak.bind (put_insertAndVisit L T lt src hr) fun h => ?_
    refine Weak.bind (R := fun _ => Told P sp src l) ?_ fun _ => .ret fun _ h => h
    refine Weak.at fun s hs => ?_
    refine (view_handleCtor (P := P) (κ := fun i => (s.fac.1.lookup i).bind fun e => P.toKey e.rep) (l := s.fac.2)
      (o := s.objs) lt trk h).conseq ?_ ?_ fun _ h => h
    · intro s' h'; rw [h']; exact .of P s
    · intro _ s' hv
      obtain ⟨e, hk, he⟩ := hs
      exact ⟨e, hk, by rw [hv.log]; exact he⟩

include L T in
/-- Creating a flyweight prints one line with the key asked for; if it fails, nothing or two lines. -/
theorem told_insert (trk : Tracking) (hs : sp.supports src = true) :
    Weak (Before l) (Core.insert P (verboseFactory lt) trk src) (fun _ => Told P sp src l) (Retold P sp src l) := by
  have hof : Weak (Before l) (Core.env (P.ofSrc src) : M (St Rep (VFac Rep)) Rep)
      (fun r s => L.Fresh src r ∧ Before l s) (Retold P sp src l) := by
    intro s hb
    have h := L.ofSrc src s.env hs s.env rfl
    unfold Core.env
    revert h
    cases P.ofSrc src s.env <;> intro h
    · exact ⟨h.1, hb.log, hb.fresh⟩
    · exact .inl hb.log
    · trivial
  have hin : Weak (Before l) (Core.init : M (St Rep (VFac Rep)) Unit) (fun _ => Before l) (Retold P sp src l) :=
    .update fun s h => ⟨h.log, h.fresh⟩
  have hst : ∀ r, Weak (Before l) (Core.setTop r : M (St Rep (VFac Rep)) Unit) (fun _ => Before l)
      (Retold P sp src l) := fun r => .update fun s h => ⟨h.log, h.fresh⟩
  have hmv : ∀ r, L.Fresh src r → Weak (Before l) (Core.env (P.move r) : M (St Rep (VFac Rep)) (Rep × Rep))
      (fun p s => L.Fresh src p.1 ∧ Before l s) (Retold P sp src l) := by
    intro r hr s hb
    have h := L.move src r s.env hr s.env rfl
    unfold Core.env
    revert h
    cases P.move r s.env <;> intro h
    · exact ⟨h.1, hb.log, hb.fresh⟩
    · exact .inl hb.log
    · trivial
  have hend : ∀ r, L.Fresh src r → Weak (Before l)
      (Core.withLocal P r (Core.insertLocked P (verboseFactory lt) trk src)) (fun _ => Told P sp src l)
      (Retold P sp src l) := fun r hr =>
    Fixed.withLocal T (fun _ => told_fixed src) (retold_fixed src) (told_insertLocked L T lt src trk hr)
  have top : ∀ {r : Rep} s, Top r l s → Before l s := fun s h => ⟨h.log, h.fresh⟩
  have hval : Weak (Before l) (do
      Core.init
      let e ← Core.entryOf P trk src
      Core.withLocal P e (Core.insertLocked P (verboseFactory lt) trk src)) (fun _ => Told P sp src l)
      (Retold P sp src l) := by
    refine Weak.bind hin fun _ =>
      Weak.bind (R := fun r s => L.Fresh src r ∧ Before l s) ?_ fun r => Weak.pre fun hr => hend r hr
    unfold Core.entryOf
    cases trk
    case noTracking => exact hof
    refine Weak.bind hof fun x => Weak.pre fun hx => ?_
    refine Fixed.withLocal T (fun r s s' h1 h2 h => ⟨h.1, before_fixed s s' h1 h2 h.2⟩) (retold_fixed src) ?_
    exact (Weak.bind (hmv x hx) fun p => Weak.pre fun hp => Weak.bind (hst _) fun _ => .ret fun _ h =>
      ⟨hp, h⟩).conseq top (fun _ _ h => h) fun _ h => h
  cases src with
  | key k =>
    refine Weak.bind hof fun x => Weak.pre fun hx => ?_
    refine Fixed.withLocal T (fun _ => told_fixed _) (retold_fixed _) ?_
    exact (Weak.bind hin fun _ => Weak.bind (hmv x hx) fun p => Weak.pre fun hp => Weak.bind (hst _) fun _ =>
      hend _ hp).conseq top (fun _ _ h => h) fun _ h => h
  | copy v => exact hval
  | move v => exact hval

end Insert

end Verbose

end Verif

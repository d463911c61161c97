import Verif.NestedVars
import Verif.NestedInv

/-!
# Nested construction with `refcounted`: the invariant and its preservation
-/

set_option autoImplicit false

namespace Verif.Nested
variable {K V F : Type} {Fa : Factory F (Ent (PRep K V))} {eqv : Ent (PRep K V) → Ent (PRep K V) → Prop}

/-- The invariant: entries in `opn` are under construction, with the given keys; all others hold the value meant for their
key, and their count is the number of flyweights in `held` that refer to them, of which there is at least one.  (No code of
its own: used in statements and proofs.) -/
structure Counted (LF : Fa.Lawful eqv) (val : K → V) (opn : List (Nat × K)) (held : List Nat) (s : St (PRep K V) F) : Prop where
  good : Good LF (fun k => .ret (val k)) val (opn.map Prod.fst) s
  opened : ∀ p ∈ opn, Fa.entry s.fac p.1 = some ⟨⟨p.2, none, false⟩, 0, 0⟩
  counts : ∀ i e, Fa.entry s.fac i = some e → i ∉ opn.map Prod.fst →
    e.ref = held.count i ∧ 0 < held.count i ∧ e.del = 1
  held : ∀ i ∈ held, i ∉ opn.map Prod.fst ∧ (Fa.entry s.fac i).isSome
  vals : s.env.vals + opn.length = (Fa.ids s.fac).length

/-- What does not change: an entry keeps its key as long as it is there, and no number is used twice.  (No code of its own:
used in statements and proofs.) -/
structure Keep (Fa : Factory F (Ent (PRep K V))) (s s' : St (PRep K V) F) : Prop where
  objs : s'.objs = s.objs
  depth : s'.depth = s.depth
  faults : s'.env.faults = s.env.faults
  ini : s.inited = true → s'.inited = true
  next : s.nextId ≤ s'.nextId
  keys : ∀ i e', i < s.nextId → Fa.entry s'.fac i = some e' → ∃ e, Fa.entry s.fac i = some e ∧ e.rep.key = e'.rep.key

theorem Keep.of {s s' : St (PRep K V) F} (hf : s'.fac = s.fac) (ho : s'.objs = s.objs) (hd : s'.depth = s.depth)
    (hfl : s'.env.faults = s.env.faults) (hn : s'.nextId = s.nextId) (hi : s.inited = true → s'.inited = true) :
    Keep Fa s s' :=
  ⟨ho, hd, hfl, hi, by rw [hn]; exact Nat.le_refl _, fun i e' _ he => ⟨e', by rw [← hf]; exact he, rfl⟩⟩

theorem Keep.refl (s : St (PRep K V) F) : Keep Fa s s := .of rfl rfl rfl rfl rfl id

theorem Keep.trans {s s' s'' : St (PRep K V) F} (h : Keep Fa s s') (h' : Keep Fa s' s'') : Keep Fa s s'' :=
  ⟨h'.objs.trans h.objs, h'.depth.trans h.depth, h'.faults.trans h.faults, fun hi => h'.ini (h.ini hi),
    Nat.le_trans h.next h'.next, fun i e'' hi he => by
      obtain ⟨e', he', hk'⟩ := h'.keys i e'' (Nat.lt_of_lt_of_le hi h.next) he
      obtain ⟨e, he, hk⟩ := h.keys i e' hi he'
      exact ⟨e, he, hk.trans hk'⟩⟩

theorem Ext.toKeep {s s' : St (PRep K V) F} (h : Ext Fa (fun _ => False) s s') : Keep Fa s s' :=
  ⟨h.objs, h.depth, h.faults, h.ini, h.next, fun i e' _ he => by
    cases hi : Fa.entry s.fac i with
    | some e =>
      have := h.keep i e hi
      rw [he] at this
      cases this
      exact ⟨e', rfl, rfl⟩
    | none => exact (h.new i e' he hi).elim⟩

variable {LF : Fa.Lawful eqv} {val : K → V} {u : UserFns K V}

/-- `Good` with constructors that ask for nothing. -/
theorem good_of {opn : List Nat} {s : St (PRep K V) F} (h1 : LF.Inv s.fac)
    (h2 : ∀ i, (Fa.entry s.fac i).isSome → i < s.nextId)
    (h3 : ∀ i e, Fa.entry s.fac i = some e → i ∉ opn → e.rep.val = some (val e.rep.key) ∧ e.rep.cted = true)
    (h4 : ∀ i ∈ opn, ∃ e, Fa.entry s.fac i = some e ∧ e.rep.val = none ∧ e.rep.cted = false)
    (h5 : ∀ i j e e', Fa.entry s.fac i = some e → Fa.entry s.fac j = some e' → e.rep.key = e'.rep.key → i = j) :
    Good LF (fun k => .ret (val k)) val opn s :=
  ⟨h1, h2, h3, h4, h5, fun i e _ _ k' hk => by cases hk⟩

/-- The same entries. -/
theorem Counted.same {opn : List (Nat × K)} {held : List Nat} {s s' : St (PRep K V) F} (h : Counted LF val opn held s)
    (hinv : LF.Inv s'.fac) (hv : ∀ i, Fa.entry s'.fac i = Fa.entry s.fac i) (hn : s.nextId ≤ s'.nextId)
    (he : s'.env.vals = s.env.vals) : Counted LF val opn held s' where
  good := by
    refine good_of hinv ?_ ?_ ?_ ?_ <;> simp only [hv]
    · exact fun i hi => Nat.lt_of_lt_of_le (h.good.lt i hi) hn
    · exact h.good.full
    · exact h.good.opened
    · exact h.good.uniq
  opened p hp := by rw [hv]; exact h.opened p hp
  counts i e := by rw [hv]; exact h.counts i e
  held i hi := by rw [hv]; exact h.held i hi
  vals := by rw [he, h.vals, ids_same (LF := LF) h.good.fac hinv fun i => by rw [hv]]

theorem Counted.congr {opn : List (Nat × K)} {held : List Nat} {s s' : St (PRep K V) F} (h : Counted LF val opn held s)
    (hf : s'.fac = s.fac) (hn : s'.nextId = s.nextId) (he : s'.env.vals = s.env.vals) : Counted LF val opn held s' :=
  h.same (by rw [hf]; exact h.good.fac) (fun i => by rw [hf]) (by rw [hn]; exact Nat.le_refl _) he

/-- An entry changes its counts. -/
theorem Counted.change {opn : List (Nat × K)} {held held' : List Nat} {s s' : St (PRep K V) F}
    (h : Counted LF val opn held s) {x : Nat} {e e' : Ent (PRep K V)} (he : Fa.entry s.fac x = some e)
    (hx : x ∉ opn.map Prod.fst) (hrep : e'.rep = e.rep) (hinv : LF.Inv s'.fac)
    (hv : ∀ i, Fa.entry s'.fac i = if i = x then some e' else Fa.entry s.fac i) (hn : s'.nextId = s.nextId)
    (hvals : s'.env.vals = s.env.vals) (hc : ∀ i, i ≠ x → held'.count i = held.count i)
    (hc' : e'.ref = held'.count x ∧ 0 < held'.count x ∧ e'.del = 1) : Counted LF val opn held' s' where
  good := by
    have key : ∀ i a, Fa.entry s'.fac i = some a → ∃ b, Fa.entry s.fac i = some b ∧ a.rep = b.rep := by
      intro i a ha
      rw [hv] at ha
      split at ha
      · cases ha; subst_vars; exact ⟨e, he, hrep⟩
      · exact ⟨a, ha, rfl⟩
    refine good_of hinv ?_ ?_ ?_ ?_
    · intro i hi
      obtain ⟨a, ha⟩ := Option.isSome_iff_exists.1 hi
      obtain ⟨b, hb, _⟩ := key i a ha
      rw [hn]
      exact h.good.lt i (by rw [hb]; rfl)
    · intro i a ha hno
      obtain ⟨b, hb, hab⟩ := key i a ha
      rw [hab]
      exact h.good.full i b hb hno
    · intro i hi
      have : i ≠ x := by rintro rfl; exact hx hi
      rw [hv, if_neg this]
      exact h.good.opened i hi
    · intro i j a a' ha ha' hk
      obtain ⟨b, hb, hab⟩ := key i a ha
      obtain ⟨b', hb', hab'⟩ := key j a' ha'
      exact h.good.uniq i j b b' hb hb' (by rw [← hab, ← hab', hk])
  opened p hp := by
    rw [hv, if_neg]
    · exact h.opened p hp
    · rintro rfl; exact hx (List.mem_map_of_mem hp)
  counts i a ha hno := by
    rw [hv] at ha
    split at ha
    · cases ha; subst_vars; exact hc'
    · next hi => rw [hc i hi]; exact h.counts i a ha hno
  held i hi := by
    rw [hv]
    split
    · subst_vars; exact ⟨hx, rfl⟩
    · next hix =>
      exact h.held i (List.count_pos_iff.1 (by rw [← hc i hix]; exact List.count_pos_iff.2 hi))
  vals := by
    rw [hvals, h.vals, ids_same (LF := LF) h.good.fac hinv fun i => by rw [hv]; split <;> simp_all]

/-- An entry is gone. -/
theorem Counted.gone {opn : List (Nat × K)} {held held' : List Nat} {s s' : St (PRep K V) F}
    (h : Counted LF val opn held s) {x : Nat} {e : Ent (PRep K V)} (he : Fa.entry s.fac x = some e)
    (hx : x ∉ opn.map Prod.fst) (hinv : LF.Inv s'.fac)
    (hv : ∀ i, Fa.entry s'.fac i = if i = x then none else Fa.entry s.fac i) (hn : s'.nextId = s.nextId)
    (hvals : s'.env.vals = s.env.vals - 1) (hc : ∀ i, i ≠ x → held'.count i = held.count i)
    (hc' : held'.count x = 0) : Counted LF val opn held' s' where
  good := by
    have key : ∀ i a, Fa.entry s'.fac i = some a → Fa.entry s.fac i = some a := by
      intro i a ha
      rw [hv] at ha
      split at ha
      · cases ha
      · exact ha
    refine good_of hinv ?_ ?_ ?_ ?_
    · intro i hi
      obtain ⟨a, ha⟩ := Option.isSome_iff_exists.1 hi
      rw [hn]
      exact h.good.lt i (by rw [key i a ha]; rfl)
    · exact fun i a ha hno => h.good.full i a (key i a ha) hno
    · intro i hi
      have : i ≠ x := by rintro rfl; exact hx hi
      rw [hv, if_neg this]
      exact h.good.opened i hi
    · exact fun i j a a' ha ha' hk => h.good.uniq i j a a' (key i a ha) (key j a' ha') hk
  opened p hp := by
    rw [hv, if_neg]
    · exact h.opened p hp
    · rintro rfl; exact hx (List.mem_map_of_mem hp)
  counts i a ha hno := by
    rw [hv] at ha
    split at ha
    · cases ha
    · next hi => rw [hc i hi]; exact h.counts i a ha hno
  held i hi := by
    have hix : i ≠ x := by
      rintro rfl
      exact absurd (List.count_pos_iff.2 hi) (by omega)
    rw [hv, if_neg hix]
    exact h.held i (List.count_pos_iff.1 (by rw [← hc i hix]; exact List.count_pos_iff.2 hi))
  vals := by
    have h1 := ids_more (LF := LF) (h := x) hinv h.good.fac (by rw [hv, if_pos rfl]) fun i => by
      rw [hv]
      by_cases hi : i = x
      · subst hi; simp [he]
      · simp [hi]
    have h2 := h.vals
    omega

/-- A new entry, under construction. -/
theorem Counted.opens {opn : List (Nat × K)} {held : List Nat} {s s' : St (PRep K V) F} {x : Nat} {k : K}
    (h : Counted LF val opn held s) (hG : Good LF (fun k => .ret (val k)) val (x :: opn.map Prod.fst) s')
    (hL : LinkedNew Fa k s x s') : Counted LF val ((x, k) :: opn) held s' where
  good := hG
  opened p hp := by
    rcases List.mem_cons.1 hp with rfl | hp
    · rw [hL.view, if_pos rfl]
    · rw [hL.view, if_neg]
      · exact h.opened p hp
      · intro hpx
        have h1 := h.opened p hp
        rw [hpx, hL.fresh] at h1
        cases h1
  counts i e he hno := by
    simp only [List.map_cons, List.mem_cons, not_or] at hno
    rw [hL.view, if_neg hno.1] at he
    exact h.counts i e he hno.2
  held i hi := by
    obtain ⟨h1, h2⟩ := h.held i hi
    have hix : i ≠ x := by rintro rfl; rw [hL.fresh] at h2; cases h2
    simp only [List.map_cons, List.mem_cons, not_or]
    rw [hL.view, if_neg hix]
    exact ⟨⟨hix, h1⟩, h2⟩
  vals := by
    have h1 := ids_more (LF := LF) (h := x) h.good.fac hG.fac hL.fresh fun i => by
      rw [hL.view]
      by_cases hi : i = x <;> simp [hi]
    have h2 := h.vals
    rw [hL.quiet.vals, h1]
    simp only [List.length_cons]
    omega

/-- Construction has failed. -/
theorem Counted.undo {opn : List (Nat × K)} {held : List Nat} {s s' : St (PRep K V) F} {x : Nat} {k : K}
    (h : Counted LF val ((x, k) :: opn) held s) (hx : x ∉ opn.map Prod.fst)
    (hG : Good LF (fun k => .ret (val k)) val (opn.map Prod.fst) s')
    (hv : ∀ i, Fa.entry s'.fac i = if i = x then none else Fa.entry s.fac i)
    (hvals : s'.env.vals = s.env.vals) : Counted LF val opn held s' where
  good := hG
  opened p hp := by
    rw [hv, if_neg]
    · exact h.opened p (List.mem_cons_of_mem _ hp)
    · rintro rfl; exact hx (List.mem_map_of_mem hp)
  counts i e he hno := by
    rw [hv] at he
    split at he
    · cases he
    · next hi => exact h.counts i e he (by simp [hi]; simpa using hno)
  held i hi := by
    obtain ⟨h1, h2⟩ := h.held i hi
    simp only [List.map_cons, List.mem_cons, not_or] at h1
    rw [hv, if_neg h1.1]
    exact ⟨h1.2, h2⟩
  vals := by
    have h1 := ids_more (LF := LF) (h := x) hG.fac h.good.fac (by rw [hv, if_pos rfl]) fun i => by
      rw [hv]
      by_cases hi : i = x
      · subst hi; simp [h.opened (i, k) (by simp)]
      · simp [hi]
    have h2 := h.vals
    simp only [List.length_cons] at h2
    omega

/-- Construction has succeeded, and the first flyweight refers to the value. -/
theorem Counted.closes {opn : List (Nat × K)} {held : List Nat} {s s' : St (PRep K V) F} {x : Nat} {k : K}
    (h : Counted LF val ((x, k) :: opn) held s) (hx : x ∉ opn.map Prod.fst) (hinv : LF.Inv s'.fac)
    (hv : ∀ i, Fa.entry s'.fac i = if i = x then some ⟨⟨k, some (val k), true⟩, 1, 1⟩ else Fa.entry s.fac i)
    (hn : s'.nextId = s.nextId) (hvals : s'.env.vals = s.env.vals + 1) : Counted LF val opn (x :: held) s' where
  good := by
    have he := h.opened (x, k) (by simp)
    have key : ∀ i a, Fa.entry s'.fac i = some a → ∃ b, Fa.entry s.fac i = some b ∧ a.rep.key = b.rep.key := by
      intro i a ha
      rw [hv] at ha
      split at ha
      · cases ha; subst_vars; exact ⟨_, he, rfl⟩
      · exact ⟨a, ha, rfl⟩
    refine good_of hinv ?_ ?_ ?_ ?_
    · intro i hi
      obtain ⟨a, ha⟩ := Option.isSome_iff_exists.1 hi
      obtain ⟨b, hb, _⟩ := key i a ha
      rw [hn]
      exact h.good.lt i (by rw [hb]; rfl)
    · intro i a ha hno
      rw [hv] at ha
      split at ha
      · cases ha; exact ⟨rfl, rfl⟩
      · next hi => exact h.good.full i a ha (by simp [hi]; simpa using hno)
    · intro i hi
      have : i ≠ x := by rintro rfl; exact hx hi
      rw [hv, if_neg this]
      exact h.good.opened i (List.mem_cons_of_mem _ hi)
    · intro i j a a' ha ha' hk
      obtain ⟨b, hb, hab⟩ := key i a ha
      obtain ⟨b', hb', hab'⟩ := key j a' ha'
      exact h.good.uniq i j b b' hb hb' (by rw [← hab, ← hab', hk])
  opened p hp := by
    rw [hv, if_neg]
    · exact h.opened p (List.mem_cons_of_mem _ hp)
    · rintro rfl; exact hx (List.mem_map_of_mem hp)
  counts i a ha hno := by
    rw [hv] at ha
    split at ha
    · cases ha; subst_vars
      have h0 : held.count i = 0 := by
        rw [List.count_eq_zero]
        intro hm
        exact (h.held i hm).1 (by simp)
      simp [h0]
    · next hi =>
      have := h.counts i a ha (by simp [hi]; simpa using hno)
      rw [List.count_cons_of_ne (Ne.symm hi)]
      exact this
  held i hi := by
    rw [hv]
    rcases List.mem_cons.1 hi with rfl | hi
    · rw [if_pos rfl]; exact ⟨hx, rfl⟩
    · obtain ⟨h1, h2⟩ := h.held i hi
      simp only [List.map_cons, List.mem_cons, not_or] at h1
      rw [if_neg h1.1]
      exact ⟨h1.2, h2⟩
  vals := by
    have h1 := ids_same (LF := LF) h.good.fac hinv fun i => by
      rw [hv]
      by_cases hi : i = x
      · subst hi; simp [h.opened (i, k) (by simp)]
      · simp [hi]
    have h2 := h.vals
    simp only [List.length_cons] at h2
    omega

/-! ## Handles -/

/-- A handle to a value that is already in use. -/
theorem addRef_more {opn : List (Nat × K)} {held : List Nat} {s : St (PRep K V) F} {x : Nat} {e : Ent (PRep K V)}
    (heq : ∀ e e', eqv e e' ↔ e.rep.key = e'.rep.key) (h : Counted LF val opn held s) (hi : s.inited = true)
    (he : Fa.entry s.fac x = some e) (hx : x ∉ opn.map Prod.fst) :
    ∃ s', Core.addRef Fa x s = .ok (e.ref + 1) s' ∧ 0 < e.ref ∧ Counted LF val opn (x :: held) s' ∧ Keep Fa s s' ∧
      s'.locals = s.locals ∧ s'.inited = true ∧ Fa.entry s'.fac x = some { e with ref := e.ref + 1 } := by
  have hev : eqv e { e with ref := e.ref + 1 } := (heq _ _).2 rfl
  have hev' : eqv { e with ref := e.ref + 1 } e := (heq _ _).2 rfl
  have hv : ∀ i, Fa.entry (Fa.update s.fac x { e with ref := e.ref + 1 }) i =
      if i = x then some { e with ref := e.ref + 1 } else Fa.entry s.fac i :=
    fun i => LF.update_entry x _ _ i h.good.fac he hev hev'
  obtain ⟨h1, h2, h3⟩ := h.counts x e he hx
  refine ⟨{ s with fac := Fa.update s.fac x { e with ref := e.ref + 1 } }, ?_, by omega, ?_, ⟨rfl, rfl, rfl, id, Nat.le_refl _, ?_⟩, rfl, hi, ?_⟩
  · unfold Core.addRef
    show M.bind _ _ s = _
    simp only [M.bind, entry_ok (by exact hi) (by exact he)]
    rfl
  · refine h.change (e' := { e with ref := e.ref + 1 }) he hx rfl (LF.update_inv x _ _ h.good.fac he hev hev') hv rfl rfl ?_ ?_
    · intro i hix
      rw [List.count_cons_of_ne (Ne.symm hix)]
    · simp only [List.count_cons_self]
      refine ⟨?_, by omega, h3⟩
      push_cast
      omega
  · intro i e' _ he'
    simp only [hv] at he'
    split at he'
    · cases he'; subst_vars; exact ⟨e, he, rfl⟩
    · exact ⟨e', he', rfl⟩
  · show Fa.entry (Fa.update s.fac x _) x = _
    rw [hv, if_pos rfl]

/-- The first handle to a new value. -/
theorem handleCtor_new {opn : List (Nat × K)} {held : List Nat} {s : St (PRep K V) F} {x : Nat} {k : K} {e' : Env}
    (heq : ∀ e e', eqv e e' ↔ e.rep.key = e'.rep.key) (h : Counted LF val ((x, k) :: opn) held s) (hi : s.inited = true)
    (hx : x ∉ opn.map Prod.fst) (hvals : e'.vals = s.env.vals + 1) (hf : e'.faults = s.env.faults) :
    ∃ s', Core.handleCtor Fa .refcounted x
        { s with env := e', fac := Fa.update s.fac x ⟨⟨k, some (val k), true⟩, 0, 0⟩ } = .ok () s' ∧
      Counted LF val opn (x :: held) s' ∧ Keep Fa s s' ∧ s'.locals = s.locals ∧ s'.inited = true ∧
      ∃ e, Fa.entry s'.fac x = some e ∧ e.rep.key = k := by
  have up : ∀ (f : F) (a b : Ent (PRep K V)), LF.Inv f → Fa.entry f x = some a → a.rep.key = b.rep.key →
      LF.Inv (Fa.update f x b) ∧ ∀ i, Fa.entry (Fa.update f x b) i = if i = x then some b else Fa.entry f i :=
    fun f a b hf ha hk => ⟨LF.update_inv x _ _ hf ha ((heq _ _).2 hk) ((heq _ _).2 hk.symm),
      fun i => LF.update_entry x _ _ i hf ha ((heq _ _).2 hk) ((heq _ _).2 hk.symm)⟩
  obtain ⟨i1, v1⟩ := up s.fac _ ⟨⟨k, some (val k), true⟩, 0, 0⟩ h.good.fac (h.opened (x, k) (by simp)) rfl
  have w1 := v1 x
  rw [if_pos rfl] at w1
  obtain ⟨i2, v2⟩ := up _ _ ⟨⟨k, some (val k), true⟩, 1, 0⟩ i1 w1 rfl
  have w2 := v2 x
  rw [if_pos rfl] at w2
  obtain ⟨i3, v3⟩ := up _ _ ⟨⟨k, some (val k), true⟩, 1, 1⟩ i2 w2 rfl
  refine ⟨{ s with env := e', fac := Fa.update (Fa.update (Fa.update s.fac x ⟨⟨k, some (val k), true⟩, 0, 0⟩) x ⟨⟨k, some (val k), true⟩, 1, 0⟩) x ⟨⟨k, some (val k), true⟩, 1, 1⟩ }, ?_, ?_, ⟨rfl, rfl, hf, id, Nat.le_refl _, ?_⟩, rfl, hi, ?_⟩
  · have a1 : Core.addRef Fa x { s with env := e', fac := Fa.update s.fac x ⟨⟨k, some (val k), true⟩, 0, 0⟩ } =
        .ok 1 { s with env := e', fac := Fa.update (Fa.update s.fac x ⟨⟨k, some (val k), true⟩, 0, 0⟩) x ⟨⟨k, some (val k), true⟩, 1, 0⟩ } := by
      unfold Core.addRef
      show M.bind _ _ _ = _
      rw [M.bind, entry_ok (by exact hi) (by exact w1)]
      rfl
    unfold Core.handleCtor
    show M.bind _ _ _ = _
    rw [M.bind, a1]
    simp only [beq_self_eq_true, if_true]
    unfold Core.addDeleter
    show M.bind _ _ _ = _
    rw [M.bind, entry_ok (by exact hi) (by exact w2)]
    rfl
  · refine h.closes hx i3 ?_ rfl hvals
    intro i
    show Fa.entry (Fa.update _ x _) i = _
    rw [v3, v2, v1]
    by_cases hix : i = x <;> simp [hix]
  · intro i a _ ha
    simp only [v3, v2, v1] at ha
    by_cases hix : i = x
    · simp only [hix, if_true, Option.some.injEq] at ha
      subst ha
      exact ⟨⟨⟨k, none, false⟩, 0, 0⟩, by rw [hix]; exact h.opened (x, k) (by simp), rfl⟩
    · simp only [hix, if_false] at ha
      exact ⟨a, ha, rfl⟩
  · exact ⟨_, by show Fa.entry (Fa.update _ x _) x = _; rw [v3, if_pos rfl], rfl⟩

/-- A handle is destroyed. -/
theorem handleDtor_count {opn : List (Nat × K)} {held : List Nat} {s : St (PRep K V) F} {x : Nat}
    (heq : ∀ e e', eqv e e' ↔ e.rep.key = e'.rep.key) (h : Counted LF val opn held s) (hi : s.inited = true)
    (hx : x ∈ held) :
    ∃ s', Core.handleDtor (PRep.policy u) Fa .refcounted x s = .ok () s' ∧ Counted LF val opn (held.erase x) s' ∧
      Keep Fa s s' ∧ s'.locals = s.locals ∧ s'.inited = true := by
  have up : ∀ (f : F) (a b : Ent (PRep K V)), LF.Inv f → Fa.entry f x = some a → a.rep.key = b.rep.key →
      LF.Inv (Fa.update f x b) ∧ ∀ i, Fa.entry (Fa.update f x b) i = if i = x then some b else Fa.entry f i :=
    fun f a b hf ha hk => ⟨LF.update_inv x _ _ hf ha ((heq _ _).2 hk) ((heq _ _).2 hk.symm),
      fun i => LF.update_entry x _ _ i hf ha ((heq _ _).2 hk) ((heq _ _).2 hk.symm)⟩
  obtain ⟨hno, hs⟩ := h.held x hx
  obtain ⟨e, he⟩ := Option.isSome_iff_exists.1 hs
  obtain ⟨h1, h2, h3⟩ := h.counts x e he hno
  obtain ⟨f1, f2⟩ := h.good.full x e he hno
  have hcx : (held.erase x).count x = held.count x - 1 := List.count_erase_self
  have hcn : ∀ i, i ≠ x → (held.erase x).count i = held.count i := fun i hix => List.count_erase_of_ne hix
  obtain ⟨i1, v1⟩ := up s.fac _ { e with ref := e.ref - 1 } h.good.fac he rfl
  have a1 : Core.release Fa x s = .ok (e.ref - 1 == 0) { s with fac := Fa.update s.fac x { e with ref := e.ref - 1 } } := by
    unfold Core.release
    show M.bind _ _ _ = _
    rw [M.bind, entry_ok (by exact hi) (by exact he)]
    rfl
  unfold Core.handleDtor
  by_cases hz : e.ref - 1 = 0
  · -- the last one
    have w1 := v1 x
    rw [if_pos rfl] at w1
    obtain ⟨i2, v2⟩ := up _ _ { e with ref := e.ref - 1, del := e.del - 1 } i1 w1 rfl
    have w2 := v2 x
    rw [if_pos rfl] at w2
    obtain ⟨⟨ek, ev, ec⟩, er, ed⟩ := e
    simp only at f1 f2 h1 h3 hz i1 v1 w1 i2 v2 w2 a1
    subst f1; subst f2; subst h3
    have hz' : (er - 1 == 0) = true := by simpa using hz
    have v3 : ∀ i, Fa.entry (Fa.erase (Fa.update (Fa.update s.fac x ⟨⟨ek, some (val ek), true⟩, er - 1, 1⟩) x ⟨⟨ek, some (val ek), true⟩, er - 1, 1 - 1⟩) x) i = if i = x then none else Fa.entry s.fac i := by
      intro i
      rw [LF.erase_entry x i i2]
      by_cases hix : i = x
      · simp [hix]
      · rw [if_neg hix, if_neg hix, v2, if_neg hix, v1, if_neg hix]
    refine ⟨{ s with
        inited := true,
        env := { s.env with vals := s.env.vals - 1, keys := s.env.keys - 1, acts := .keyGone :: .valGone :: s.env.acts },
        fac := Fa.erase (Fa.update (Fa.update s.fac x ⟨⟨ek, some (val ek), true⟩, er - 1, 1⟩) x ⟨⟨ek, some (val ek), true⟩, er - 1, 1 - 1⟩) x }, ?_, ?_, ⟨rfl, rfl, rfl, fun _ => rfl, Nat.le_refl _, ?_⟩, rfl, rfl⟩
    · show M.bind _ _ _ = _
      rw [M.bind, a1]
      simp only [hz', if_true]
      unfold Core.trackingErase
      show M.bind _ _ _ = _
      simp only [M.bind, Core.init, M.update, bind]
      rw [Setup.lock_ok rfl]
      have r1 : Core.releaseDeleter Fa x { s with
            inited := true, depth := s.depth + 1,
            fac := Fa.update s.fac x ⟨⟨ek, some (val ek), true⟩, er - 1, 1⟩ } =
          .ok true { s with
            inited := true, depth := s.depth + 1,
            fac := Fa.update (Fa.update s.fac x ⟨⟨ek, some (val ek), true⟩, er - 1, 1⟩) x ⟨⟨ek, some (val ek), true⟩, er - 1, 1 - 1⟩ } := by
        unfold Core.releaseDeleter
        show M.bind _ _ _ = _
        rw [M.bind, entry_ok (by exact rfl) (by exact w1)]
        rfl
      have r2 : Core.facErase (PRep.policy u) Fa x { s with
            inited := true, depth := s.depth + 1,
            fac := Fa.update (Fa.update s.fac x ⟨⟨ek, some (val ek), true⟩, er - 1, 1⟩) x ⟨⟨ek, some (val ek), true⟩, er - 1, 1 - 1⟩ } =
          .ok () { s with
            inited := true, depth := s.depth + 1,
            env := { s.env with vals := s.env.vals - 1, keys := s.env.keys - 1, acts := .keyGone :: .valGone :: s.env.acts },
            fac := Fa.erase (Fa.update (Fa.update s.fac x ⟨⟨ek, some (val ek), true⟩, er - 1, 1⟩) x ⟨⟨ek, some (val ek), true⟩, er - 1, 1 - 1⟩) x } := by
        unfold Core.facErase
        show M.bind _ _ _ = _
        rw [M.bind, entry_ok (by exact rfl) (by exact w2)]
        rfl
      simp only [M.scope, M.bind, r1, r2, if_true]
      rw [Setup.unlock_ok (n := s.depth) rfl]
    · refine h.gone he hno (LF.erase_inv x i2) v3 rfl rfl hcn ?_
      rw [hcx]
      omega
    · intro i a _ ha
      simp only [v3] at ha
      split at ha
      · cases ha
      · exact ⟨a, ha, rfl⟩
  · have hz' : (e.ref - 1 == 0) = false := by simpa using hz
    refine ⟨{ s with fac := Fa.update s.fac x { e with ref := e.ref - 1 } }, ?_, ?_, ⟨rfl, rfl, rfl, id, Nat.le_refl _, ?_⟩, rfl, hi⟩
    · show M.bind _ _ _ = _
      rw [M.bind, a1]
      simp only [hz', Bool.false_eq_true, if_false]
      rfl
    · refine h.change (e' := { e with ref := e.ref - 1 }) he hno rfl i1 v1 rfl rfl hcn ?_
      rw [hcx]
      refine ⟨?_, by omega, h3⟩
      show e.ref - 1 = _
      omega
    · intro i a _ ha
      simp only [v1] at ha
      split at ha
      · cases ha; subst_vars; exact ⟨e, he, rfl⟩
      · exact ⟨a, ha, rfl⟩

/-! ## Requests -/

variable {body : K → Body K V}

/-- A request has succeeded.  (No code of its own: used in statements and proofs.) -/
structure Got (LF : Fa.Lawful eqv) (val : K → V) (opn : List (Nat × K)) (held : List Nat) (k : K) (h : Nat)
    (s s' : St (PRep K V) F) : Prop where
  counted : Counted LF val opn (h :: held) s'
  keep : Keep Fa s s'
  ini : s'.inited = true
  entry : ∃ e, Fa.entry s'.fac h = some e ∧ e.rep.key = k

/-- Something has thrown, which leaves no trace.  (No code of its own: used in statements and proofs.) -/
structure Lost (LF : Fa.Lawful eqv) (val : K → V) (opn : List (Nat × K)) (held : List Nat) (s s' : St (PRep K V) F) : Prop where
  counted : Counted LF val opn held s'
  keep : Keep Fa s s'
  faulty : ∃ n, s.env.faults n = true

/-- What is assumed about the requests a constructor makes.  (No code of its own: used in
statements and proofs.) -/
def ServesRef (LF : Fa.Lawful eqv) (val : K → V) (D : K → Prop) (rank : K → Nat) (n : Nat)
    (req : K → M (St (PRep K V) F) Nat) : Prop :=
  ∀ (opn : List (Nat × K)) (held : List Nat) (k : K) (s : St (PRep K V) F), D k → rank k < n →
    (∀ p ∈ opn, rank k < rank p.2) → Counted LF val opn held s →
    Triple (· = s) (req k) (fun h s' => Got LF val opn held k h s s' ∧ s'.locals = s.locals)
      (fun s' => Lost LF val opn held s s' ∧ s'.locals = s.locals)

theorem runBody_count {D : K → Prop} {rank : K → Nat} {n : Nat} {opn : List (Nat × K)}
    (heq : ∀ e e', eqv e e' ↔ e.rep.key = e'.rep.key)
    {req : K → M (St (PRep K V) F) Nat} (hreq : ServesRef LF val D rank n req) {v : V} :
    ∀ (b : Body K V) (held : List Nat) (s : St (PRep K V) F), b.value val = some v →
      (∀ k ∈ b.asks val, D k ∧ rank k < n ∧ ∀ p ∈ opn, rank k < rank p.2) →
      Counted LF val opn held s → s.inited = true →
      Triple (· = s) (runBody (PRep.policy u) Fa .refcounted req b)
        (fun w s' => w = v ∧ Counted LF val opn held s' ∧ Keep Fa s s' ∧ s'.locals = s.locals)
        (fun s' => Lost LF val opn held s s' ∧ s'.locals = s.locals) := by
  intro b
  induction b with
  | ret w =>
    intro held s hv _ hC hi
    simp only [Body.value, Option.some.injEq] at hv
    subst hv
    exact .ofOk (e₂ := s) rfl ⟨rfl, hC, .refl s, rfl⟩
  | ub => intro held s hv; cases hv
  | ask k f ih =>
    intro held s hv hk hC hi
    simp only [Body.asks, List.mem_cons, forall_eq_or_imp] at hk
    simp only [Body.value] at hv
    obtain ⟨⟨hD, hr, hA⟩, hrest⟩ := hk
    unfold runBody
    refine Triple.bind (hreq opn held k s hD hr hA hC) fun h => ?_
    refine Triple.at ?_
    rintro s1 ⟨h1, hl1⟩
    obtain ⟨e, he, hek⟩ := h1.entry
    have hno := (h1.counted.held h (by simp)).1
    refine Triple.scope (R := fun w s' => w = v ∧ Counted LF val opn (h :: held) s' ∧ Keep Fa s s' ∧ s'.locals = s.locals)
      (RE := fun s' => Lost LF val opn (h :: held) s s' ∧ s'.locals = s.locals) ?_ (fun w => ?_) ?_
    · refine Triple.bind (R := fun w s' => w = val k ∧ s' = s1)
        (.ofOk (valueOf_ok h1.counted.good h1.ini he hno) ⟨by rw [hek], rfl⟩) fun w => ?_
      refine Triple.pull fun hw => ?_
      subst hw
      refine (ih (val k) (h :: held) s1 hv hrest h1.counted h1.ini).conseq (fun _ h => h) ?_ ?_
      · rintro w s' ⟨g1, g2, g3, g4⟩
        exact ⟨g1, g2, h1.keep.trans g3, g4.trans hl1⟩
      · rintro s' ⟨⟨g1, g2, g3⟩, g4⟩
        exact ⟨⟨g1, h1.keep.trans g2, by rw [← h1.keep.faults]; exact g3⟩, g4.trans hl1⟩
    · refine Triple.at ?_
      rintro s2 ⟨g1, g2, g3, g4⟩
      obtain ⟨s3, k1, k2, k3, k4, -⟩ := handleDtor_count (u := u) heq g2 (g3.ini hi) (x := h) (by simp)
      rw [List.erase_cons_head] at k2
      exact .ofOk k1 ⟨g1, k2, g3.trans k3, k4.trans g4⟩
    · refine Triple.at ?_
      rintro s2 ⟨⟨g1, g2, g3⟩, g4⟩
      obtain ⟨s3, k1, k2, k3, k4, -⟩ := handleDtor_count (u := u) heq g1 (g2.ini hi) (x := h) (by simp)
      rw [List.erase_cons_head] at k2
      exact .ofOk k1 ⟨⟨k2, g2.trans k3, g3⟩, k4.trans g4⟩

/-- The visitor on a new entry. -/
theorem visit_count {D : K → Prop} {rank : K → Nat} {n : Nat} {opn : List (Nat × K)} {held : List Nat}
    (heq : ∀ e e', eqv e e' ↔ e.rep.key = e'.rep.key) (hS : Sound body val D rank)
    {req : K → M (St (PRep K V) F) Nat} (hreq : ServesRef LF val D rank n req) {k : K} {h : Nat} {s : St (PRep K V) F}
    (hD : D k) (hr : rank k < n + 1) (hA : ∀ p ∈ opn, rank k < rank p.2)
    (hC : Counted LF val ((h, k) :: opn) held s) (hi : s.inited = true) :
    Triple (· = s) (visit (PRep.policy u) Fa .refcounted body req h)
      (fun _ s' => ∃ s1 e', Counted LF val ((h, k) :: opn) held s1 ∧ Keep Fa s s1 ∧ s1.locals = s.locals ∧
        e'.vals = s1.env.vals + 1 ∧ e'.faults = s1.env.faults ∧
        s' = { s1 with env := e', fac := Fa.update s1.fac h ⟨⟨k, some (val k), true⟩, 0, 0⟩ })
      (fun s' => Lost LF val ((h, k) :: opn) held s s' ∧ s'.locals = s.locals) := by
  unfold visit
  refine Triple.bind (R := fun e s' => e = ⟨⟨k, none, false⟩, 0, 0⟩ ∧ s' = s)
    (.ofOk (entry_ok hi (hC.opened (h, k) (by simp))) ⟨rfl, rfl⟩) fun e => ?_
  refine Triple.pull fun hee => ?_
  subst hee
  simp only [Bool.false_eq_true, if_false]
  refine Triple.bind (runBody_count (u := u) (opn := (h, k) :: opn) heq hreq (body k) held s (hS.value k hD) ?_ hC hi)
    fun w => ?_
  · intro k' hk'
    obtain ⟨h1, h2⟩ := hS.asks k hD k' hk'
    refine ⟨h1, by omega, ?_⟩
    intro p hp
    rcases List.mem_cons.1 hp with rfl | hp
    · exact h2
    · exact Nat.lt_trans h2 (hA p hp)
  refine Triple.at ?_
  rintro s1 ⟨rfl, hC1, hE1, hl1⟩
  refine Triple.bind ((Setup.env_triple (mayThrow_quiet s1.env)).conseq (fun _ h => h)
    (fun _ _ h => h) ?_) fun _ => ?_
  · rintro s' ⟨e', ⟨hq, hf⟩, rfl⟩
    refine ⟨⟨hC1.congr rfl rfl hq.vals, hE1.trans (.of rfl rfl rfl hq.faults rfl id), ?_⟩, hl1⟩
    rw [← hE1.faults]; exact hf
  refine Triple.at ?_
  rintro s2 ⟨e2, hq2, rfl⟩
  have he2 : Fa.entry ({ s1 with env := e2 } : St (PRep K V) F).fac h =
    some ⟨⟨k, none, false⟩, 0, 0⟩ := hC1.opened (h, k) (by simp)
  refine Triple.bind (R := fun e s' => e = ⟨⟨k, none, false⟩, 0, 0⟩ ∧ s' = { s1 with env := e2 })
    (.ofOk (entry_ok (hE1.ini hi) he2) ⟨rfl, rfl⟩) fun e => ?_
  refine Triple.pull fun hee => ?_
  subst hee
  refine .ofOk (a := ()) rfl ⟨s1, { e2 with vals := e2.vals + 1, made := e2.made + 1, acts := .valArgs :: e2.acts }, hC1, hE1,
    hl1, ?_, hq2.faults, rfl⟩
  show e2.vals + 1 = _
  rw [hq2.vals]

/-- `facInsert` does not change the entries there are, if it finds one or throws. -/
theorem Counted.ext {opn : List (Nat × K)} {held : List Nat} {s s' : St (PRep K V) F} (h : Counted LF val opn held s)
    (hG : Good LF (fun k => .ret (val k)) val (opn.map Prod.fst) s') (hE : Ext Fa (fun _ => False) s s') :
    Counted LF val opn held s' := by
  have hv : ∀ i, Fa.entry s'.fac i = Fa.entry s.fac i := by
    intro i
    cases hi : Fa.entry s.fac i with
    | some e => exact hE.keep i e hi
    | none =>
      cases hi' : Fa.entry s'.fac i with
      | none => rfl
      | some e => exact (hE.new i e hi' hi).elim
  refine h.same hG.fac hv hE.next ?_
  have h1 := hE.count
  have h2 := hE.alive
  rw [ids_same (LF := LF) h.good.fac hG.fac fun i => by rw [hv]] at h1
  omega

/-- The part under the lock. -/
theorem locked_count {D : K → Prop} {rank : K → Nat} {n : Nat} {opn : List (Nat × K)} {held : List Nat}
    (heq : ∀ e e', eqv e e' ↔ e.rep.key = e'.rep.key) (hS : Sound body val D rank)
    {req : K → M (St (PRep K V) F) Nat} (hreq : ServesRef LF val D rank n req) {k : K}
    {s : St (PRep K V) F} {rest : List (PRep K V)} (hD : D k) (hr : rank k < n + 1)
    (hA : ∀ p ∈ opn, rank k < rank p.2) (hC : Counted LF val opn held s) (hi : s.inited = true)
    (hl : s.locals = ⟨k, none, false⟩ :: rest) :
    Triple (· = s) (do
        let h ← Core.facInsert (PRep.policy u) Fa
        M.onExc (visit (PRep.policy u) Fa .refcounted body req h)
          (Core.facErase (PRep.policy u) Fa h)
        Core.handleCtor Fa .refcounted h
        pure h)
      (fun h s' => Got LF val opn held k h s s' ∧ ∃ k', s'.locals = ⟨k', none, false⟩ :: rest)
      (fun s' => Lost LF val opn held s s' ∧ ∃ k', s'.locals = ⟨k', none, false⟩ :: rest) := by
  refine Triple.bind ((facInsert_spec heq hC.good hi hl fun i hi' e he hk => ?_).conseq (fun _ h => h)
    (fun _ _ h => h) ?_) fun h => ?_
  · obtain ⟨p, hp, rfl⟩ := List.mem_map.1 hi'
    rw [hC.opened p hp] at he
    cases he
    simp only at hk
    have := hA p hp
    rw [hk] at this
    exact Nat.lt_irrefl _ this
  · rintro s' ⟨h1, h2, h3, h4⟩
    exact ⟨⟨hC.ext h2 h3, h3.toKeep, h4⟩, h1⟩
  refine Triple.at ?_
  rintro s1 ⟨hl1, hc⟩
  rcases hc with ⟨hG1, hE1, hh, e, he, hek⟩ | ⟨hG1, hL⟩
  · -- found
    have hC1 := hC.ext hG1 hE1
    have hi1 := hE1.ini hi
    have hct := (hG1.full h e he hh).2
    have hv : visit (PRep.policy u) Fa .refcounted body req h s1 = .ok () s1 := by
      unfold visit
      show M.bind _ _ s1 = _
      simp only [M.bind, entry_ok hi1 he, hct, if_true]
      rfl
    obtain ⟨s2, a1, a2, a3, a4, a5, a6, a7⟩ := addRef_more heq hC1 hi1 he hh
    refine .ofOk (a := h) (e₂ := s2) ?_ ⟨⟨a3, hE1.toKeep.trans a4, a6, _, a7, hek⟩, by rw [a5]; exact hl1⟩
    have hne : (e.ref + 1 == 1) = false := by
      rw [beq_eq_false_iff_ne]; omega
    simp only [bind, M.bind, M.onExc, hv, Core.handleCtor, a1, hne, Bool.false_eq_true, if_false]
    rfl
  · -- new
    have hC1 := hC.opens hG1 hL
    have hi1 : s1.inited = true := by rw [hL.ini]; exact hi
    have hh : h ∉ opn.map Prod.fst := by
      intro hm
      obtain ⟨e, he, _⟩ := hC.good.opened h hm
      rw [hL.fresh] at he; cases he
    have hK1 : Keep Fa s s1 := by
      refine ⟨hL.objs, hL.depth, hL.quiet.faults, fun _ => hi1, by rw [hL.next]; exact Nat.le_succ _, fun i e' hi he => ?_⟩
      rw [hL.view, if_neg (by rw [hL.id]; exact Nat.ne_of_lt hi)] at he
      exact ⟨e', he, rfl⟩
    refine Triple.bind (Triple.onExc (visit_count (u := u) heq hS hreq hD hr hA hC1 hi1) ?_) fun _ => ?_
    · refine Triple.at ?_
      rintro s2 ⟨⟨g1, g2, g3⟩, g4⟩
      obtain ⟨e', hq, hok, hG2, hv2⟩ := facErase_nested (u := u) g1.good (g2.ini hi1) hh (g1.opened (h, k) (by simp))
      refine .ofOk hok ⟨⟨g1.undo hh hG2 hv2 hq.vals, hK1.trans (g2.trans ⟨rfl, rfl, hq.faults, id, Nat.le_refl _, ?_⟩), ?_⟩, ?_⟩
      · intro i e' _ he
        simp only [hv2] at he
        split at he
        · cases he
        · exact ⟨e', he, rfl⟩
      · rw [← hK1.faults]; exact g3
      · obtain ⟨k', hk'⟩ := hl1
        exact ⟨k', g4.trans hk'⟩
    · refine Triple.at ?_
      rintro s2 ⟨s1', e', g1, g2, g3, g4, g5, rfl⟩
      obtain ⟨s3, a1, a2, a3, a4, a5, a6⟩ := handleCtor_new heq g1 (g2.ini hi1) hh g4 g5
      refine .ofOk (a := h) (e₂ := s3) ?_ ⟨⟨a2, hK1.trans (g2.trans a3), a5, a6⟩, ?_⟩
      · simp only [bind, M.bind, a1]
        rfl
      · obtain ⟨k', hk'⟩ := hl1
        exact ⟨k', a4.trans (g3.trans hk')⟩

theorem Got.quiet {opn : List (Nat × K)} {held : List Nat} {k : K} {h : Nat} {s s' : St (PRep K V) F} {e : Env}
    {l : List (PRep K V)} (hg : Got LF val opn held k h s s') (hq : Quiet s'.env e) :
    Got LF val opn held k h s { s' with env := e, locals := l } :=
  ⟨hg.counted.congr rfl rfl hq.vals, hg.keep.trans (.of rfl rfl rfl hq.faults rfl id), hg.ini, hg.entry⟩

theorem Lost.quiet {opn : List (Nat × K)} {held : List Nat} {s s' : St (PRep K V) F} {e : Env}
    {l : List (PRep K V)} (hg : Lost LF val opn held s s') (hq : Quiet s'.env e) :
    Lost LF val opn held s { s' with env := e, locals := l } :=
  ⟨hg.counted.congr rfl rfl hq.vals, hg.keep.trans (.of rfl rfl rfl hq.faults rfl id), hg.faulty⟩

theorem request_count {D : K → Prop} {rank : K → Nat}
    (heq : ∀ e e', eqv e e' ↔ e.rep.key = e'.rep.key) (hS : Sound body val D rank) :
    ∀ n, ServesRef LF val D rank n (request (PRep.policy u) Fa .refcounted body n) := by
  intro n
  induction n with
  | zero => intro opn held k s _ hr; exact absurd hr (Nat.not_lt_zero _)
  | succ n ih =>
    intro opn held k s hD hr hA hC
    unfold request
    refine Triple.bind ((Setup.env_triple (newRep_quiet _ k s.env)).conseq (fun _ h => h)
      (fun _ _ h => h) ?_) fun x => ?_
    · rintro s' ⟨e', ⟨hq, hf⟩, rfl⟩
      exact ⟨⟨hC.congr rfl rfl hq.vals, .of rfl rfl rfl hq.faults rfl id, hf⟩, rfl⟩
    refine Triple.at ?_
    rintro s1 ⟨e1, ⟨rfl, hq1⟩, rfl⟩
    refine withLocal_nested
      (R := fun h s' => Got LF val opn held k h s s' ∧ ∃ k', s'.locals = ⟨k', none, false⟩ :: s.locals)
      (RE := fun s' => Lost LF val opn held s s' ∧ ∃ k', s'.locals = ⟨k', none, false⟩ :: s.locals) ?_
      (fun h s' hd => ⟨hd.2, fun e hq => ⟨hd.1.quiet hq, rfl⟩⟩) (fun s' hd => ⟨hd.2, fun e hq => ⟨hd.1.quiet hq, rfl⟩⟩)
    refine Triple.bind (R := fun _ s' => s' = { s with
      env := e1, inited := true, locals := ⟨k, none, false⟩ :: s.locals }) (.ofOk rfl rfl)
      fun _ => ?_
    refine Triple.bind ((Setup.env_triple (move_quiet u k e1)).conseq (fun _ h => h) (fun _ _ h => h) ?_)
      fun p => ?_
    · rintro s' ⟨e', ⟨hq, hf⟩, rfl⟩
      refine ⟨⟨hC.congr rfl rfl (hq1.trans hq).vals, .of rfl rfl rfl (hq1.trans hq).faults rfl (fun _ => rfl), ?_⟩, k, rfl⟩
      rw [← hq1.faults]; exact hf
    refine Triple.at ?_
    rintro s2 ⟨e2, ⟨⟨hp1, k', hp2⟩, hq2⟩, rfl⟩
    rw [hp1, hp2]
    refine Triple.bind (R := fun _ s' => s' = { s with
      env := e2, inited := true, locals := ⟨k', none, false⟩ :: s.locals }) (.ofOk rfl rfl)
      fun _ => ?_
    refine withLocal_nested
      (R := fun h s' => Got LF val opn held k h s s' ∧ ∃ k'', s'.locals = ⟨k'', none, false⟩ :: ⟨k', none, false⟩ :: s.locals)
      (RE := fun s' => Lost LF val opn held s s' ∧ ∃ k'', s'.locals = ⟨k'', none, false⟩ :: ⟨k', none, false⟩ :: s.locals) ?_
      (fun h s' hd => ⟨hd.2, fun e hq => ⟨hd.1.quiet hq, k', rfl⟩⟩) (fun s' hd => ⟨hd.2, fun e hq => ⟨hd.1.quiet hq, k', rfl⟩⟩)
    refine Triple.bind (R := fun _ s' => s' = { s with
      env := e2, inited := true, depth := s.depth + 1,
      locals := ⟨k, none, false⟩ :: ⟨k', none, false⟩ :: s.locals })
      (.ofOk (Setup.lock_ok rfl) rfl) fun _ => ?_
    have hq3 : Quiet s.env e2 := hq1.trans hq2
    have hin := locked_count (u := u) (held := held) (rest := ⟨k', none, false⟩ :: s.locals) (s := { s with
      env := e2, inited := true, depth := s.depth + 1,
      locals := ⟨k, none, false⟩ :: ⟨k', none, false⟩ :: s.locals }) heq hS
      ih hD hr hA (hC.congr rfl rfl hq3.vals) rfl rfl
    refine Triple.scope hin (fun h => ?_) ?_
    · refine Triple.at ?_
      rintro s' ⟨hd, hl⟩
      exact .ofOk (Setup.unlock_ok (n := s.depth) hd.keep.depth) ⟨⟨hd.counted.congr rfl rfl rfl,
        ⟨hd.keep.objs, rfl, hd.keep.faults.trans hq3.faults, fun _ => hd.ini, hd.keep.next, hd.keep.keys⟩, hd.ini, hd.entry⟩, hl⟩
    · refine Triple.at ?_
      rintro s' ⟨hd, hl⟩
      exact .ofOk (Setup.unlock_ok (n := s.depth) hd.keep.depth) ⟨⟨hd.counted.congr rfl rfl rfl,
        ⟨hd.keep.objs, rfl, hd.keep.faults.trans hq3.faults, fun _ => hd.keep.ini rfl, hd.keep.next, hd.keep.keys⟩,
        by rw [← hq3.faults]; exact hd.faulty⟩, hl⟩

/-! ## Programs -/

/-- The flyweights of the program, and their keys.  (No code of its own: used in statements and proofs.) -/
def Holds (Fa : Factory F (Ent (PRep K V))) (s : St (PRep K V) F) (hs : List Nat) (ks : List K) : Prop :=
  hs.length = ks.length ∧ ∀ (i : Nat) (h : Nat), hs[i]? = some h → ∃ e, Fa.entry s.fac h = some e ∧ ks[i]? = some e.rep.key

theorem Holds.keep {opn : List (Nat × K)} {held held' hs : List Nat} {ks : List K} {s s' : St (PRep K V) F}
    (h : Holds Fa s hs ks) (hK : Keep Fa s s') (hC : Counted LF val opn held s) (hC' : Counted LF val opn held' s')
    (hin : ∀ i ∈ hs, i ∈ held') : Holds Fa s' hs ks := by
  refine ⟨h.1, fun i x hx => ?_⟩
  obtain ⟨e, he, hk⟩ := h.2 i x hx
  obtain ⟨e', he'⟩ := Option.isSome_iff_exists.1 (hC'.held x (hin x (List.mem_of_getElem? hx))).2
  obtain ⟨e1, he1, hk1⟩ := hK.keys x e' (hC.good.lt x (by rw [he]; rfl)) he'
  rw [he] at he1
  cases he1
  exact ⟨e', he', by rw [← hk1]; exact hk⟩

theorem Holds.add {hs : List Nat} {ks : List K} {s : St (PRep K V) F} {h : Nat} {k : K} (hH : Holds Fa s hs ks)
    (he : ∃ e, Fa.entry s.fac h = some e ∧ e.rep.key = k) : Holds Fa s (hs ++ [h]) (ks ++ [k]) := by
  obtain ⟨e, he, rfl⟩ := he
  obtain ⟨hl, hH⟩ := hH
  refine ⟨by simp [hl], fun i x hx => ?_⟩
  by_cases hi : i < hs.length
  · rw [List.getElem?_append_left hi] at hx
    obtain ⟨e', he', hk⟩ := hH i x hx
    exact ⟨e', he', by rw [List.getElem?_append_left (by omega)]; exact hk⟩
  · rw [List.getElem?_append_right (by omega)] at hx
    have hi' : i - hs.length = 0 := by
      have := (List.getElem?_eq_some_iff.1 hx).1
      simp at this
      exact Nat.sub_eq_zero_of_le (by omega)
    rw [hi'] at hx
    simp only [List.getElem?_cons_zero, Option.some.injEq] at hx
    subst hx
    exact ⟨e, he, by rw [List.getElem?_append_right (by omega), ← hl, hi']; rfl⟩

theorem Holds.drop {hs : List Nat} {ks : List K} {s : St (PRep K V) F} (hH : Holds Fa s hs ks) (i : Nat) :
    Holds Fa s (hs.eraseIdx i) (ks.eraseIdx i) := by
  obtain ⟨hl, hH⟩ := hH
  refine ⟨by simp [List.length_eraseIdx, hl], fun j x hx => ?_⟩
  rw [List.getElem?_eraseIdx] at hx ⊢
  split at hx
  · next hj => rw [if_pos hj]; exact hH j x hx
  · next hj => rw [if_neg hj]; exact hH (j + 1) x hx

/-- `Counted` only depends on how often a flyweight is held. -/
theorem Counted.perm {opn : List (Nat × K)} {held held' : List Nat} {s : St (PRep K V) F} (h : Counted LF val opn held s)
    (hc : ∀ i, held'.count i = held.count i) : Counted LF val opn held' s :=
  ⟨h.good, h.opened, fun i e he hno => by rw [hc]; exact h.counts i e he hno,
    fun i hi => h.held i (List.count_pos_iff.1 (by rw [← hc]; exact List.count_pos_iff.2 hi)), h.vals⟩

theorem count_eraseIdx {hs : List Nat} {i h : Nat} (hi : hs[i]? = some h) (j : Nat) :
    (hs.eraseIdx i).count j = (hs.erase h).count j := by
  induction hs generalizing i with
  | nil => simp at hi
  | cons a hs ih =>
    cases i with
    | zero => simp at hi; subst hi; simp
    | succ i =>
      simp only [List.getElem?_cons_succ] at hi
      simp only [List.eraseIdx_cons_succ, List.erase_cons]
      split
      · next ha =>
        have ha : a = h := by simpa using ha
        subst ha
        rw [List.count_cons, ih hi]
        have hm : a ∈ hs := List.mem_of_getElem? hi
        by_cases hj : j = a
        · subst hj
          rw [List.count_erase_self]
          have := List.count_pos_iff.2 hm
          simp
          omega
        · rw [List.count_erase_of_ne hj]
          simp [Ne.symm hj]
      · rw [List.count_cons, List.count_cons, ih hi]

theorem vrun_count {D : K → Prop} {rank : K → Nat} {n : Nat}
    (heq : ∀ e e', eqv e e' ↔ e.rep.key = e'.rep.key) (hS : Sound body val D rank) :
    ∀ (ops : List (VOp K)) (hs : List Nat) (ks : List K) (s : St (PRep K V) F),
      (∀ k, VOp.make k ∈ ops → D k ∧ rank k < n) → Counted LF val [] hs s → Holds Fa s hs ks →
      (s.inited = true ∨ hs = []) →
      ∃ outs hs' ks' s', vrun (PRep.policy u) Fa .refcounted body n ops hs s = some (outs, hs', s') ∧
        VRun val (∃ n, s.env.faults n = true) ks ops outs ks' ∧ Counted LF val [] hs' s' ∧ Holds Fa s' hs' ks' ∧
        Keep Fa s s' := by
  intro ops
  induction ops with
  | nil => intro hs ks s _ hC hH _; exact ⟨[], hs, ks, s, rfl, .nil ks, hC, hH, .refl s⟩
  | cons op ops ih =>
    intro hs ks s hk hC hH hi
    have hk' : ∀ k, VOp.make k ∈ ops → D k ∧ rank k < n := fun k h => hk k (List.mem_cons_of_mem _ h)
    -- the step, then the rest
    have go : ∀ out hs1 ks1 s1, vstep (PRep.policy u) Fa .refcounted body n hs s op = some (out, hs1, s1) →
        Counted LF val [] hs1 s1 → Holds Fa s1 hs1 ks1 → (s1.inited = true ∨ hs1 = []) → Keep Fa s s1 →
        (∀ outs ks', VRun val (∃ n, s.env.faults n = true) ks1 ops outs ks' →
          VRun val (∃ n, s.env.faults n = true) ks (op :: ops) (out :: outs) ks') →
        ∃ outs hs' ks' s', vrun (PRep.policy u) Fa .refcounted body n (op :: ops) hs s = some (outs, hs', s') ∧
          VRun val (∃ n, s.env.faults n = true) ks (op :: ops) outs ks' ∧ Counted LF val [] hs' s' ∧ Holds Fa s' hs' ks' ∧
          Keep Fa s s' := by
      intro out hs1 ks1 s1 h1 h2 h3 h4 h5 h6
      obtain ⟨outs, hs', ks', s', g1, g2, g3, g4, g5⟩ := ih hs1 ks1 s1 hk' h2 h3 h4
      refine ⟨out :: outs, hs', ks', s', ?_, h6 outs ks' (by rw [← h5.faults]; exact g2), g3, g4, h5.trans g5⟩
      rw [vrun, h1]
      simp only [g1]
      rfl
    have hlen := hH.1
    have ini : ∀ (i h : Nat), hs[i]? = some h → s.inited = true := by
      intro i h hh
      rcases hi with hi | rfl
      · exact hi
      · simp at hh
    cases op with
    | make k =>
      obtain ⟨hD, hr⟩ := hk k (by simp)
      have ht := request_count (u := u) heq hS n [] hs k s hD hr (by simp) hC s rfl
      cases hm : request (PRep.policy u) Fa .refcounted body n k s with
      | ok h s1 =>
        rw [hm] at ht
        obtain ⟨g, -⟩ := ht
        refine go .done (hs ++ [h]) (ks ++ [k]) s1 (by simp only [vstep, hm]) (g.counted.perm ?_)
          (.add (hH.keep g.keep hC g.counted fun i hi => List.mem_cons_of_mem _ hi) g.entry) (.inl g.ini) g.keep
          fun outs ks' h => .make k h
        intro i
        simp only [List.count_append, List.count_cons, List.count_nil]
        omega
      | exc s1 =>
        rw [hm] at ht
        obtain ⟨g, -⟩ := ht
        exact go .threw hs ks s1 (by simp only [vstep, hm]) g.counted
          (hH.keep g.keep hC g.counted fun i hi => hi) (hi.imp_left g.keep.ini) g.keep fun outs ks' h => .threw k g.faulty h
      | ub => rw [hm] at ht; exact ht.elim
    | copy i =>
      cases hx : hs[i]? with
      | none =>
        exact go .skipped hs ks s (by simp only [vstep, hx]) hC hH hi (.refl s) fun outs ks' h =>
          .skip i _ (by rw [← hlen]; exact List.getElem?_eq_none_iff.1 hx) (.inl rfl) h
      | some h =>
        obtain ⟨e, he, hek⟩ := hH.2 i h hx
        obtain ⟨s1, a1, a2, a3, a4, a5, a6, a7⟩ := addRef_more heq hC (ini i h hx) he (by simp)
        have hcp : Core.handleCopy Fa .refcounted h s = .ok () s1 := by
          simp only [Core.handleCopy, bind, M.bind, a1]
          rfl
        refine go .done (hs ++ [h]) (ks ++ [e.rep.key]) s1 (by simp only [vstep, hx, hcp]) (a3.perm ?_)
          (.add (hH.keep a4 hC a3 fun i hi => List.mem_cons_of_mem _ hi) ⟨_, a7, rfl⟩) (.inl a6) a4
          fun outs ks' h => .copy i _ hek h
        intro i
        simp only [List.count_append, List.count_cons, List.count_nil]
        omega
    | drop i =>
      cases hx : hs[i]? with
      | none =>
        exact go .skipped hs ks s (by simp only [vstep, hx]) hC hH hi (.refl s) fun outs ks' h =>
          .skip i _ (by rw [← hlen]; exact List.getElem?_eq_none_iff.1 hx) (.inr (.inl rfl)) h
      | some h =>
        obtain ⟨s1, a1, a2, a3, a4, a5⟩ := handleDtor_count (u := u) heq hC (ini i h hx) (List.mem_of_getElem? hx)
        have hC1 : Counted LF val [] (hs.eraseIdx i) s1 := a2.perm (count_eraseIdx hx)
        have hH1 : Holds Fa s1 (hs.eraseIdx i) (ks.eraseIdx i) := by
          obtain ⟨l, hh⟩ := hH.drop i
          refine ⟨l, fun j x hj => ?_⟩
          obtain ⟨e, he, hk⟩ := hh j x hj
          obtain ⟨e', he'⟩ := Option.isSome_iff_exists.1 (hC1.held x (List.mem_of_getElem? hj)).2
          obtain ⟨e1, he1, hk1⟩ := a3.keys x e' (hC.good.lt x (by rw [he]; rfl)) he'
          rw [he] at he1
          cases he1
          exact ⟨e', he', by rw [← hk1]; exact hk⟩
        exact go .done _ _ s1 (by simp only [vstep, hx, a1]) hC1 hH1 (.inl a5) a3
          fun outs ks' h => .drop i (by rw [← hlen]; exact (List.getElem?_eq_some_iff.1 hx).1) h
    | read i =>
      cases hx : hs[i]? with
      | none =>
        exact go .skipped hs ks s (by simp only [vstep, hx]) hC hH hi (.refl s) fun outs ks' h =>
          .skip i _ (by rw [← hlen]; exact List.getElem?_eq_none_iff.1 hx) (.inr (.inr rfl)) h
      | some h =>
        obtain ⟨e, he, hek⟩ := hH.2 i h hx
        exact go (.value (val e.rep.key)) hs ks s
          (by simp only [vstep, hx, valueOf_ok hC.good (ini i h hx) he (by simp)]) hC hH hi (.refl s)
          fun outs ks' h => .read i _ hek h

theorem start_counted (faults : Nat → Bool) (alloc : Nat → List Nat → Nat) :
    Counted LF val [] [] (Core.start Fa faults alloc) where
  good := start_good faults alloc
  opened := by simp
  counts i e he := by simp [Core.start, LF.entry_empty] at he
  held := by simp
  vals := by
    have : Fa.ids (Core.start Fa faults alloc).fac = [] := by
      rw [List.eq_nil_iff_forall_not_mem]
      intro i hi
      have h1 := (LF.mem_ids i LF.inv_empty).1 hi
      simp [LF.entry_empty] at h1
    rw [this]
    rfl

/-- What `Counted` says of a state in which nothing is under construction. -/
theorem Counted.final {hs : List Nat} {ks : List K} {s : St (PRep K V) F} (hC : Counted LF val [] hs s)
    (hH : Holds Fa s hs ks) :
    (∀ k, Stored Fa s k ↔ k ∈ ks) ∧
    (∀ (i j : Nat), i < ks.length → j < ks.length → (hs[i]? = hs[j]? ↔ ks[i]? = ks[j]?)) ∧
    ∃ all : List K, all.Nodup ∧ (∀ k, k ∈ all ↔ k ∈ ks) ∧ s.env.vals = all.length := by
  have hst : ∀ k, Stored Fa s k ↔ k ∈ ks := by
    intro k
    constructor
    · rintro ⟨i, e, he, rfl⟩
      have hm := List.count_pos_iff.1 (hC.counts i e he (by simp)).2.1
      obtain ⟨j, hj⟩ := List.mem_iff_getElem?.1 hm
      obtain ⟨e', he', hk⟩ := hH.2 j i hj
      rw [he] at he'
      cases he'
      exact List.mem_of_getElem? hk
    · intro hk
      obtain ⟨j, hj⟩ := List.mem_iff_getElem?.1 hk
      have hlt : j < hs.length := by rw [hH.1]; exact (List.getElem?_eq_some_iff.1 hj).1
      obtain ⟨e, he, hek⟩ := hH.2 j hs[j] (List.getElem?_eq_getElem hlt)
      rw [hj] at hek
      cases hek
      exact ⟨_, e, he, rfl⟩
  refine ⟨hst, ?_, ?_⟩
  · intro i j hi hj
    rw [← hH.1] at hi hj
    obtain ⟨e, he, hek⟩ := hH.2 i hs[i] (List.getElem?_eq_getElem hi)
    obtain ⟨e', he', hek'⟩ := hH.2 j hs[j] (List.getElem?_eq_getElem hj)
    rw [List.getElem?_eq_getElem hi, List.getElem?_eq_getElem hj, hek, hek', Option.some.injEq, Option.some.injEq]
    constructor
    · intro h
      rw [h, he'] at he
      cases he
      rfl
    · exact fun h => hC.good.uniq _ _ _ _ he he' h
  · have h0 := hC.vals
    have hmem : ∀ i, i ∈ Fa.ids s.fac ↔ ∃ e, Fa.entry s.fac i = some e := fun i => by
      rw [LF.mem_ids i hC.good.fac, Option.isSome_iff_exists]
    refine ⟨(Fa.ids s.fac).flatMap fun i => ((Fa.entry s.fac i).map fun e => e.rep.key).toList, ?_, ?_, ?_⟩
    · have : ∀ l : List Nat, l.Nodup →
          (l.flatMap fun i => ((Fa.entry s.fac i).map fun e => e.rep.key).toList).Nodup := by
        intro l
        induction l with
        | nil => intro _; simp
        | cons a l ih =>
          intro hl
          rw [List.nodup_cons] at hl
          simp only [List.flatMap_cons]
          rw [List.nodup_append]
          refine ⟨by cases Fa.entry s.fac a <;> simp, ih hl.2, ?_⟩
          intro x hx y hy hxy
          subst hxy
          simp only [Option.mem_toList, Option.map_eq_some_iff] at hx
          simp only [List.mem_flatMap, Option.mem_toList, Option.map_eq_some_iff] at hy
          obtain ⟨e, he, hxe⟩ := hx
          obtain ⟨b, hb, e', he', hxe'⟩ := hy
          have := hC.good.uniq a b e e' he he' (by rw [hxe, hxe'])
          subst this
          exact hl.1 hb
      exact this _ (LF.ids_nodup hC.good.fac)
    · intro k
      rw [← hst]
      simp only [List.mem_flatMap, Option.mem_toList, Option.map_eq_some_iff]
      constructor
      · rintro ⟨i, -, e, he, rfl⟩; exact ⟨i, e, he, rfl⟩
      · rintro ⟨i, e, he, rfl⟩; exact ⟨i, (hmem i).2 ⟨e, he⟩, e, he, rfl⟩
    · have hlen : ∀ l : List Nat, (∀ i ∈ l, ∃ e, Fa.entry s.fac i = some e) →
          (l.flatMap fun i => ((Fa.entry s.fac i).map fun e => e.rep.key).toList).length = l.length := by
        intro l
        induction l with
        | nil => intro _; rfl
        | cons a l ih =>
          intro hl
          obtain ⟨e, he⟩ := hl a (by simp)
          rw [List.flatMap_cons, List.length_append, ih fun i hi => hl i (by simp [hi]), he]
          simp
          omega
      rw [hlen _ fun i hi => (hmem i).1 hi, ← h0]
      simp

end Verif.Nested

import Verif.Core
import Verif.PolicyLaws

/-!
# Sequential core: invariant and equations of the basic functions
-/

set_option autoImplicit false

namespace Verif

/-- Sum of `f 0, ..., f (n-1)`.  (No code of its own: used in statements and proofs.) -/
def rsum (f : Nat → Int) : Nat → Int
  | 0 => 0
  | n + 1 => rsum f n + f n

theorem rsum_congr {f g : Nat → Int} {n : Nat} (h : ∀ i, i < n → f i = g i) :
    rsum f n = rsum g n := by
  induction n with
  | zero => rfl
  | succ n ih =>
    simp only [rsum]
    rw [ih fun i hi => h i (Nat.lt_succ_of_lt hi), h n (Nat.lt_succ_self n)]

theorem rsum_change {f g : Nat → Int} {n i : Nat} (hi : i < n) (h : ∀ j, j ≠ i → f j = g j) :
    rsum g n = rsum f n - f i + g i := by
  induction n with
  | zero => omega
  | succ n ih =>
    simp only [rsum]
    by_cases hn : i = n
    · subst hn
      rw [rsum_congr (f := g) (g := f) fun j hj => (h j (by omega)).symm]
      omega
    · rw [ih (by omega), h n (by omega)]
      omega

theorem rsum_ext {f : Nat → Int} {n m : Nat} (h : n ≤ m) (h0 : ∀ i, n ≤ i → f i = 0) :
    rsum f m = rsum f n := by
  induction m with
  | zero =>
    have : n = 0 := by omega
    rw [this]
  | succ m ih =>
    by_cases hn : n = m + 1
    · rw [hn]
    · simp only [rsum]
      rw [ih (by omega), h0 m (by omega)]
      omega

/-- A factory identifies entries by their keys, up to `keq`.  (No code of its own: used in
statements and proofs.) -/
def KeyEqv {K V Rep : Type} (P : Policy K V Rep) (keq : K → K → Bool)
    (eqv : Ent Rep → Ent Rep → Prop) : Prop :=
  ∀ e e' k k', P.toKey e.rep = some k → P.toKey e'.rep = some k' → (eqv e e' ↔ keq k k' = true)

/-- Everything needed to reason about one flyweight type.  (No code of its own: used in
statements and proofs.) -/
structure Setup (K V Rep F : Type) where
  P : Policy K V Rep
  Fa : Factory F (Ent Rep)
  trk : Tracking
  sp : SrcSpec K V
  keq : K → K → Bool
  eqv : Ent Rep → Ent Rep → Prop
  L : P.Lawful sp
  LF : Fa.Lawful eqv
  LS : sp.Lawful keq
  hkey : KeyEqv P keq eqv

namespace Setup
variable {K V Rep F : Type} (S : Setup K V Rep F)

/-- Number of live flyweight variables whose handle is `i`.  (No code of its own: used in
statements and proofs.) -/
def refs (s : St Rep F) (i : Nat) : Nat := s.objs.countP fun p => p.2 == i

/-- Entry `i` holds the triple `b`.  (No code of its own: used in statements and proofs.) -/
def At (s : St Rep F) (i : Nat) (b : Bind K V) : Prop :=
  ∃ e, S.Fa.entry s.fac i = some e ∧ S.L.Full e.rep b.key b.val ∧ s.addr i = b.addr

/-- Live keys (`fst`) or values (`snd`) of an optional entry.  (No code of its own: used in
statements and proofs.) -/
def cnt (g : Int × Int → Int) (o : Option (Ent Rep)) : Int :=
  match o with
  | none => 0
  | some e => g (S.L.res e.rep)

/-- Live keys or values in the factory and the local objects.  (No code of its own: used in
statements and proofs.) -/
def tot (g : Int × Int → Int) (s : St Rep F) : Int :=
  rsum (fun i => S.cnt g (S.Fa.entry s.fac i)) s.nextId +
    (s.locals.map fun r => g (S.L.res r)).sum

/-- Invariant between operations.  `ext i` is the number of handles to entry `i`
held by the code in progress, besides those in flyweight variables.  (No code of its own: used
in statements and proofs.) -/
structure Inv (ext : Nat → Nat) (s : St Rep F) : Prop where
  fac : S.LF.Inv s.fac
  alloc : ∀ n l, s.alloc n l ∉ l
  full : ∀ i e, S.Fa.entry s.fac i = some e → ∃ k v, S.L.Full e.rep k v
  counts : S.trk = .refcounted → ∀ i e, S.Fa.entry s.fac i = some e →
    e.ref = ((refs s i + ext i : Nat) : Int) ∧ 0 < refs s i + ext i ∧ e.del = 1
  objs : ∀ p ∈ s.objs, (S.Fa.entry s.fac p.2).isSome
  ext : ∀ i, 0 < ext i → (S.Fa.entry s.fac i).isSome
  ini : ∀ i, (S.Fa.entry s.fac i).isSome → s.inited = true
  lt : ∀ i, (S.Fa.entry s.fac i).isSome → i < s.nextId
  inj : ∀ i j, (S.Fa.entry s.fac i).isSome → (S.Fa.entry s.fac j).isSome →
    s.addr i = s.addr j → i = j
  keys : s.env.keys = S.tot Prod.fst s
  vals : s.env.vals = S.tot Prod.snd s

/-- One more handle to `h`.  (No code of its own: used in statements and proofs.) -/
def plus (ext : Nat → Nat) (h : Nat) : Nat → Nat := fun i => if i = h then ext i + 1 else ext i

theorem eqv_same_rep {e e' : Ent Rep} {k : K} (hk : S.P.toKey e.rep = some k)
    (hk' : S.P.toKey e'.rep = some k) : S.eqv e e' :=
  (S.hkey e e' k k hk hk').2 (S.LS.refl k)

/-! ## Equations of the basic functions -/

variable {S}

theorem entry_ok {s : St Rep F} {h : Nat} {e : Ent Rep} (hi : s.inited = true)
    (he : S.Fa.entry s.fac h = some e) : Core.entry S.Fa h s = .ok e s := by
  show M.bind Core.deref _ s = _
  simp [M.bind, Core.deref, bind, M.read, hi, pure, M.ret, he]

theorem addRef_ok {s : St Rep F} {h : Nat} {e : Ent Rep} (hi : s.inited = true)
    (he : S.Fa.entry s.fac h = some e) : Core.addRef S.Fa h s =
      .ok (e.ref + 1) { s with fac := S.Fa.update s.fac h { e with ref := e.ref + 1 } } := by
  show M.bind (Core.entry S.Fa h) _ s = _
  simp only [M.bind, entry_ok hi he]
  rfl

theorem release_ok {s : St Rep F} {h : Nat} {e : Ent Rep} (hi : s.inited = true)
    (he : S.Fa.entry s.fac h = some e) : Core.release S.Fa h s =
      .ok (e.ref - 1 == 0) { s with fac := S.Fa.update s.fac h { e with ref := e.ref - 1 } } := by
  show M.bind (Core.entry S.Fa h) _ s = _
  simp only [M.bind, entry_ok hi he]
  rfl

theorem addDeleter_ok {s : St Rep F} {h : Nat} {e : Ent Rep} (hi : s.inited = true)
    (he : S.Fa.entry s.fac h = some e) : Core.addDeleter S.Fa h s =
      .ok () { s with fac := S.Fa.update s.fac h { e with del := e.del + 1 } } := by
  show M.bind (Core.entry S.Fa h) _ s = _
  simp only [M.bind, entry_ok hi he]
  rfl

theorem releaseDeleter_ok {s : St Rep F} {h : Nat} {e : Ent Rep} (hi : s.inited = true)
    (he : S.Fa.entry s.fac h = some e) : Core.releaseDeleter S.Fa h s =
      .ok (e.del - 1 == 0) { s with fac := S.Fa.update s.fac h { e with del := e.del - 1 } } := by
  show M.bind (Core.entry S.Fa h) _ s = _
  simp only [M.bind, entry_ok hi he]
  rfl

theorem lock_ok {s : St Rep F} (hi : s.inited = true) :
    Core.lock s = .ok () { s with depth := s.depth + 1 } := by
  show M.bind Core.deref _ s = _
  simp [M.bind, Core.deref, bind, M.read, hi, pure, M.ret, M.update]

theorem unlock_ok {s : St Rep F} {n : Nat} (hd : s.depth = n + 1) :
    Core.unlock s = .ok () { s with depth := n } := by
  simp [Core.unlock, bind, M.bind, M.read, hd, M.update]

theorem env_triple {α : Type} {m : M Env α} {s : St Rep F} {Q : α → Env → Prop} {E : Env → Prop}
    (h : Triple (· = s.env) m Q E) :
    Triple (· = s) (Core.env m : M (St Rep F) α) (fun a s' => ∃ e, Q a e ∧ s' = { s with env := e })
      (fun s' => ∃ e, E e ∧ s' = { s with env := e }) := by
  intro s' hs
  subst hs
  have h' := h s'.env rfl
  unfold Core.env
  cases hm : m s'.env <;> rw [hm] at h' <;> simp only at h' ⊢
  · exact ⟨_, h', rfl⟩
  · exact ⟨_, h', rfl⟩

/-- Changing the counters of one entry, seen through `Inv`. -/
theorem Inv.setCounts {ext ext' : Nat → Nat} {s : St Rep F} (hI : S.Inv ext s) {h : Nat} {e : Ent Rep}
    (he : S.Fa.entry s.fac h = some e) (r d : Int)
    (hc : S.trk = .refcounted → r = ((refs s h + ext' h : Nat) : Int) ∧ 0 < refs s h + ext' h ∧ d = 1)
    (hx : ∀ i, i ≠ h → ext' i = ext i) :
    S.Inv ext' { s with fac := S.Fa.update s.fac h { e with ref := r, del := d } } := by
  obtain ⟨k, v, hf⟩ := hI.full h e he
  have hk := S.L.full_key hf
  have e1 : S.eqv e { e with ref := r, del := d } := S.eqv_same_rep hk hk
  have e2 : S.eqv { e with ref := r, del := d } e := S.eqv_same_rep hk hk
  have hv := fun j => S.LF.update_entry h e { e with ref := r, del := d } j hI.fac he e1 e2
  have hsome : ∀ j, (S.Fa.entry (S.Fa.update s.fac h { e with ref := r, del := d }) j).isSome =
      (S.Fa.entry s.fac j).isSome := by
    intro j
    rw [hv]
    by_cases hj : j = h
    · subst hj; simp [he]
    · simp [hj]
  have hcnt : ∀ g, S.tot g { s with fac := S.Fa.update s.fac h { e with ref := r, del := d } } =
      S.tot g s := by
    intro g
    unfold tot
    simp only
    congr 1
    apply rsum_congr
    intro i _
    rw [hv]
    by_cases hj : i = h
    · subst hj; simp [he, cnt]
    · simp [hj]
  constructor
  · exact S.LF.update_inv h e _ hI.fac he e1 e2
  · exact hI.alloc
  · intro i e' hi
    simp only [hv] at hi
    by_cases hj : i = h
    · subst hj
      simp at hi
      subst hi
      exact ⟨k, v, hf⟩
    · simp [hj] at hi
      exact hI.full i e' hi
  · intro ht i e' hi
    simp only [hv] at hi
    by_cases hj : i = h
    · subst hj
      simp at hi
      subst hi
      exact hc ht
    · simp [hj] at hi
      rw [hx i hj]
      exact hI.counts ht i e' hi
  · intro p hp
    simp only [hsome]
    exact hI.objs p hp
  · intro i hi
    simp only [hsome]
    by_cases hj : i = h
    · subst hj; simp [he]
    · rw [hx i hj] at hi
      exact hI.ext i hi
  · intro i hi
    simp only [hsome] at hi
    exact hI.ini i hi
  · intro i hi
    simp only [hsome] at hi
    exact hI.lt i hi
  · intro i j hi hj
    simp only [hsome] at hi hj
    exact hI.inj i j hi hj
  · rw [hcnt]; exact hI.keys
  · rw [hcnt]; exact hI.vals

theorem Inv.at_setCounts {ext : Nat → Nat} {s : St Rep F} (hI : S.Inv ext s) {h : Nat} {e : Ent Rep}
    (he : S.Fa.entry s.fac h = some e) (r d : Int) (i : Nat) (b : Bind K V) :
    S.At { s with fac := S.Fa.update s.fac h { e with ref := r, del := d } } i b ↔ S.At s i b := by
  obtain ⟨k, v, hf⟩ := hI.full h e he
  have hk := S.L.full_key hf
  have e1 : S.eqv e { e with ref := r, del := d } := S.eqv_same_rep hk hk
  have e2 : S.eqv { e with ref := r, del := d } e := S.eqv_same_rep hk hk
  have hv := fun j => S.LF.update_entry h e { e with ref := r, del := d } j hI.fac he e1 e2
  unfold At
  simp only [hv]
  by_cases hj : i = h
  · subst hj
    simp [he]
  · simp [hj]

/-- An entry holds one triple only. -/
theorem At.unique {s : St Rep F} {i : Nat} {b c : Bind K V} (hb : S.At s i b) (hc : S.At s i c) :
    b = c := by
  obtain ⟨e, he, hf, ha⟩ := hb
  obtain ⟨e', he', hf', ha'⟩ := hc
  rw [he] at he'
  cases he'
  have h1 := (S.L.full_key hf).symm.trans (S.L.full_key hf')
  have h2 := (S.L.full_val hf).symm.trans (S.L.full_val hf')
  cases b; cases c
  simp only at *
  cases h1; cases h2
  subst ha
  subst ha'
  rfl

theorem Inv.at_some {ext : Nat → Nat} {s : St Rep F} (hI : S.Inv ext s) {i : Nat}
    (h : (S.Fa.entry s.fac i).isSome) : ∃ b, S.At s i b := by
  obtain ⟨e, he⟩ := Option.isSome_iff_exists.1 h
  obtain ⟨k, v, hf⟩ := hI.full i e he
  exact ⟨⟨s.addr i, k, v⟩, e, he, hf, rfl⟩

theorem At.some {s : St Rep F} {i : Nat} {b : Bind K V} (h : S.At s i b) :
    (S.Fa.entry s.fac i).isSome := by
  obtain ⟨e, he, _⟩ := h
  simp [he]

/-- `Inv` does not depend on `depth`, on setting `inited`, nor on a reorganised
factory with the same contents. -/
theorem Inv.congr {ext : Nat → Nat} {s s' : St Rep F} (hI : S.Inv ext s)
    (hf : S.LF.Inv s'.fac) (hv : ∀ i, S.Fa.entry s'.fac i = S.Fa.entry s.fac i)
    (ha : s'.alloc = s.alloc)
    (hd : ∀ i, (S.Fa.entry s.fac i).isSome → s'.addr i = s.addr i) (ho : s'.objs = s.objs)
    (hn : s.nextId ≤ s'.nextId) (hini : s.inited = true → s'.inited = true)
    (hk : s'.env.keys = S.tot Prod.fst s') (hvl : s'.env.vals = S.tot Prod.snd s') :
    S.Inv ext s' := by
  have hr : ∀ i, refs s' i = refs s i := fun i => by unfold refs; rw [ho]
  constructor
  · exact hf
  · rw [ha]; exact hI.alloc
  · intro i e h
    rw [hv] at h
    exact hI.full i e h
  · intro ht i e h
    rw [hv] at h
    rw [hr]
    exact hI.counts ht i e h
  · intro p hp
    rw [hv]
    exact hI.objs p (ho ▸ hp)
  · intro i h
    rw [hv]
    exact hI.ext i h
  · intro i h
    rw [hv] at h
    exact hini (hI.ini i h)
  · intro i h
    rw [hv] at h
    exact Nat.lt_of_lt_of_le (hI.lt i h) hn
  · intro i j hi hj h
    rw [hv] at hi hj
    rw [hd i hi, hd j hj] at h
    exact hI.inj i j hi hj h
  · exact hk
  · exact hvl

theorem tot_congr {s s' : St Rep F} (g : Int × Int → Int)
    (hv : ∀ i, S.Fa.entry s'.fac i = S.Fa.entry s.fac i) (hn : s'.nextId = s.nextId)
    (hl : s'.locals = s.locals) : S.tot g s' = S.tot g s := by
  unfold tot
  rw [hn, hl]
  simp only [hv]

theorem Inv.tot_grow {ext : Nat → Nat} {s s' : St Rep F} (hI : S.Inv ext s) (g : Int × Int → Int)
    (hv : ∀ i, S.Fa.entry s'.fac i = S.Fa.entry s.fac i) (hn : s.nextId ≤ s'.nextId) :
    S.tot g s' = S.tot g s - (s.locals.map fun r => g (S.L.res r)).sum +
      (s'.locals.map fun r => g (S.L.res r)).sum := by
  unfold tot
  simp only [hv]
  rw [rsum_ext hn]
  · omega
  · intro i hi
    cases he : S.Fa.entry s.fac i with
    | none => rfl
    | some e =>
      have := hI.lt i (by simp [he])
      omega

theorem At.congr {s s' : St Rep F} (hv : ∀ i, S.Fa.entry s'.fac i = S.Fa.entry s.fac i)
    (hd : ∀ i, (S.Fa.entry s.fac i).isSome → s'.addr i = s.addr i)
    (i : Nat) (b : Bind K V) : S.At s' i b ↔ S.At s i b := by
  unfold At
  rw [hv]
  constructor
  · rintro ⟨e, he, hf, ha⟩
    exact ⟨e, he, hf, (hd i (by simp [he])).symm.trans ha⟩
  · rintro ⟨e, he, hf, ha⟩
    exact ⟨e, he, hf, (hd i (by simp [he])).trans ha⟩

end Setup
end Verif

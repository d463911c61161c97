import Verif.CFSeq
import Verif.Assoc

/-!
# Flyweights with `concurrent_factory`, in detail: invariant and insertion
-/

set_option autoImplicit false

namespace Verif

/-- What a value policy does with an entry whose value could not be constructed.  `Left k r`: `r` has key `k` and no value.  (No code of its
own: used in statements and proofs.) -/
structure Policy.Lawful.Leaves {K V Rep : Type} {P : Policy K V Rep} {sp : SrcSpec K V} (L : P.Lawful sp) where
  Left : K → Rep → Prop
  live : ∀ {k r}, Left k r → L.Live r
  key : ∀ {k r}, Left k r → P.toKey r = some k
  val : ∀ {k r}, Left k r → P.toValue r = none
  res : ∀ {k r}, Left k r → L.res r = (1, 0)
  thrown : ∀ {s r e e'}, L.Fresh s r → P.visit s r e = .exc e' → Left (sp.key0 s) r
  again : ∀ s r k e, sp.supports s = true → Left k r → Triple (· = e) (P.visit s r)
    (fun r' e' => L.Full r' (sp.key1 (CFSpec.on s k)) (sp.val (CFSpec.on s k)) ∧
      e.Shift e' ((L.res r').1 - (L.res r).1, (L.res r').2 - (L.res r).2))
    (fun e' => e.Failed e')
  supports : ∀ s k, sp.supports s = true → sp.supports (CFSpec.on s k) = true
  key0 : ∀ s k, sp.key0 (CFSpec.on s k) = k ∨ sp.key0 (CFSpec.on s k) = sp.key0 s

/-- `variant_key_value` leaves the key.  (No code of its own: used in statements and proofs.) -/
def VRep.leaves {K V : Type} (u : UserFns K V) : (VRep.lawful u).Leaves where
  Left k r := r = ⟨some k, none, false⟩
  live h := .inl ⟨_, h⟩
  key h := by subst h; rfl
  val h := by subst h; rfl
  res h := by subst h; rfl
  thrown h _ := h
  again s r k e _ h := by
    subst h
    refine .ofIf (VRep.visit_eq u s k e) failed_tick fun _ => ⟨⟨?_, ?_⟩, rfl, Nat.le_succ _, rfl, by simp [VRep.lawful]⟩ <;>
      cases s <;> rfl
  supports _ _ _ := rfl
  key0 s k := by
    cases s
    · exact .inl rfl
    · exact .inr rfl
    · exact .inr rfl

/-- `product_key_value` leaves the key.  (No code of its own: used in statements and proofs.) -/
def PRep.leaves {K V : Type} (u : UserFns K V) : (PRep.lawful u).Leaves where
  Left k r := r = ⟨k, none, false⟩
  live h := by subst h; simp [PRep.lawful]
  key h := by subst h; rfl
  val h := by subst h; rfl
  res h := by subst h; rfl
  thrown h _ := h
  again s r k e hs h := by
    subst h
    cases s with
    | key k' => exact .ofIf (PRep.visit_eq u k k' e) failed_tick fun _ => ⟨rfl, rfl, Nat.le_succ _, by simp [PRep.lawful], by simp [PRep.lawful]⟩
    | copy v => cases hs
    | move v => cases hs
  supports s k hs := by cases s <;> first | rfl | exact hs
  key0 s k := by
    cases s
    · exact .inl rfl
    · exact .inr rfl
    · exact .inr rfl

/-- `default_value_policy` leaves nothing: its entries have values from the start.  (No code of its own: used in statements and proofs.) -/
def DRep.leaves {V : Type} (u : UserFns V V) : (DRep.lawful u).Leaves where
  Left _ _ := False
  live h := h.elim
  key h := h.elim
  val h := h.elim
  res h := h.elim
  thrown {s r e e'} _ h := by cases s <;> cases h
  again _ _ _ _ _ h := h.elim
  supports _ _ _ := rfl
  key0 s k := by
    cases s
    · exact .inl rfl
    · exact .inr rfl
    · exact .inr rfl

namespace CFSeq
variable {K V Rep : Type}

/-- Number of flyweight variables that hold handle `i`.  (No code of its own: used in statements and proofs.) -/
def refs (s : St Rep) (i : Nat) : Nat := s.objs.countP fun p => p.2 == i

/-- One more handle to `h`.  (No code of its own: used in statements and proofs.) -/
def plus (ext : Nat → Nat) (h : Nat) : Nat → Nat := fun i => if i = h then ext i + 1 else ext i

/-- Live keys and values: those in the container and `a`, `b` others.  (No code of its own: used in statements and proofs.) -/
structure Bal {P : Policy K V Rep} {sp : SrcSpec K V} (L : P.Lawful sp) (a b : Int) (s : St Rep) : Prop where
  keys : s.env.keys = (s.cont.map fun n => (L.res n.rep).1).sum + a
  vals : s.env.vals = (s.cont.map fun n => (L.res n.rep).2).sum + b

section
variable {P : Policy K V Rep} {sp : SrcSpec K V} {L : P.Lawful sp}

/-- Element `i` holds the triple `b`.  (No code of its own: used in statements and proofs.) -/
def At (L : P.Lawful sp) (s : St Rep) (i : Nat) (b : Bind K V) : Prop :=
  ∃ n ∈ s.cont, n.id = i ∧ n.addr = b.addr ∧ L.Full n.rep b.key b.val

/-- An element has only the key `k`.  (No code of its own: used in statements and proofs.) -/
def LeftAt (X : L.Leaves) (s : St Rep) (k : K) : Prop := ∃ n ∈ s.cont, X.Left k n.rep

/-- Invariant between operations; `ext i`: number of handles to element `i` held by the code in progress.  (No code of its own: used in
statements and proofs.) -/
structure Inv (X : L.Leaves) (keq : K → K → Bool) (ext : Nat → Nat) (s : St Rep) : Prop where
  alloc : ∀ n l, s.alloc n l ∉ l
  ids : (s.cont.map Node.id).Nodup
  addrs : ∀ n ∈ s.cont, ∀ m ∈ s.cont, n.addr = m.addr → n.id = m.id
  lt : ∀ n ∈ s.cont, n.id < s.nextId
  good : ∀ n ∈ s.cont, (∃ k v, L.Full n.rep k v) ∨ (n.cnt = 0 ∧ ∃ k, X.Left k n.rep)
  keys : ∀ n ∈ s.cont, ∀ m ∈ s.cont, n.id ≠ m.id → ∀ k l, P.toKey n.rep = some k → P.toKey m.rep = some l → keq k l = false
  cnt : ∀ n ∈ s.cont, n.cnt = ((refs s n.id + ext n.id : Nat) : Int)
  objs : ∀ p ∈ s.objs, ∃ n ∈ s.cont, n.id = p.2
  ext : ∀ i, 0 < ext i → ∃ n ∈ s.cont, n.id = i
  ini : s.cont ≠ [] → s.inited = true
  names : (s.objs.map Prod.fst).Nodup

end

theorem uniq {l : List (Node Rep)} (h : (l.map Node.id).Nodup) {n m : Node Rep} (hn : n ∈ l) (hm : m ∈ l) (e : n.id = m.id) : n = m := by
  induction l with
  | nil => cases hn
  | cons x l ih =>
    simp only [List.map_cons, List.nodup_cons, List.mem_map, not_exists, not_and] at h
    cases hn with
    | head =>
      cases hm with
      | head => rfl
      | tail _ hm => exact absurd e.symm (h.1 _ hm)
    | tail _ hn =>
      cases hm with
      | head => exact absurd e (h.1 _ hn)
      | tail _ hm => exact ih h.2 hn hm

theorem find_id {l : List (Node Rep)} (h : (l.map Node.id).Nodup) {n : Node Rep} (hn : n ∈ l) {i : Nat} (e : n.id = i) :
    l.find? (fun n => n.id == i) = some n := by
  cases hf : l.find? (fun n => n.id == i) with
  | none =>
    have := List.find?_eq_none.1 hf n hn
    simp [e] at this
  | some m =>
    have h1 := List.mem_of_find?_eq_some hf
    have h2 := List.find?_some hf
    simp only [beq_iff_eq] at h2
    rw [uniq h hn h1 (e.trans h2.symm)]

theorem mem_modify {l : List (Node Rep)} {i : Nat} {f : Node Rep → Node Rep} {m : Node Rep} :
    m ∈ l.map (fun n => if n.id = i then f n else n) ↔ (m ∈ l ∧ m.id ≠ i) ∨ ∃ n ∈ l, n.id = i ∧ m = f n := by
  simp only [List.mem_map]
  constructor
  · rintro ⟨n, hn, rfl⟩
    by_cases h : n.id = i
    · rw [if_pos h]
      exact .inr ⟨n, hn, h, rfl⟩
    · rw [if_neg h]
      exact .inl ⟨hn, h⟩
  · rintro (⟨h1, h2⟩ | ⟨n, hn, h, rfl⟩)
    · exact ⟨m, h1, if_neg h2⟩
    · exact ⟨n, hn, if_pos h⟩

theorem modify_ids {l : List (Node Rep)} {i : Nat} {f : Node Rep → Node Rep} (hf : ∀ n ∈ l, n.id = i → (f n).id = n.id) :
    (l.map (fun n => if n.id = i then f n else n)).map Node.id = l.map Node.id := by
  rw [List.map_map]
  apply List.map_congr_left
  intro n hn
  by_cases h : n.id = i
  · simp [h, hf n hn]
  · simp [h]

theorem modify_none {l : List (Node Rep)} {i : Nat} {f : Node Rep → Node Rep} (hf : ∀ n ∈ l, n.id ≠ i) :
    l.map (fun n => if n.id = i then f n else n) = l := by
  have h : l.map (fun n => if n.id = i then f n else n) = l.map id := List.map_congr_left fun n hn => if_neg (hf n hn)
  rw [h, List.map_id]

theorem modify_sum {l : List (Node Rep)} (h : (l.map Node.id).Nodup) {n : Node Rep} (hn : n ∈ l) {f : Node Rep → Node Rep}
    (g : Node Rep → Int) : ((l.map (fun m => if m.id = n.id then f m else m)).map g).sum = (l.map g).sum - g n + g (f n) := by
  induction l with
  | nil => cases hn
  | cons x l ih =>
    simp only [List.map_cons, List.nodup_cons, List.mem_map, not_exists, not_and] at h
    cases hn with
    | head =>
      rw [List.map_cons, if_pos rfl, modify_none fun m hm => h.1 m hm]
      simp only [List.map_cons, List.sum_cons]
      omega
    | tail _ hn =>
      have := ih h.2 hn
      rw [List.map_cons, if_neg fun e => h.1 _ hn e.symm]
      simp only [List.map_cons, List.sum_cons, this]
      omega

theorem remove_none {l : List (Node Rep)} {i : Nat} (hf : ∀ n ∈ l, n.id ≠ i) : l.filter (fun n => n.id != i) = l :=
  List.filter_eq_self.2 fun n hn => by simp [hf n hn]

theorem remove_sum {l : List (Node Rep)} (h : (l.map Node.id).Nodup) {n : Node Rep} (hn : n ∈ l) (g : Node Rep → Int) :
    ((l.filter (fun m => m.id != n.id)).map g).sum = (l.map g).sum - g n := by
  induction l with
  | nil => cases hn
  | cons x l ih =>
    simp only [List.map_cons, List.nodup_cons, List.mem_map, not_exists, not_and] at h
    cases hn with
    | head =>
      rw [List.filter_cons_of_neg (by simp), remove_none fun m hm => h.1 m hm]
      simp only [List.map_cons, List.sum_cons]
      omega
    | tail _ hn =>
      have := ih h.2 hn
      rw [List.filter_cons_of_pos (by simpa using fun e => h.1 _ hn e.symm)]
      simp only [List.map_cons, List.sum_cons, this]
      omega

theorem env_triple {α : Type} {m : M Env α} {s : St Rep} {Q : α → Env → Prop} {E : Env → Prop}
    (h : Triple (· = s.env) m Q E) :
    Triple (· = s) (env m : M (St Rep) α) (fun a s' => ∃ e, Q a e ∧ s' = { s with env := e })
      (fun s' => ∃ e, E e ∧ s' = { s with env := e }) := by
  intro s' hs
  subst hs
  have h' := h s'.env rfl
  unfold env
  cases hm : m s'.env <;> rw [hm] at h' <;> simp only at h' ⊢
  · exact ⟨_, h', rfl⟩
  · exact ⟨_, h', rfl⟩

section
variable {P : Policy K V Rep} {sp : SrcSpec K V} {L : P.Lawful sp} {X : L.Leaves} {keq : K → K → Bool} {ext : Nat → Nat} {s : St Rep}

theorem full_left {r : Rep} {k l : K} {v : V} (h : L.Full r k v) (h' : X.Left l r) : False := by
  have := (L.full_val h).symm.trans (X.val h')
  cases this

theorem Inv.key (hI : Inv X keq ext s) {n : Node Rep} (hn : n ∈ s.cont) : ∃ k, P.toKey n.rep = some k := by
  rcases hI.good n hn with ⟨k, v, h⟩ | ⟨_, k, h⟩
  · exact ⟨k, L.full_key h⟩
  · exact ⟨k, X.key h⟩

theorem Inv.setEnv (hI : Inv X keq ext s) (e : Env) : Inv X keq ext { s with env := e } :=
  ⟨hI.alloc, hI.ids, hI.addrs, hI.lt, hI.good, hI.keys, hI.cnt, hI.objs, hI.ext, hI.ini, hI.names⟩

theorem Inv.setInited (hI : Inv X keq ext s) : Inv X keq ext { s with inited := true } :=
  ⟨hI.alloc, hI.ids, hI.addrs, hI.lt, hI.good, hI.keys, hI.cnt, hI.objs, hI.ext, fun _ => rfl, hI.names⟩

theorem Bal.setEnv {a b a' b' : Int} {d : Int × Int} (h : Bal L a b s) {e : Env} (hs : s.env.Shift e d) (h1 : a + d.1 = a')
    (h2 : b + d.2 = b') : Bal L a' b' { s with env := e } := by
  constructor
  · have := h.keys; have := hs.keys; simp only; omega
  · have := h.vals; have := hs.vals; simp only; omega

/-- A change to one element. -/
theorem Inv.modify (LS : sp.Lawful keq) {ext' : Nat → Nat} (hI : Inv X keq ext s) {n : Node Rep} (hn : n ∈ s.cont) (f : Node Rep → Node Rep) (hid : (f n).id = n.id)
    (haddr : (f n).addr = n.addr) (hg : (∃ k v, L.Full (f n).rep k v) ∨ ((f n).cnt = 0 ∧ ∃ k, X.Left k (f n).rep))
    (hk : ∀ k l, P.toKey (f n).rep = some k → P.toKey n.rep = some l → keq k l = true)
    (hc : (f n).cnt = ((refs s n.id + ext' n.id : Nat) : Int)) (hx : ∀ j, j ≠ n.id → ext' j = ext j) :
    Inv X keq ext' { s with cont := s.cont.map fun m => if m.id = n.id then f m else m } := by
  have only : ∀ m ∈ s.cont, m.id = n.id → m = n := fun m hm e => uniq hI.ids hm hn e
  have mem : ∀ m, m ∈ s.cont.map (fun m => if m.id = n.id then f m else m) → (m ∈ s.cont ∧ m.id ≠ n.id) ∨ m = f n := by
    intro m hm
    rcases mem_modify.1 hm with h | ⟨m', h1, h2, rfl⟩
    · exact .inl h
    · rw [only m' h1 h2]; exact .inr rfl
  have mem' : ∀ m ∈ s.cont, ∃ m' ∈ s.cont.map (fun m => if m.id = n.id then f m else m), m'.id = m.id := by
    intro m hm
    by_cases h : m.id = n.id
    · refine ⟨f n, mem_modify.2 (.inr ⟨n, hn, rfl, rfl⟩), hid.trans h.symm⟩
    · exact ⟨m, mem_modify.2 (.inl ⟨hm, h⟩), rfl⟩
  obtain ⟨kn, hkn⟩ := hI.key hn
  constructor
  · exact hI.alloc
  · show (List.map Node.id (List.map _ _)).Nodup
    rw [modify_ids fun m hm e => by rw [only m hm e]; exact hid]
    exact hI.ids
  · intro m hm m' hm'
    rcases mem m hm with ⟨h1, h2⟩ | rfl <;> rcases mem m' hm' with ⟨h3, h4⟩ | rfl
    · exact hI.addrs m h1 m' h3
    · rw [haddr, hid]; exact hI.addrs m h1 n hn
    · rw [haddr, hid]; exact hI.addrs n hn m' h3
    · exact fun _ => rfl
  · intro m hm
    rcases mem m hm with ⟨h1, h2⟩ | rfl
    · exact hI.lt m h1
    · rw [hid]; exact hI.lt n hn
  · intro m hm
    rcases mem m hm with ⟨h1, h2⟩ | rfl
    · exact hI.good m h1
    · exact hg
  · intro m hm m' hm' hne k l hk1 hk2
    rcases mem m hm with ⟨h1, h2⟩ | rfl <;> rcases mem m' hm' with ⟨h3, h4⟩ | rfl
    · exact hI.keys m h1 m' h3 hne k l hk1 hk2
    · have h := hI.keys m h1 n hn h2 k kn hk1 hkn
      cases hb : keq k l with
      | false => rfl
      | true => exact (LS.trans _ _ _ hb (hk l kn hk2 hkn)).symm.trans h
    · have h := hI.keys n hn m' h3 (fun e => h4 e.symm) kn l hkn hk2
      cases hb : keq k l with
      | false => rfl
      | true => exact (LS.trans _ _ _ (LS.symm _ _ (hk k kn hk1 hkn)) hb).symm.trans h
    · exact absurd rfl hne
  · intro m hm
    rcases mem m hm with ⟨h1, h2⟩ | rfl
    · rw [hx _ h2]; exact hI.cnt m h1
    · rw [hid]; exact hc
  · intro p hp
    obtain ⟨m, hm, e⟩ := hI.objs p hp
    obtain ⟨m', hm', e'⟩ := mem' m hm
    exact ⟨m', hm', e'.trans e⟩
  · intro i hi
    by_cases h : i = n.id
    · subst h
      exact mem' n hn
    · rw [hx i h] at hi
      obtain ⟨m, hm, e⟩ := hI.ext i hi
      obtain ⟨m', hm', e'⟩ := mem' m hm
      exact ⟨m', hm', e'.trans e⟩
  · intro _
    exact hI.ini fun e => by rw [e] at hn; cases hn
  · exact hI.names

theorem Bal.modify {a b : Int} (h : Bal L a b s) (hd : (s.cont.map Node.id).Nodup) {n : Node Rep} (hn : n ∈ s.cont) (f : Node Rep → Node Rep) :
    Bal L (a - ((L.res (f n).rep).1 - (L.res n.rep).1)) (b - ((L.res (f n).rep).2 - (L.res n.rep).2))
      { s with cont := s.cont.map fun m => if m.id = n.id then f m else m } := by
  constructor
  · have := h.keys
    simp only
    rw [modify_sum hd hn]
    omega
  · have := h.vals
    simp only
    rw [modify_sum hd hn]
    omega

/-- What is in the container after a change of one element. -/
theorem Inv.at_modify (hI : Inv X keq ext s) {n : Node Rep} (hn : n ∈ s.cont) (f : Node Rep → Node Rep) (hid : (f n).id = n.id)
    (haddr : (f n).addr = n.addr) (i : Nat) (b : Bind K V) :
    At L { s with cont := s.cont.map fun m => if m.id = n.id then f m else m } i b ↔
      (At L s i b ∧ i ≠ n.id) ∨ (i = n.id ∧ n.addr = b.addr ∧ L.Full (f n).rep b.key b.val) := by
  constructor
  · rintro ⟨m, hm, e, ha, hF⟩
    rcases mem_modify.1 hm with ⟨h1, h2⟩ | ⟨m', h1, h2, rfl⟩
    · exact .inl ⟨⟨m, h1, e, ha, hF⟩, e ▸ h2⟩
    · rw [uniq hI.ids h1 hn h2] at e ha hF
      exact .inr ⟨by rw [← e, hid], by rw [← ha, haddr], hF⟩
  · rintro (⟨⟨m, hm, e, ha, hF⟩, hne⟩ | ⟨rfl, ha, hF⟩)
    · exact ⟨m, mem_modify.2 (.inl ⟨hm, e ▸ hne⟩), e, ha, hF⟩
    · exact ⟨f n, mem_modify.2 (.inr ⟨n, hn, rfl, rfl⟩), hid, haddr.trans ha, hF⟩

theorem Inv.left_modify (hI : Inv X keq ext s) {n : Node Rep} (hn : n ∈ s.cont) (f : Node Rep → Node Rep) (k : K) :
    LeftAt X { s with cont := s.cont.map fun m => if m.id = n.id then f m else m } k ↔
      (∃ m ∈ s.cont, m.id ≠ n.id ∧ X.Left k m.rep) ∨ X.Left k (f n).rep := by
  constructor
  · rintro ⟨m, hm, hl⟩
    rcases mem_modify.1 hm with ⟨h1, h2⟩ | ⟨m', h1, h2, rfl⟩
    · exact .inl ⟨m, h1, h2, hl⟩
    · rw [uniq hI.ids h1 hn h2] at hl
      exact .inr hl
  · rintro (⟨m, hm, hne, hl⟩ | hl)
    · exact ⟨m, mem_modify.2 (.inl ⟨hm, hne⟩), hl⟩
    · exact ⟨f n, mem_modify.2 (.inr ⟨n, hn, rfl, rfl⟩), hl⟩

theorem At.unique (hI : Inv X keq ext s) {i : Nat} {b c : Bind K V} (hb : At L s i b) (hc : At L s i c) : b = c := by
  obtain ⟨n, hn, e, ha, hF⟩ := hb
  obtain ⟨m, hm, e', ha', hF'⟩ := hc
  cases uniq hI.ids hn hm (e.trans e'.symm)
  have h1 := (L.full_key hF).symm.trans (L.full_key hF')
  have h2 := (L.full_val hF).symm.trans (L.full_val hF')
  cases b; cases c
  simp only at *
  cases h1; cases h2
  rw [← ha, ← ha']

/-- What an operation on handles leaves as it was. (No code of its own: used in
statements and proofs.) -/
structure Same (X : L.Leaves) (s s' : St Rep) : Prop where
  objs : s'.objs = s.objs
  at_ : ∀ i b, At L s' i b ↔ At L s i b
  left : ∀ k, LeftAt X s' k ↔ LeftAt X s k
  bal : ∀ a b, Bal L a b s → Bal L a b s'
  faults : s'.env.faults = s.env.faults

theorem Same.refl (s : St Rep) : Same X s s := ⟨rfl, fun _ _ => .rfl, fun _ => .rfl, fun _ _ h => h, rfl⟩

theorem Same.trans {s' s'' : St Rep} (h : Same X s s') (h' : Same X s' s'') : Same X s s'' :=
  ⟨h'.objs.trans h.objs, fun i b => (h'.at_ i b).trans (h.at_ i b), fun k => (h'.left k).trans (h.left k),
    fun a b hb => h'.bal a b (h.bal a b hb), h'.faults.trans h.faults⟩

/-- A change of the counts of one element. -/
theorem Inv.counts (LS : sp.Lawful keq) {ext' : Nat → Nat} (hI : Inv X keq ext s) {n : Node Rep} (hn : n ∈ s.cont) (hF : ∃ k v, L.Full n.rep k v)
    (f : Node Rep → Node Rep) (hid : (f n).id = n.id)
    (haddr : (f n).addr = n.addr) (hrep : (f n).rep = n.rep)
    (hc : (f n).cnt = ((refs s n.id + ext' n.id : Nat) : Int)) (hx : ∀ j, j ≠ n.id → ext' j = ext j) :
    Inv X keq ext' { s with cont := s.cont.map fun m => if m.id = n.id then f m else m } ∧
      Same X s { s with cont := s.cont.map fun m => if m.id = n.id then f m else m } := by
  refine ⟨hI.modify LS hn f hid haddr (.inl (by rw [hrep]; exact hF)) ?_ hc hx, rfl, ?_, ?_, ?_, rfl⟩
  · intro k l h1 h2
    rw [hrep, h2] at h1
    cases h1
    exact LS.refl _
  · intro i b
    rw [hI.at_modify hn f hid haddr, hrep]
    constructor
    · rintro (h | ⟨rfl, h1, h2⟩)
      · exact h.1
      · exact ⟨n, hn, rfl, h1, h2⟩
    · intro h
      by_cases e : i = n.id
      · obtain ⟨m, hm, e', h1, h2⟩ := h
        rw [uniq hI.ids hm hn (e'.trans e)] at h1 h2
        exact .inr ⟨e, h1, h2⟩
      · exact .inl ⟨h, e⟩
  · intro k
    rw [hI.left_modify hn f, hrep]
    constructor
    · rintro (⟨m, hm, _, hl⟩ | hl)
      · exact ⟨m, hm, hl⟩
      · exact ⟨n, hn, hl⟩
    · rintro ⟨m, hm, hl⟩
      by_cases e : m.id = n.id
      · rw [uniq hI.ids hm hn e] at hl
        exact .inr hl
      · exact .inl ⟨m, hm, e, hl⟩
  · intro a b hb
    have := hb.modify hI.ids hn f
    rw [hrep] at this
    simpa using this

theorem Inv.held (hI : Inv X keq ext s) {i : Nat} (h : 0 < refs s i + ext i) : ∃ n ∈ s.cont, n.id = i ∧ (∃ k v, L.Full n.rep k v) ∧
    n.cnt = ((refs s i + ext i : Nat) : Int) ∧ s.inited = true := by
  have : ∃ n ∈ s.cont, n.id = i := by
    by_cases h0 : 0 < ext i
    · exact hI.ext i h0
    · have hr : 0 < refs s i := by omega
      obtain ⟨p, hp, e⟩ := List.countP_pos_iff.1 hr
      obtain ⟨n, hn, e'⟩ := hI.objs p hp
      exact ⟨n, hn, e'.trans (by simpa using e)⟩
  obtain ⟨n, hn, e⟩ := this
  have hc := hI.cnt n hn
  rw [e] at hc
  refine ⟨n, hn, e, ?_, hc, hI.ini fun e => by rw [e] at hn; cases hn⟩
  rcases hI.good n hn with h' | ⟨h', _⟩
  · exact h'
  · omega

theorem node_ok (hI : Inv X keq ext s) {n : Node Rep} (hn : n ∈ s.cont) : node n.id s = .ok n s := by
  have hi := hI.ini fun e => by rw [e] at hn; cases hn
  show M.bind deref _ s = _
  simp [M.bind, deref, bind, M.read, hi, pure, M.ret, find_id hI.ids hn rfl]

theorem handleCtor_ok (LS : sp.Lawful keq) (trk : Tracking) {i : Nat} (hI : Inv X keq (plus ext i) s) :
    ∃ s', handleCtor trk i s = .ok () s' ∧ Inv X keq (plus ext i) s' ∧ Same X s s' := by
  obtain ⟨n, hn, rfl, hF, hc, hi⟩ := hI.held (i := i) (by simp [plus]; omega)
  have hpos : 0 < n.cnt := by rw [hc]; simp [plus]; omega
  cases trk with
  | noTracking =>
    refine ⟨s, ?_, hI, .refl s⟩
    show M.bind (node n.id) _ s = _
    simp [M.bind, node_ok hI hn, hpos, pure, M.ret]
  | refcounted =>
    have := hI.counts LS (ext' := plus ext n.id) hn hF
      (fun n => { n with ref := n.ref + 1, del := if n.ref + 1 = 1 then n.del + 1 else n.del }) rfl rfl rfl hc (fun _ _ => rfl)
    refine ⟨_, ?_, this⟩
    show M.bind (node n.id) _ s = _
    simp only [M.bind, node_ok hI hn, if_pos hpos, gt_iff_lt]
    rfl

theorem handleCopy_ok (LS : sp.Lawful keq) (trk : Tracking) {i : Nat} (hI : Inv X keq ext s) (h : 0 < refs s i + ext i) :
    ∃ s', handleCopy trk i s = .ok () s' ∧ Inv X keq (plus ext i) s' ∧ Same X s s' := by
  obtain ⟨n, hn, rfl, hF, hc, hi⟩ := hI.held h
  have := hI.counts LS (ext' := plus ext n.id) hn hF
    (fun n => { n with cnt := n.cnt + 1, ref := match trk with | .noTracking => n.ref | .refcounted => n.ref + 1 }) rfl rfl rfl
    (by simp only [hc, plus]; simp; omega) (fun j hj => by simp [plus, hj])
  refine ⟨_, ?_, this⟩
  show M.bind (node n.id) _ s = _
  simp only [M.bind, node_ok hI hn]
  rfl

theorem handleDtor_ok (LS : sp.Lawful keq) (trk : Tracking) {i : Nat} (hI : Inv X keq (plus ext i) s) :
    ∃ s', handleDtor trk i s = .ok () s' ∧ Inv X keq ext s' ∧ Same X s s' := by
  have last : ∀ {s : St Rep}, Inv X keq (plus ext i) s → ∃ s', setNode i (fun n => { n with cnt := n.cnt - 1 }) s = .ok () s' ∧
      Inv X keq ext s' ∧ Same X s s' := by
    intro s hI
    obtain ⟨n, hn, rfl, hF, hc, hi⟩ := hI.held (i := i) (by simp [plus]; omega)
    have := hI.counts LS (ext' := ext) hn hF (fun n => { n with cnt := n.cnt - 1 }) rfl rfl rfl
      (by simp only [hc, plus]; simp; omega) (fun j hj => by simp [plus, hj])
    exact ⟨_, rfl, this⟩
  obtain ⟨n, hn, rfl, hF, hc, hi⟩ := hI.held (i := i) (by simp [plus]; omega)
  cases trk with
  | noTracking =>
    obtain ⟨s', e, h⟩ := last hI
    refine ⟨s', ?_, h⟩
    show M.bind (node n.id) _ s = _
    simp only [M.bind, node_ok hI hn]
    exact e
  | refcounted =>
    have h1 := hI.setInited
    obtain ⟨g1, g2⟩ := h1.counts LS (ext' := plus ext n.id) hn hF
      (fun n => { n with ref := n.ref - 1, del := if n.ref - 1 = 0 then n.del - 1 else n.del }) rfl rfl rfl hc (fun _ _ => rfl)
    obtain ⟨s', e, h3, h4⟩ := last g1
    have g0 : Same X s { s with inited := true } := ⟨rfl, fun _ _ => .rfl, fun _ => .rfl, fun _ _ h => ⟨h.keys, h.vals⟩, rfl⟩
    refine ⟨s', ?_, h3, g0.trans (g2.trans h4)⟩
    show M.bind (node n.id) _ s = _
    simp only [M.bind, node_ok hI hn]
    exact e

end
end CFSeq
end Verif

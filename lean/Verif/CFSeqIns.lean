import Verif.CFSeqInv

/-!
# Flyweights with `concurrent_factory`, in detail: insertion
-/

set_option autoImplicit false

namespace Verif.CFSeq
open Verif.CFSpec (on)
variable {K V Rep : Type} {P : Policy K V Rep} {sp : SrcSpec K V} {L : P.Lawful sp} {X : L.Leaves} {keq : K → K → Bool} {ext : Nat → Nat}

/-- Element `i` is what a creation from `src` has found or made.  (No code of its own: used in statements and proofs.) -/
def Created (X : L.Leaves) (keq : K → K → Bool) (src : Src K V) (s : St Rep) (i : Nat) (s' : St Rep) : Prop :=
  (∀ k, LeftAt X s' k ↔ LeftAt X s k ∧ keq k (sp.key0 src) = false) ∧
  ((∃ b, At L s i b ∧ keq b.key (sp.key0 src) = true ∧ ∀ j c, At L s' j c ↔ At L s j c) ∨
   ((∀ j b, At L s j b → keq b.key (sp.key0 src) = false) ∧ ∃ a src', (∀ j b, At L s j b → b.addr ≠ a) ∧
      (src' = src ∧ (∀ k, LeftAt X s k → keq k (sp.key0 src) = false) ∨ ∃ k, LeftAt X s k ∧ keq k (sp.key0 src) = true ∧ src' = on src k) ∧
      ∀ j c, At L s' j c ↔ At L s j c ∨ (j = i ∧ c = ⟨a, sp.key1 src', sp.val src'⟩)))

/-- After a creation.  (No code of its own: used in statements and proofs.) -/
structure Done (X : L.Leaves) (keq : K → K → Bool) (ext : Nat → Nat) (src : Src K V) (s : St Rep) (a b : Int) (i : Nat) (s' : St Rep) : Prop where
  inv : Inv X keq (plus ext i) s'
  bal : Bal L a b s'
  objs : s'.objs = s.objs
  faults : s'.env.faults = s.env.faults
  created : Created X keq src s i s'

/-- After a creation that has thrown.  (No code of its own: used in statements and proofs.) -/
structure Threw (X : L.Leaves) (keq : K → K → Bool) (ext : Nat → Nat) (src : Src K V) (s : St Rep) (a b : Int) (s' : St Rep) : Prop where
  inv : Inv X keq ext s'
  bal : Bal L a b s'
  objs : s'.objs = s.objs
  faults : s'.env.faults = s.env.faults
  at_ : ∀ j c, At L s' j c ↔ At L s j c
  left : ∀ k, LeftAt X s' k → LeftAt X s k ∨ k = sp.key0 src
  cont : s'.cont = s.cont ∨ ∃ n, X.Left (sp.key0 src) n.rep ∧ s'.cont = n :: s.cont
  fault : ∃ n, s.env.faults n = true

/-- Nothing in the container has changed yet.  (No code of its own: used in statements and proofs.) -/
structure Base (X : L.Leaves) (keq : K → K → Bool) (ext : Nat → Nat) (s : St Rep) (a b : Int) (s' : St Rep) : Prop where
  inv : Inv X keq ext s'
  bal : Bal L a b s'
  objs : s'.objs = s.objs
  faults : s'.env.faults = s.env.faults
  cont : s'.cont = s.cont
  ini : s'.inited = true

section
variable {src : Src K V} {s s' : St Rep} {a b : Int}

theorem at_cont {s s' : St Rep} (h : s'.cont = s.cont) (i : Nat) (b : Bind K V) : At L s' i b ↔ At L s i b := by
  unfold At
  rw [h]

theorem left_cont {s s' : St Rep} (h : s'.cont = s.cont) (k : K) : LeftAt X s' k ↔ LeftAt X s k := by
  unfold LeftAt
  rw [h]

theorem Base.setEnv (h : Base X keq ext s a b s') {e : Env} {d : Int × Int} (hs : s'.env.Shift e d) {a' b' : Int} (h1 : a + d.1 = a')
    (h2 : b + d.2 = b') : Base X keq ext s a' b' { s' with env := e } :=
  ⟨h.inv.setEnv e, h.bal.setEnv hs h1 h2, h.objs, hs.faults.trans h.faults, h.cont, h.ini⟩

theorem Base.threw (h : Base X keq ext s a b s') (hf : ∃ n, s.env.faults n = true) : Threw X keq ext src s a b s' :=
  ⟨h.inv, h.bal, h.objs, h.faults, at_cont h.cont, fun k hk => .inl ((left_cont h.cont k).1 hk), .inl h.cont, hf⟩

theorem Done.setEnv {i : Nat} (h : Done X keq ext src s a b i s') {e : Env} {d : Int × Int} (hs : s'.env.Shift e d) {a' b' : Int}
    (h1 : a + d.1 = a') (h2 : b + d.2 = b') : Done X keq ext src s a' b' i { s' with env := e } :=
  ⟨h.inv.setEnv e, h.bal.setEnv hs h1 h2, h.objs, hs.faults.trans h.faults, h.created⟩

theorem Threw.setEnv (h : Threw X keq ext src s a b s') {e : Env} {d : Int × Int} (hs : s'.env.Shift e d) {a' b' : Int}
    (h1 : a + d.1 = a') (h2 : b + d.2 = b') : Threw X keq ext src s a' b' { s' with env := e } :=
  ⟨h.inv.setEnv e, h.bal.setEnv hs h1 h2, h.objs, hs.faults.trans h.faults, h.at_, h.left, h.cont, h.fault⟩

/-- Destroying a local object. -/
theorem destroy_triple {r : Rep} (hr : L.Live r) : Triple (· = s) (env (P.destroy r))
    (fun _ s' => ∃ e, s.env.Shift e (-(L.res r).1, -(L.res r).2) ∧ s' = { s with env := e }) (fun _ => False) :=
  (env_triple (L.destroy r s.env hr)).conseq (fun _ h => h) (fun _ _ h => h) (fun _ ⟨_, h, _⟩ => h)

theorem Done.drop {i : Nat} {r : Rep} (hr : L.Live r) :
    Triple (Done X keq ext src s (a + (L.res r).1) (b + (L.res r).2) i) (env (P.destroy r)) (fun _ => Done X keq ext src s a b i) (fun _ => False) :=
  .at fun s1 h1 => (destroy_triple hr).conseq (fun _ h => h)
    (fun _ _ ⟨_, h, he⟩ => he ▸ h1.setEnv h (by simp only; omega) (by simp only; omega)) (fun _ h => h)

theorem Threw.drop {r : Rep} (hr : L.Live r) :
    Triple (Threw X keq ext src s (a + (L.res r).1) (b + (L.res r).2)) (env (P.destroy r)) (fun _ => Threw X keq ext src s a b) (fun _ => False) :=
  .at fun s1 h1 => (destroy_triple hr).conseq (fun _ h => h)
    (fun _ _ ⟨_, h, he⟩ => he ▸ h1.setEnv h (by simp only; omega) (by simp only; omega)) (fun _ h => h)

theorem Triple.noThrow {σ α : Type} {Pre : σ → Prop} {m : M σ α} {Q : α → σ → Prop} {E : σ → Prop} (h : Triple Pre m Q (fun _ => False)) :
    Triple Pre m Q E := h.conseq (fun _ h => h) (fun _ _ h => h) (fun _ h => h.elim)

/-- A new object is moved from the local object `r`. -/
theorem moved_triple {α : Type} {r : Rep} {m : Rep → M (St Rep) α} {Q : Int → Int → α → St Rep → Prop} (hr : L.Fresh src r)
    (hQ : ∀ a b x s1 e d a' b', Q a b x s1 → s1.env.Shift e d → a + d.1 = a' → b + d.2 = b' → Q a' b' x { s1 with env := e })
    (hm : ∀ a b t s1, L.Fresh src t → Base X keq ext s (a + (L.res t).1) (b + (L.res t).2) s1 →
      Triple (· = s1) (m t) (Q a b) (Threw X keq ext src s a b))
    (hB : Base X keq ext s (a + (L.res r).1) (b + (L.res r).2) s') :
    Triple (· = s') (moved P r m) (Q a b) (Threw X keq ext src s a b) := by
  unfold moved
  have h1 : Triple (· = s') (M.onExc (env (P.move r)) (env (P.destroy r)))
      (fun p s1 => (L.Fresh src p.1 ∧ L.Live p.2 ∧ L.res p.2 = L.res r) ∧
        Base X keq ext s (a + (L.res p.2).1 + (L.res p.1).1) (b + (L.res p.2).2 + (L.res p.1).2) s1) (Threw X keq ext src s a b) := by
    refine Triple.onExc (RE := Threw X keq ext src s (a + (L.res r).1) (b + (L.res r).2)) ?_ (Triple.noThrow (Threw.drop (L.fresh_live hr)))
    refine (env_triple (L.move src r s'.env hr)).conseq (fun _ h => h) ?_ ?_
    · rintro p _ ⟨e, ⟨g1, g2, g3, g4⟩, rfl⟩
      exact ⟨⟨g1, g2, g3⟩, hB.setEnv g4 (by rw [g3]) (by rw [g3])⟩
    · rintro _ ⟨e, g, rfl⟩
      exact (hB.threw (by rw [← hB.faults]; exact g.fault)).setEnv g.shift (by simp) (by simp)
  refine h1.bind fun p => .pull fun ⟨g1, g2, g3⟩ => .at fun s1 h2 => ?_
  refine Triple.scope (hm _ _ p.1 s1 g1 h2) (fun x => .at fun s2 h3 => ?_) (Threw.drop g2)
  refine (destroy_triple g2).conseq (fun _ h => h) ?_ (fun _ h => h)
  rintro _ _ ⟨e, h, rfl⟩
  exact hQ _ _ _ _ _ _ _ _ h3 h (by simp only; omega) (by simp only; omega)

theorem node_eq {i : Nat} {n : Node Rep} (hi : s.inited = true) (hf : s.cont.find? (fun n => n.id == i) = some n) : node i s = .ok n s := by
  show M.bind deref _ s = _
  simp [M.bind, deref, bind, M.read, hi, pure, M.ret, hf]

theorem visitNode_eq {i : Nat} {n : Node Rep} (hi : s.inited = true) (hf : s.cont.find? (fun n => n.id == i) = some n) :
    visitNode P src i s = match P.visit src n.rep s.env with
      | .ok r e => .ok () { s with env := e, cont := s.cont.map fun n => if n.id = i then { n with rep := r, cnt := n.cnt + 1 } else n }
      | .exc e => .exc { s with env := e }
      | .ub => .ub := by
  show M.bind (node i) _ s = _
  simp only [M.bind, node_eq hi hf, bind, env]
  cases P.visit src n.rep s.env <;> rfl

theorem find_some {r : Rep} {k : K} {n : Node Rep} (hk : P.toKey r = some k) (h : find P keq s r = some n) :
    n ∈ s.cont ∧ ∃ l, P.toKey n.rep = some l ∧ keq l k = true := by
  refine ⟨List.mem_of_find?_eq_some h, ?_⟩
  have := List.find?_some h
  cases hl : P.toKey n.rep with
  | none => simp [hl] at this
  | some l => exact ⟨l, rfl, by simpa [hl, hk] using this⟩

theorem find_none {r : Rep} {k : K} (hk : P.toKey r = some k) (h : find P keq s r = none) {n : Node Rep} (hn : n ∈ s.cont) {l : K}
    (hl : P.toKey n.rep = some l) : keq l k = false := by
  have := List.find?_eq_none.1 h n hn
  simpa [hl, hk] using this

/-- Visiting an element found with an equivalent key. -/
theorem visit_found (LS : sp.Lawful keq) (hs : sp.supports src = true) (hB : Base X keq ext s a b s') {n : Node Rep} (hn : n ∈ s'.cont) {l : K}
    (hl : P.toKey n.rep = some l) (hq : keq l (sp.key0 src) = true) :
    Triple (· = s') (visitNode P src n.id) (fun _ => Done X keq ext src s a b n.id) (Threw X keq ext src s a b) := by
  intro s1 hs1
  subst hs1
  have hI := hB.inv
  rw [visitNode_eq hB.ini (find_id hI.ids hn rfl)]
  have hc := hI.cnt n hn
  rcases hI.good n hn with ⟨k, v, hF⟩ | ⟨h0, k, hL⟩
  · have hk : k = l := by
      have := (L.full_key hF).symm.trans hl
      cases this; rfl
    subst hk
    rw [L.visit_full src n.rep k v _ hF]
    show Done X keq ext src s a b n.id _
    let f : Node Rep → Node Rep := fun m => { m with rep := n.rep, cnt := m.cnt + 1 }
    obtain ⟨g1, g2⟩ := hI.counts LS (ext' := plus ext n.id) hn ⟨k, v, hF⟩ f rfl rfl rfl
      (by simp only [f, plus, if_true]; omega) (fun j hj => by simp [plus, hj])
    refine ⟨g1, g2.bal _ _ hB.bal, hB.objs, hB.faults, ?_, .inl ⟨⟨n.addr, k, v⟩, (at_cont hB.cont _ _).1 ⟨n, hn, rfl, rfl, hF⟩, hq, ?_⟩⟩
    · intro k'
      refine ((g2.left k').trans (left_cont hB.cont k')).trans ⟨fun hl' => ⟨hl', ?_⟩, fun h => h.1⟩
      obtain ⟨m, hm, hL⟩ := (left_cont hB.cont k').2 hl'
      refine Bool.eq_false_iff.2 fun e => ?_
      have := hI.keys m hm n hn (fun e => full_left hF (uniq hI.ids hm hn e ▸ hL)) _ _ (X.key hL) hl
      rw [LS.trans _ _ _ e (LS.symm _ _ hq)] at this
      cases this
    · intro j c
      exact (g2.at_ j c).trans (at_cont hB.cont j c)
  · have hk : k = l := by
      have := (X.key hL).symm.trans hl
      cases this; rfl
    subst hk
    have hv := X.again src n.rep k s1.env hs hL s1.env rfl
    cases hm : P.visit src n.rep s1.env with
    | ub => rw [hm] at hv; exact hv
    | exc e =>
      rw [hm] at hv
      exact (hB.threw (by rw [← hB.faults]; exact hv.fault)).setEnv hv.shift (by simp) (by simp)
    | ok r e =>
      rw [hm] at hv
      obtain ⟨hF, hsh⟩ := hv
      show Done X keq ext src s a b n.id _
      let f : Node Rep → Node Rep := fun m => { m with rep := r, cnt := m.cnt + 1 }
      have hkey : keq (sp.key1 (on src k)) k = true := by
        have h1 := LS.contract (on src k) (X.supports src k hs)
        rcases X.key0 src k with h | h
        · rw [h] at h1; exact h1
        · rw [h] at h1; exact LS.trans _ _ _ h1 (LS.symm _ _ hq)
      have g1 : Inv X keq (plus ext n.id) { s1 with cont := s1.cont.map fun m => if m.id = n.id then f m else m } := by
        refine hI.modify LS hn f rfl rfl (.inl ⟨_, _, hF⟩) ?_ (by simp only [f, plus, if_true]; omega) (fun j hj => by simp [plus, hj])
        intro k1 l1 h1 h2
        rw [L.full_key hF] at h1
        rw [hl] at h2
        cases h1; cases h2
        exact hkey
      have g2 := hI.at_modify hn f rfl rfl
      have hnF : ∀ c : Bind K V, ¬ L.Full n.rep c.key c.val := fun c h => full_left h hL
      refine ⟨g1.setEnv e, ?_, hB.objs, hsh.faults.trans hB.faults, ?_, .inr ⟨?_, n.addr, on src k, ?_, .inr ⟨k, ?_, hq, rfl⟩, ?_⟩⟩
      · have := (hB.bal.modify hI.ids hn f).setEnv (e := e) hsh (a' := a) (b' := b) (by simp only [f]; omega) (by simp only [f]; omega)
        exact this
      · intro k'
        refine (hI.left_modify hn f k').trans ⟨?_, ?_⟩
        · rintro (⟨m, hm, hne, h⟩ | h)
          · refine ⟨(left_cont hB.cont k').1 ⟨m, hm, h⟩, Bool.eq_false_iff.2 fun e => ?_⟩
            have := hI.keys m hm n hn hne _ _ (X.key h) hl
            rw [LS.trans _ _ _ e (LS.symm _ _ hq)] at this
            cases this
          · exact (full_left hF h).elim
        · rintro ⟨hl', hne⟩
          obtain ⟨m, hm, h⟩ := (left_cont hB.cont k').2 hl'
          refine .inl ⟨m, hm, fun e => ?_, h⟩
          rw [uniq hI.ids hm hn e] at h
          have := (X.key h).symm.trans hl
          cases this
          rw [hq] at hne
          cases hne
      · intro j c hc'
        obtain ⟨m, hm', e1, _, hF'⟩ := (at_cont hB.cont j c).2 hc'
        have hne : m.id ≠ n.id := fun e => by rw [uniq hI.ids hm' hn e] at hF'; exact hnF c hF'
        have := hI.keys m hm' n hn hne c.key k (L.full_key hF') hl
        cases hb : keq c.key (sp.key0 src) with
        | false => rfl
        | true => exact (LS.trans _ _ _ hb (LS.symm _ _ hq)).symm.trans this
      · intro j c hc' e
        obtain ⟨m, hm', e1, ha, hF'⟩ := (at_cont hB.cont j c).2 hc'
        have := hI.addrs m hm' n hn (ha.trans e)
        rw [uniq hI.ids hm' hn this] at hF'
        exact hnF c hF'
      · exact (left_cont hB.cont k).1 ⟨n, hn, hL⟩
      · intro j c
        refine (g2 j c).trans ⟨?_, ?_⟩
        · rintro (⟨h, _⟩ | ⟨rfl, ha, hF'⟩)
          · exact .inl ((at_cont hB.cont j c).1 h)
          · refine .inr ⟨rfl, ?_⟩
            have e1 := (L.full_key hF).symm.trans (L.full_key hF')
            have e2 := (L.full_val hF).symm.trans (L.full_val hF')
            cases c
            simp only at *
            cases e1; cases e2
            rw [ha]
        · rintro (h | ⟨rfl, rfl⟩)
          · obtain ⟨m, hm', e1, ha, hF'⟩ := (at_cont hB.cont j c).2 h
            refine .inl ⟨⟨m, hm', e1, ha, hF'⟩, fun e => ?_⟩
            rw [uniq hI.ids hm' hn (e1.trans e)] at hF'
            exact hnF c hF'
          · exact .inr ⟨rfl, rfl, hF⟩

theorem Inv.fresh_refs (hI : Inv X keq ext s) {i : Nat} (h : s.nextId ≤ i) : refs s i = 0 ∧ ext i = 0 := by
  constructor
  · refine List.countP_eq_zero.2 fun p hp => ?_
    obtain ⟨n, hn, e⟩ := hI.objs p hp
    have := hI.lt n hn
    simp
    omega
  · cases he : ext i with
    | zero => rfl
    | succ m =>
      obtain ⟨n, hn, e⟩ := hI.ext i (by omega)
      have := hI.lt n hn
      omega

/-- A new element. -/
theorem Inv.cons (hI : Inv X keq ext s) {ext' : Nat → Nat} {n : Node Rep} (hid : n.id = s.nextId) (ha : ∀ m ∈ s.cont, m.addr ≠ n.addr)
    (hg : (∃ k v, L.Full n.rep k v) ∨ (n.cnt = 0 ∧ ∃ k, X.Left k n.rep))
    (hk : ∀ m ∈ s.cont, ∀ k l, P.toKey n.rep = some k → P.toKey m.rep = some l → keq k l = false ∧ keq l k = false)
    (hc : n.cnt = (ext' n.id : Nat)) (hx : ∀ j, j ≠ n.id → ext' j = ext j) (hi : s.inited = true) :
    Inv X keq ext' { s with cont := n :: s.cont, nextId := s.nextId + 1 } := by
  have hr : refs s n.id = 0 := (hI.fresh_refs (by omega)).1
  constructor
  · exact hI.alloc
  · simp only [List.map_cons, List.nodup_cons, List.mem_map, not_exists, not_and]
    refine ⟨fun m hm e => ?_, hI.ids⟩
    have := hI.lt m hm
    omega
  · intro m hm m' hm' e
    simp only [List.mem_cons] at hm hm'
    rcases hm with rfl | hm <;> rcases hm' with rfl | hm'
    · rfl
    · exact absurd e.symm (ha m' hm')
    · exact absurd e (ha m hm)
    · exact hI.addrs m hm m' hm' e
  · intro m hm
    simp only [List.mem_cons] at hm
    show _ < s.nextId + 1
    rcases hm with rfl | hm
    · omega
    · have := hI.lt m hm; omega
  · intro m hm
    simp only [List.mem_cons] at hm
    rcases hm with rfl | hm
    · exact hg
    · exact hI.good m hm
  · intro m hm m' hm' hne k l h1 h2
    simp only [List.mem_cons] at hm hm'
    rcases hm with rfl | hm <;> rcases hm' with rfl | hm'
    · exact absurd rfl hne
    · exact (hk m' hm' k l h1 h2).1
    · exact (hk m hm l k h2 h1).2
    · exact hI.keys m hm m' hm' hne k l h1 h2
  · intro m hm
    simp only [List.mem_cons] at hm
    rcases hm with rfl | hm
    · show _ = ((refs s _ + _ : Nat) : Int)
      rw [hr, hc]; simp
    · have h1 := hI.lt m hm
      rw [hx m.id (by omega)]
      exact hI.cnt m hm
  · intro p hp
    obtain ⟨m, hm, e⟩ := hI.objs p hp
    exact ⟨m, .tail _ hm, e⟩
  · intro i h
    by_cases e : i = n.id
    · exact ⟨n, .head _, e.symm⟩
    · rw [hx i e] at h
      obtain ⟨m, hm, e⟩ := hI.ext i h
      exact ⟨m, .tail _ hm, e⟩
  · exact fun _ => hi
  · exact hI.names

theorem at_cons {n : Node Rep} {m : Nat} (j : Nat) (c : Bind K V) : At L { s with cont := n :: s.cont, nextId := m } j c ↔
    At L s j c ∨ (j = n.id ∧ n.addr = c.addr ∧ L.Full n.rep c.key c.val) := by
  constructor
  · rintro ⟨x, hx, h1, h2, h3⟩
    simp only [List.mem_cons] at hx
    rcases hx with rfl | hx
    · exact .inr ⟨h1.symm, h2, h3⟩
    · exact .inl ⟨x, hx, h1, h2, h3⟩
  · rintro (⟨x, hx, h⟩ | ⟨rfl, h2, h3⟩)
    · exact ⟨x, .tail _ hx, h⟩
    · exact ⟨n, .head _, rfl, h2, h3⟩

theorem left_cons {n : Node Rep} {m : Nat} (k : K) : LeftAt X { s with cont := n :: s.cont, nextId := m } k ↔
    LeftAt X s k ∨ X.Left k n.rep := by
  constructor
  · rintro ⟨x, hx, h⟩
    simp only [List.mem_cons] at hx
    rcases hx with rfl | hx
    · exact .inr h
    · exact .inl ⟨x, hx, h⟩
  · rintro (⟨x, hx, h⟩ | h)
    · exact ⟨x, .tail _ hx, h⟩
    · exact ⟨n, .head _, h⟩

/-- A new element is linked and visited. -/
theorem link_visit (LS : sp.Lawful keq) (hs : sp.supports src = true) {r : Rep} (hr : L.Fresh src r)
    (hB : Base X keq ext s (a + (L.res r).1) (b + (L.res r).2) s')
    (hno : ∀ n ∈ s'.cont, ∀ l, P.toKey n.rep = some l → keq l (sp.key0 src) = false) {r0 : Rep} {d : M (St Rep) Unit}
    (hd : ∀ i, Triple (Done X keq ext src s a b i) d (fun _ => Done X keq ext src s (a - (L.res r0).1) (b - (L.res r0).2) i) (fun _ => False))
    (hd' : Triple (Threw X keq ext src s a b) d (fun _ => Threw X keq ext src s (a - (L.res r0).1) (b - (L.res r0).2)) (fun _ => False)) :
    Triple (· = s') (do let i ← link r; M.scope (visitNode P src i) d; pure i)
      (Done X keq ext src s (a - (L.res r0).1) (b - (L.res r0).2)) (Threw X keq ext src s (a - (L.res r0).1) (b - (L.res r0).2)) := by
  have hI := hB.inv
  let n : Node Rep := ⟨s'.nextId, s'.alloc s'.nextId (s'.cont.map Node.addr), r, 0, 0, 0⟩
  let s2 : St Rep := { s' with cont := n :: s'.cont, nextId := s'.nextId + 1 }
  refine Triple.bind (R := fun i s1 => i = s'.nextId ∧ s1 = s2) (fun s1 h => by subst h; exact ⟨rfl, rfl⟩) fun i => .pull fun hi => ?_
  subst hi
  have haddr : ∀ m ∈ s'.cont, m.addr ≠ n.addr := fun m hm e =>
    hI.alloc s'.nextId (s'.cont.map Node.addr) (List.mem_map.2 ⟨m, hm, e⟩)
  have hids : ∀ m ∈ s'.cont, m.id ≠ n.id := fun m hm e => by have := hI.lt m hm; simp only [n] at e; omega
  have hx0 := (hI.fresh_refs (Nat.le_refl _)).2
  have main : Triple (· = s2) (visitNode P src s'.nextId) (fun _ => Done X keq ext src s a b s'.nextId) (Threw X keq ext src s a b) := by
    intro s1 h1
    subst h1
    have hf : s2.cont.find? (fun m => m.id == s'.nextId) = some n := by simp [s2, n]
    have hini : s2.inited = true := hB.ini
    have hve := visitNode_eq (P := P) (src := src) hini hf
    rw [hve]
    have hvr : P.visit src n.rep s2.env = P.visit src r s'.env := rfl
    rw [hvr]
    have hv := L.visit_fresh src r s'.env hs hr s'.env rfl
    cases hm : P.visit src r s'.env with
    | ub => rw [hm] at hv; exact hv
    | exc e =>
      rw [hm] at hv
      have hL := X.thrown hr hm
      have hres := X.res hL
      show Threw X keq ext src s a b { s2 with env := e }
      have g : Inv X keq ext s2 := by
        refine hI.cons rfl haddr (.inr ⟨rfl, _, hL⟩) ?_ ?_ (fun _ _ => rfl) hB.ini
        · intro m hm' k l h1 h2
          rw [X.key hL] at h1
          cases h1
          have := hno m hm' l h2
          exact ⟨Bool.eq_false_iff.2 fun h => (Bool.eq_false_iff.1 this) (LS.symm _ _ h), this⟩
        · simp only [n, hx0]; rfl
      refine ⟨g.setEnv e, ⟨?_, ?_⟩, hB.objs, hv.shift.faults.trans hB.faults, ?_, ?_, .inr ⟨n, hL, by rw [← hB.cont]⟩, ?_⟩
      · have h1 := hv.shift.keys
        have h2 := hB.bal.keys
        simp only [s2, n, List.map_cons, List.sum_cons]
        simp only at h1
        omega
      · have h1 := hv.shift.vals
        have h2 := hB.bal.vals
        simp only [s2, n, List.map_cons, List.sum_cons]
        simp only at h1
        omega
      · intro j c
        refine (at_cons (s := s') (n := n) (m := s'.nextId + 1) j c).trans ⟨?_, fun h => .inl ((at_cont hB.cont j c).2 h)⟩
        rintro (h | ⟨_, _, h⟩)
        · exact (at_cont hB.cont j c).1 h
        · exact (full_left h hL).elim
      · intro k hk
        rcases (left_cons (s := s') (n := n) (m := s'.nextId + 1) k).1 hk with h | h
        · exact .inl ((left_cont hB.cont k).1 h)
        · have := (X.key hL).symm.trans (X.key h)
          cases this
          exact .inr rfl
      · rw [← hB.faults]; exact hv.fault
    | ok r' e =>
      rw [hm] at hv
      obtain ⟨hF, hsh⟩ := hv
      let n' : Node Rep := { n with rep := r', cnt := 1 }
      have hcont : (s2.cont.map fun m => if m.id = s'.nextId then { m with rep := r', cnt := m.cnt + 1 } else m) = n' :: s'.cont := by
        show (n :: s'.cont).map _ = _
        rw [List.map_cons, if_pos rfl, modify_none hids]
        rfl
      show Done X keq ext src s a b s'.nextId { s2 with env := e, cont := s2.cont.map fun m => if m.id = s'.nextId then { m with rep := r', cnt := m.cnt + 1 } else m }
      rw [hcont]
      have hleft : ∀ k, LeftAt X s k → keq k (sp.key0 src) = false := by
        intro k hk
        obtain ⟨m, hm', hL⟩ := (left_cont hB.cont k).2 hk
        exact hno m hm' k (X.key hL)
      have g : Inv X keq (plus ext s'.nextId) { s' with cont := n' :: s'.cont, nextId := s'.nextId + 1 } := by
        refine hI.cons rfl haddr (.inl ⟨_, _, hF⟩) ?_ ?_ (fun j hj => ?_) hB.ini
        · intro m hm' k l h1 h2
          have h1 : P.toKey r' = some k := h1
          rw [L.full_key hF] at h1
          cases h1
          have h3 := hno m hm' l h2
          have h4 := LS.contract src hs
          constructor
          · refine Bool.eq_false_iff.2 fun h => ?_
            rw [LS.trans _ _ _ (LS.symm _ _ h) h4] at h3
            cases h3
          · refine Bool.eq_false_iff.2 fun h => ?_
            rw [LS.trans _ _ _ h h4] at h3
            cases h3
        · simp only [n', n, plus, if_true, hx0]; rfl
        · have : j ≠ s'.nextId := hj
          simp [plus, this]
      refine ⟨g.setEnv e, ⟨?_, ?_⟩, hB.objs, hsh.faults.trans hB.faults, ?_, .inr ⟨?_, n.addr, src, ?_, .inl ⟨rfl, hleft⟩, ?_⟩⟩
      · have h1 := hsh.keys
        have h2 := hB.bal.keys
        simp only [n', n, List.map_cons, List.sum_cons]
        simp only at h1
        omega
      · have h1 := hsh.vals
        have h2 := hB.bal.vals
        simp only [n', n, List.map_cons, List.sum_cons]
        simp only at h1
        omega
      · intro k
        refine (left_cons (s := s') (n := n') (m := s'.nextId + 1) k).trans ⟨?_, fun h => .inl ((left_cont hB.cont k).2 h.1)⟩
        rintro (h | h)
        · exact ⟨(left_cont hB.cont k).1 h, hleft k ((left_cont hB.cont k).1 h)⟩
        · exact (full_left hF h).elim
      · intro j c hc
        obtain ⟨m, hm', _, _, hF'⟩ := (at_cont hB.cont j c).2 hc
        exact hno m hm' _ (L.full_key hF')
      · intro j c hc e'
        obtain ⟨m, hm', _, ha, _⟩ := (at_cont hB.cont j c).2 hc
        exact haddr m hm' (ha.trans e')
      · intro j c
        refine (at_cons (s := s') (n := n') (m := s'.nextId + 1) j c).trans ⟨?_, ?_⟩
        · rintro (h | ⟨h1, ha, hF'⟩)
          · exact .inl ((at_cont hB.cont j c).1 h)
          · refine .inr ⟨h1, ?_⟩
            have e1 := (L.full_key hF).symm.trans (L.full_key hF')
            have e2 := (L.full_val hF).symm.trans (L.full_val hF')
            cases c
            simp only at *
            cases e1; cases e2
            rw [← ha]
        · rintro (h | ⟨rfl, rfl⟩)
          · exact .inl ((at_cont hB.cont j c).2 h)
          · exact .inr ⟨rfl, rfl, hF⟩
  refine Triple.bind (R := fun _ => Done X keq ext src s (a - (L.res r0).1) (b - (L.res r0).2) s'.nextId)
    (Triple.scope main (fun _ => hd _) hd') fun _ => .ret fun _ h => h

theorem emplace_triple (LS : sp.Lawful keq) (hs : sp.supports src = true) {t : Rep} (ht : L.Fresh src t)
    (hB : Base X keq ext s (a + (L.res t).1) (b + (L.res t).2) s') :
    Triple (· = s') (emplace P keq src t) (Done X keq ext src s a b) (Threw X keq ext src s a b) := by
  have hk := L.fresh_key ht
  unfold emplace
  have h1 : Triple (· = s') (M.onExc (do deref; readable P t; env mayThrow) (env (P.destroy t)))
      (fun _ => Base X keq ext s (a + (L.res t).1) (b + (L.res t).2)) (Threw X keq ext src s a b) := by
    refine Triple.onExc (RE := Threw X keq ext src s (a + (L.res t).1) (b + (L.res t).2)) ?_ (Triple.noThrow (Threw.drop (L.fresh_live ht)))
    refine Triple.bind (R := fun _ s1 => s1 = s') (fun s1 h => by subst h; simp [deref, bind, M.bind, M.read, hB.ini, pure, M.ret]) fun _ => ?_
    refine Triple.bind (R := fun _ s1 => s1 = s') (fun s1 h => ?_) fun _ => ?_
    · subst h
      have : s1.cont.all (fun n => (P.toKey n.rep).isSome) = true := by
        rw [List.all_eq_true]
        intro n hn
        obtain ⟨k, h⟩ := hB.inv.key hn
        simp [h]
      simp [readable, bind, M.bind, M.read, hk, this, pure, M.ret]
    · refine (env_triple (mayThrow_triple s'.env)).conseq (fun _ h => h) ?_ ?_
      · rintro _ _ ⟨e, rfl, rfl⟩
        have hsh : s'.env.Shift { s'.env with tick := s'.env.tick + 1 } (0, 0) := ⟨rfl, Nat.le_succ _, by simp, by simp⟩
        exact hB.setEnv hsh (Int.add_zero _) (Int.add_zero _)
      · rintro _ ⟨e, ⟨rfl, hf⟩, rfl⟩
        have hsh : s'.env.Shift { s'.env with tick := s'.env.tick + 1 } (0, 0) := ⟨rfl, Nat.le_succ _, by simp, by simp⟩
        exact (hB.threw ⟨_, by rw [← hB.faults]; exact hf⟩).setEnv hsh (Int.add_zero _) (Int.add_zero _)
  refine h1.bind fun _ => .at fun s1 hB => ?_
  refine Triple.bind (R := fun s2 s3 => s2 = s1 ∧ s3 = s1) (fun s2 h => by subst h; exact ⟨rfl, rfl⟩) fun s2 => .pull fun h => ?_
  subst h
  cases hf : find P keq s2 t with
  | some n =>
    obtain ⟨hn, l, hl, hq⟩ := find_some hk hf
    exact Triple.bind (Triple.scope (visit_found LS hs hB hn hl hq) (fun _ => Done.drop (L.fresh_live ht)) (Threw.drop (L.fresh_live ht)))
      fun _ => .ret fun _ h => h
  | none =>
    have hno := fun n hn l hl => find_none (n := n) (l := l) hk hf hn hl
    have h2 : Triple (· = s2) (M.onExc (env (do mayThrow; P.move t)) (env (P.destroy t)))
        (fun p s3 => (L.Fresh src p.1 ∧ L.Live p.2 ∧ L.res p.2 = L.res t) ∧ s3.cont = s2.cont ∧
          Base X keq ext s (a + (L.res p.2).1 + (L.res p.1).1) (b + (L.res p.2).2 + (L.res p.1).2) s3) (Threw X keq ext src s a b) := by
      refine Triple.onExc (RE := Threw X keq ext src s (a + (L.res t).1) (b + (L.res t).2)) ?_ (Triple.noThrow (Threw.drop (L.fresh_live ht)))
      refine (env_triple (s := s2) (Q := fun p e' => L.Fresh src p.1 ∧ L.Live p.2 ∧ L.res p.2 = L.res t ∧ s2.env.Shift e' (L.res p.1))
        (E := fun e' => s2.env.Failed e') ?_).conseq (fun _ h => h) ?_ ?_
      · refine ((mayThrow_triple s2.env).conseq (fun _ h => h) (fun _ _ h => h)
          (fun e' h => by rw [h.1]; exact failed_tick h.2)).bind fun _ => .at fun e h => ?_
        have hsh : s2.env.Shift e (0, 0) := by rw [h]; exact ⟨rfl, Nat.le_succ _, by simp, by simp⟩
        refine (L.move src t e ht).conseq (fun _ h => h) ?_ ?_
        · rintro p e' ⟨g1, g2, g3, g4⟩
          exact ⟨g1, g2, g3, (hsh.trans g4).cast (by simp) (by simp)⟩
        · intro e' g
          exact ⟨(hsh.trans g.shift).cast (by simp) (by simp), by rw [← hsh.faults]; exact g.fault⟩
      · rintro p _ ⟨e, ⟨g1, g2, g3, g4⟩, rfl⟩
        exact ⟨⟨g1, g2, g3⟩, rfl, hB.setEnv g4 (by rw [g3]) (by rw [g3])⟩
      · rintro _ ⟨e, g, rfl⟩
        exact (hB.threw (by rw [← hB.faults]; exact g.fault)).setEnv g.shift (by simp) (by simp)
    refine h2.bind fun p => .pull fun ⟨g1, g2, g3⟩ => .at fun s3 ⟨hc, hB'⟩ => ?_
    have := link_visit (a := a + (L.res p.2).1) (b := b + (L.res p.2).2) (r0 := p.2) (d := env (P.destroy p.2)) LS hs g1 hB'
      (by rw [hc]; exact hno)
      (fun i => by simpa using Done.drop (a := a) (b := b) g2) (by simpa using Threw.drop (a := a) (b := b) g2)
    simpa using this

theorem insert_triple (LS : sp.Lawful keq) (trk : Tracking) (hs : sp.supports src = true) (hI : Inv X keq ext s) (hb : Bal L 0 0 s) :
    Triple (· = s) (insert P keq trk src) (Done X keq ext src s 0 0) (Threw X keq ext src s 0 0) := by
  have hQ : ∀ a b (x : Nat) s1 e d a' b', Done X keq ext src s a b x s1 → Env.Shift s1.env e d → a + d.1 = a' → b + d.2 = b' →
      Done X keq ext src s a' b' x { s1 with env := e } := fun _ _ _ _ _ _ _ _ h h1 h2 h3 => h.setEnv h1 h2 h3
  have one : ∀ {a b t s1}, L.Fresh src t → Base X keq ext s (a + (L.res t).1) (b + (L.res t).2) s1 →
      Triple (· = s1) (moved P t fun t => emplace P keq src t) (Done X keq ext src s a b) (Threw X keq ext src s a b) :=
    fun ht hB => moved_triple ht hQ (fun _ _ _ _ h1 h2 => emplace_triple LS hs h1 h2) hB
  have two : ∀ {a b t s1}, L.Fresh src t → Base X keq ext s (a + (L.res t).1) (b + (L.res t).2) s1 →
      Triple (· = s1) (moved P t fun e => moved P e fun t => emplace P keq src t) (Done X keq ext src s a b) (Threw X keq ext src s a b) :=
    fun ht hB => moved_triple ht hQ (fun _ _ _ _ h1 h2 => one h1 h2) hB
  have failed : ∀ (s1 : St Rep) (e : Env), Inv X keq ext s1 → Bal L 0 0 s1 → s1.objs = s.objs → s1.cont = s.cont → s1.env = s.env → s.env.Failed e →
      Threw X keq ext src s 0 0 { s1 with env := e } := by
    intro s1 e h1 h2 h3 h4 h5 h6
    refine ⟨h1.setEnv e, h2.setEnv (d := (0, 0)) (by rw [h5]; exact h6.shift) (by simp) (by simp), h3, h6.shift.faults, at_cont h4,
      fun k hk => .inl ((left_cont (s' := { s1 with env := e }) h4 k).1 hk), .inl h4, h6.fault⟩
  have base : ∀ (s1 : St Rep) (e : Env) (r : Rep), s1 = { s with inited := true } → s.env.Shift e (L.res r) →
      Base X keq ext s (0 + (L.res r).1) (0 + (L.res r).2) { s1 with env := e } := by
    intro s1 e r h1 h2
    subst h1
    have := hb.setEnv h2 (a' := 0 + (L.res r).1) (b' := 0 + (L.res r).2) rfl rfl
    exact ⟨hI.setInited.setEnv e, ⟨this.keys, this.vals⟩, rfl, h2.faults, rfl, rfl⟩
  have value : ∀ (_ : True), Triple (· = s) (do init; let e ← entryOf P trk src; moved P e fun t => emplace P keq src t)
      (Done X keq ext src s 0 0) (Threw X keq ext src s 0 0) := by
    intro _
    refine Triple.bind (R := fun _ s1 => s1 = { s with inited := true }) (fun s1 h => by subst h; rfl) fun _ => ?_
    have hofS : Triple (· = { s with inited := true }) (env (P.ofSrc src))
        (fun r s1 => L.Fresh src r ∧ Base X keq ext s (0 + (L.res r).1) (0 + (L.res r).2) s1) (Threw X keq ext src s 0 0) := by
      refine (env_triple (s := { s with inited := true }) (L.ofSrc src s.env hs)).conseq (fun _ h => h) ?_ ?_
      · rintro r _ ⟨e, ⟨g1, g2⟩, rfl⟩
        exact ⟨g1, base _ e r rfl g2⟩
      · rintro _ ⟨e, g, rfl⟩
        exact failed _ e hI.setInited ⟨hb.keys, hb.vals⟩ rfl rfl rfl g
    refine Triple.bind (R := fun r s1 => L.Fresh src r ∧ Base X keq ext s (0 + (L.res r).1) (0 + (L.res r).2) s1) ?_ fun r => .pull fun hr => .at fun s1 hB => one hr hB
    cases trk with
    | noTracking => exact hofS
    | refcounted =>
      refine hofS.bind fun x => .pull fun hx => .at fun s1 hB => ?_
      refine moved_triple (Q := fun a b r s1 => L.Fresh src r ∧ Base X keq ext s (a + (L.res r).1) (b + (L.res r).2) s1) hx ?_ ?_ hB
      · rintro a b x s1 e d a' b' ⟨h0, h⟩ h1 h2 h3
        exact ⟨h0, h.setEnv h1 (by omega) (by omega)⟩
      · intro a b t s2 ht hB'
        exact .ret fun s3 h => by subst h; exact ⟨ht, hB'⟩
  unfold insert
  refine Triple.bind (R := Done X keq ext src s 0 0) ?_ fun i => .at fun s1 h1 => ?_
  · cases src with
    | key k =>
      refine Triple.bind (R := fun r s1 => L.Fresh (.key k) r ∧ ∃ e, s.env.Shift e (L.res r) ∧ s1 = { s with env := e })
        ((env_triple (L.ofSrc (.key k) s.env hs)).conseq (fun _ h => h) ?_ ?_) fun x => .pull fun hx => .at ?_
      · rintro r _ ⟨e, ⟨g1, g2⟩, rfl⟩
        exact ⟨g1, e, g2, rfl⟩
      · rintro _ ⟨e, g, rfl⟩
        exact failed s e hI hb rfl rfl rfl g
      · rintro _ ⟨e, he, rfl⟩
        refine Triple.bind (R := fun _ s2 => s2 = { s with env := e, inited := true }) (fun s2 h => by subst h; rfl) fun _ => ?_
        exact two hx (base { s with inited := true } e x rfl he)
    | copy v => exact value trivial
    | move v => exact value trivial
  · obtain ⟨s2, e, hI2, hS⟩ := handleCtor_ok LS trk h1.inv
    refine Triple.bind (R := fun _ s3 => s3 = s2) (fun s3 h => by subst h; rw [e]) fun _ => .ret fun s3 h => ?_
    subst h
    refine ⟨hI2, hS.bal _ _ h1.bal, hS.objs.trans h1.objs, hS.faults.trans h1.faults, fun k => (hS.left k).trans (h1.created.1 k), ?_⟩
    rcases h1.created.2 with ⟨b, g1, g2, g3⟩ | ⟨g1, a, src', g2, g3, g4⟩
    · exact .inl ⟨b, g1, g2, fun j c => (hS.at_ j c).trans (g3 j c)⟩
    · exact .inr ⟨g1, a, src', g2, g3, fun j c => (hS.at_ j c).trans (g4 j c)⟩

end
end Verif.CFSeq

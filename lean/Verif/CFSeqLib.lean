import Verif.CFSeqSim
import Verif.Library
import Verif.Transparent

/-!
# Flyweights with `concurrent_factory`, in detail: consequences
-/

set_option autoImplicit false

namespace Verif

variable {K V Rep : Type} {P : Policy K V Rep} {sp : SrcSpec K V} {keq : K → K → Bool} {kd : Bool}

theorem LibPolicy.leaves (h : LibPolicy P sp keq kd) (he : EquivOk keq) :
    sp.Lawful keq ∧ ∃ L : P.Lawful sp, Nonempty L.Leaves ∧ (L.fullKeys = 0 ∨ L.fullKeys = 1) := by
  cases h with
  | plain u => exact ⟨SrcSpec.default_lawful he, DRep.lawful u, ⟨DRep.leaves u⟩, .inl rfl⟩
  | product u => exact ⟨SrcSpec.product_lawful u he, PRep.lawful u, ⟨PRep.leaves u⟩, .inr rfl⟩
  | variant u _ contract => exact ⟨SrcSpec.variant_lawful u he contract, VRep.lawful u, ⟨VRep.leaves u⟩, .inl rfl⟩

namespace CFSpec

/-- What holds of the specification at any time.  (No code of its own: used in statements and proofs.) -/
structure Ok (keq : K → K → Bool) (sp : SrcSpec K V) (t : LSt K V) : Prop where
  nodup : (t.vars.map Prod.fst).Nodup
  bound : ∀ x b, (x, b) ∈ t.vars → t.pool b
  keys : ∀ b c, t.pool b → t.pool c → keq b.key c.key = true → b = c
  addrs : ∀ b c, t.pool b → t.pool c → b.addr = c.addr → b = c
  made : ∀ b, t.pool b → ∃ src, sp.supports src = true ∧ b.key = sp.key1 src ∧ b.val = sp.val src

variable {t t' : LSt K V} {hp : Nat → Nat}

theorem Ok.start : Ok keq sp (LSt.start : LSt K V) :=
  ⟨.nil, fun _ _ h => (by cases h), fun _ _ h => h.elim, fun _ _ h => h.elim, fun _ h => h.elim⟩

theorem Ok.create (LS : sp.Lawful keq) (hsup : ∀ s k, sp.supports s = true → sp.supports (on s k) = true)
    (hk0 : ∀ s k, sp.key0 (on s k) = k ∨ sp.key0 (on s k) = sp.key0 s) (h : Ok keq sp t) {src : Src K V}
    (hs : sp.supports src = true) {b : Bind K V} {pool' : Bind K V → Prop} (hc : Create keq sp t src b pool') (left' : K → Prop) :
    pool' b ∧ keq b.key (sp.key0 src) = true ∧ Ok keq sp ⟨t.vars, pool', left'⟩ := by
  cases hc with
  | share _ _ h1 h2 h3 =>
    refine ⟨(h3 b).2 h1, h2, h.nodup, fun x c hx => (h3 c).2 (h.bound x c hx), fun c d hc hd => h.keys c d ((h3 c).1 hc) ((h3 d).1 hd),
      fun c d hc hd => h.addrs c d ((h3 c).1 hc) ((h3 d).1 hd), fun c hc => h.made c ((h3 c).1 hc)⟩
  | fresh a src' _ h1 h2 h3 h4 =>
    have hs' : sp.supports src' = true := by
      rcases h3 with ⟨rfl, _⟩ | ⟨k, _, _, rfl⟩
      · exact hs
      · exact hsup _ _ hs
    have hk : keq (sp.key1 src') (sp.key0 src) = true := by
      have := LS.contract src' hs'
      rcases h3 with ⟨rfl, _⟩ | ⟨k, _, hk, rfl⟩
      · exact this
      · rcases hk0 src k with e | e
        · rw [e] at this; exact LS.trans _ _ _ this hk
        · rw [e] at this; exact this
    refine ⟨(h4 _).2 (.inr rfl), hk, h.nodup, fun x c hx => (h4 c).2 (.inl (h.bound x c hx)), ?_, ?_, ?_⟩
    · intro c d hc hd e
      rcases (h4 c).1 hc with hc | rfl <;> rcases (h4 d).1 hd with hd | rfl
      · exact h.keys c d hc hd e
      · have := h1 c hc
        rw [LS.trans _ _ _ e hk] at this
        cases this
      · have := h1 d hd
        rw [LS.trans _ _ _ (LS.symm _ _ e) hk] at this
        cases this
      · rfl
    · intro c d hc hd e
      rcases (h4 c).1 hc with hc | rfl <;> rcases (h4 d).1 hd with hd | rfl
      · exact h.addrs c d hc hd e
      · exact absurd e (h2 c hc)
      · exact absurd e.symm (h2 d hd)
      · rfl
    · intro c hc
      rcases (h4 c).1 hc with hc | rfl
      · exact h.made c hc
      · exact ⟨src', hs', rfl, rfl⟩

theorem Ok.vars (h : Ok keq sp t) {vars : List (Nat × Bind K V)} (hn : (vars.map Prod.fst).Nodup) (hb : ∀ x b, (x, b) ∈ vars → t.pool b) :
    Ok keq sp { t with vars := vars } := ⟨hn, hb, h.keys, h.addrs, h.made⟩

theorem Ok.rebind (h : Ok keq sp t) (x : Nat) {b : Bind K V} (hb : t.pool b) : Ok keq sp { t with vars := SSt.rebind t.vars x b } := by
  refine h.vars (by rw [rebind_names]; exact h.nodup) fun y c hc => ?_
  obtain ⟨p, hp, e⟩ := List.mem_map.1 hc
  by_cases he : p.1 = x
  · rw [if_pos he] at e
    cases e
    exact hb
  · rw [if_neg he] at e
    subst e
    exact h.bound _ _ hp

theorem Ok.threw (h : Ok keq sp t) {pool' : Bind K V → Prop} (h3 : ∀ c, pool' c ↔ t.pool c) (left' : K → Prop) :
    Ok keq sp ⟨t.vars, pool', left'⟩ :=
  ⟨h.nodup, fun x c hx => (h3 c).2 (h.bound x c hx), fun c d hc hd => h.keys c d ((h3 c).1 hc) ((h3 d).1 hd),
    fun c d hc hd => h.addrs c d ((h3 c).1 hc) ((h3 d).1 hd), fun c hc => h.made c ((h3 c).1 hc)⟩

theorem Ok.step (LS : sp.Lawful keq) (hsup : ∀ s k, sp.supports s = true → sp.supports (on s k) = true)
    (hk0 : ∀ s k, sp.key0 (on s k) = k ∨ sp.key0 (on s k) = sp.key0 s) (h : Ok keq sp t) {o : Op K V} {out : Out K V}
    (hv : o.valid sp (t.vars.map Prod.fst) = true) (hs : Step keq sp hp t o out t') : Ok keq sp t' := by
  cases hs with
  | init => exact h
  | make x src b pool' left' hc _ =>
    simp [Op.valid] at hv
    obtain ⟨h1, _, h2⟩ := h.create LS hsup hk0 hv.2 hc left'
    refine h2.vars (List.nodup_cons.2 ⟨by simpa using hv.1, h.nodup⟩) fun y c hy => ?_
    rcases List.mem_cons.1 hy with e | hy
    · cases e; exact h1
    · exact h2.bound y c hy
  | makeThrow x src pool' left' h1 _ => exact h.threw h1 left'
  | copy x y b hb =>
    simp [Op.valid] at hv
    refine h.vars (List.nodup_cons.2 ⟨by simpa using hv.1, h.nodup⟩) fun z c hz => ?_
    rcases List.mem_cons.1 hz with e | hz
    · cases e; exact h.bound y b hb
    · exact h.bound z c hz
  | move x y b hb =>
    simp [Op.valid] at hv
    refine h.vars (List.nodup_cons.2 ⟨by simpa using hv.1, h.nodup⟩) fun z c hz => ?_
    rcases List.mem_cons.1 hz with e | hz
    · cases e; exact h.bound y b hb
    · exact h.bound z c hz
  | assign x y b hb => exact h.rebind x (h.bound y b hb)
  | assignVal x src b pool' left' hc _ =>
    simp [Op.valid] at hv
    obtain ⟨h1, _, h2⟩ := h.create LS hsup hk0 hv.2 hc left'
    exact h2.rebind x h1
  | assignValThrow x src pool' left' h1 _ => exact h.threw h1 left'
  | swap x y b c hb hc => exact (h.rebind x (h.bound y c hc)).rebind y (h.bound x b hb)
  | destroy x =>
    exact h.vars (h.nodup.sublist (List.filter_sublist.map _)) fun y c hy => h.bound y c (List.mem_filter.1 hy).1
  | get => exact h
  | getKey => exact h
  | eq => exact h
  | hash => exact h

theorem Ok.collect (h : Ok keq sp t) (hc : Collect t t') : Ok keq sp t' :=
  ⟨by rw [hc.vars]; exact h.nodup, fun x b hx => hc.kept x b (hc.vars ▸ hx) (h.bound x b (hc.vars ▸ hx)),
    fun b c hb hd => h.keys b c (hc.pool b hb) (hc.pool c hd), fun b c hb hd => h.addrs b c (hc.pool b hb) (hc.pool c hd),
    fun b hb => h.made b (hc.pool b hb)⟩

theorem Ok.run (LS : sp.Lawful keq) (hsup : ∀ s k, sp.supports s = true → sp.supports (on s k) = true)
    (hk0 : ∀ s k, sp.key0 (on s k) = k ∨ sp.key0 (on s k) = sp.key0 s) {evs : List (Ev K V)} {outs : List (Out K V)}
    (hr : Run keq sp hp t evs outs t') : Ok keq sp t → Ok keq sp t' := by
  induction hr with
  | nil => exact id
  | step hv hs _ ih => exact fun h => ih (h.step LS hsup hk0 hv hs)
  | skip _ _ ih => exact ih
  | collect hc _ ih => exact fun h => ih (h.collect hc)

theorem Step.threw {o : Op K V} (h : Step keq sp hp t o .threw t') : t'.vars = t.vars := by
  cases h <;> rfl

end CFSpec

namespace CFSeq
open CFSpec (Ev LSt)

/-- A state that some program reaches, with the garbage collector at work.  (No code of its own: used in statements and proofs.) -/
def Reach (P : Policy K V Rep) (keq : K → K → Bool) (trk : Tracking) (sp : SrcSpec K V) (s : St Rep) : Prop :=
  ∃ hp fl alloc evs outs, (∀ n l, alloc n l ∉ l) ∧ exec P keq trk hp sp evs (start fl alloc) = some (outs, s)

theorem Reach.rel {trk : Tracking} {s : St Rep} {L : P.Lawful sp} (X : L.Leaves) (LS : sp.Lawful keq) (h : Reach P keq trk sp s) :
    ∃ t, Rel X keq zero s t ∧ CFSpec.Ok keq sp t := by
  obtain ⟨hp, fl, alloc, evs, outs, ha, he⟩ := h
  obtain ⟨outs', s', t, e, hr, hR, _⟩ := exec_sim LS trk hp evs (start_rel X keq fl ha)
  have := he.symm.trans e
  cases this
  exact ⟨t, hR, CFSpec.Ok.run LS X.supports X.key0 hr .start⟩

section
variable {L : P.Lawful sp} {X : L.Leaves} {s s' : St Rep} {t : LSt K V}

/-- All elements are referred to: one value for each different key. -/
theorem Rel.count (LS : sp.Lawful keq) (h : Rel X keq zero s t) (hO : CFSpec.Ok keq sp t) (hc : ∀ n ∈ s.cont, n.cnt ≠ 0) :
    s.env.keys = L.fullKeys * s.env.vals ∧ ∀ ks : List K, ks.Pairwise (fun k l => keq k l = false) →
      (∀ x b, (x, b) ∈ t.vars → ∃ k ∈ ks, keq b.key k = true) → (∀ k ∈ ks, ∃ x b, (x, b) ∈ t.vars ∧ keq b.key k = true) →
      s.env.vals = ks.length := by
  have hI := h.inv
  have full : ∀ n ∈ s.cont, ∃ k v, L.Full n.rep k v := by
    intro n hn
    rcases hI.good n hn with h | ⟨h0, _⟩
    · exact h
    · exact absurd h0 (hc n hn)
  have sums : ∀ l : List (Node Rep), (∀ n ∈ l, ∃ k v, L.Full n.rep k v) →
      (l.map fun n => (L.res n.rep).1).sum = L.fullKeys * l.length ∧ (l.map fun n => (L.res n.rep).2).sum = l.length := by
    intro l
    induction l with
    | nil => exact fun _ => ⟨by simp, rfl⟩
    | cons n l ih =>
      intro hl
      obtain ⟨k, v, hF⟩ := hl n (.head _)
      obtain ⟨i1, i2⟩ := ih fun m hm => hl m (.tail _ hm)
      constructor
      · simp only [List.map_cons, List.sum_cons, L.full_res hF, i1, List.length_cons]
        rw [show ((l.length + 1 : Nat) : Int) = 1 + (l.length : Int) by omega, Int.mul_add]
        simp
      · simp only [List.map_cons, List.sum_cons, L.full_res hF, i2, List.length_cons]
        omega
  obtain ⟨e1, e2⟩ := sums s.cont full
  have hk := h.bal.keys
  have hv := h.bal.vals
  rw [e1] at hk
  rw [e2] at hv
  have hv' : s.env.vals = s.cont.length := by omega
  refine ⟨by rw [hv']; omega, fun ks hn h1 h2 => ?_⟩
  rw [hv']
  have shown : ∀ n ∈ s.cont, ∃ x b, (x, b) ∈ t.vars ∧ b.addr = n.addr := by
    intro n hn
    have hpos : 0 < refs s n.id := by
      have h1 := hI.cnt n hn
      have h2 := hc n hn
      simp only [zero] at h1
      omega
    obtain ⟨p, hp, e⟩ := List.countP_pos_iff.1 hpos
    obtain ⟨b, hb, m, hm, e', ha, _⟩ := h.vars.lookup (Assoc.lookup_of_mem hI.names hp)
    have : m.id = n.id := e'.trans (by simpa using e)
    rw [uniq hI.ids hm hn this] at ha
    exact ⟨p.1, b, hb, ha.symm⟩
  have shown' : ∀ x b, (x, b) ∈ t.vars → ∃ n ∈ s.cont, n.addr = b.addr := by
    intro x b hx
    obtain ⟨i, hi⟩ := (h.pool b).1 (hO.bound x b hx)
    obtain ⟨n, hn, _, ha, _⟩ := hi
    exact ⟨n, hn, ha⟩
  classical
  obtain ⟨f, hf⟩ : ∃ f : K → Nat, ∀ k ∈ ks, ∃ x b, (x, b) ∈ t.vars ∧ keq b.key k = true ∧ b.addr = f k := by
    refine ⟨fun k => if h : ∃ b x, (x, b) ∈ t.vars ∧ keq b.key k = true then h.choose.addr else 0, fun k hk => ?_⟩
    obtain ⟨x, b, hx, hbk⟩ := h2 k hk
    have h : ∃ b x, (x, b) ∈ t.vars ∧ keq b.key k = true := ⟨b, x, hx, hbk⟩
    obtain ⟨y, hy⟩ := h.choose_spec
    refine ⟨y, h.choose, hy.1, hy.2, ?_⟩
    simp only [dif_pos h]
  have hnd : (s.cont.map Node.addr).Nodup := by
    have : ∀ l : List (Node Rep), (∀ n ∈ l, n ∈ s.cont) → (l.map Node.id).Nodup → (l.map Node.addr).Nodup := by
      intro l
      induction l with
      | nil => exact fun _ _ => .nil
      | cons n l ih =>
        intro hl hd
        simp only [List.map_cons, List.nodup_cons, List.mem_map, not_exists, not_and] at hd ⊢
        exact ⟨fun m hm e => hd.1 m hm (hI.addrs m (hl m (.tail _ hm)) n (hl n (.head _)) e), ih (fun m hm => hl m (.tail _ hm)) hd.2⟩
    exact this s.cont (fun _ h => h) hI.ids
  have hl : (s.cont.map Node.addr).length = (ks.map f).length := by
    refine Setup.length_of_same hnd ?_ fun a => ?_
    · unfold List.Nodup
      rw [List.pairwise_map]
      refine hn.imp_of_mem fun {k l} hk hl hne e => ?_
      obtain ⟨x, b, hx, hbk, hba⟩ := hf k hk
      obtain ⟨y, c, hy, hcl, hca⟩ := hf l hl
      have : b = c := hO.addrs b c (hO.bound x b hx) (hO.bound y c hy) (by rw [hba, hca, e])
      subst this
      rw [LS.trans _ _ _ (LS.symm _ _ hbk) hcl] at hne
      cases hne
    · simp only [List.mem_map]
      constructor
      · rintro ⟨n, hn, rfl⟩
        obtain ⟨x, b, hx, ha⟩ := shown n hn
        obtain ⟨k, hk, hbk⟩ := h1 x b hx
        obtain ⟨y, c, hy, hck, hca⟩ := hf k hk
        have : b = c := hO.keys b c (hO.bound x b hx) (hO.bound y c hy) (LS.trans _ _ _ hbk (LS.symm _ _ hck))
        exact ⟨k, hk, by rw [← hca, ← this, ha]⟩
      · rintro ⟨k, hk, rfl⟩
        obtain ⟨x, b, hx, _, hba⟩ := hf k hk
        obtain ⟨n, hn, e⟩ := shown' x b hx
        exact ⟨n, hn, e.trans hba⟩
  simp only [List.length_map] at hl
  rw [hl]

end
end CFSeq
end Verif

import Verif.Container
import Verif.Sample
import Verif.SpecMatch

/-!
# Properties of factories: C34-C36
-/

set_option autoImplicit false

namespace Verif.Props
open Setup

/-! ## C34 -/

/-- **C34.**  A hashed container, with any policy for the number of buckets and
any hash compatible with the predicate, behaves in every program like a plain
sequence searched for an equivalent entry: the same handles, the same reports of
new entries.  It stores what the sequence stores, no two stored entries are
equivalent, and a handle keeps referring to its entry whatever else is inserted,
erased or changed, rehashing included. -/
theorem C34_hashed {E : Type} {hash : E → Nat} {pred : E → E → Bool} (ok : HashOk hash pred)
    (grow : Nat → Nat) (ops : List (COp E)) :
    let Fa := Hashed.factory hash pred grow
    let r := Fa.crun pred ops (Fa.empty, 0)
    let q := refRun pred ops ([], 0)
    r.1 = q.1 ∧ (∀ i, Fa.entry r.2.1 i = q.2.1.lookup i) ∧
    (∀ i j e e', Fa.entry r.2.1 i = some e → Fa.entry r.2.1 j = some e' → pred e e' = true → i = j) ∧
    (∀ i e ops', Fa.entry r.2.1 i = some e → (∀ op ∈ ops', op.spares i = true) →
      Fa.entry (Fa.crun pred ops' r.2).2.1 i = some e) := by
  intro Fa r q
  have h := (CRel.start (Hashed.lawful grow ok) pred).run (fun _ _ => Iff.rfl) ok.equiv ops
  exact ⟨h.1, h.2.entry, fun i j e e' hi hj hp => h.2.unique ok.equiv hi hj hp,
    fun i e ops' hi ho => h.2.keep (fun _ _ => Iff.rfl) ok.equiv ops' hi ho⟩

/-- Keys modulo 10, a growth of the array, an erasure. -/
example := C34_hashed Sample.hashOk (fun n => 2 * n) [.insert 3, .insert 4, .insert 13, .insert 5, .erase 0, .insert 3, .change 1 14]
example : ((Hashed.factory Sample.hash Sample.keq (fun n => 2 * n)).crun Sample.keq
    [.insert 3, .insert 4, .insert 13, .insert 5, .erase 0, .insert 3, .change 1 14]
    ((Hashed.factory Sample.hash Sample.keq (fun n => 2 * n)).empty, 0)).1 =
    [.handle 0 true, .handle 1 true, .handle 0 false, .handle 2 true, .done, .handle 3 true, .done] := rfl

/-- **C34.**  An entry equivalent to the argument is found iff there is one. -/
theorem C34_found_iff {E : Type} {hash : E → Nat} {pred : E → E → Bool} (ok : HashOk hash pred)
    (grow : Nat → Nat) (ops : List (COp E)) (e : E) :
    let Fa := Hashed.factory hash pred grow
    let s := (Fa.crun pred ops (Fa.empty, 0)).2
    (∃ i, (Fa.cstep pred s (.insert e)).1 = .handle i false) ↔
      ∃ i e', Fa.entry s.1 i = some e' ∧ pred e' e = true := by
  intro Fa s
  have h := ((CRel.start (Hashed.lawful grow ok) pred).run (fun _ _ => Iff.rfl) ok.equiv ops).2
  rw [(h.step (fun _ _ => Iff.rfl) ok.equiv (.insert e)).1]
  simp only [refStep]
  constructor
  · rintro ⟨i, hi⟩
    cases hf : (refRun pred ops ([], 0)).2.1.find? fun p => pred p.2 e with
    | none => rw [hf] at hi; cases hi
    | some p =>
      have h3 := List.find?_some hf
      exact ⟨p.1, p.2, (h.entry p.1).trans (Assoc.lookup_of_mem h.nodup (List.mem_of_find?_eq_some hf)),
        h3⟩
  · rintro ⟨i, e', h1, h2⟩
    cases hf : (refRun pred ops ([], 0)).2.1.find? fun p => pred p.2 e with
    | none =>
      rw [List.find?_eq_none] at hf
      exact absurd h2 (hf _ (Assoc.lookup_mem ((h.entry i).symm.trans h1)))
    | some p => exact ⟨p.1, rfl⟩

/-- A program with a rehashing, equivalent entries and an erasure. -/
example : ((Hashed.factory Sample.hash Sample.keq (fun n => 2 * n)).crun Sample.keq
    [.insert 3, .insert 4, .insert 13, .insert 5, .erase 0, .insert 3, .change 1 14]
    ((Hashed.factory Sample.hash Sample.keq (fun n => 2 * n)).empty, 0)).1 =
    [.handle 0 true, .handle 1 true, .handle 0 false, .handle 2 true, .done, .handle 3 true, .done] := rfl
example : HashOk Sample.hash Sample.keq := Sample.hashOk

/-- **C34, necessity.**  With a hash that is not compatible with the predicate,
two equivalent entries can be stored. -/
theorem C34_incompatible :
    ∃ (hash : Nat → Nat) (pred : Nat → Nat → Bool), EquivOk pred ∧ ¬ HashOk hash pred ∧
      ∃ grow a b, pred a b = true ∧
        ((Hashed.factory hash pred grow).crun pred [.insert a, .insert b]
          ((Hashed.factory hash pred grow).empty, 0)).1 = [.handle 0 true, .handle 1 true] := by
  refine ⟨id, fun a b => a % 2 == b % 2, ⟨?_, ?_, ?_⟩, ?_, fun _ => 9, 1, 3, rfl, rfl⟩
  · intro k; simp
  · intro k l; simp only [beq_iff_eq]; exact Eq.symm
  · intro k l m; simp only [beq_iff_eq]; exact Eq.trans
  · intro h
    have := h.compat 1 3 rfl
    simp at this

/-! ## C35 -/

/-- **C35.**  An ordered container, with any strict weak ordering, behaves in
every program like a plain sequence searched for an incomparable entry, stores no
two incomparable entries, keeps its entries ordered, and keeps handles valid. -/
theorem C35_ordered {E : Type} {lt : E → E → Bool} (ok : OrderOk lt) (ops : List (COp E)) :
    let Fa := setFactory lt
    let r := Fa.crun (incomparable lt) ops (Fa.empty, 0)
    let q := refRun (incomparable lt) ops ([], 0)
    r.1 = q.1 ∧ (∀ i, Fa.entry r.2.1 i = q.2.1.lookup i) ∧
    (∀ i j e e', Fa.entry r.2.1 i = some e → Fa.entry r.2.1 j = some e' → incomparable lt e e' = true → i = j) ∧
    r.2.1.Pairwise (fun p p' => lt p.2 p'.2 = true) ∧
    (∀ i e ops', Fa.entry r.2.1 i = some e → (∀ op ∈ ops', op.spares i = true) →
      Fa.entry (Fa.crun (incomparable lt) ops' r.2).2.1 i = some e) := by
  intro Fa r q
  have h := (CRel.start (setFactory.lawful ok) (incomparable lt)).run (fun _ _ => Iff.rfl) ok.equiv ops
  exact ⟨h.1, h.2.entry, fun i j e e' hi hj hp => h.2.unique ok.equiv hi hj hp, h.2.inv.2,
    fun i e ops' hi ho => h.2.keep (fun _ _ => Iff.rfl) ok.equiv ops' hi ho⟩

/-- A program with incomparable entries and an erasure. -/
example : ((setFactory Sample.less).crun (incomparable Sample.less)
    [.insert 5, .insert 3, .insert 13, .insert 4, .erase 1, .insert 3, .change 2 14] ([], 0)).1 =
    [.handle 0 true, .handle 1 true, .handle 1 false, .handle 2 true, .done, .handle 3 true, .done] := rfl
example : OrderOk Sample.less := Sample.lessOk

/-- **C35, necessity.**  With a comparison that is not a strict weak ordering
(here `≤`), the same entry can be stored twice. -/
theorem C35_not_strict :
    ∃ (lt : Nat → Nat → Bool), ¬ OrderOk lt ∧
      ((setFactory lt).crun (incomparable lt) [.insert 1, .insert 1] ([], 0)).1 =
        [.handle 0 true, .handle 1 true] := by
  refine ⟨fun a b => a ≤ b, fun h => ?_, rfl⟩
  have := h.irrefl 0
  simp at this

/-! ## C36 -/

variable {K V Rep F₁ F₂ : Type}

/-- **C36.**  Two flyweight types that only differ in the factory, both factories
being lawful for the same equivalence and making the entry of a new node in the same way: every
program has the same results apart
from addresses (and hashes of addresses), including which operations throw, and
the same numbers of live and constructed objects, whatever the allocators. -/
theorem C36_interchangeable (S : Setup K V Rep F₁) (B : Factory F₂ (Ent Rep)) (LB : B.Lawful S.eqv)
    (ok : EqvOk S.eqv) (take : B.take = S.Fa.take) (hp : Nat → Nat) (fl : Nat → Bool) (alloc₁ alloc₂ : Nat → List Nat → Nat)
    (ha₁ : ∀ n l, alloc₁ n l ∉ l) (ha₂ : ∀ n l, alloc₂ n l ∉ l) (ops : List (Op K V)) :
    ∃ outs₁ outs₂ s₁ s₂, S.run hp fl alloc₁ ops = some (outs₁, s₁) ∧
      (S.withFactory B LB).run hp fl alloc₂ ops = some (outs₂, s₂) ∧
      outs₁.map Out.erase = outs₂.map Out.erase ∧ s₁.env = s₂.env := by
  let S' := S.withFactory (prodFactory S.Fa B) (prodLawful S.LF LB ok)
  have h0 := sim_start S' fl ha₁
  have h1 := sim_start S fl ha₁
  have h2 := sim_start (S.withFactory B LB) fl ha₂
  obtain ⟨outs, outs₁, r, s₁, a1, a2, a3, a4⟩ := exec_follows (S := S') (S' := S) (homFst S.Fa B) rfl rfl rfl
    (fun _ _ => trivial) hp ops h0 h1 ⟨rfl, rfl, rfl, rfl, rfl, rfl, rfl⟩
  obtain ⟨outs', outs₂, r', s₂, b1, b2, b3, b4⟩ := exec_follows (S := S') (S' := S.withFactory B LB)
    (homSnd S.LF LB take) rfl rfl rfl
    (fun f hf => ⟨hf.2.2.1, hf.2.2.2.1, fun i => by
      rw [S.LF.mem_ids i hf.1, LB.mem_ids i hf.2.1, hf.2.2.2.1 i]⟩) hp ops h0 h2
    ⟨rfl, rfl, rfl, rfl, rfl, rfl, rfl⟩
  have : (outs, r) = (outs', r') := Option.some.inj (a1.symm.trans b1)
  cases this
  exact ⟨outs₁, outs₂, s₁, s₂, a2, b2, a3.symm.trans b3, a4.env.symm ▸ b4.env.symm⟩

/-- **C36, any two factories.**  Whichever way the two factories make the entries of new nodes, by
moving or by copying, so that other operations throw: two executions of a program in which the same
operations of the program throw have the same results apart from addresses and leave the same numbers of
keys and values alive. -/
theorem C36_same_throws (S : Setup K V Rep F₁) (B : Factory F₂ (Ent Rep)) (LB : B.Lawful S.eqv)
    (hp : Nat → Nat) (fl₁ fl₂ : Nat → Bool) (alloc₁ alloc₂ : Nat → List Nat → Nat)
    (ha₁ : ∀ n l, alloc₁ n l ∉ l) (ha₂ : ∀ n l, alloc₂ n l ∉ l) (ops : List (Op K V)) :
    ∃ outs₁ outs₂ s₁ s₂, S.run hp fl₁ alloc₁ ops = some (outs₁, s₁) ∧
      (S.withFactory B LB).run hp fl₂ alloc₂ ops = some (outs₂, s₂) ∧
      ((∀ i : Nat, outs₁[i]? = some .threw ↔ outs₂[i]? = some .threw) →
        outs₁.map Out.erase = outs₂.map Out.erase ∧ s₁.env.vals = s₂.env.vals ∧ s₁.env.keys = s₂.env.keys) := by
  obtain ⟨outs₁, s₁, t₁, a1, a2, a3, _⟩ := exec_sim hp ops (sim_start S fl₁ ha₁)
  obtain ⟨outs₂, s₂, t₂, b1, b2, b3, _⟩ := exec_sim hp ops (sim_start (S.withFactory B LB) fl₂ ha₂)
  refine ⟨outs₁, outs₂, s₁, s₂, a1, b1, fun hth => ?_⟩
  have ok₁ := a2.ok S.LS (SOk.start _ _)
  have ok₂ := b2.ok S.LS (SOk.start _ _)
  obtain ⟨he, v, k, hpair⟩ := Paired.run S.LS ops (Paired.start S.trk) (SOk.start _ _) (SOk.start _ _) a2 b2 hth
  obtain ⟨c1, c2⟩ := pool_addrs a3
  obtain ⟨d1, d2⟩ := pool_addrs b3
  have hlen : (S.Fa.ids s₁.fac).length = (B.ids s₂.fac).length := by
    have := length_of_pairs ((pairs S.trk v k).map fun p => (p.1.addr, p.2.addr)) c1 d1
      (fun a => ?_) (fun a => ?_) ?_
    · rw [List.length_map, List.length_map] at this
      exact this
    · rw [c2 a, hpair.pool]
      simp only [List.mem_map]
      constructor
      · rintro ⟨x, ⟨p, hp, rfl⟩, rfl⟩
        exact ⟨_, ⟨p, hp, rfl⟩, rfl⟩
      · rintro ⟨_, ⟨p, hp, rfl⟩, rfl⟩
        exact ⟨_, ⟨p, hp, rfl⟩, rfl⟩
    · rw [d2 a, show t₂.pool (S.withFactory B LB).trk = _ from hpair.pool']
      simp only [List.mem_map]
      constructor
      · rintro ⟨x, ⟨p, hp, rfl⟩, rfl⟩
        exact ⟨_, ⟨p, hp, rfl⟩, rfl⟩
      · rintro ⟨_, ⟨p, hp, rfl⟩, rfl⟩
        exact ⟨_, ⟨p, hp, rfl⟩, rfl⟩
    · intro p hp q hq
      obtain ⟨p', hp', rfl⟩ := List.mem_map.1 hp
      obtain ⟨q', hq', rfl⟩ := List.mem_map.1 hq
      exact hpair.addr ok₁ ok₂ hp' hq'
  refine ⟨he, ?_, ?_⟩
  · rw [(live_count a3).2, (live_count b3).2, hlen]; rfl
  · rw [(live_count a3).1, (live_count b3).1, hlen]; rfl

/-- If nothing throws, the results are the same with any two factories. -/
theorem C36_no_faults (S : Setup K V Rep F₁) (B : Factory F₂ (Ent Rep)) (LB : B.Lawful S.eqv)
    (hp : Nat → Nat) (alloc₁ alloc₂ : Nat → List Nat → Nat)
    (ha₁ : ∀ n l, alloc₁ n l ∉ l) (ha₂ : ∀ n l, alloc₂ n l ∉ l) (ops : List (Op K V)) :
    ∃ outs₁ outs₂ s₁ s₂, S.run hp (fun _ => false) alloc₁ ops = some (outs₁, s₁) ∧
      (S.withFactory B LB).run hp (fun _ => false) alloc₂ ops = some (outs₂, s₂) ∧
      outs₁.map Out.erase = outs₂.map Out.erase ∧ s₁.env.vals = s₂.env.vals ∧ s₁.env.keys = s₂.env.keys := by
  obtain ⟨outs₁, outs₂, s₁, s₂, h1, h2, h3⟩ := C36_same_throws S B LB hp (fun _ => false) (fun _ => false)
    alloc₁ alloc₂ ha₁ ha₂ ops
  refine ⟨outs₁, outs₂, s₁, s₂, h1, h2, h3 ?_⟩
  have no : ∀ {F : Type} (S : Setup K V Rep F) {alloc : Nat → List Nat → Nat} {outs : List (Out K V)} {s : St Rep F},
      (∀ n l, alloc n l ∉ l) → S.run hp (fun _ => false) alloc ops = some (outs, s) → ∀ i : Nat, outs[i]? ≠ some .threw := by
    intro F S alloc outs s ha h i hi
    obtain ⟨outs', s', t', c1, _, _, c4⟩ := exec_sim hp ops (sim_start S (fun _ => false) ha)
    have : (outs', s') = (outs, s) := Option.some.inj (c1.symm.trans h)
    cases this
    obtain ⟨n, hn⟩ := c4 (List.mem_of_getElem? hi)
    cases hn
  exact fun i => ⟨fun h => absurd h (no S ha₁ h1 i), fun h => absurd h (no _ ha₂ h2 i)⟩

/-- `hashed_factory`, the list-update factory of the tests, `set_factory` and the
verbose factory of the examples are lawful for the same equivalence of entries,
if the predicate is the one induced by the ordering; the two of the library make entries in the
same way. -/
theorem C36_library {P : Policy K V Rep} {hash : K → Nat} {less : K → K → Bool}
    (okH : HashOk hash (incomparable less)) (okO : OrderOk less) (grow : Nat → Nat) :
    ∃ eqv : Ent Rep → Ent Rep → Prop, EqvOk eqv ∧ KeyEqv P (incomparable less) eqv ∧
      Nonempty ((Hashed.factory (liftHash P hash) (liftPred P (incomparable less)) grow).Lawful eqv) ∧
      Nonempty ((luFactory (liftPred P (incomparable less))).Lawful eqv) ∧
      Nonempty ((setFactory (liftLt P less)).Lawful eqv) ∧
      Nonempty ((verboseFactory (liftLt P less)).Lawful eqv) ∧
      (setFactory (liftLt P less)).take =
        (Hashed.factory (liftHash P hash) (liftPred P (incomparable less)) grow).take := by
  have he : ∀ e e' : Ent Rep, liftPred P (incomparable less) e e' = incomparable (liftLt P less) e e' := by
    intro e e'
    simp only [liftPred, incomparable, liftLt]
    cases P.toKey e.rep <;> cases P.toKey e'.rep <;> simp
  have he' : (fun e e' : Ent Rep => liftPred P (incomparable less) e e' = true) =
      fun e e' => incomparable (liftLt P less) e e' = true := by
    funext e e'; rw [he]
  have hok := liftHash_ok P okH
  refine ⟨fun e e' => liftPred P (incomparable less) e e' = true, ⟨hok.refl, hok.symm, hok.trans⟩,
    liftPred_key P _, ⟨Hashed.lawful grow hok⟩, ⟨luFactory.lawful _⟩, ?_, ?_, rfl⟩
  · rw [he']; exact ⟨setFactory.lawful (liftLt_ok P okO)⟩
  · rw [he']; exact ⟨verboseFactory.lawful (liftLt_ok P okO)⟩

/-- The hypotheses of `C36_library` are met by the sample types, and a program
with hits, throws and comparisons has the same outcome with `set_factory`. -/
example : HashOk Sample.hash (incomparable Sample.less) where
  refl a := by simp [incomparable, Sample.less]
  symm a b := by simp only [incomparable, Sample.less]; simp; omega
  trans a b c := by simp only [incomparable, Sample.less]; simp; omega
  compat a b := by simp only [incomparable, Sample.less, Sample.hash]; simp; omega
example : EqvOk (Sample.var .refcounted).eqv :=
  have h := liftHash_ok (VRep.policy Sample.u) Sample.hashOk
  ⟨h.refl, h.symm, h.trans⟩
example : ∃ s t, (Sample.var .refcounted).run id (Sample.failAt 3) Sample.alloc
      [.make 0 (.key 3), .make 0 (.key 4), .make 1 (.key 14), .eq 0 1, .get 1] =
      some ([.threw, .done, .done, .bool true, .val 1 (4, 16)], s) ∧
    (Sample.varSet .refcounted).run id (Sample.failAt 3) (fun _ l => l.sum + 7)
      [.make 0 (.key 3), .make 0 (.key 4), .make 1 (.key 14), .eq 0 1, .get 1] =
      some ([.threw, .done, .done, .bool true, .val 7 (4, 16)], t) := ⟨_, _, rfl, rfl⟩

/-- Executions with `hashed_factory` and with the list-update factory in which other user operations
throw, but the same operation of the program (`C36_same_throws`). -/
example : ∃ s t, (Sample.var .refcounted).run id (Sample.failAt 5) Sample.alloc
      [.make 0 (.key 3), .make 0 (.key 4), .make 1 (.key 14), .eq 0 1, .get 1] =
      some ([.threw, .done, .done, .bool true, .val 1 (4, 16)], s) ∧
    (Sample.varLu .refcounted).run id (Sample.failAt 6) (fun _ l => l.sum + 7)
      [.make 0 (.key 3), .make 0 (.key 4), .make 1 (.key 14), .eq 0 1, .get 1] =
      some ([.threw, .done, .done, .bool true, .val 7 (4, 16)], t) := ⟨_, _, rfl, rfl⟩
/-- `take` cannot be dropped from `C36_interchangeable`: the list-update factory calls the copy
constructor of the key where `hashed_factory` does not, and that call can be the one that throws. -/
example : ∃ s t, (Sample.var .refcounted).run id (Sample.failAt 6) Sample.alloc [.make 0 (.key 3)] =
      some ([.done], s) ∧
    (Sample.varLu .refcounted).run id (Sample.failAt 6) Sample.alloc [.make 0 (.key 3)] =
      some ([.threw], t) := ⟨_, _, rfl, rfl⟩

/-- The list-update factory of the tests: of `n` accesses that bring the count of an entry to ten, all but the last leave the
entries where they are, and the last moves the entry to the front and its count back to zero; the others keep their order and
counts. -/
theorem C36_list_update {E : Type} (pred : E → E → Bool) (a b : List (Nat × (Nat × E))) (i c n : Nat) (x e : E)
    (hn : ((a ++ (i, (c, x)) :: b).map Prod.fst).Nodup) (ha : ∀ p ∈ a, pred p.2.2 e = false) (hx : pred x e = true)
    (hc : c + (n + 1) = 10) :
    (∀ m, m ≤ n → Nat.repeat (fun f => ((luFactory pred).lookup f e).1) m (a ++ (i, (c, x)) :: b) =
      a ++ (i, (c + m, x)) :: b) ∧
    Nat.repeat (fun f => ((luFactory pred).lookup f e).1) (n + 1) (a ++ (i, (c, x)) :: b) = (i, (0, x)) :: (a ++ b) := by
  have hfind : ∀ m, (a ++ (i, (m, x)) :: b).find? (fun p => pred p.2.2 e) = some (i, (m, x)) := by
    intro m
    rw [List.find?_append, List.find?_eq_none.2 (by simpa using ha)]
    simp [hx]
  have hne : (∀ p ∈ a, p.1 ≠ i) ∧ ∀ p ∈ b, p.1 ≠ i := by
    rw [List.map_append, List.nodup_append, List.map_cons, List.nodup_cons] at hn
    refine ⟨?_, ?_⟩
    · intro p hp h
      exact hn.2.2 p.1 (List.mem_map_of_mem hp) i (by simp) h
    · intro p hp h
      exact hn.2.1.1 (List.mem_map.2 ⟨p, hp, h⟩)
  have hmod : ∀ (l : List (Nat × (Nat × E))) g, (∀ p ∈ l, p.1 ≠ i) → Assoc.modifyAt l i g = l := by
    intro l g hl
    unfold Assoc.modifyAt
    conv => rhs; rw [← List.map_id l]
    refine List.map_congr_left ?_
    intro p hp
    simp [hl p hp]
  have h1 : ∀ m, m ≤ n → Nat.repeat (fun f => ((luFactory pred).lookup f e).1) m (a ++ (i, (c, x)) :: b) =
      a ++ (i, (c + m, x)) :: b := by
    intro m
    induction m with
    | zero => intro _; rfl
    | succ m ih =>
      intro hm
      rw [Nat.repeat, ih (by omega)]
      simp only [luFactory, hfind]
      rw [if_neg (by omega)]
      dsimp only
      have : ∀ g, Assoc.modifyAt (a ++ (i, (c + m, x)) :: b) i g = Assoc.modifyAt a i g ++ (i, g (c + m, x)) :: Assoc.modifyAt b i g := by
        intro g; simp [Assoc.modifyAt]
      rw [this, hmod a _ hne.1, hmod b _ hne.2]
      rfl
  refine ⟨h1, ?_⟩
  rw [Nat.repeat, h1 n (Nat.le_refl n)]
  simp only [luFactory, hfind]
  rw [if_pos (by omega), List.filter_append, List.filter_cons]
  simp only [ne_eq, not_true_eq_false, decide_false, Bool.false_eq_true, if_false]
  rw [List.filter_eq_self.2 (by simpa using hne.1), List.filter_eq_self.2 (by simpa using hne.2)]

/-- The third of four entries is accessed for the eighth, ninth and tenth time. -/
example : Nat.repeat (fun f => ((luFactory (fun p q : Nat => p == q)).lookup f 7).1) (2 + 1)
      ([(0, (1, 5)), (4, (9, 6))] ++ (2, (7, 7)) :: [(3, (0, 8))]) =
    (2, (0, 7)) :: ([(0, (1, 5)), (4, (9, 6))] ++ [(3, (0, 8))]) :=
  (C36_list_update _ [(0, (1, 5)), (4, (9, 6))] [(3, (0, 8))] 2 7 2 7 7 (by decide) (by decide) rfl rfl).2

end Verif.Props

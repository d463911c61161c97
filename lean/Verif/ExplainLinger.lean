import Verif.Explain
import Verif.LingerLemmas

/-!
# Concurrent executions explained by sequential programs: values that linger

With `concurrent_factory` (`Verif.Linger`) the sequential program has, besides the flyweights of the concurrent one, one flyweight for
each value stored: it is made along with the value, and destroyed when a garbage collector removes the value.
-/

set_option autoImplicit false

namespace Verif.Explain
open Verif.Conc (Fw pick)
open Verif.CFac (Act)
variable {K : Type}

/-- Complete values.  (No code of its own: used in statements and proofs.) -/
def complete (vals : Nat → Option (Linger.Val K)) (h : Nat) : Option (Atomic.Val K) :=
  match vals h with
  | some v => if v.full then some ⟨v.core, v.key, v.kids⟩ else none
  | none => none

/-- References held by values and by keys without value.  (No code of its own: used in statements and proofs.) -/
def kidsOfL (vals : Nat → Option (Linger.Val K)) (i : Nat) : List Nat :=
  match vals i with
  | some v => v.kids.map Fw.h
  | none => []

/-- Complete values that a call in progress refers to.  (No code of its own: used in statements and proofs.) -/
def refsL : Linger.Call K → List Nat
  | .create _ _ loc => loc.map Fw.h
  | .build _ _ _ loc => loc.map Fw.h
  | .built _ _ _ loc => loc.map Fw.h
  | .made w loc => w.h :: loc.map Fw.h
  | .destroy h => [h]
  | .collector _ => []

/-- References held by the container: one for each complete value.  (No code of its own: used in statements and proofs.) -/
def own (vals : Nat → Option (Linger.Val K)) (h : Nat) : Nat := if (complete vals h).isSome then 1 else 0

/-- Number of references to `h` by flyweight objects, by values, by calls in progress and by the container.  (No code of
its own: used in statements and proofs.) -/
def totalL (a : Linger.St K) (ids : List Nat) (h : Nat) : Nat :=
  (a.objs.map Fw.h).count h + (ids.flatMap (kidsOfL a.vals)).count h + (a.thr.flatMap fun st => st.flatMap refsL).count h +
    own a.vals h

theorem count_setL {thr : List (List (Linger.Call K))} {t : Nat} {st : List (Linger.Call K)} (ht : thr[t]? = some st)
    (new : List (Linger.Call K)) (h : Nat) :
    ((thr.set t new).flatMap fun st => st.flatMap refsL).count h + (st.flatMap refsL).count h =
      (thr.flatMap fun st => st.flatMap refsL).count h + (new.flatMap refsL).count h := by
  induction thr generalizing t with
  | nil => cases ht
  | cons s thr ih =>
    cases t with
    | zero =>
      cases ht
      simp only [List.set_cons_zero, List.flatMap_cons, List.count_append]
      omega
    | succ t =>
      have := ih (t := t) (by simpa using ht)
      simp only [List.set_cons_succ, List.flatMap_cons, List.count_append]
      omega

theorem count_dropsL (l : List (Fw K)) (h : Nat) : ((Linger.drops l).flatMap refsL).count h = (l.map Fw.h).count h := by
  induction l with
  | nil => rfl
  | cons a l ih =>
    simp only [Linger.drops, List.map_cons, List.flatMap_cons, List.count_append, List.count_cons] at ih ⊢
    rw [ih]
    simp only [refsL, List.count_cons, List.count_nil]
    omega

theorem flatMap_congr {f g : Nat → List Nat} : ∀ {l : List Nat}, (∀ j ∈ l, f j = g j) → l.flatMap f = l.flatMap g
  | [], _ => rfl
  | a :: l, h => by
    rw [List.flatMap_cons, List.flatMap_cons, h a (by simp), flatMap_congr fun j hj => h j (by simp [hj])]

theorem kids_other {vals : Nat → Option (Linger.Val K)} {i j : Nat} {o : Option (Linger.Val K)} (h : j ≠ i) :
    kidsOfL (Linger.setVal vals i o) j = kidsOfL vals j := by simp [kidsOfL, Linger.setVal, h]

theorem kids_storeL {vals : Nat → Option (Linger.Val K)} {i : Nat} {v : Linger.Val K} {ids : List Nat} (hi : i ∉ ids) :
    (i :: ids).flatMap (kidsOfL (Linger.setVal vals i (some v))) = v.kids.map Fw.h ++ ids.flatMap (kidsOfL vals) := by
  have h1 : kidsOfL (Linger.setVal vals i (some v)) i = v.kids.map Fw.h := by simp [kidsOfL, Linger.setVal]
  rw [List.flatMap_cons, h1, flatMap_congr (l := ids) fun j hj => kids_other (i := i) fun he => hi (he ▸ hj)]

theorem count_split {f : Nat → List Nat} {i : Nat} {ids : List Nat} (hi : i ∈ ids) (h : Nat) :
    (ids.flatMap f).count h = (f i).count h + ((ids.erase i).flatMap f).count h := by
  induction ids with
  | nil => cases hi
  | cons a l ih =>
    by_cases ha : a = i
    · subst ha
      rw [List.erase_cons_head, List.flatMap_cons, List.count_append]
    · have := ih ((List.mem_cons.1 hi).resolve_left (Ne.symm ha))
      rw [List.erase_cons_tail (by simpa using ha), List.flatMap_cons, List.flatMap_cons, List.count_append, List.count_append]
      omega

theorem kids_changeL {vals : Nat → Option (Linger.Val K)} {i : Nat} {v v' : Linger.Val K} {ids : List Nat} (hn : ids.Nodup) (hi : i ∈ ids)
    (hv : vals i = some v) (h : Nat) :
    (ids.flatMap (kidsOfL (Linger.setVal vals i (some v')))).count h + (v.kids.map Fw.h).count h =
      (ids.flatMap (kidsOfL vals)).count h + (v'.kids.map Fw.h).count h := by
  rw [count_split hi, count_split (f := kidsOfL vals) hi,
    flatMap_congr (g := kidsOfL vals) (l := ids.erase i) fun j hj => kids_other (i := i) (hn.mem_erase_iff.1 hj).1]
  have h1 : kidsOfL (Linger.setVal vals i (some v')) i = v'.kids.map Fw.h := by simp [kidsOfL, Linger.setVal]
  have h2 : kidsOfL vals i = v.kids.map Fw.h := by simp [kidsOfL, hv]
  rw [h1, h2]
  omega

theorem kids_eraseL {vals : Nat → Option (Linger.Val K)} {i : Nat} {v : Linger.Val K} {ids : List Nat} (hn : ids.Nodup) (hi : i ∈ ids)
    (hv : vals i = some v) (h : Nat) :
    ((ids.erase i).flatMap (kidsOfL (Linger.setVal vals i none))).count h + (v.kids.map Fw.h).count h =
      (ids.flatMap (kidsOfL vals)).count h := by
  rw [count_split (f := kidsOfL vals) hi, flatMap_congr (g := kidsOfL vals) (l := ids.erase i) fun j hj => kids_other (i := i) (hn.mem_erase_iff.1 hj).1]
  have h2 : kidsOfL vals i = v.kids.map Fw.h := by simp [kidsOfL, hv]
  rw [h2]
  omega

theorem complete_set_full {vals : Nat → Option (Linger.Val K)} {i : Nat} {v : Linger.Val K} (hf : v.full = true) :
    complete (Linger.setVal vals i (some v)) = Atomic.setVal (complete vals) i (some ⟨v.core, v.key, v.kids⟩) := by
  funext j
  by_cases hj : j = i <;> simp [complete, Linger.setVal, Atomic.setVal, hj, hf]

theorem complete_set_none {vals : Nat → Option (Linger.Val K)} {i : Nat} :
    complete (Linger.setVal vals i none) = Atomic.setVal (complete vals) i none := by
  funext j
  by_cases hj : j = i <;> simp [complete, Linger.setVal, Atomic.setVal, hj]

theorem complete_set_part {vals : Nat → Option (Linger.Val K)} {i : Nat} {o : Option (Linger.Val K)} (hi : complete vals i = none)
    (hf : ∀ v, o = some v → v.full = false) : complete (Linger.setVal vals i o) = complete vals := by
  funext j
  by_cases hj : j = i
  · subst hj
    rw [hi]
    unfold complete Linger.setVal
    rw [if_pos rfl]
    cases o with
    | none => rfl
    | some v => simp [hf v rfl]
  · simp [complete, Linger.setVal, hj]

theorem complete_of {vals : Nat → Option (Linger.Val K)} {i : Nat} {v : Linger.Val K} (hv : vals i = some v) (hf : v.full = true) :
    complete vals i = some ⟨v.core, v.key, v.kids⟩ := by simp [complete, hv, hf]

theorem of_complete {vals : Nat → Option (Linger.Val K)} {i : Nat} {u : Atomic.Val K} (h : complete vals i = some u) :
    ∃ v, vals i = some v ∧ v.full = true ∧ u = ⟨v.core, v.key, v.kids⟩ := by
  unfold complete at h
  split at h
  · rename_i v hv
    split at h
    · rename_i hf
      cases h
      exact ⟨v, hv, hf, rfl⟩
    · cases h
  · cases h

theorem complete_part {vals : Nat → Option (Linger.Val K)} {i : Nat} {v : Linger.Val K} (hv : vals i = some v) (hf : v.full = false) :
    complete vals i = none := by simp [complete, hv, hf]

theorem unreferenced {a : Linger.St K} {ids : List Nat} {h : Nat} (hr : ¬ a.Referenced h) : totalL a ids h = own a.vals h := by
  have e1 : (a.objs.map Fw.h).count h = 0 := List.count_eq_zero.2 fun hm => by
    obtain ⟨w, hw, he⟩ := List.mem_map.1 hm
    exact hr (.inl ⟨w, hw, he⟩)
  have e2 : (ids.flatMap (kidsOfL a.vals)).count h = 0 := List.count_eq_zero.2 fun hm => by
    obtain ⟨i, _, hk⟩ := List.mem_flatMap.1 hm
    unfold kidsOfL at hk
    split at hk
    · rename_i v hv
      exact hr (.inr (.inl ⟨i, v, hv, List.mem_map.1 hk⟩))
    · cases hk
  have e3 : (a.thr.flatMap fun st => st.flatMap refsL).count h = 0 := List.count_eq_zero.2 fun hm => by
    obtain ⟨st, hst, hm⟩ := List.mem_flatMap.1 hm
    obtain ⟨f, hf, hm⟩ := List.mem_flatMap.1 hm
    refine hr (.inr (.inr ⟨st, hst, f, hf, ?_⟩))
    cases f <;> simp only [refsL, Linger.Call.refs] at hm ⊢
    case build => exact List.mem_cons_of_mem _ hm
    case built => exact List.mem_cons_of_mem _ hm
    all_goals exact hm
  unfold totalL
  omega

/-- The sequential program that is a step of flyweights whose values linger: making takes effect when the call joins or adds a
value, in the latter case along with the flyweight of the container, which the garbage collector destroys; destroying takes effect
when the reference is given up, copying at once; other steps are nothing.  (No code of its own: used in statements and
proofs.) -/
inductive EffectL (a a' : Linger.St K) (i : Nat) (t t' : SSt (Nat × K) (Atomic.Val K)) :
    Act K → List (Op (Nat × K) (Atomic.Val K)) → Prop
  | join {c k loc rest h x v} : a.thr[i]? = some (.create c k loc :: rest) → a'.thr[i]? = some (.made ⟨h, c, k⟩ loc :: rest) →
      (x, bindOf h v) ∈ t'.vars → EffectL a a' i t t' .run [.make x (.key (c, k))]
  | keep {c k loc rest h x y} : a.thr[i]? = some (.create c k loc :: rest) → a'.thr[i]? = some (.made ⟨h, c, k⟩ [] :: rest) →
      (x, bindOf h ⟨c, k, loc⟩) ∈ t'.vars → (y, bindOf h ⟨c, k, loc⟩) ∈ t'.vars →
      EffectL a a' i t t' .run [.make x (.copy ⟨c, k, loc⟩), .copy y x]
  | add {c k loc rest h v x y} : a.thr[i]? = some (.built c k h loc :: rest) → a'.thr[i]? = some (.made ⟨h, c, k⟩ loc :: rest) →
      a.vals h = some v → (x, bindOf h ⟨v.core, v.key, v.kids⟩) ∈ t'.vars → (y, bindOf h ⟨v.core, v.key, v.kids⟩) ∈ t'.vars →
      EffectL a a' i t t' .run [.make x (.copy ⟨v.core, v.key, v.kids⟩), .copy y x]
  | giveUp {h rest x v} : a.thr[i]? = some (.destroy h :: rest) → a'.vals = a.vals → (x, bindOf h v) ∈ t.vars →
      EffectL a a' i t t' .run [.destroy x]
  | collect {c rest h v x} : a.thr[i]? = some (.collector c :: rest) → a.vals h = some v → v.core = c → v.full = true →
      a'.vals = Linger.setVal a.vals h none → (x, bindOf h ⟨v.core, v.key, v.kids⟩) ∈ t.vars → EffectL a a' i t t' .run [.destroy x]
  | collectKey {c rest h v} : a.thr[i]? = some (.collector c :: rest) → a.vals h = some v → v.core = c → v.full = false →
      a'.vals = Linger.setVal a.vals h none → EffectL a a' i t t' .run []
  | copy {j w x y v} : a.objs[j]? = some w → a'.objs = w :: a.objs → (y, bindOf w.h v) ∈ t.vars → (x, bindOf w.h v) ∈ t'.vars →
      EffectL a a' i t t' (.copy j) [.copy x y]
  | copyKid {j l w u x y v} : a.objs[j]? = some w → a'.objs = u :: a.objs → (y, bindOf u.h v) ∈ t.vars → (x, bindOf u.h v) ∈ t'.vars →
      EffectL a a' i t t' (.copyKid j l) [.copy x y]
  | begin {c k loc rest h loc'} : a.thr[i]? = some (.create c k loc :: rest) → a'.thr[i]? = some (.build c k h loc' :: rest) →
      EffectL a a' i t t' .run []
  | tidy {w loc rest} : a.thr[i]? = some (.made w loc :: rest) → a'.thr[i]? = some (Linger.drops loc ++ .made w [] :: rest) →
      EffectL a a' i t t' .run []
  | ret {w rest} : a.thr[i]? = some (.made w [] :: rest) → a'.objs = w :: a.objs → EffectL a a' i t t' .run []
  | user {act} : act ≠ .run → (∀ j, act ≠ .copy j) → (∀ j l, act ≠ .copyKid j l) → EffectL a a' i t t' act []

/-- The state of the sequential program has a variable for each reference and one for each complete value.  (No code of its own: used
in statements and proofs.) -/
def ExplainsL (a : Linger.St K) (t : SSt (Nat × K) (Atomic.Val K)) : Prop :=
  ∃ ids : List Nat, ids.Nodup ∧ (∀ i, i ∈ ids ↔ (a.vals i).isSome) ∧ Tally .refcounted (totalL a ids) (complete a.vals) t

theorem go_selfL {a : Linger.St K} {i : Nat} {st new : List (Linger.Call K)} (ht : a.thr[i]? = some st) :
    (a.thr.set i new)[i]? = some new := by
  rw [List.getElem?_set_self (List.getElem?_eq_some_iff.1 ht).1]

variable {eqv : Nat → K → K → Bool} {t : SSt (Nat × K) (Atomic.Val K)} {n : Nat → Nat} {vals : Nat → Option (Atomic.Val K)}

/-- Making a flyweight with a new value, and another one. -/
theorem Tally.store_two (h : Tally .refcounted n vals t) (hp : Nat → Nat) {i : Nat} {v : Atomic.Val K} (hn : vals i = none)
    (hf : ∀ j u, vals j = some u → u.core = v.core → eqv v.core u.key v.key = false) :
    ∃ x y t', SRun .refcounted (keq eqv) sp hp t [.make x (.copy v), .copy y x] [.done, .done] t' ∧
      Tally .refcounted (inc (inc n i) i) (Atomic.setVal vals i (some v)) t' ∧ (x, bindOf i v) ∈ t'.vars ∧ (y, bindOf i v) ∈ t'.vars := by
  obtain ⟨x, t1, h1, h2, h3⟩ := h.store (hp := hp) hn hf
  obtain ⟨y, hy⟩ := exists_new t1.names
  have hxn : x ∈ t1.names := List.mem_map.2 ⟨_, h3, rfl⟩
  refine ⟨x, y, _, run_append h1 (one_step (by simp [Op.valid, hy, hxn]) (.copy t1 y x _ h3)),
    h2.add hy (if_pos rfl), List.mem_cons_of_mem _ h3, List.mem_cons_self⟩

theorem ExplainsL.step (hp : Nat → Nat) {a a' : Linger.St K} {i : Nat} {act : Act K} (hS : Linger.Sound eqv a)
    (hs : Linger.Step eqv a i act a') (hE : ExplainsL a t) :
    ∃ ops outs t', SRun .refcounted (keq eqv) sp hp t ops outs t' ∧ (∀ o ∈ outs, o = .done) ∧ ExplainsL a' t' ∧
      EffectL a a' i t t' act ops := by
  obtain ⟨ids, hn, hids, hT⟩ := hE
  -- a step that moves references around
  have same : ∀ {st new : List (Linger.Call K)} {objs : List (Fw K)}, a.thr[i]? = some st →
      (∀ h, (objs.map Fw.h).count h + (new.flatMap refsL).count h = (a.objs.map Fw.h).count h + (st.flatMap refsL).count h) →
      ExplainsL ⟨a.vals, objs, a.thr.set i new⟩ t := by
    intro st new objs ht hc
    refine ⟨ids, hn, hids, hT.congr fun h => ?_⟩
    have h1 := count_setL ht new h
    have h2 := hc h
    unfold totalL
    simp only
    omega
  have nothing : ∀ {ops}, EffectL a a' i t t act ops → ops = [] → ExplainsL a' t → ∃ ops outs t',
      SRun .refcounted (keq eqv) sp hp t ops outs t' ∧ (∀ o ∈ outs, o = .done) ∧ ExplainsL a' t' ∧ EffectL a a' i t t' act ops := by
    rintro ops h1 rfl h2
    exact ⟨[], [], t, .nil _, (fun o h => by cases h), h2, h1⟩
  have done : ∀ o ∈ [(.done : Out (Nat × K) (Atomic.Val K))], o = .done := fun o h => List.mem_singleton.1 h
  have done2 : ∀ o ∈ [(.done : Out (Nat × K) (Atomic.Val K)), .done], o = .done := fun o h => by simpa using h
  have top : ∀ {f : Linger.Call K} {rest : List (Linger.Call K)}, a.thr[i]? = some (f :: rest) → Linger.CallOk eqv a.vals f :=
    fun ht => hS.calls _ (List.mem_flatten.2 ⟨_, List.mem_of_getElem? ht, List.mem_cons_self⟩)
  have ref_own : ∀ {h v}, a.vals h = some v → v.full = true → own a.vals h = 1 := fun hv hf => by
    unfold own
    rw [complete_of hv hf]
    rfl
  -- a new entry
  have entry : ∀ {h : Nat} {v : Linger.Val K}, a.vals h = none → h ∉ ids ∧ (h :: ids).Nodup ∧
      ∀ j, j ∈ h :: ids ↔ (Linger.setVal a.vals h (some v) j).isSome := by
    intro h v hnone
    have hni : h ∉ ids := fun hm => by
      have := (hids h).1 hm
      rw [hnone] at this
      cases this
    refine ⟨hni, List.nodup_cons.2 ⟨hni, hn⟩, fun j => ?_⟩
    rw [List.mem_cons, hids]
    simp only [Linger.setVal]
    split <;> simp_all
  have change : ∀ {h : Nat} {u v : Linger.Val K}, a.vals h = some u → ∀ j, j ∈ ids ↔ (Linger.setVal a.vals h (some v) j).isSome := by
    intro h u v hu j
    rw [hids]
    simp only [Linger.setVal]
    split <;> simp_all
  have erase : ∀ {h : Nat}, ∀ j, j ∈ ids.erase h ↔ (Linger.setVal a.vals h none j).isSome := by
    intro h j
    rw [hn.mem_erase_iff, hids]
    simp only [Linger.setVal]
    split <;> simp_all
  cases hs with
  | @share c k loc rest h v ht hv hfull hc hk =>
    obtain ⟨x, t', h1, h2, h3⟩ := hT.share (hp := hp) (complete_of hv hfull) hc hk
    refine ⟨_, _, t', h1, done, ⟨ids, hn, hids, h2.congr fun j => ?_⟩, .join ht (go_selfL ht) h3⟩
    have := count_setL ht (.made ⟨h, c, k⟩ loc :: rest) j
    simp only [List.flatMap_cons, refsL, List.count_append, List.count_cons, beq_iff_eq] at this
    unfold inc totalL
    simp only [Linger.St.go]
    by_cases hj : j = h
    · rw [if_pos hj]
      rw [if_pos hj.symm] at this
      omega
    · rw [if_neg hj]
      rw [if_neg (Ne.symm hj)] at this
      omega
  | @keep c k loc rest h ht hf hnone hr =>
    have hcn : complete a.vals h = none := by unfold complete; rw [hnone]
    obtain ⟨x, y, t', h1, h2, h3, h4⟩ := hT.store_two (eqv := eqv) hp (v := ⟨c, k, loc⟩) hcn fun j u hu hc => by
      obtain ⟨w, hw, _, rfl⟩ := of_complete hu
      exact hf j w hw hc
    obtain ⟨hni, hnd, hmem⟩ := entry (v := ⟨c, k, loc, true⟩) hnone
    refine ⟨_, _, t', h1, done2, ⟨h :: ids, hnd, hmem, ?_⟩, .keep ht (go_selfL ht) h3 h4⟩
    simp only [Linger.St.go]
    rw [complete_set_full rfl]
    refine h2.congr fun j => ?_
    have := count_setL ht (.made ⟨h, c, k⟩ [] :: rest) j
    simp only [List.flatMap_cons, refsL, List.count_append, List.count_cons, beq_iff_eq, List.map_nil, List.count_nil] at this
    unfold totalL own
    rw [complete_set_full rfl]
    simp only [kids_storeL hni, List.count_append]
    unfold inc Atomic.setVal
    by_cases hj : j = h
    · subst hj
      simp only [if_true, Option.isSome_some, hcn, Option.isSome_none, Bool.false_eq_true, if_false] at this ⊢
      omega
    · rw [if_neg (Ne.symm hj)] at this
      simp only [if_neg hj]
      omega
  | @start c k loc rest h ht hf hnone hr =>
    have hcn : complete a.vals h = none := by unfold complete; rw [hnone]
    obtain ⟨hni, hnd, hmem⟩ := entry (v := ⟨c, k, loc, false⟩) hnone
    have hco : complete (Linger.setVal a.vals h (some ⟨c, k, loc, false⟩)) = complete a.vals :=
      complete_set_part hcn fun v hv => by cases hv; rfl
    refine nothing (.begin ht (go_selfL ht)) rfl ⟨h :: ids, hnd, hmem, ?_⟩
    simp only [Linger.St.go]
    rw [hco]
    refine hT.congr fun j => ?_
    have := count_setL ht (.build c k h [] :: rest) j
    simp only [List.flatMap_cons, refsL, List.count_append, List.map_nil, List.count_nil] at this
    unfold totalL own
    simp only [kids_storeL hni, List.count_append, hco]
    omega
  | @resume c k loc rest h v ht hv hfull hr hc hk =>
    refine nothing (.begin ht (go_selfL ht)) rfl (same ht fun h => ?_)
    simp only [List.flatMap_cons, refsL]
  | @store c k loc rest h v ht hv =>
    obtain ⟨⟨v', hv', hfull, hc, hk⟩, _⟩ := top ht
    rw [hv] at hv'
    cases hv'
    have hcn := complete_part hv hfull
    obtain ⟨x, y, t', h1, h2, h3, h4⟩ := hT.store_two (eqv := eqv) hp (v := ⟨v.core, v.key, v.kids⟩) hcn fun j u hu hcu => by
      obtain ⟨w, hw, hwf, rfl⟩ := of_complete hu
      simp only at hcu
      cases he : eqv v.core w.key v.key with
      | false => rfl
      | true =>
        have := hS.one j h w v hw hv hcu (by rw [hcu]; exact he)
        subst this
        rw [hw] at hv
        cases hv
        rw [hfull] at hwf
        cases hwf
    have hmi : h ∈ ids := (hids h).2 (by simp [hv])
    refine ⟨_, _, t', h1, done2, ⟨ids, hn, change hv, ?_⟩, .add ht (go_selfL ht) hv h3 h4⟩
    simp only [Linger.St.go]
    rw [complete_set_full rfl]
    refine h2.congr fun j => ?_
    have e1 := count_setL ht (.made ⟨h, c, k⟩ loc :: rest) j
    have e2 := kids_changeL (v' := { v with full := true }) hn hmi hv j
    simp only [List.flatMap_cons, refsL, List.count_append, List.count_cons, beq_iff_eq] at e1
    simp only at e2
    unfold totalL own
    rw [complete_set_full rfl]
    simp only
    unfold inc Atomic.setVal
    by_cases hj : j = h
    · subst hj
      simp only [if_true, Option.isSome_some, hcn, Option.isSome_none, Bool.false_eq_true, if_false] at e1 ⊢
      omega
    · rw [if_neg (Ne.symm hj)] at e1
      simp only [if_neg hj]
      omega
  | @tidy w loc rest ht =>
    refine nothing (.tidy ht (go_selfL ht)) rfl (same ht fun h => ?_)
    have := count_dropsL loc h
    simp only [List.flatMap_append, List.flatMap_cons, refsL, List.count_append, List.count_cons, List.map_nil, List.count_nil] at this ⊢
    omega
  | @ret w rest ht =>
    refine nothing (.ret ht rfl) rfl (same ht fun h => ?_)
    simp only [List.flatMap_cons, refsL, List.count_append, List.map_cons, List.count_cons, List.map_nil, List.count_nil]
    omega
  | @drop h rest ht =>
    obtain ⟨v, hv, hfull⟩ := top ht
    have hpos : 1 < totalL a ids h := by
      have h0 := ref_own hv hfull
      have h1 := count_setL ht rest h
      simp only [List.flatMap_cons, refsL, List.count_append, List.count_cons, beq_self_eq_true, if_true, List.count_nil] at h1
      unfold totalL
      omega
    obtain ⟨x, v, t', h1, h2, h3⟩ := hT.destroy (hp := hp) (eqv := eqv) (i := h) (vals' := complete a.vals) (by omega)
      (if_neg (by rintro ⟨_, h⟩; omega)).symm
    refine ⟨_, _, t', h1, done, ⟨ids, hn, hids, h2.congr fun j => ?_⟩, .giveUp ht rfl h3⟩
    have := count_setL ht rest j
    simp only [List.flatMap_cons, refsL, List.count_append, List.count_cons, beq_iff_eq, List.count_nil] at this
    unfold dec totalL
    simp only [Linger.St.go]
    by_cases hj : j = h
    · rw [if_pos hj]
      rw [if_pos hj.symm] at this
      omega
    · rw [if_neg hj]
      rw [if_neg (Ne.symm hj)] at this
      omega
  | @collect c h v rest ht hv hc hr =>
    have hmi : h ∈ ids := (hids h).2 (by simp [hv])
    have e0 := unreferenced (ids := ids) hr
    cases hfull : v.full with
    | true =>
      have hone : totalL a ids h = 1 := e0.trans (ref_own hv hfull)
      obtain ⟨x, v', t', h1, h2, h3⟩ := hT.destroy (hp := hp) (eqv := eqv) (i := h) (vals' := Atomic.setVal (complete a.vals) h none) (by omega)
        (if_pos ⟨rfl, hone⟩).symm
      have hv' : v' = ⟨v.core, v.key, v.kids⟩ := by
        obtain ⟨u, hu, he⟩ := hT.vars _ h3
        have hu : complete a.vals h = some u := hu
        rw [complete_of hv hfull] at hu
        cases hu
        exact congrArg Bind.val he
      subst hv'
      refine ⟨_, _, t', h1, done, ⟨ids.erase h, hn.erase h, erase, ?_⟩, .collect ht hv hc hfull rfl h3⟩
      simp only [Linger.St.go]
      rw [complete_set_none]
      refine h2.congr fun j => ?_
      have e1 := count_setL ht (Linger.drops v.kids ++ .collector c :: rest) j
      have e2 := kids_eraseL hn hmi hv j
      have e3 := count_dropsL v.kids j
      have e4 := ref_own hv hfull
      simp only [List.flatMap_cons, List.flatMap_append, refsL, List.count_append, List.count_nil] at e1
      unfold dec totalL own
      rw [complete_set_none]
      simp only
      unfold Atomic.setVal
      by_cases hj : j = h
      · subst hj
        unfold own at e4
        simp only [if_true, Option.isSome_none, Bool.false_eq_true, if_false, e4]
        omega
      · simp only [if_neg hj]
        omega
    | false =>
      have hcn := complete_part hv hfull
      have hco : complete (Linger.setVal a.vals h none) = complete a.vals := complete_set_part hcn fun v hv => by cases hv
      refine nothing (.collectKey ht hv hc hfull rfl) rfl ⟨ids.erase h, hn.erase h, erase, ?_⟩
      simp only [Linger.St.go]
      rw [hco]
      refine hT.congr fun j => ?_
      have e1 := count_setL ht (Linger.drops v.kids ++ .collector c :: rest) j
      have e2 := kids_eraseL hn hmi hv j
      have e3 := count_dropsL v.kids j
      simp only [List.flatMap_cons, List.flatMap_append, refsL, List.count_append, List.count_nil] at e1
      unfold totalL own
      rw [hco]
      simp only
      omega
  | @create st c k mask pre ht hu =>
    refine nothing (.user (by simp) (by simp) (by simp)) rfl (same ht fun h => ?_)
    have := count_pick mask a.objs h
    simp only [List.flatMap_cons, refsL, List.count_append]
    omega
  | @destroy st mask ht hu =>
    refine nothing (.user (by simp) (by simp) (by simp)) rfl (same ht fun h => ?_)
    have := count_pick mask a.objs h
    have := count_dropsL (pick mask a.objs).1 h
    simp only [List.flatMap_append, List.count_append]
    omega
  | @copy st j w v ht hu hj hv =>
    have hpos : 0 < totalL a ids w.h := by
      have : 0 < (a.objs.map Fw.h).count w.h := List.count_pos_iff.2 (List.mem_map.2 ⟨w, List.mem_of_getElem? hj, rfl⟩)
      unfold totalL
      omega
    obtain ⟨x, y, v, t', h1, h2, h3, h4⟩ := hT.copy (hp := hp) (eqv := eqv) hpos
    refine ⟨_, _, t', h1, done, ⟨ids, hn, hids, h2.congr fun j => ?_⟩, .copy hj rfl h3 h4⟩
    unfold inc totalL
    simp only [List.map_cons, List.count_cons, beq_iff_eq]
    by_cases hj : j = w.h
    · rw [if_pos hj, if_pos hj.symm]
      omega
    · rw [if_neg hj, if_neg (Ne.symm hj)]
      omega
  | @copyKid st j l w v u ht hu hj hv hfull hk =>
    have hpos : 0 < totalL a ids u.h := by
      have : 0 < (ids.flatMap (kidsOfL a.vals)).count u.h := List.count_pos_iff.2 (List.mem_flatMap.2
        ⟨w.h, (hids _).2 (by simp [hv]), by simp only [kidsOfL, hv]; exact List.mem_map.2 ⟨u, List.mem_of_getElem? hk, rfl⟩⟩)
      unfold totalL
      omega
    obtain ⟨x, y, v, t', h1, h2, h3, h4⟩ := hT.copy (hp := hp) (eqv := eqv) hpos
    refine ⟨_, _, t', h1, done, ⟨ids, hn, hids, h2.congr fun j => ?_⟩, .copyKid hj rfl h3 h4⟩
    unfold inc totalL
    simp only [List.map_cons, List.count_cons, beq_iff_eq]
    by_cases hj : j = u.h
    · rw [if_pos hj, if_pos hj.symm]
      omega
    · rw [if_neg hj, if_neg (Ne.symm hj)]
      omega
  | @swap st j l v w ht hu hj hl =>
    refine nothing (.user (by simp) (by simp) (by simp)) rfl ⟨ids, hn, hids, hT.congr fun h => ?_⟩
    unfold totalL
    simp only
    rw [count_swap hj hl]
  | @read st j w v ht hu hj hv hfull =>
    exact nothing (.user (by simp) (by simp) (by simp)) rfl ⟨ids, hn, hids, hT⟩
  | @finish c k h loc rest v mask dr ht hv =>
    obtain ⟨⟨v', hv', hfull, hc, hk⟩, _⟩ := top ht
    rw [hv] at hv'
    cases hv'
    have hmi : h ∈ ids := (hids h).2 (by simp [hv])
    have hcn := complete_part hv hfull
    have hco : complete (Linger.setVal a.vals h (some { v with
        kids := if dr then (pick mask a.objs).1 else v.kids ++ (pick mask a.objs).1 })) = complete a.vals :=
      complete_set_part hcn fun u hu => by cases hu; exact hfull
    refine nothing (.user (by simp) (by simp) (by simp)) rfl ⟨ids, hn, change hv, ?_⟩
    simp only [Linger.St.go]
    rw [hco]
    refine hT.congr fun j => ?_
    have e1 := count_setL ht ((if dr then Linger.drops v.kids else []) ++ .built c k h loc :: rest) j
    have e2 := kids_changeL (v' := { v with kids := if dr then (pick mask a.objs).1 else v.kids ++ (pick mask a.objs).1 }) hn hmi hv j
    have e3 := count_dropsL v.kids j
    have e4 := count_pick mask a.objs j
    unfold totalL own
    rw [hco]
    simp only at e2 ⊢
    cases dr
    · simp only [Bool.false_eq_true, if_false, List.nil_append, List.flatMap_cons, refsL, List.count_append, List.map_append] at e1 e2 ⊢
      omega
    · simp only [if_true, List.flatMap_append, List.flatMap_cons, refsL, List.count_append] at e1 e2 ⊢
      omega
  | @throwBuild c k h loc rest ht =>
    refine nothing (.user (by simp) (by simp) (by simp)) rfl (same ht fun h => ?_)
    have e2 := count_dropsL loc h
    simp only [List.flatMap_append, List.flatMap_cons, refsL, List.count_append]
    omega
  | @throwFind c k loc rest ht =>
    refine nothing (.user (by simp) (by simp) (by simp)) rfl (same ht fun h => ?_)
    have e2 := count_dropsL loc h
    simp only [List.flatMap_append, List.flatMap_cons, refsL, List.count_append]
    omega

theorem ExplainsL.start (n : Nat) (gcs : List Nat) : ExplainsL (Linger.start n gcs : Linger.St K) SSt.start := by
  refine ⟨[], List.nodup_nil, fun i => by simp [Linger.start], Tally.start.congr fun h => ?_⟩
  have : (Linger.start n gcs : Linger.St K).thr.flatMap (fun st => st.flatMap refsL) = [] := by
    rw [List.flatMap_eq_nil_iff]
    intro st hst
    rcases List.mem_append.1 hst with h | h
    · rw [(List.mem_replicate.1 h).2]
      rfl
    · obtain ⟨c, _, rfl⟩ := List.mem_map.1 h
      rfl
  unfold totalL
  rw [this]
  rfl

end Verif.Explain

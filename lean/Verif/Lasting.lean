import Verif.Atomic
import Verif.ConcStep

/-!
# Flyweights with atomic operations whose values last for ever

The specification that corresponds to `Verif/Atomic.lean` if there is no tracking: every call of the library takes effect
at one instant, values are shared by flyweights with equivalent keys, and once there they stay.  Destroying a
flyweight does nothing.
-/

set_option autoImplicit false

namespace Verif.Lasting
open Verif.Conc (Fw Act pick)
open Verif.Atomic (St Call Val setVal inUser)
variable {K : Type}

/-- A step of thread `t`.  The first five are steps of the library, the others are the user's; see
`Verif.Conc.Act`.  (No code of its own: used in statements and proofs.) -/
inductive Step (eqv : Nat → K → K → Bool) (a : St K) (t : Nat) : Act K → St K → Prop
  /-- takes effect: the new flyweight refers to an existing value -/
  | share {c k loc rest h v} : a.thr[t]? = some (.create c k loc :: rest) → a.vals h = some v → v.core = c →
      eqv c v.key k = true → Step eqv a t .run (a.go t (.made ⟨h, c, k⟩ [] :: rest))
  /-- takes effect: there is no equivalent value, and the argument is added -/
  | keep {c k loc rest h} : a.thr[t]? = some (.create c k loc :: rest) → a.Free eqv c k → a.vals h = none →
      Step eqv a t .run { a.go t (.made ⟨h, c, k⟩ [] :: rest) with vals := setVal a.vals h (some ⟨c, k, loc⟩) }
  /-- there is no equivalent value; it is going to be constructed -/
  | start {c k loc rest} : a.thr[t]? = some (.create c k loc :: rest) → a.Free eqv c k →
      Step eqv a t .run (a.go t (.build c k loc :: rest))
  /-- takes effect: there is still no equivalent value, and a new one is added -/
  | store {c k kids rest h} : a.thr[t]? = some (.built c k kids :: rest) → a.Free eqv c k → a.vals h = none →
      Step eqv a t .run { a.go t (.made ⟨h, c, k⟩ [] :: rest) with vals := setVal a.vals h (some ⟨c, k, kids⟩) }
  /-- the call returns -/
  | ret {w rest} : a.thr[t]? = some (.made w [] :: rest) → Step eqv a t .run { a.go t rest with objs := w :: a.objs }
  | create {st c k mask pre} : a.thr[t]? = some st → inUser st = true →
      Step eqv a t (.create c k mask pre)
        { a.go t (.create c k (pick mask a.objs).1 :: st) with objs := (pick mask a.objs).2 }
  | destroy {st mask} : a.thr[t]? = some st → inUser st = true →
      Step eqv a t (.destroy mask) { a with objs := (pick mask a.objs).2 }
  | copy {st i w} : a.thr[t]? = some st → inUser st = true → a.objs[i]? = some w →
      Step eqv a t (.copy i) { a with objs := w :: a.objs }
  | copyKid {st i j w v u} : a.thr[t]? = some st → inUser st = true → a.objs[i]? = some w → a.vals w.h = some v →
      v.kids[j]? = some u → Step eqv a t (.copyKid i j) { a with objs := u :: a.objs }
  | swap {st i j v w} : a.thr[t]? = some st → inUser st = true → a.objs[i]? = some v → a.objs[j]? = some w →
      Step eqv a t (.swap i j) { a with objs := (a.objs.set i w).set j v }
  | read {st i w v} : a.thr[t]? = some st → inUser st = true → a.objs[i]? = some w → a.vals w.h = some v →
      Step eqv a t (.read i) a
  /-- the user's code has constructed the value, with or without the key -/
  | finish {c k kids rest mask dr} : a.thr[t]? = some (.build c k kids :: rest) →
      Step eqv a t (.finish mask dr)
        { a.go t (.built c k (if dr then (pick mask a.objs).1 else kids ++ (pick mask a.objs).1) :: rest) with
          objs := (pick mask a.objs).2 }
  /-- the user's code throws -/
  | throwBuild {c k kids rest} : a.thr[t]? = some (.build c k kids :: rest) → Step eqv a t .throw_ (a.go t rest)
  /-- the lookup throws -/
  | throwFind {c k loc rest} : a.thr[t]? = some (.create c k loc :: rest) → Step eqv a t .throw_ (a.go t rest)

/-- A sequence of steps.  (No code of its own: used in statements and proofs.) -/
inductive Run (eqv : Nat → K → K → Bool) (a : St K) : List (Nat × Act K) → St K → Prop
  | nil : Run eqv a [] a
  | snoc {l a' t act a''} : Run eqv a l a' → Step eqv a' t act a'' → Run eqv a (l ++ [(t, act)]) a''

/-! ## What it means -/

/-- A flyweight refers to a value of its type with an equivalent key.  (No code of its own: used in statements and
proofs.) -/
def Refers (eqv : Nat → K → K → Bool) (vals : Nat → Option (Val K)) (w : Fw K) : Prop :=
  ∃ v, vals w.h = some v ∧ v.core = w.c ∧ eqv w.c v.key w.k = true

/-- Flyweights of a call in progress.  (No code of its own: used in statements and proofs.) -/
def fwsOf : Call K → List (Fw K)
  | .create _ _ loc => loc
  | .build _ _ kids => kids
  | .built _ _ kids => kids
  | .made w loc => w :: loc
  | .destroy _ => []

/-- What holds of all states.  (No code of its own: used in statements and proofs.) -/
structure Sound (eqv : Nat → K → K → Bool) (a : St K) : Prop where
  objs : ∀ w ∈ a.objs, Refers eqv a.vals w
  kids : ∀ h v, a.vals h = some v → ∀ w ∈ v.kids, Refers eqv a.vals w
  calls : ∀ st ∈ a.thr, ∀ f ∈ st, ∀ w ∈ fwsOf f, Refers eqv a.vals w
  one : ∀ h i u v, a.vals h = some u → a.vals i = some v → u.core = v.core → eqv u.core u.key v.key = true → h = i

variable {eqv : Nat → K → K → Bool}

theorem Refers.mono {vals vals' : Nat → Option (Val K)} {w : Fw K} (h : Refers eqv vals w)
    (hm : ∀ i v, vals i = some v → vals' i = some v) : Refers eqv vals' w := by
  obtain ⟨v, h1, h2⟩ := h
  exact ⟨v, hm _ v h1, h2⟩

theorem setVal_mono {vals : Nat → Option (Val K)} {h : Nat} (hn : vals h = none) (v : Option (Val K)) :
    ∀ i u, vals i = some u → setVal vals h v i = some u := by
  intro i u hu
  have : i ≠ h := by
    rintro rfl
    rw [hn] at hu
    cases hu
  simp [setVal, this, hu]

/-- Values stay as they are. -/
theorem Step.keeps {a a' : St K} {t : Nat} {act : Act K} (hs : Step eqv a t act a') {i : Nat} {v : Val K}
    (hv : a.vals i = some v) : a'.vals i = some v := by
  cases hs with
  | keep _ _ hn => exact setVal_mono hn _ i v hv
  | store _ _ hn => exact setVal_mono hn _ i v hv
  | _ => exact hv

theorem Sound.objs_of {a : St K} (h : Sound eqv a) {objs : List (Fw K)} (ho : ∀ w ∈ objs, Refers eqv a.vals w) :
    Sound eqv { a with objs := objs } := ⟨ho, h.kids, h.calls, h.one⟩

theorem Sound.go {a : St K} (h : Sound eqv a) {t : Nat} {st st' : List (Call K)} (ht : a.thr[t]? = some st)
    (hn : ∀ f ∈ st', (∀ w ∈ fwsOf f, Refers eqv a.vals w) ∨ f ∈ st) : Sound eqv (a.go t st') := by
  refine ⟨h.objs, h.kids, fun st1 h1 f hf w hw => ?_, h.one⟩
  rcases List.mem_or_eq_of_mem_set h1 with h2 | rfl
  · exact h.calls st1 h2 f hf w hw
  · rcases hn f hf with h3 | h3
    · exact h3 w hw
    · exact h.calls st (List.mem_of_getElem? ht) f h3 w hw

theorem Sound.add {a : St K} (symm : ∀ c k l, eqv c k l = true → eqv c l k = true) (h : Sound eqv a) {i : Nat} {v : Val K}
    (hn : a.vals i = none) (hf : a.Free eqv v.core v.key) (hk : ∀ w ∈ v.kids, Refers eqv a.vals w) :
    Sound eqv { a with vals := setVal a.vals i (some v) } := by
  have hm := setVal_mono (vals := a.vals) hn (some v)
  have hget : ∀ j u, setVal a.vals i (some v) j = some u → (j = i ∧ u = v) ∨ (j ≠ i ∧ a.vals j = some u) := by
    intro j u hu
    unfold setVal at hu
    split at hu
    · cases hu
      exact .inl ⟨‹_›, rfl⟩
    · exact .inr ⟨‹_›, hu⟩
  refine ⟨fun w hw => (h.objs w hw).mono hm, ?_, fun st hst f hf w hw => (h.calls st hst f hf w hw).mono hm, ?_⟩
  · intro j u hu w hw
    rcases hget j u hu with ⟨_, rfl⟩ | ⟨_, hu'⟩
    · exact (hk w hw).mono hm
    · exact (h.kids j u hu' w hw).mono hm
  · intro j1 j2 u1 u2 h1 h2 hc he
    rcases hget j1 u1 h1 with ⟨rfl, rfl⟩ | ⟨_, h1'⟩ <;> rcases hget j2 u2 h2 with ⟨rfl, rfl⟩ | ⟨_, h2'⟩
    · rfl
    · have := hf j2 u2 h2' hc.symm
      rw [symm _ _ _ he] at this
      cases this
    · have := hf j1 u1 h1' hc
      rw [hc] at he
      rw [he] at this
      cases this
    · exact h.one j1 j2 u1 u2 h1' h2' hc he

theorem Step.sound (refl : ∀ c k, eqv c k k = true) (symm : ∀ c k l, eqv c k l = true → eqv c l k = true) {a a' : St K} {t : Nat}
    {act : Act K} (h : Sound eqv a) (hs : Step eqv a t act a') : Sound eqv a' := by
  have top : ∀ {f : Call K} {rest : List (Call K)}, a.thr[t]? = some (f :: rest) → ∀ w ∈ fwsOf f, Refers eqv a.vals w :=
    fun ht w hw => h.calls _ (List.mem_of_getElem? ht) _ List.mem_cons_self w hw
  have picked : ∀ {m : List Bool}, (∀ w ∈ (pick m a.objs).1, Refers eqv a.vals w) ∧ ∀ w ∈ (pick m a.objs).2, Refers eqv a.vals w :=
    ⟨fun w hw => h.objs w (Conc.pick_mem.2 (.inl hw)), fun w hw => h.objs w (Conc.pick_mem.2 (.inr hw))⟩
  have add : ∀ {f : Call K} {rest : List (Call K)} {c i : Nat} {k : K} {kids : List (Fw K)}, a.thr[t]? = some (f :: rest) →
      (∀ w ∈ kids, Refers eqv a.vals w) → a.Free eqv c k → a.vals i = none →
      Sound eqv { a.go t (.made ⟨i, c, k⟩ [] :: rest) with vals := setVal a.vals i (some ⟨c, k, kids⟩) } := by
    intro f rest c i k kids ht hk hf hn
    have h1 : Sound eqv { a with vals := setVal a.vals i (some ⟨c, k, kids⟩) } := h.add symm hn hf hk
    refine h1.go (a := { a with vals := setVal a.vals i (some ⟨c, k, kids⟩) }) ht fun g hg => ?_
    rcases List.mem_cons.1 hg with rfl | hg
    · refine .inl fun w hw => ?_
      rw [List.mem_singleton.1 hw]
      exact ⟨⟨c, k, kids⟩, by simp [setVal], rfl, refl c k⟩
    · exact .inr (List.mem_cons_of_mem _ hg)
  cases hs with
  | @share c k loc rest i v ht hv hc hk =>
    refine h.go ht fun g hg => ?_
    rcases List.mem_cons.1 hg with rfl | hg
    · refine .inl fun w hw => ?_
      rw [List.mem_singleton.1 hw]
      exact ⟨v, hv, hc, hk⟩
    · exact .inr (List.mem_cons_of_mem _ hg)
  | keep ht hf hn => exact add ht (top ht) hf hn
  | start ht hf =>
    refine h.go ht fun g hg => ?_
    rcases List.mem_cons.1 hg with rfl | hg
    · exact .inl fun w hw => top ht w hw
    · exact .inr (List.mem_cons_of_mem _ hg)
  | store ht hf hn => exact add ht (top ht) hf hn
  | @ret w rest ht =>
    refine (h.go ht fun g hg => .inr (List.mem_cons_of_mem _ hg)).objs_of fun u hu => ?_
    rcases List.mem_cons.1 hu with rfl | hu
    · exact top ht _ List.mem_cons_self
    · exact h.objs u hu
  | create ht _ =>
    refine (h.go ht fun g hg => ?_).objs_of picked.2
    rcases List.mem_cons.1 hg with rfl | hg
    · exact .inl picked.1
    · exact .inr hg
  | destroy _ _ => exact h.objs_of picked.2
  | @copy _ i w _ _ hw =>
    refine h.objs_of fun u hu => ?_
    rcases List.mem_cons.1 hu with rfl | hu
    · exact h.objs _ (List.mem_of_getElem? hw)
    · exact h.objs u hu
  | copyKid _ _ _ hv hu =>
    refine h.objs_of fun u hm => ?_
    rcases List.mem_cons.1 hm with rfl | hm
    · exact h.kids _ _ hv _ (List.mem_of_getElem? hu)
    · exact h.objs u hm
  | swap _ _ hv hw =>
    refine h.objs_of fun u hu => ?_
    rcases List.mem_or_eq_of_mem_set hu with hu | rfl
    · rcases List.mem_or_eq_of_mem_set hu with hu | rfl
      · exact h.objs u hu
      · exact h.objs _ (List.mem_of_getElem? hw)
    · exact h.objs _ (List.mem_of_getElem? hv)
  | read => exact h
  | @finish c k kids rest mask dr ht =>
    refine (h.go ht fun g hg => ?_).objs_of picked.2
    rcases List.mem_cons.1 hg with rfl | hg
    · refine .inl fun w hw => ?_
      simp only [fwsOf] at hw
      split at hw
      · exact picked.1 w hw
      · rcases List.mem_append.1 hw with hw | hw
        · exact top ht w hw
        · exact picked.1 w hw
    · exact .inr (List.mem_cons_of_mem _ hg)
  | throwBuild ht => exact h.go ht fun g hg => .inr (List.mem_cons_of_mem _ hg)
  | throwFind ht => exact h.go ht fun g hg => .inr (List.mem_cons_of_mem _ hg)

theorem Run.sound (refl : ∀ c k, eqv c k k = true) (symm : ∀ c k l, eqv c k l = true → eqv c l k = true) {n : Nat}
    {l : List (Nat × Act K)} {a : St K} (h : Run eqv (Atomic.start n) l a) : Sound eqv a := by
  induction h with
  | nil =>
    refine ⟨fun w hw => (nomatch hw), fun _ _ hv => (nomatch hv), fun st hst f hf => ?_, fun _ _ _ _ hv => (nomatch hv)⟩
    rw [List.eq_of_mem_replicate hst] at hf
    cases hf
  | snoc _ hs ih => exact hs.sound refl symm ih

end Verif.Lasting

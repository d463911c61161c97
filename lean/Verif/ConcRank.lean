import Verif.ConcReach
import Mathlib.Logic.Relation

/-!
# Nesting of calls and order of mutexes
-/

set_option autoImplicit false

namespace Verif.Conc
variable {K : Type} {cfg : Cfg K}
open Relation

/-- The flyweight type a frame deals with.  (No code of its own: used in statements and proofs.) -/
def typ : Frame K → Nat
  | .insLock c .. => c
  | .insFind c .. => c
  | .insVisit c .. => c
  | .insUser c .. => c
  | .insDone c .. => c
  | .insCatch c _ => c
  | .insUnwind c _ => c
  | .insAddRef c .. => c
  | .insAddDel c .. => c
  | .insUnlock c .. => c
  | .relDec w => w.c
  | .relLock c _ => c
  | .relCheck c _ => c
  | .relErase c _ => c
  | .relUnlock c => c

/-- The flyweights in the local variables of a frame.  (No code of its own: used in statements
and proofs.) -/
def locs : Frame K → List (Fw K)
  | .insLock _ _ loc _ => loc
  | .insFind _ _ loc _ => loc
  | .insVisit _ _ _ loc _ => loc
  | .insUnwind _ loc => loc
  | .insAddRef _ _ _ loc => loc
  | .insAddDel _ _ _ loc => loc
  | .insUnlock _ _ _ loc => loc
  | _ => []

/-- A value constructor is running.  (No code of its own: used in statements and proofs.) -/
def isUser : Frame K → Bool
  | .insUser .. => true
  | _ => false

/-- Values of type `c` contain flyweights of type `c'`, or construction of values of type `c`
uses flyweights of type `c'`, only if `uses c c'`: what the action `a` of a thread
with stack `st` must respect.  (No code of its own: used in statements and proofs.) -/
def Disc (uses : Nat → Nat → Prop) (s : St K) (st : List (Frame K)) : Act K → Prop
  | .create c _ mask _ => (∀ w ∈ (pick mask s.objs).1, uses c w.c) ∧
      ∀ c' k' e rest, st = .insUser c' k' e :: rest → uses c' c
  | .destroy mask => ∀ c' k' e rest, st = .insUser c' k' e :: rest → ∀ w ∈ (pick mask s.objs).1, uses c' w.c
  | .finish mask _ => ∀ c' k' e rest, st = .insUser c' k' e :: rest → ∀ w ∈ (pick mask s.objs).1, uses c' w.c
  | _ => True

/-- The frame `f` is called from `g`: if `g` holds a mutex, it may use the type of `f`;
and only value constructors call anything but destructors.  (No code of its own: used in
statements and proofs.) -/
def Above (uses : Nat → Nat → Prop) (f g : Frame K) : Prop :=
  (∀ c, holds g = some c → TransGen uses c (typ f)) ∧ (isUser g = false → isRel f = true)

/-- Nesting of calls follows `uses`.  (No code of its own: used in statements and proofs.) -/
structure RankInv (uses : Nat → Nat → Prop) (s : St K) : Prop where
  kids : ∀ e x, s.ents e = some x → ∀ w ∈ x.kids, TransGen uses x.core w.c
  locs : ∀ (t : Nat) (st : List (Frame K)), s.thr[t]? = some st → ∀ f ∈ st, ∀ w ∈ locs f, TransGen uses (typ f) w.c
  order : ∀ (t : Nat) (st : List (Frame K)), s.thr[t]? = some st → st.Pairwise (Above uses)

variable {uses : Nat → Nat → Prop}

theorem RankInv.set {s : St K} (h : RankInv uses s) {t : Nat} {st : List (Frame K)}
    {ents : Nat → Option (Ent K)} {next clock : Nat} {objs : List (Fw K)} {lock : Nat → Option (Nat × Nat)}
    (h1 : ∀ e x, ents e = some x → ∀ w ∈ x.kids, TransGen uses x.core w.c)
    (h2 : ∀ f ∈ st, ∀ w ∈ Conc.locs f, TransGen uses (typ f) w.c) (h3 : st.Pairwise (Above uses)) :
    RankInv uses ⟨ents, next, lock, s.thr.set t st, objs, clock⟩ := by
  have key : ∀ {t' : Nat} {st' : List (Frame K)}, (s.thr.set t st)[t']? = some st' → st' = st ∨ s.thr[t']? = some st' := by
    intro t' st' ht
    rw [List.getElem?_set] at ht
    split at ht
    · split at ht
      · exact .inl (Option.some.inj ht).symm
      · cases ht
    · exact .inr ht
  refine ⟨h1, fun t' st' ht => ?_, fun t' st' ht => ?_⟩
  · rcases key ht with rfl | ht
    · exact h2
    · exact h.locs t' st' ht
  · rcases key ht with rfl | ht
    · exact h3
    · exact h.order t' st' ht

/-- General form of a step of the library. -/
theorem RankInv.lib_of {s : St K} (h : RankInv uses s) {t : Nat} {f : Frame K} {rest new : List (Frame K)}
    (ht : s.thr[t]? = some (f :: rest))
    {ents : Nat → Option (Ent K)} {next clock : Nat} {objs : List (Fw K)} {lock : Nat → Option (Nat × Nat)}
    (h1 : ∀ e x, ents e = some x → ∀ w ∈ x.kids, TransGen uses x.core w.c)
    (h2 : ∀ g ∈ new, ∀ w ∈ Conc.locs g, TransGen uses (typ g) w.c)
    (h3 : new.Pairwise (Above uses))
    (h4 : ∀ g ∈ new, ReflTransGen uses (typ f) (typ g))
    (h5 : isRel f = true → ∀ g ∈ new, isRel g = true) :
    RankInv uses ⟨ents, next, lock, s.thr.set t (new ++ rest), objs, clock⟩ := by
  have ho := h.order t _ ht
  rw [List.pairwise_cons] at ho
  refine h.set h1 (fun g hg => ?_) (List.pairwise_append.2 ⟨h3, ho.2, fun g hg g' hg' => ?_⟩)
  · rcases List.mem_append.1 hg with h6 | h6
    · exact h2 g h6
    · exact h.locs t _ ht g (List.mem_cons_of_mem _ h6)
  · obtain ⟨a, b⟩ := ho.1 g' hg'
    exact ⟨fun c hc => (a c hc).trans_left (h4 g hg), fun hu => h5 (b hu) g hg⟩

theorem above_relDec {l : List (Fw K)} : (l.map Frame.relDec).Pairwise (Above uses) := by
  rw [List.pairwise_map]
  induction l with
  | nil => exact .nil
  | cons a l ih => exact .cons (fun b _ => ⟨(fun c hc => by cases hc), fun _ => rfl⟩) ih

theorem above_relDec' {l : List (Fw K)} {f : Frame K} {c : Nat} (hf : holds f = some c)
    (hl : ∀ w ∈ l, TransGen uses c w.c) : (l.map Frame.relDec ++ [f]).Pairwise (Above uses) := by
  refine List.pairwise_append.2 ⟨above_relDec, List.pairwise_singleton _ _, fun g hg g' hg' => ?_⟩
  obtain ⟨w, hw, rfl⟩ := List.mem_map.1 hg
  rw [List.mem_singleton.1 hg']
  refine ⟨fun c' hc => ?_, fun _ => rfl⟩
  rw [hf] at hc
  cases hc
  exact hl w hw

theorem kids_set {ents : Nat → Option (Ent K)} {e : Nat} {x' : Ent K}
    (h : ∀ e x, ents e = some x → ∀ w ∈ x.kids, TransGen uses x.core w.c)
    (hx : ∀ w ∈ x'.kids, TransGen uses x'.core w.c) :
    ∀ i x, setEnt ents e (some x') i = some x → ∀ w ∈ x.kids, TransGen uses x.core w.c := by
  intro i x hi
  by_cases he : i = e
  · subst he
    rw [setEnt_same] at hi
    cases hi
    exact hx
  · rw [setEnt_ne _ _ he] at hi
    exact h i x hi

theorem kids_erase {ents : Nat → Option (Ent K)} {e : Nat}
    (h : ∀ e x, ents e = some x → ∀ w ∈ x.kids, TransGen uses x.core w.c) :
    ∀ i x, setEnt ents e none i = some x → ∀ w ∈ x.kids, TransGen uses x.core w.c := by
  intro i x hi
  by_cases he : i = e
  · subst he
    rw [setEnt_same] at hi
    cases hi
  · rw [setEnt_ne _ _ he] at hi
    exact h i x hi

theorem lib_rank {s s' : St K} (h : RankInv uses s) (hi : Inv cfg s) {t : Nat} {f : Frame K} {rest : List (Frame K)}
    (ht : s.thr[t]? = some (f :: rest)) (hs : lib cfg s t f rest = .ok s') : RankInv uses s' := by
  have hmem : f ∈ frames s := List.mem_flatten.2 ⟨_, List.mem_of_getElem? ht, List.mem_cons_self⟩
  have hfr := hi.core.frames f hmem
  have hlocs := h.locs t _ ht f List.mem_cons_self
  have one : ∀ g : Frame K, [g].Pairwise (Above uses) := fun g => List.pairwise_singleton _ _
  have h4 : ∀ g : Frame K, typ g = typ f → ∀ g' ∈ [g], ReflTransGen uses (typ f) (typ g') := by
    intro g hg g' hg'
    rw [List.mem_singleton.1 hg', hg]
  have h2 : ∀ g : Frame K, typ g = typ f → (∀ w ∈ locs g, w ∈ locs f) →
      ∀ g' ∈ [g], ∀ w ∈ Conc.locs g', TransGen uses (typ g') w.c := by
    intro g hg hl g' hg' w hw
    rw [List.mem_singleton.1 hg'] at hw ⊢
    rw [hg]
    exact hlocs w (hl w hw)
  have hdec : ∀ l : List (Fw K), ∀ g ∈ l.map Frame.relDec, ∀ w ∈ Conc.locs g, TransGen uses (typ g) w.c := by
    intro l g hg w hw
    obtain ⟨w', _, rfl⟩ := List.mem_map.1 hg
    cases hw
  have hdec4 : (∀ w ∈ locs f, TransGen uses (typ f) w.c) →
      ∀ g ∈ (locs f).map Frame.relDec, ReflTransGen uses (typ f) (typ g) := by
    intro hl g hg
    obtain ⟨w, hw, rfl⟩ := List.mem_map.1 hg
    exact (hl w hw).to_reflTransGen
  unfold lib at hs
  dsimp only at hs
  cases f with
  | insLock c k loc pre =>
    dsimp only at hs
    split at hs
    · cases hs
    · cases hs
      exact h.lib_of (new := [_]) ht h.kids (h2 _ rfl fun _ h => h) (one _) (h4 _ rfl) (by simp [isRel])
  | insFind c k loc pre =>
    dsimp only at hs
    split at hs
    · cases hs
      exact h.lib_of (new := [_]) ht h.kids (h2 _ rfl fun _ h => h) (one _) (h4 _ rfl) (by simp [isRel])
    · cases hs
      exact h.lib_of (new := [_]) ht (kids_set h.kids hlocs) (h2 _ rfl fun _ h => by cases h) (one _) (h4 _ rfl)
        (by simp [isRel])
  | insVisit c k e loc new =>
    dsimp only at hs
    split at hs
    · cases hs
    · split at hs
      · cases hs
        exact h.lib_of (new := [_]) ht h.kids (h2 _ rfl fun _ h => h) (one _) (h4 _ rfl) (by simp [isRel])
      · split at hs
        · cases hs
          exact h.lib_of (new := [_]) ht h.kids (h2 _ rfl fun _ h => by cases h) (one _) (h4 _ rfl) (by simp [isRel])
        · cases hs
  | insUser c k e => cases hs
  | insDone c k e =>
    dsimp only at hs
    split at hs
    · cases hs
    · rename_i x hx
      cases hs
      exact h.lib_of (new := [_]) ht (kids_set h.kids (h.kids e x hx)) (h2 _ rfl fun _ h => by cases h) (one _) (h4 _ rfl)
        (by simp [isRel])
  | insCatch c e =>
    dsimp only at hs
    split at hs
    · cases hs
    · rename_i x hx
      cases hs
      obtain ⟨k', hst⟩ := hfr
      have hc : x.core = c := by
        rw [stat_some hx] at hst
        exact (Prod.mk.inj (Option.some.inj hst)).1
      have hk : ∀ w ∈ x.kids, TransGen uses c w.c := fun w hw => hc ▸ h.kids e x hx w hw
      rw [show x.kids.map Frame.relDec ++ .insUnwind c [] :: rest = (x.kids.map .relDec ++ [.insUnwind c []]) ++ rest by simp]
      refine h.lib_of ht (kids_erase h.kids) ?_ (above_relDec' rfl hk) ?_ (by simp [isRel])
      · intro g hg
        rcases List.mem_append.1 hg with h1 | h1
        · exact hdec _ g h1
        · rw [List.mem_singleton.1 h1]
          simp [locs]
      · intro g hg
        rcases List.mem_append.1 hg with h1 | h1
        · obtain ⟨w, hw, rfl⟩ := List.mem_map.1 h1
          exact (hk w hw).to_reflTransGen
        · rw [List.mem_singleton.1 h1]
          exact .refl
  | insUnwind c loc =>
    dsimp only at hs
    split at hs
    · cases hs
    · cases hs
      exact h.lib_of ht h.kids (hdec _) above_relDec (hdec4 hlocs) (by simp [isRel])
  | insAddRef c k e loc =>
    dsimp only at hs
    split at hs
    · cases hs
    · rename_i x hx
      cases hs
      refine h.lib_of (new := [_]) ht (kids_set h.kids (h.kids e x hx)) (h2 _ ?_ ?_) (one _) (h4 _ ?_) (by simp [isRel])
      · split <;> rfl
      · split <;> exact fun _ h => h
      · split <;> rfl
  | insAddDel c k e loc =>
    dsimp only at hs
    split at hs
    · cases hs
    · rename_i x hx
      cases hs
      exact h.lib_of (new := [_]) ht (kids_set h.kids (h.kids e x hx)) (h2 _ rfl fun _ h => h) (one _) (h4 _ rfl)
        (by simp [isRel])
  | insUnlock c k e loc =>
    dsimp only at hs
    split at hs
    · cases hs
    · cases hs
      exact h.lib_of ht h.kids (hdec _) above_relDec (hdec4 hlocs) (by simp [isRel])
  | relDec w =>
    dsimp only at hs
    split at hs
    · cases hs
    · rename_i x hx
      cases hs
      rw [show (if x.ref - 1 = 0 then Frame.relLock w.c w.h :: rest else rest) =
        (if x.ref - 1 = 0 then [Frame.relLock w.c w.h] else []) ++ rest by split <;> simp]
      refine h.lib_of ht (kids_set h.kids (h.kids _ x hx)) ?_ ?_ ?_ ?_
      · split
        · exact h2 _ rfl fun _ h => by cases h
        · simp
      · split
        · exact one _
        · exact .nil
      · split
        · exact h4 _ rfl
        · simp
      · split <;> simp [isRel]
  | relLock c e =>
    dsimp only at hs
    split at hs
    · cases hs
    · cases hs
      exact h.lib_of (new := [_]) ht h.kids (h2 _ rfl fun _ h => h) (one _) (h4 _ rfl) (by simp [isRel])
  | relCheck c e =>
    dsimp only at hs
    split at hs
    · cases hs
    · rename_i x hx
      split at hs
      · cases hs
        refine h.lib_of (new := [_]) ht (kids_set h.kids (h.kids e x hx)) (h2 _ ?_ ?_) (one _) (h4 _ ?_) ?_
        · split <;> rfl
        · split <;> exact fun _ h => by cases h
        · split <;> rfl
        · split <;> simp [isRel]
      · cases hs
        exact h.lib_of (new := [_]) ht h.kids (h2 _ rfl fun _ h => h) (one _) (h4 _ rfl) (by simp [isRel])
  | relErase c e =>
    dsimp only at hs
    split at hs
    · cases hs
    · rename_i x hx
      cases hs
      obtain ⟨k', hst⟩ := hfr
      have hc : x.core = c := by
        rw [stat_some hx] at hst
        exact (Prod.mk.inj (Option.some.inj hst)).1
      have hk : ∀ w ∈ x.kids, TransGen uses c w.c := fun w hw => hc ▸ h.kids e x hx w hw
      rw [show x.kids.map Frame.relDec ++ .relUnlock c :: rest = (x.kids.map .relDec ++ [.relUnlock c]) ++ rest by simp]
      refine h.lib_of ht (kids_erase h.kids) ?_ (above_relDec' rfl hk) ?_ ?_
      · intro g hg
        rcases List.mem_append.1 hg with h1 | h1
        · exact hdec _ g h1
        · rw [List.mem_singleton.1 h1]
          simp [locs]
      · intro g hg
        rcases List.mem_append.1 hg with h1 | h1
        · obtain ⟨w, hw, rfl⟩ := List.mem_map.1 h1
          exact (hk w hw).to_reflTransGen
        · rw [List.mem_singleton.1 h1]
          exact .refl
      · intro _ g hg
        rcases List.mem_append.1 hg with h1 | h1
        · exact isRel_relDec g h1
        · rw [List.mem_singleton.1 h1]
          rfl
  | relUnlock c =>
    dsimp only at hs
    split at hs
    · cases hs
    · cases hs
      exact h.lib_of (new := []) ht h.kids (by simp) .nil (by simp) (by simp)

/-- General form of a step of user code. -/
theorem RankInv.user_of {s : St K} (h : RankInv uses s) {t : Nat} {st new : List (Frame K)}
    (ht : s.thr[t]? = some st) (hu : inUser st = true) {objs : List (Fw K)}
    (h2 : ∀ g ∈ new, ∀ w ∈ Conc.locs g, TransGen uses (typ g) w.c)
    (h3 : new.Pairwise (Above uses))
    (h4 : ∀ c' k' e rest, st = .insUser c' k' e :: rest → ∀ g ∈ new, TransGen uses c' (typ g)) :
    RankInv uses ⟨s.ents, s.next, s.lock, s.thr.set t (new ++ st), objs, s.clock⟩ := by
  have ho := h.order t _ ht
  refine h.set h.kids (fun g hg => ?_) (List.pairwise_append.2 ⟨h3, ho, fun g hg g' hg' => ?_⟩)
  · rcases List.mem_append.1 hg with h6 | h6
    · exact h2 g h6
    · exact h.locs t _ ht g h6
  · cases st with
    | nil => cases hg'
    | cons a st =>
      cases a <;> first | (cases hu; done) | skip
      rename_i c' k' e
      have h5 := h4 c' k' e st rfl g hg
      rcases List.mem_cons.1 hg' with rfl | hg'
      · exact ⟨fun c hc => by cases hc; exact h5, fun hu' => by cases hu'⟩
      · obtain ⟨a, b⟩ := (List.pairwise_cons.1 ho).1 g' hg'
        exact ⟨fun c hc => (a c hc).trans h5, fun hu' => by cases b hu'⟩

theorem RankInv.same {s : St K} (h : RankInv uses s)
    {ents : Nat → Option (Ent K)} {next clock : Nat} {objs : List (Fw K)} {lock : Nat → Option (Nat × Nat)}
    (h1 : ∀ e x, ents e = some x → ∀ w ∈ x.kids, TransGen uses x.core w.c) :
    RankInv uses ⟨ents, next, lock, s.thr, objs, clock⟩ := ⟨h1, h.locs, h.order⟩

theorem act_rank {s s' : St K} (h : RankInv uses s) (hi : Inv cfg s) {t : Nat} {st : List (Frame K)}
    (ht : s.thr[t]? = some st) {a : Act K} (hd : Disc uses s st a) (hs : act cfg s t st a = .ok s') :
    RankInv uses s' := by
  cases a with
  | run =>
    cases st with
    | nil => cases hs
    | cons f rest => exact lib_rank h hi ht hs
  | create c k mask pre =>
    simp only [act] at hs
    split at hs
    · rename_i hu
      cases hs
      refine h.user_of (new := [_]) ht hu ?_ (List.pairwise_singleton _ _) ?_
      · intro g hg w hw
        rw [List.mem_singleton.1 hg] at hw ⊢
        exact .single (hd.1 w hw)
      · intro c' k' e rest he g hg
        rw [List.mem_singleton.1 hg]
        exact .single (hd.2 c' k' e rest he)
    · cases hs
  | destroy mask =>
    simp only [act] at hs
    split at hs
    · rename_i hu
      cases hs
      refine h.user_of ht hu ?_ above_relDec ?_
      · intro g hg w hw
        obtain ⟨_, _, rfl⟩ := List.mem_map.1 hg
        cases hw
      · intro c' k' e rest he g hg
        obtain ⟨w, hw, rfl⟩ := List.mem_map.1 hg
        exact .single (hd c' k' e rest he w hw)
    · cases hs
  | copy i =>
    simp only [act] at hs
    repeat' split at hs
    all_goals cases hs
    rename_i w _ x hx
    exact h.same (kids_set h.kids (h.kids _ x hx))
  | copyKid i j =>
    simp only [act] at hs
    repeat' split at hs
    all_goals cases hs
    rename_i y hy
    exact h.same (kids_set h.kids (h.kids _ y hy))
  | swap i j =>
    simp only [act] at hs
    repeat' split at hs
    all_goals cases hs
    exact h.same h.kids
  | read i =>
    simp only [act] at hs
    repeat' split at hs
    all_goals cases hs
    exact h
  | finish mask drop =>
    simp only [act] at hs
    split at hs
    · rename_i c k e rest
      have hmem : Frame.insUser c k e ∈ frames s :=
        List.mem_flatten.2 ⟨_, List.mem_of_getElem? ht, List.mem_cons_self⟩
      obtain ⟨k', hst, hk⟩ := hi.core.frames _ hmem
      split at hs
      · cases hs
      · rename_i x hx
        split at hs
        · cases hs
        · cases hs
          have hc : x.core = c := by
            rw [stat_some hx] at hst
            exact (Prod.mk.inj (Option.some.inj hst)).1
          have hd' := hd c k e rest rfl
          have hk : ∀ w ∈ x.kids, TransGen uses c w.c := fun w hw => hc ▸ h.kids e x hx w hw
          rw [show (if drop = true then x.kids.map Frame.relDec else []) ++ .insDone c k e :: rest =
            ((if drop = true then x.kids.map Frame.relDec else []) ++ [.insDone c k e]) ++ rest by simp]
          refine h.lib_of ht (kids_set h.kids ?_) ?_ ?_ ?_ (by simp [isRel])
          · intro w hw
            dsimp only at hw ⊢
            rw [hc]
            cases drop
            · rcases List.mem_append.1 (by simpa using hw) with h1 | h1
              · exact hk w h1
              · exact .single (hd' w h1)
            · exact .single (hd' w (by simpa using hw))
          · intro g hg w hw
            rcases List.mem_append.1 hg with h1 | h1
            · cases drop
              · cases h1
              · obtain ⟨_, _, rfl⟩ := List.mem_map.1 (by simpa using h1)
                cases hw
            · rw [List.mem_singleton.1 h1] at hw
              cases hw
          · cases drop
            · simp
            · exact above_relDec' rfl hk
          · intro g hg
            rcases List.mem_append.1 hg with h1 | h1
            · cases drop
              · cases h1
              · obtain ⟨w, hw, rfl⟩ := List.mem_map.1 (show g ∈ x.kids.map Frame.relDec by simpa using h1)
                exact (hk w hw).to_reflTransGen
            · rw [List.mem_singleton.1 h1]
              exact .refl
    · cases hs
  | throw_ =>
    simp only [act] at hs
    split at hs
    · cases hs
      refine h.lib_of (new := [_]) ht h.kids ?_ (List.pairwise_singleton _ _) ?_ (by simp [isRel])
      · intro g hg w hw
        rw [List.mem_singleton.1 hg] at hw
        cases hw
      · intro g hg
        rw [List.mem_singleton.1 hg]
        exact .refl
    · cases hs
      refine h.lib_of (new := [_]) ht h.kids ?_ (List.pairwise_singleton _ _) ?_ (by simp [isRel])
      · intro g hg w hw
        rw [List.mem_singleton.1 hg] at hw ⊢
        exact h.locs t _ ht _ List.mem_cons_self w hw
      · intro g hg
        rw [List.mem_singleton.1 hg]
        exact .refl
    · cases hs

/-- The states that programs respecting `uses` can reach with `n` threads.  (No code of its own:
used in statements and proofs.) -/
inductive Reachable (cfg : Cfg K) (uses : Nat → Nat → Prop) (n : Nat) : St K → Prop
  | start : Reachable cfg uses n (start n)
  | step {s s' : St K} {t : Nat} {st : List (Frame K)} {a : Act K} : Reachable cfg uses n s → s.thr[t]? = some st →
      Disc uses s st a → step cfg s t a = .ok s' → Reachable cfg uses n s'

theorem Reachable.inv (hcfg : CfgOk cfg) (hlk : cfg.locking = true) (hdl : cfg.deleter = true) {n : Nat} {s : St K}
    (h : Reachable cfg uses n s) : Inv cfg s ∧ RankInv uses s := by
  induction h with
  | start =>
    refine ⟨start_inv n, ⟨by simp [Conc.start], ?_, ?_⟩⟩
    · intro t st ht
      rw [List.eq_of_mem_replicate (List.mem_of_getElem? ht)]
      simp
    · intro t st ht
      rw [List.eq_of_mem_replicate (List.mem_of_getElem? ht)]
      exact .nil
  | @step s s' t st a _ ht hd hs ih =>
    have hg := step_good hcfg hlk hdl ih.1 t a
    rw [hs] at hg
    refine ⟨hg, act_rank ih.2 ih.1 ht hd ?_⟩
    simpa [Conc.step, ht] using hs

/-! ## Waiting for each other -/

/-- Thread `t` waits for the mutex of type `c`.  (No code of its own: used in statements and
proofs.) -/
def wants (s : St K) (t c : Nat) : Prop :=
  (∃ k loc pre rest, s.thr[t]? = some (.insLock c k loc pre :: rest)) ∨ ∃ e rest, s.thr[t]? = some (.relLock c e :: rest)

/-- Thread `t` waits for a mutex that thread `t'` holds.  (No code of its own: used in
statements and proofs.) -/
def Waits (s : St K) (t t' : Nat) : Prop := t ≠ t' ∧ ∃ c d, wants s t c ∧ s.lock c = some (t', d)

/-- Thread `t` is in the library, not in a value constructor, and cannot go on.  (No code of its
own: used in statements and proofs.) -/
def Blocked (cfg : Cfg K) (s : St K) (t : Nat) : Prop :=
  ∃ st, s.thr[t]? = some st ∧ inUser st = false ∧ step cfg s t .run = .no

theorem Blocked.waits {s : St K} (hlk : cfg.locking = true) {t : Nat} (h : Blocked cfg s t) : ∃ t', Waits s t t' := by
  obtain ⟨st, ht, hu, hs⟩ := h
  have hac : ∀ c, acquire cfg s.lock t c = none → ∃ o d, t ≠ o ∧ s.lock c = some (o, d) := by
    intro c hc
    unfold acquire at hc
    rw [if_pos hlk] at hc
    cases hl : s.lock c with
    | none => rw [hl] at hc; cases hc
    | some p =>
      obtain ⟨o, d⟩ := p
      rw [hl] at hc
      by_cases ho : o = t
      · simp [ho] at hc
      · exact ⟨o, d, Ne.symm ho, rfl⟩
  cases st with
  | nil => cases hu
  | cons f rest =>
    simp only [step, ht, act] at hs
    unfold lib at hs
    dsimp only at hs
    cases f with
    | insLock c k loc pre =>
      dsimp only at hs
      split at hs
      · rename_i ha
        obtain ⟨o, d, h1, h2⟩ := hac c ha
        exact ⟨o, h1, c, d, .inl ⟨k, loc, pre, rest, ht⟩, h2⟩
      · cases hs
    | relLock c e =>
      dsimp only at hs
      split at hs
      · rename_i ha
        obtain ⟨o, d, h1, h2⟩ := hac c ha
        exact ⟨o, h1, c, d, .inr ⟨e, rest, ht⟩, h2⟩
      · cases hs
    | insUser c k e => cases hu
    | _ =>
      dsimp only at hs
      repeat' split at hs
      all_goals cases hs

/-- A mutex wanted by a thread that holds others is strictly lower than those. -/
theorem wants_strict {s : St K} (hi : Inv cfg s) (hr : RankInv uses s) {t c c' d : Nat} (hw : wants s t c')
    (hl : s.lock c = some (t, d)) : TransGen uses c c' := by
  obtain ⟨hd, hlt⟩ := hi.locks.pos c t d hl
  have key : ∀ f rest, s.thr[t]? = some (f :: rest) → holds f = none → TransGen uses c (typ f) := by
    intro f rest ht hf
    have h1 := hi.locks.depth t _ ht c
    simp only [depthOf, hl, if_true, tot_cons, holdF, hf] at h1
    obtain ⟨g, hg, hpos⟩ := exists_of_tot (g := holdF c) (l := rest) (by
      simp only [reduceCtorEq, if_false] at h1
      have : tot (fun f => if holds f = some c then 1 else 0) rest = tot (holdF c) rest := rfl
      unfold holdF
      omega)
    have h2 : holds g = some c := by
      by_cases h : holds g = some c
      · exact h
      · simp [holdF, h] at hpos
    exact ((List.pairwise_cons.1 (hr.order t _ ht)).1 g hg).1 c h2
  rcases hw with ⟨k, loc, pre, rest, ht⟩ | ⟨e, rest, ht⟩
  · exact key _ rest ht rfl
  · exact key _ rest ht rfl

/-- A mutex wanted by a thread that holds others is lower than those. -/
theorem wants_below {s : St K} (hi : Inv cfg s) (hr : RankInv uses s) {t c c' d : Nat} (hw : wants s t c')
    (hl : s.lock c = some (t, d)) : ReflTransGen uses c c' := (wants_strict hi hr hw hl).to_reflTransGen

theorem wants_unique {s : St K} {t c c' : Nat} (h : wants s t c) (h' : wants s t c') : c = c' := by
  rcases h with ⟨_, _, _, _, h⟩ | ⟨_, _, h⟩ <;> rcases h' with ⟨_, _, _, _, h'⟩ | ⟨_, _, h'⟩ <;>
    rw [h] at h' <;> cases h' <;> rfl

theorem Waits.unique {s : St K} {t t1 t2 : Nat} (h : Waits s t t1) (h' : Waits s t t2) : t1 = t2 := by
  obtain ⟨_, c, d, h1, h2⟩ := h
  obtain ⟨_, c', d', h3, h4⟩ := h'
  rw [wants_unique h1 h3, h4] at h2
  cases h2
  rfl

/-- Apart from a type and itself, `uses` has no infinite descent, and in
particular no cycles.  (No code of its own: used in statements and proofs.) -/
def NoCycles (uses : Nat → Nat → Prop) : Prop := WellFounded fun a b => uses b a ∧ a ≠ b

theorem strict_of_ne {a b : Nat} (h : ReflTransGen uses a b) (hne : b ≠ a) :
    TransGen (fun a b => uses b a ∧ a ≠ b) b a := by
  induction h with
  | refl => exact absurd rfl hne
  | @tail b' c hab hbc ih =>
    by_cases h1 : c = b'
    · subst h1
      exact ih hne
    · by_cases h2 : b' = a
      · subst h2
        exact .single ⟨hbc, h1⟩
      · exact (TransGen.single ⟨hbc, h1⟩).trans (ih h2)

/-- Every blocked thread waits, directly or not, for one that is not blocked. -/
theorem no_deadlock (hlk : cfg.locking = true) (hwf : NoCycles uses) {s : St K} (hi : Inv cfg s) (hr : RankInv uses s)
    {t : Nat} (hb : Blocked cfg s t) : ∃ t', TransGen (Waits s) t t' ∧ ¬ Blocked cfg s t' := by
  suffices H : ∀ c t, Blocked cfg s t → wants s t c → ∃ t', TransGen (Waits s) t t' ∧ ¬ Blocked cfg s t' by
    obtain ⟨t', _, c, d, hw, _⟩ := hb.waits hlk
    exact H c t hb hw
  intro c
  induction c using hwf.transGen.induction with
  | _ c ih =>
    intro t hb hw
    obtain ⟨t', h1⟩ := hb.waits hlk
    by_cases hb' : Blocked cfg s t'
    · obtain ⟨t'', h2, c', d', hw', hl'⟩ := hb'.waits hlk
      obtain ⟨_, c'', d, hw'', hl⟩ := id h1
      rw [← wants_unique hw hw''] at hl
      have hne : c' ≠ c := by
        rintro rfl
        rw [hl] at hl'
        cases hl'
        exact h2 rfl
      obtain ⟨t3, h3, h4⟩ := ih c' (strict_of_ne (wants_below hi hr hw' hl) hne) t' hb' hw'
      exact ⟨t3, (TransGen.single h1).trans h3, h4⟩
    · exact ⟨t', .single h1, hb'⟩

theorem Reachable.length {n : Nat} {s : St K} (h : Reachable cfg uses n s) : s.thr.length = n := by
  induction h with
  | start => simp [Verif.Conc.start]
  | step _ _ _ hs ih => rw [step_length hs, ih]

/-- Threads that others wait for are among those of the program. -/
theorem Waits.real {n : Nat} {s : St K} (hr : Reachable cfg uses n s) (hi : Inv cfg s) {t t' : Nat} (h : TransGen (Waits s) t t') : t' < n := by
  have : ∃ t0, Waits s t0 t' := by
    cases h with
    | single h => exact ⟨_, h⟩
    | tail _ h => exact ⟨_, h⟩
  obtain ⟨_, _, c, d, _, hl⟩ := this
  rw [← hr.length]
  exact (hi.locks.pos c t' d hl).2

end Verif.Conc

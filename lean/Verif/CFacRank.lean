import Verif.CFacStep
import Mathlib.Logic.Relation

/-!
# Model of `concurrent_factory`: garbage collection passes, nesting of calls, order of locks
-/

set_option autoImplicit false

namespace Verif.CFac
open Verif.Conc (Fw Cfg CfgOk pick acquire unlock fwCount tot nsum fwCount_pos exists_of_fwCount tot_pos tot_le
  exists_of_tot tot_eq_zero tot_perm nsum_congr nsum_change nsum_pos exists_of_nsum pick_count pick_mem
  depthOf depth_excl LockStep acquire_some unlock_some fwCount_cons fwCount_nil fwCount_append tot_nil tot_cons
  tot_append split set_self swap_mem swap_count)
open Relation
variable {K : Type} {cfg : Cfg K}

/-! ## What a step does to stacks and entries -/

/-- A step of thread `t` replaces at most the innermost frame of its stack. -/
theorem step_thr {s s' : St K} {t : Nat} {a : Act K} (hs : step cfg s t a = .ok s') :
    ∃ st new, s.thr[t]? = some st ∧ (s'.thr = s.thr.set t (new ++ st.tail) ∨ s'.thr = s.thr.set t (new ++ st)) := by
  unfold step at hs
  split at hs
  · cases hs
  rename_i st ht
  refine ⟨st, ?_⟩
  have same : s'.thr = s.thr → ∃ new, s.thr[t]? = some st ∧
      (s'.thr = s.thr.set t (new ++ st.tail) ∨ s'.thr = s.thr.set t (new ++ st)) := fun h =>
    ⟨[], ht, .inr (by rw [List.nil_append, set_self ht, h])⟩
  have top : ∀ new, s'.thr = s.thr.set t (new ++ st.tail) → ∃ new, s.thr[t]? = some st ∧
      (s'.thr = s.thr.set t (new ++ st.tail) ∨ s'.thr = s.thr.set t (new ++ st)) := fun new h => ⟨new, ht, .inl h⟩
  have app : ∀ (l : List (Frame K)) f rest, st.tail = rest → s'.thr = s.thr.set t (l ++ f :: rest) →
      ∃ new, s.thr[t]? = some st ∧
      (s'.thr = s.thr.set t (new ++ st.tail) ∨ s'.thr = s.thr.set t (new ++ st)) := fun l f rest hr h =>
    ⟨l ++ [f], ht, .inl (by rw [h, hr]; simp)⟩
  cases a with
  | run =>
    cases st with
    | nil => cases hs
    | cons f rest =>
      simp only [act] at hs
      unfold lib at hs
      dsimp only at hs
      cases f <;> dsimp only at hs <;> (repeat' split at hs) <;> cases hs <;>
        first
          | exact top [_] rfl
          | exact top [] rfl
          | exact app _ _ _ rfl rfl
  | create c k mask pre =>
    simp only [act] at hs
    split at hs <;> cases hs
    exact ⟨[_], ht, .inr rfl⟩
  | destroy mask =>
    simp only [act] at hs
    split at hs <;> cases hs
    exact ⟨_, ht, .inr rfl⟩
  | copy i =>
    simp only [act] at hs
    repeat' split at hs
    all_goals cases hs
    all_goals exact same rfl
  | copyKid i j =>
    simp only [act] at hs
    repeat' split at hs
    all_goals cases hs
    all_goals exact same rfl
  | swap i j =>
    simp only [act] at hs
    repeat' split at hs
    all_goals cases hs
    all_goals exact same rfl
  | read i =>
    simp only [act] at hs
    repeat' split at hs
    all_goals cases hs
    all_goals exact same rfl
  | finish mask drop =>
    simp only [act] at hs
    repeat' split at hs
    all_goals cases hs
    all_goals exact app _ _ _ rfl rfl
  | throw_ =>
    simp only [act] at hs
    repeat' split at hs
    all_goals cases hs
    · exact top [_] rfl
    · exact app _ _ _ rfl rfl
    · exact app _ _ _ rfl rfl
  | gcVisit e =>
    simp only [act] at hs
    repeat' split at hs
    all_goals cases hs
    all_goals exact top [_, _] rfl

theorem step_other {s s' : St K} {t t' : Nat} {a : Act K} (hs : step cfg s t a = .ok s') (hne : t' ≠ t) :
    s'.thr[t']? = s.thr[t']? := by
  obtain ⟨st, new, _, h | h⟩ := step_thr hs <;> rw [h, List.getElem?_set_ne (Ne.symm hne)]

theorem step_length {s s' : St K} {t : Nat} {a : Act K} (hs : step cfg s t a = .ok s') :
    s'.thr.length = s.thr.length := by
  obtain ⟨st, new, _, h | h⟩ := step_thr hs <;> rw [h, List.length_set]

/-- Frames other than the innermost one stay. -/
theorem step_tail {s s' : St K} {t : Nat} {a : Act K} (hs : step cfg s t a = .ok s') {st : List (Frame K)}
    (ht : s.thr[t]? = some st) : ∃ st', s'.thr[t]? = some st' ∧ ∀ f ∈ st.tail, f ∈ st' := by
  have hlt : t < s.thr.length := by
    rcases Nat.lt_or_ge t s.thr.length with h' | h'
    · exact h'
    · rw [List.getElem?_eq_none h'] at ht; cases ht
  obtain ⟨st0, new, h0, h | h⟩ := step_thr hs <;> rw [ht] at h0 <;> cases h0
  · exact ⟨_, by rw [h, List.getElem?_set_self hlt], fun f hf => List.mem_append.2 (.inr hf)⟩
  · exact ⟨_, by rw [h, List.getElem?_set_self hlt], fun f hf =>
      List.mem_append.2 (.inr (List.mem_of_mem_tail hf))⟩

/-- Identities of entries are not reused, and the type and key of an entry stay. -/
theorem step_ents {s s' : St K} (hi : Inv cfg s) {t : Nat} {a : Act K} (hs : step cfg s t a = .ok s') :
    s.next ≤ s'.next ∧ ∀ e y, e < s.next → s'.ents e = some y → ∃ x, s.ents e = some x ∧ y.core = x.core ∧ y.key = x.key := by
  have same : s'.ents = s.ents → s'.next = s.next → s.next ≤ s'.next ∧ ∀ e y, e < s.next → s'.ents e = some y →
      ∃ x, s.ents e = some x ∧ y.core = x.core ∧ y.key = x.key := fun h1 h2 =>
    ⟨by omega, fun e y _ hy => ⟨y, by rw [← h1, hy], rfl, rfl⟩⟩
  have upd : ∀ i o, s'.ents = setEnt s.ents i o → s.next ≤ s'.next →
      (∀ y, o = some y → i < s.next → ∃ x, s.ents i = some x ∧ y.core = x.core ∧ y.key = x.key) →
      s.next ≤ s'.next ∧ ∀ e y, e < s.next → s'.ents e = some y →
        ∃ x, s.ents e = some x ∧ y.core = x.core ∧ y.key = x.key := by
    intro i o h1 h2 h3
    refine ⟨h2, fun e y he hy => ?_⟩
    rw [h1] at hy
    by_cases hei : e = i
    · subst hei
      rw [setEnt_same] at hy
      exact h3 y hy he
    · rw [setEnt_ne _ _ hei] at hy
      exact ⟨y, hy, rfl, rfl⟩
  have upd' : ∀ i x y, s.ents i = some x → s'.ents = setEnt s.ents i (some y) → s'.next = s.next → y.core = x.core →
      y.key = x.key → s.next ≤ s'.next ∧ ∀ e y, e < s.next → s'.ents e = some y →
        ∃ x, s.ents e = some x ∧ y.core = x.core ∧ y.key = x.key := by
    intro i x y hx h1 h2 h3 h4
    refine upd i _ h1 (by omega) fun z hz _ => ?_
    cases hz
    exact ⟨x, hx, h3, h4⟩
  unfold step at hs
  split at hs
  · cases hs
  rename_i st ht
  cases a with
  | run =>
    cases st with
    | nil => cases hs
    | cons f rest =>
      simp only [act] at hs
      unfold lib at hs
      dsimp only at hs
      cases f with
      | insFind c k loc pre =>
        dsimp only at hs
        repeat' split at hs
        all_goals cases hs
        · exact same rfl rfl
        · exact upd _ _ rfl (Nat.le_succ _) fun y _ h => absurd h (Nat.lt_irrefl _)
      | _ =>
        dsimp only at hs
        (repeat' split at hs) <;> cases hs <;>
          first
            | exact same rfl rfl
            | exact upd' _ _ _ (by assumption) rfl rfl (by rfl) (by rfl)
            | exact upd _ _ rfl (Nat.le_refl _) fun y h => by cases h
  | create c k mask pre =>
    simp only [act] at hs
    split at hs <;> cases hs
    exact same rfl rfl
  | destroy mask =>
    simp only [act] at hs
    split at hs <;> cases hs
    exact same rfl rfl
  | copy i =>
    simp only [act] at hs
    repeat' split at hs
    all_goals cases hs
    all_goals exact upd' _ _ _ (by assumption) rfl rfl (by rfl) (by rfl)
  | copyKid i j =>
    simp only [act] at hs
    repeat' split at hs
    all_goals cases hs
    all_goals exact upd' _ _ _ (by assumption) rfl rfl (by rfl) (by rfl)
  | swap i j =>
    simp only [act] at hs
    repeat' split at hs
    all_goals cases hs
    all_goals exact same rfl rfl
  | read i =>
    simp only [act] at hs
    repeat' split at hs
    all_goals cases hs
    all_goals exact same rfl rfl
  | finish mask drop =>
    simp only [act] at hs
    repeat' split at hs
    all_goals cases hs
    all_goals exact upd' _ _ _ (by assumption) rfl rfl (by rfl) (by rfl)
  | throw_ =>
    simp only [act] at hs
    repeat' split at hs
    all_goals cases hs
    all_goals exact same rfl rfl
  | gcVisit e =>
    simp only [act] at hs
    repeat' split at hs
    all_goals cases hs
    all_goals exact same rfl rfl

theorem step_gone {s s' : St K} (hi : Inv cfg s) {t : Nat} {a : Act K} (hs : step cfg s t a = .ok s') {e : Nat}
    (he : e < s.next) (hn : s.ents e = none) : s'.ents e = none := by
  cases hy : s'.ents e with
  | none => rfl
  | some y =>
    obtain ⟨x, hx, _⟩ := (step_ents hi hs).2 e y he hy
    rw [hn] at hx
    cases hx

/-! ## Passes of the collector -/

/-- The collector `t` of type `c` will get to entry `e`, or is at it, in the pass at hand, or
the entry is gone.  (No code of its own: used in statements and proofs.) -/
def Due (c e t : Nat) (s : St K) : Prop :=
  s.ents e = none ∨ ∃ st, s.thr[t]? = some st ∧
    ((∃ f todo, Frame.gcPass c f todo ∈ st ∧ e ∈ todo) ∨ Frame.gcTest c e ∈ st ∨ Frame.gcErase c e ∈ st ∨
      Frame.gcUnlink c e ∈ st)

theorem Due.step {s s' : St K} (hi : Inv cfg s) {c e t t' : Nat} {a : Act K} (hd : Due c e t s) (he : e < s.next)
    (hz : refOf s.ents e = 0) (hs : step cfg s t' a = .ok s') : Due c e t s' := by
  rcases hd with hn | ⟨st, ht, hd⟩
  · exact .inl (step_gone hi hs he hn)
  by_cases htt : t ≠ t'
  · exact .inr ⟨st, by rw [step_other hs htt]; exact ht, hd⟩
  have : t = t' := Classical.not_not.1 htt
  subst this
  have hlt : t < s.thr.length := by
    rcases Nat.lt_or_ge t s.thr.length with h' | h'
    · exact h'
    · rw [List.getElem?_eq_none h'] at ht; cases ht
  -- frames below the top stay
  obtain ⟨st', ht', hsub⟩ := step_tail hs ht
  have deep : (∃ g ∈ st.tail, (∃ f todo, g = Frame.gcPass c f todo ∧ e ∈ todo) ∨ g = Frame.gcTest c e ∨
      g = Frame.gcErase c e ∨ g = Frame.gcUnlink c e) → Due c e t s' := by
    rintro ⟨g, hg, h⟩
    have hg' := hsub g hg
    rcases h with ⟨f, todo, rfl, h⟩ | rfl | rfl | rfl
    · exact .inr ⟨st', ht', .inl ⟨f, todo, hg', h⟩⟩
    · exact .inr ⟨st', ht', .inr (.inl hg')⟩
    · exact .inr ⟨st', ht', .inr (.inr (.inl hg'))⟩
    · exact .inr ⟨st', ht', .inr (.inr (.inr hg'))⟩
  have split : (∃ g ∈ st, (∃ f todo, g = Frame.gcPass c f todo ∧ e ∈ todo) ∨ g = Frame.gcTest c e ∨
      g = Frame.gcErase c e ∨ g = Frame.gcUnlink c e) := by
    rcases hd with ⟨f, todo, h1, h2⟩ | h | h | h
    · exact ⟨_, h1, .inl ⟨f, todo, rfl, h2⟩⟩
    · exact ⟨_, h, .inr (.inl rfl)⟩
    · exact ⟨_, h, .inr (.inr (.inl rfl))⟩
    · exact ⟨_, h, .inr (.inr (.inr rfl))⟩
  obtain ⟨g, hg, hgc⟩ := split
  cases st with
  | nil => cases hg
  | cons f rest =>
    rcases List.mem_cons.1 hg with rfl | hg
    · clear deep hsub ht' hd
      have fin : ∀ {st'' : List (Frame K)}, s'.thr = s.thr.set t st'' →
          (∃ f todo, Frame.gcPass c f todo ∈ st'' ∧ e ∈ todo) ∨ Frame.gcTest c e ∈ st'' ∨ Frame.gcErase c e ∈ st'' ∨
            Frame.gcUnlink c e ∈ st'' → Due c e t s' := by
        intro st'' h1 h2
        exact .inr ⟨st'', by rw [h1, List.getElem?_set_self hlt], h2⟩
      simp only [CFac.step, ht] at hs
      rcases hgc with ⟨f, todo, rfl, hgc⟩ | rfl | rfl | rfl <;>
        cases a <;> simp only [act, inUser] at hs <;> try (cases hs; done)
      · simp only [lib] at hs
        split at hs
        · rename_i hall
          cases hs
          rw [List.all_eq_true] at hall
          have := hall e hgc
          left
          simpa using this
        · cases hs
      · rename_i e'
        repeat' split at hs
        all_goals cases hs
        by_cases hee : e' = e
        · subst hee
          exact fin rfl (.inr (.inl List.mem_cons_self))
        · exact fin rfl (.inl ⟨f, _, List.mem_cons_of_mem _ List.mem_cons_self,
            List.mem_filter.2 ⟨hgc, by simpa using Ne.symm hee⟩⟩)
      · simp only [lib] at hs
        split at hs
        · cases hs
        · rename_i x hx
          cases hs
          simp only [refOf, hx] at hz
          refine fin rfl (.inr (.inr (.inl ?_)))
          rw [if_pos hz]
          exact List.mem_cons_self
      · simp only [lib] at hs
        split at hs
        · cases hs
        · cases hs
          exact fin rfl (.inr (.inr (.inr (List.mem_append.2 (.inr List.mem_cons_self)))))
      · simp only [lib] at hs
        split at hs
        · cases hs
        · cases hs
          exact .inl (setEnt_same _ _ _)
    · exact deep ⟨g, hg, hgc⟩

/-- The entries to be visited belong to the type.  (No code of its own: used in statements and
proofs.) -/
def Passes (s : St K) : Prop :=
  ∀ (t : Nat) (st : List (Frame K)), s.thr[t]? = some st → ∀ (c f : Nat) (todo : List Nat), Frame.gcPass c f todo ∈ st →
    ∀ e ∈ todo, e < s.next ∧ ∀ x, s.ents e = some x → x.core = c

theorem mem_elems {s : St K} {c e : Nat} (h : e ∈ elems s c) : e < s.next ∧ ∀ x, s.ents e = some x → x.core = c := by
  obtain ⟨h1, h2⟩ := List.mem_filter.1 h
  refine ⟨List.mem_range.1 h1, fun x hx => ?_⟩
  simpa [hx] using h2

/-- All entries of the type are to be visited. -/
theorem elems_mem {s : St K} (hi : Inv cfg s) {c e : Nat} {x : Ent K} (hx : s.ents e = some x) (hc : x.core = c) :
    e ∈ elems s c :=
  List.mem_filter.2 ⟨List.mem_range.2 (hi.core.lt_next hx), by simp [hx, hc]⟩

/-- Where passes come from. -/
theorem pass_from {s s' : St K} {t : Nat} {a : Act K} (hs : step cfg s t a = .ok s') {t' : Nat} {st' : List (Frame K)}
    (ht' : s'.thr[t']? = some st') {c f : Nat} {todo : List Nat} (hm : Frame.gcPass c f todo ∈ st') :
    (∃ st todo', s.thr[t']? = some st ∧ Frame.gcPass c f todo' ∈ st ∧ ∀ e ∈ todo, e ∈ todo') ∨
      (todo = elems s c ∧ s'.ents = s.ents ∧ s'.next = s.next) := by
  by_cases htt : t' = t
  · subst htt
    have hs0 := hs
    unfold step at hs
    split at hs
    · cases hs
    rename_i st ht
    have hlt : t' < s.thr.length := by
      rcases Nat.lt_or_ge t' s.thr.length with h' | h'
      · exact h'
      · rw [List.getElem?_eq_none h'] at ht; cases ht
    have old : Frame.gcPass c f todo ∈ st → (∃ st todo', s.thr[t']? = some st ∧ Frame.gcPass c f todo' ∈ st ∧
        ∀ e ∈ todo, e ∈ todo') ∨ (todo = elems s c ∧ s'.ents = s.ents ∧ s'.next = s.next) := fun h =>
      .inl ⟨st, todo, ht, h, fun _ h => h⟩
    have fin : ∀ {st''}, s'.thr = s.thr.set t' st'' → Frame.gcPass c f todo ∈ st'' := by
      intro st'' h
      rw [h, List.getElem?_set_self hlt] at ht'
      cases ht'
      exact hm
    cases a with
    | run =>
      cases st with
      | nil => cases hs
      | cons g rest =>
        simp only [act] at hs
        unfold lib at hs
        dsimp only at hs
        cases g with
        | gcIdle c' =>
          cases hs
          rcases List.mem_cons.1 (fin rfl) with h | h
          · cases h
            exact .inr ⟨rfl, rfl, rfl⟩
          · exact old (List.mem_cons_of_mem _ h)
        | _ =>
          dsimp only at hs
          (repeat' split at hs) <;> cases hs <;>
            (have h := fin rfl) <;> refine old (List.mem_cons_of_mem _ ?_) <;>
            first
              | exact h
              | simpa using h
              | (rcases List.mem_cons.1 h with h | h
                 · revert h; split <;> intro h <;> cases h
                 · exact h)
    | create c k mask pre =>
      simp only [act] at hs
      split at hs <;> cases hs
      exact old (by simpa using fin rfl)
    | destroy mask =>
      simp only [act] at hs
      split at hs <;> cases hs
      exact old (by simpa using fin rfl)
    | copy i =>
      simp only [act] at hs
      repeat' split at hs
      all_goals cases hs
      all_goals
        rw [show s.thr[t']? = some st from ht] at ht'
        cases ht'
        exact old hm
    | copyKid i j =>
      simp only [act] at hs
      repeat' split at hs
      all_goals cases hs
      all_goals
        rw [show s.thr[t']? = some st from ht] at ht'
        cases ht'
        exact old hm
    | swap i j =>
      simp only [act] at hs
      repeat' split at hs
      all_goals cases hs
      all_goals
        rw [show s.thr[t']? = some st from ht] at ht'
        cases ht'
        exact old hm
    | read i =>
      simp only [act] at hs
      repeat' split at hs
      all_goals cases hs
      all_goals
        rw [show s.thr[t']? = some st from ht] at ht'
        cases ht'
        exact old hm
    | finish mask drop =>
      simp only [act] at hs
      repeat' split at hs
      all_goals cases hs
      all_goals exact old (List.mem_cons_of_mem _ (by simpa using fin rfl))
    | throw_ =>
      simp only [act] at hs
      repeat' split at hs
      all_goals cases hs
      all_goals exact old (List.mem_cons_of_mem _ (by simpa using fin rfl))
    | gcVisit e =>
      simp only [act] at hs
      split at hs
      · rename_i c' f' todo' rest
        repeat' split at hs
        all_goals cases hs
        rcases List.mem_cons.1 (fin rfl) with h | h
        · cases h
        rcases List.mem_cons.1 h with h | h
        · cases h
          exact .inl ⟨_, todo', ht, List.mem_cons_self, fun e he => (List.mem_filter.1 he).1⟩
        · exact old (List.mem_cons_of_mem _ h)
      · cases hs
  · rw [step_other hs htt] at ht'
    exact .inl ⟨st', todo, ht', hm, fun _ h => h⟩

theorem Passes.step {s s' : St K} (hi : Inv cfg s) {t : Nat} {a : Act K} (hp : Passes s)
    (hs : step cfg s t a = .ok s') : Passes s' := by
  intro t' st' ht' c f todo hm e he
  obtain ⟨h1, h2⟩ := step_ents hi hs
  rcases pass_from hs ht' hm with ⟨st, todo', h3, h4, h5⟩ | ⟨h3, h4, h5⟩
  · obtain ⟨h6, h7⟩ := hp t' st h3 c f todo' h4 e (h5 e he)
    refine ⟨by omega, fun y hy => ?_⟩
    obtain ⟨x, hx, hc, _⟩ := h2 e y h6 hy
    rw [hc]
    exact h7 x hx
  · rw [h4, h5]
    rw [h3] at he
    exact mem_elems he

theorem start_passes (n : Nat) (gcs : List Nat) : Passes (start n gcs : St K) := by
  intro t st ht c f todo hm
  rcases start_thr ht with rfl | ⟨c', _, rfl⟩
  · cases hm
  · cases List.mem_singleton.1 hm

/-! ## Nesting of calls -/

/-- The flyweight type a frame deals with.  (No code of its own: used in statements and proofs.) -/
def typ : Frame K → Nat
  | .insLock c .. => c
  | .insHash c .. => c
  | .insFind c .. => c
  | .insVisit c .. => c
  | .insUser c .. => c
  | .insDone c .. => c
  | .insAddRef c .. => c
  | .insLeave c .. => c
  | .insFail c .. => c
  | .insUnwind c => c
  | .insTrack c .. => c
  | .insUnlock c .. => c
  | .rel w => w.c
  | .relLock w => w.c
  | .relCheck w => w.c
  | .relUnlock w => w.c
  | .relDec w => w.c
  | .gcIdle c => c
  | .gcPass c .. => c
  | .gcTest c _ => c
  | .gcErase c _ => c
  | .gcUnlink c _ => c
  | .gcLeave c _ => c

/-- The flyweights in the local variables of a frame.  (No code of its own: used in statements
and proofs.) -/
def locs : Frame K → List (Fw K)
  | .insLock _ _ loc _ => loc
  | .insHash _ _ loc _ => loc
  | .insFind _ _ loc _ => loc
  | .insVisit _ _ _ loc => loc
  | .insUser _ _ _ loc => loc
  | .insDone _ _ _ loc => loc
  | .insAddRef _ _ _ loc => loc
  | .insLeave _ _ _ loc => loc
  | .insFail _ _ loc => loc
  | _ => []

/-- A value constructor is running.  (No code of its own: used in statements and proofs.) -/
def isUser : Frame K → Bool
  | .insUser .. => true
  | _ => false

/-- Destruction of a flyweight.  (No code of its own: used in statements and proofs.) -/
def isRel : Frame K → Bool
  | .rel _ => true
  | .relLock _ => true
  | .relCheck _ => true
  | .relUnlock _ => true
  | .relDec _ => true
  | _ => false

/-- The type whose mutex or an element of whose container the frame may be holding.  (No code of
its own: used in statements and proofs.) -/
def inside : Frame K → Option Nat
  | .insHash c .. => some c
  | .insFind c .. => some c
  | .insVisit c .. => some c
  | .insUser c .. => some c
  | .insDone c .. => some c
  | .insAddRef c .. => some c
  | .insLeave c .. => some c
  | .insFail c .. => some c
  | .insUnwind c => some c
  | .insTrack c .. => some c
  | .insUnlock c .. => some c
  | .relCheck w => some w.c
  | .relUnlock w => some w.c
  | .gcTest c _ => some c
  | .gcErase c _ => some c
  | .gcUnlink c _ => some c
  | .gcLeave c _ => some c
  | _ => none

/-- What programs do: value constructors of type `c` create flyweights of type `c'` only if
`calls c c'`; values of type `c` contain, or their constructors destroy, flyweights of type
`c'` only if `has c c'`. This is what the action `a` of a thread with stack `st` must
respect.  (No code of its own: used in statements and proofs.) -/
def Disc (calls has : Nat → Nat → Prop) (s : St K) (st : List (Frame K)) : Act K → Prop
  | .create c _ mask _ => (∀ w ∈ (pick mask s.objs).1, has c w.c) ∧
      ∀ c' k' e loc rest, st = .insUser c' k' e loc :: rest → calls c' c
  | .destroy mask => ∀ c' k' e loc rest, st = .insUser c' k' e loc :: rest → ∀ w ∈ (pick mask s.objs).1, has c' w.c
  | .finish mask _ => ∀ c' k' e loc rest, st = .insUser c' k' e loc :: rest → ∀ w ∈ (pick mask s.objs).1, has c' w.c
  | _ => True

/-- One or the other.  (No code of its own: used in statements and proofs.) -/
def Both (calls has : Nat → Nat → Prop) (c c' : Nat) : Prop := calls c c' ∨ has c c'

/-- The frame `f` is called from `g`.  (No code of its own: used in statements and proofs.) -/
def Above (calls has : Nat → Nat → Prop) (f g : Frame K) : Prop :=
  ∀ c, inside g = some c → (isUser g = false → isRel f = true) ∧
    (isRel f = true → TransGen (Both calls has) c (typ f)) ∧ (isRel f = false → TransGen calls c (typ f))

/-- Nesting of calls follows `calls` and `has`.  (No code of its own: used in statements and
proofs.) -/
structure RankInv (calls has : Nat → Nat → Prop) (s : St K) : Prop where
  kids : ∀ e x, s.ents e = some x → ∀ w ∈ x.kids, has x.core w.c
  locs : ∀ (t : Nat) (st : List (Frame K)), s.thr[t]? = some st → ∀ f ∈ st, ∀ w ∈ locs f, has (typ f) w.c
  order : ∀ (t : Nat) (st : List (Frame K)), s.thr[t]? = some st → st.Pairwise (Above calls has)

variable {calls has : Nat → Nat → Prop}

theorem RankInv.set {s : St K} (h : RankInv calls has s) {t : Nat} {st : List (Frame K)}
    {ents : Nat → Option (Ent K)} {next : Nat} {objs : List (Fw K)} {vis : Nat → Option Nat}
    {lock : Nat → Option (Nat × Nat)}
    (h1 : ∀ e x, ents e = some x → ∀ w ∈ x.kids, has x.core w.c)
    (h2 : ∀ f ∈ st, ∀ w ∈ CFac.locs f, has (typ f) w.c) (h3 : st.Pairwise (Above calls has)) :
    RankInv calls has ⟨ents, next, vis, lock, s.thr.set t st, objs⟩ := by
  have key : ∀ {t' : Nat} {st' : List (Frame K)}, (s.thr.set t st)[t']? = some st' → st' = st ∨ s.thr[t']? = some st' := by
    intro t' st' ht
    rw [List.getElem?_set] at ht
    split at ht
    · split at ht
      · exact .inl (Option.some.inj ht).symm
      · cases ht
    · exact .inr ht
  refine ⟨h1, fun t' st' ht => ?_, fun t' st' ht => ?_⟩
  · rcases key ht with rfl | ht
    · exact h2
    · exact h.locs t' st' ht
  · rcases key ht with rfl | ht
    · exact h3
    · exact h.order t' st' ht

theorem TransGen.toBoth {a b : Nat} (h : TransGen calls a b) : TransGen (Both calls has) a b :=
  TransGen.lift (p := Both calls has) id (fun _ _ h => Or.inl h) _ _ h

/-- General form of a step of the library. -/
theorem RankInv.lib_of {s : St K} (h : RankInv calls has s) {t : Nat} {f : Frame K} {rest new : List (Frame K)}
    (ht : s.thr[t]? = some (f :: rest))
    {ents : Nat → Option (Ent K)} {next : Nat} {objs : List (Fw K)} {vis : Nat → Option Nat}
    {lock : Nat → Option (Nat × Nat)}
    (h1 : ∀ e x, ents e = some x → ∀ w ∈ x.kids, has x.core w.c)
    (h2 : ∀ g ∈ new, ∀ w ∈ CFac.locs g, has (typ g) w.c)
    (h3 : new.Pairwise (Above calls has))
    (h4 : ∀ g ∈ new, (isRel g = isRel f ∧ typ g = typ f) ∨ (isRel f = false ∧ isRel g = true ∧ has (typ f) (typ g))) :
    RankInv calls has ⟨ents, next, vis, lock, s.thr.set t (new ++ rest), objs⟩ := by
  have ho := h.order t _ ht
  rw [List.pairwise_cons] at ho
  refine h.set h1 (fun g hg => ?_) (List.pairwise_append.2 ⟨h3, ho.2, fun g hg g' hg' => ?_⟩)
  · rcases List.mem_append.1 hg with h6 | h6
    · exact h2 g h6
    · exact h.locs t _ ht g (List.mem_cons_of_mem _ h6)
  · intro c hc
    obtain ⟨a1, a2, a3⟩ := ho.1 g' hg' c hc
    rcases h4 g hg with ⟨b1, b2⟩ | ⟨b1, b2, b3⟩
    · rw [b1, b2]
      exact ⟨a1, a2, a3⟩
    · refine ⟨fun _ => b2, fun _ => ?_, fun h => ?_⟩
      · exact (TransGen.toBoth (a3 b1)).tail (.inr b3)
      · rw [b2] at h
        cases h

theorem above_rel {l : List (Fw K)} : (l.map Frame.rel).Pairwise (Above calls has) := by
  rw [List.pairwise_map]
  induction l with
  | nil => exact .nil
  | cons a l ih => exact .cons (fun b _ c hc => by cases hc) ih

theorem above_rel' {l : List (Fw K)} {f : Frame K} (hf : ∀ c, inside f = some c → ∀ w ∈ l, has c w.c) :
    (l.map Frame.rel ++ [f]).Pairwise (Above calls has) := by
  refine List.pairwise_append.2 ⟨above_rel, List.pairwise_singleton _ _, fun g hg g' hg' => ?_⟩
  obtain ⟨w, hw, rfl⟩ := List.mem_map.1 hg
  rw [List.mem_singleton.1 hg']
  intro c hc
  exact ⟨fun _ => rfl, fun _ => .single (.inr (hf c hc w hw)), fun h => by cases h⟩

theorem kids_set {ents : Nat → Option (Ent K)} {e : Nat} {x' : Ent K}
    (h : ∀ e x, ents e = some x → ∀ w ∈ x.kids, has x.core w.c)
    (hx : ∀ w ∈ x'.kids, has x'.core w.c) :
    ∀ i x, setEnt ents e (some x') i = some x → ∀ w ∈ x.kids, has x.core w.c := by
  intro i x hi
  by_cases he : i = e
  · subst he
    rw [setEnt_same] at hi
    cases hi
    exact hx
  · rw [setEnt_ne _ _ he] at hi
    exact h i x hi

theorem kids_erase {ents : Nat → Option (Ent K)} {e : Nat}
    (h : ∀ e x, ents e = some x → ∀ w ∈ x.kids, has x.core w.c) :
    ∀ i x, setEnt ents e none i = some x → ∀ w ∈ x.kids, has x.core w.c := by
  intro i x hi
  by_cases he : i = e
  · subst he
    rw [setEnt_same] at hi
    cases hi
  · rw [setEnt_ne _ _ he] at hi
    exact h i x hi

theorem lib_rank {s s' : St K} (h : RankInv calls has s) (hi : Inv cfg s) {t : Nat} {f : Frame K} {rest : List (Frame K)}
    (ht : s.thr[t]? = some (f :: rest)) (hs : lib cfg s t f rest = .ok s') : RankInv calls has s' := by
  have hmem : f ∈ frames s := List.mem_flatten.2 ⟨_, List.mem_of_getElem? ht, List.mem_cons_self⟩
  have hfr := hi.core.frames f hmem
  have hlocs := h.locs t _ ht f List.mem_cons_self
  have one : ∀ g : Frame K, [g].Pairwise (Above calls has) := fun g => List.pairwise_singleton _ _
  have h4 : ∀ g : Frame K, isRel g = isRel f → typ g = typ f → ∀ g' ∈ [g],
      (isRel g' = isRel f ∧ typ g' = typ f) ∨ (isRel f = false ∧ isRel g' = true ∧ has (typ f) (typ g')) := by
    intro g h1 h2 g' hg'
    rw [List.mem_singleton.1 hg']
    exact .inl ⟨h1, h2⟩
  have h2 : ∀ g : Frame K, typ g = typ f → (∀ w ∈ locs g, w ∈ locs f) →
      ∀ g' ∈ [g], ∀ w ∈ CFac.locs g', has (typ g') w.c := by
    intro g hg hl g' hg' w hw
    rw [List.mem_singleton.1 hg'] at hw ⊢
    rw [hg]
    exact hlocs w (hl w hw)
  -- the frames `rel` of a list of flyweights, then `g`
  have rels : ∀ {l : List (Fw K)} {g : Frame K} {ents : Nat → Option (Ent K)} {next : Nat} {objs : List (Fw K)}
      {vis : Nat → Option Nat} {lock : Nat → Option (Nat × Nat)}, isRel f = false → isRel g = false → typ g = typ f →
      locs g = [] → (∀ c, inside g = some c → c = typ f) → (∀ w ∈ l, has (typ f) w.c) →
      (∀ e x, ents e = some x → ∀ w ∈ x.kids, has x.core w.c) →
      RankInv calls has ⟨ents, next, vis, lock, s.thr.set t (l.map .rel ++ g :: rest), objs⟩ := by
    intro l g ents next objs vis lock h1 h2 h3 h4 h5 h6 h7
    rw [show l.map Frame.rel ++ g :: rest = (l.map .rel ++ [g]) ++ rest by simp]
    refine h.lib_of ht h7 ?_ (above_rel' fun c hc => by rw [h5 c hc]; exact h6) ?_
    · intro g' hg' w hw
      rcases List.mem_append.1 hg' with h8 | h8
      · obtain ⟨w', _, rfl⟩ := List.mem_map.1 h8
        cases hw
      · rw [List.mem_singleton.1 h8, h4] at hw
        cases hw
    · intro g' hg'
      rcases List.mem_append.1 hg' with h8 | h8
      · obtain ⟨w', hw', rfl⟩ := List.mem_map.1 h8
        exact .inr ⟨h1, rfl, h6 w' hw'⟩
      · rw [List.mem_singleton.1 h8]
        exact .inl ⟨by rw [h1, h2], h3⟩
  unfold lib at hs
  dsimp only at hs
  cases f with
  | insLock c k loc pre =>
    dsimp only at hs
    split at hs
    · cases hs
    · cases hs
      exact h.lib_of (new := [_]) ht h.kids (h2 _ rfl fun _ h => h) (one _) (h4 _ rfl rfl)
  | insHash c k loc pre =>
    cases hs
    exact h.lib_of (new := [_]) ht h.kids (h2 _ rfl fun _ h => h) (one _) (h4 _ rfl rfl)
  | insFind c k loc pre =>
    dsimp only at hs
    repeat' split at hs
    all_goals cases hs
    · exact h.lib_of (new := [_]) ht h.kids (h2 _ rfl fun _ h => h) (one _) (h4 _ rfl rfl)
    · exact h.lib_of (new := [_]) ht (kids_set h.kids hlocs) (h2 _ rfl fun _ h => by cases h) (one _) (h4 _ rfl rfl)
  | insVisit c k e loc =>
    dsimp only at hs
    split at hs
    · cases hs
    · rename_i x hx
      cases hs
      refine h.lib_of (new := [_]) ht h.kids (h2 _ ?_ ?_) (one _) (h4 _ ?_ ?_)
      · split <;> rfl
      · split <;> exact fun _ h => h
      · split <;> rfl
      · split <;> rfl
  | insUser c k e loc => cases hs
  | insDone c k e loc =>
    dsimp only at hs
    split at hs
    · cases hs
    · rename_i x hx
      cases hs
      exact h.lib_of (new := [_]) ht (kids_set h.kids (h.kids e x hx)) (h2 _ rfl fun _ h => h) (one _) (h4 _ rfl rfl)
  | insAddRef c k e loc =>
    dsimp only at hs
    split at hs
    · cases hs
    · rename_i x hx
      cases hs
      exact h.lib_of (new := [_]) ht (kids_set h.kids (h.kids e x hx)) (h2 _ rfl fun _ h => h) (one _) (h4 _ rfl rfl)
  | insLeave c k e loc =>
    cases hs
    exact rels rfl rfl rfl rfl (fun c h => (Option.some.inj h).symm) hlocs h.kids
  | insFail c e loc =>
    cases hs
    exact rels rfl rfl rfl rfl (fun c h => (Option.some.inj h).symm) hlocs h.kids
  | insUnwind c =>
    dsimp only at hs
    split at hs
    · cases hs
    · cases hs
      exact h.lib_of (new := []) ht h.kids (by simp) .nil (by simp)
  | insTrack c k e =>
    dsimp only at hs
    split at hs
    · cases hs
    · rename_i x hx
      cases hs
      exact h.lib_of (new := [_]) ht (kids_set h.kids (h.kids e x hx)) (h2 _ rfl fun _ h => h) (one _) (h4 _ rfl rfl)
  | insUnlock c k e =>
    dsimp only at hs
    split at hs
    · cases hs
    · cases hs
      exact h.lib_of (new := []) ht h.kids (by simp) .nil (by simp)
  | rel w =>
    dsimp only at hs
    split at hs
    · cases hs
    · rename_i x hx
      split at hs
      · cases hs
        refine h.lib_of (new := [_]) ht (kids_set h.kids (h.kids _ x hx)) (h2 _ ?_ ?_) (one _) (h4 _ ?_ ?_)
        · split <;> rfl
        · split <;> exact fun _ h => h
        · split <;> rfl
        · split <;> rfl
      · cases hs
        exact h.lib_of (new := [_]) ht h.kids (h2 _ rfl fun _ h => h) (one _) (h4 _ rfl rfl)
  | relLock w =>
    dsimp only at hs
    split at hs
    · cases hs
    · cases hs
      exact h.lib_of (new := [_]) ht h.kids (h2 _ rfl fun _ h => h) (one _) (h4 _ rfl rfl)
  | relCheck w =>
    dsimp only at hs
    split at hs
    · cases hs
    · cases hs
      exact h.lib_of (new := [_]) ht h.kids (h2 _ rfl fun _ h => h) (one _) (h4 _ rfl rfl)
  | relUnlock w =>
    dsimp only at hs
    split at hs
    · cases hs
    · cases hs
      exact h.lib_of (new := [_]) ht h.kids (h2 _ rfl fun _ h => h) (one _) (h4 _ rfl rfl)
  | relDec w =>
    dsimp only at hs
    split at hs
    · cases hs
    · rename_i x hx
      cases hs
      exact h.lib_of (new := []) ht (kids_set h.kids (h.kids _ x hx)) (by simp) .nil (by simp)
  | gcIdle c =>
    cases hs
    exact h.lib_of (new := [_]) ht h.kids (h2 _ rfl fun _ h => h) (one _) (h4 _ rfl rfl)
  | gcPass c fr todo =>
    dsimp only at hs
    split at hs
    · cases hs
      exact h.lib_of (new := [_]) ht h.kids (h2 _ rfl fun _ h => h) (one _) (h4 _ rfl rfl)
    · cases hs
  | gcTest c e =>
    dsimp only at hs
    split at hs
    · cases hs
    · rename_i x hx
      cases hs
      refine h.lib_of (new := [_]) ht h.kids (h2 _ ?_ ?_) (one _) (h4 _ ?_ ?_)
      · split <;> rfl
      · split <;> exact fun _ h => h
      · split <;> rfl
      · split <;> rfl
  | gcErase c e =>
    obtain ⟨y, hy, e1, _⟩ := hfr
    dsimp only at hs
    split at hs
    · cases hs
    · rename_i x hx
      rw [hy] at hx
      cases hx
      cases hs
      exact rels rfl rfl rfl rfl (fun c h => (Option.some.inj h).symm) (fun w hw => by
        have := h.kids e y hy w hw
        rwa [e1] at this) (kids_set h.kids (by simp))
  | gcUnlink c e =>
    dsimp only at hs
    split at hs
    · cases hs
    · cases hs
      exact h.lib_of (new := []) ht (kids_erase h.kids) (by simp) .nil (by simp)
  | gcLeave c e =>
    cases hs
    exact h.lib_of (new := []) ht h.kids (by simp) .nil (by simp)

/-- General form of a step of user code. -/
theorem RankInv.user_of {s : St K} (h : RankInv calls has s) {t : Nat} {st new : List (Frame K)}
    (ht : s.thr[t]? = some st) (hu : inUser st = true) {objs : List (Fw K)}
    (h2 : ∀ g ∈ new, ∀ w ∈ CFac.locs g, has (typ g) w.c)
    (h3 : new.Pairwise (Above calls has))
    (h4 : ∀ c' k' e loc rest, st = .insUser c' k' e loc :: rest → ∀ g ∈ new,
      if isRel g then has c' (typ g) else calls c' (typ g)) :
    RankInv calls has ⟨s.ents, s.next, s.vis, s.lock, s.thr.set t (new ++ st), objs⟩ := by
  have ho := h.order t _ ht
  refine h.set h.kids (fun g hg => ?_) (List.pairwise_append.2 ⟨h3, ho, fun g hg g' hg' => ?_⟩)
  · rcases List.mem_append.1 hg with h6 | h6
    · exact h2 g h6
    · exact h.locs t _ ht g h6
  · cases st with
    | nil => cases hg'
    | cons a st =>
      cases a <;> first | (cases hu; done) | skip
      rename_i c' k' e loc
      have h5 := h4 c' k' e loc st rfl g hg
      rcases List.mem_cons.1 hg' with rfl | hg'
      · intro c hc
        cases hc
        refine ⟨(fun h => by cases h), fun hr => ?_, fun hr => ?_⟩
        · rw [hr, if_pos rfl] at h5
          exact .single (.inr h5)
        · rw [hr] at h5
          exact .single h5
      · intro c hc
        obtain ⟨a1, a2, a3⟩ := (List.pairwise_cons.1 ho).1 g' hg' c hc
        refine ⟨(fun hu' => by cases a1 hu'), fun hr => ?_, fun hr => ?_⟩
        · rw [hr, if_pos rfl] at h5
          exact (TransGen.toBoth (a3 rfl)).tail (.inr h5)
        · rw [hr] at h5
          exact (a3 rfl).tail h5

theorem RankInv.same {s : St K} (h : RankInv calls has s)
    {ents : Nat → Option (Ent K)} {next : Nat} {objs : List (Fw K)} {vis : Nat → Option Nat}
    {lock : Nat → Option (Nat × Nat)}
    (h1 : ∀ e x, ents e = some x → ∀ w ∈ x.kids, has x.core w.c) :
    RankInv calls has ⟨ents, next, vis, lock, s.thr, objs⟩ := ⟨h1, h.locs, h.order⟩

theorem act_rank {s s' : St K} (h : RankInv calls has s) (hi : Inv cfg s) {t : Nat} {st : List (Frame K)}
    (ht : s.thr[t]? = some st) {a : Act K} (hd : Disc calls has s st a) (hs : act cfg s t st a = .ok s') :
    RankInv calls has s' := by
  cases a with
  | run =>
    cases st with
    | nil => cases hs
    | cons f rest => exact lib_rank h hi ht hs
  | create c k mask pre =>
    simp only [act] at hs
    split at hs
    · rename_i hu
      cases hs
      refine h.user_of (new := [_]) ht hu ?_ (List.pairwise_singleton _ _) ?_
      · intro g hg w hw
        rw [List.mem_singleton.1 hg] at hw ⊢
        exact hd.1 w hw
      · intro c' k' e loc rest he g hg
        rw [List.mem_singleton.1 hg]
        exact hd.2 c' k' e loc rest he
    · cases hs
  | destroy mask =>
    simp only [act] at hs
    split at hs
    · rename_i hu
      cases hs
      refine h.user_of ht hu ?_ above_rel ?_
      · intro g hg w hw
        obtain ⟨_, _, rfl⟩ := List.mem_map.1 hg
        cases hw
      · intro c' k' e loc rest he g hg
        obtain ⟨w, hw, rfl⟩ := List.mem_map.1 hg
        exact hd c' k' e loc rest he w hw
    · cases hs
  | copy i =>
    simp only [act] at hs
    repeat' split at hs
    all_goals cases hs
    all_goals
      rename_i x hx _
      exact h.same (kids_set h.kids (h.kids _ x hx))
  | copyKid i j =>
    simp only [act] at hs
    repeat' split at hs
    all_goals cases hs
    all_goals
      rename_i x hx _
      exact h.same (kids_set h.kids (h.kids _ x hx))
  | swap i j =>
    simp only [act] at hs
    repeat' split at hs
    all_goals cases hs
    all_goals exact h.same h.kids
  | read i =>
    simp only [act] at hs
    repeat' split at hs
    all_goals cases hs
    all_goals exact h
  | finish mask drop =>
    simp only [act] at hs
    split at hs
    · rename_i c k e loc rest
      have hmem : Frame.insUser c k e loc ∈ frames s :=
        List.mem_flatten.2 ⟨_, List.mem_of_getElem? ht, List.mem_cons_self⟩
      obtain ⟨⟨x, hx, e1, e2, e3⟩, _⟩ := hi.core.frames _ hmem
      have hlocs := h.locs t _ ht _ List.mem_cons_self
      rw [hx] at hs
      dsimp only at hs
      rw [if_neg (by rw [e2]; simp)] at hs
      cases hs
      have hd' := hd c k e loc rest rfl
      have hk : ∀ w ∈ x.kids, has c w.c := fun w hw => by
        have := h.kids e x hx w hw
        rwa [e1] at this
      rw [show (if drop = true then x.kids.map Frame.rel else []) ++ .insDone c k e loc :: rest =
        ((if drop = true then x.kids.map Frame.rel else []) ++ [.insDone c k e loc]) ++ rest by simp]
      refine h.lib_of ht (kids_set h.kids ?_) ?_ ?_ ?_
      · intro w hw
        dsimp only at hw ⊢
        rw [e1]
        cases drop
        · rcases List.mem_append.1 (by simpa using hw) with h1 | h1
          · exact hk w h1
          · exact hd' w h1
        · exact hd' w (by simpa using hw)
      · intro g hg w hw
        rcases List.mem_append.1 hg with h1 | h1
        · cases drop
          · cases h1
          · obtain ⟨_, _, rfl⟩ := List.mem_map.1 (by simpa using h1)
            cases hw
        · rw [List.mem_singleton.1 h1] at hw ⊢
          exact hlocs w hw
      · cases drop
        · simp
        · exact above_rel' fun c' hc => by cases hc; exact hk
      · intro g hg
        rcases List.mem_append.1 hg with h1 | h1
        · cases drop
          · cases h1
          · obtain ⟨w, hw, rfl⟩ := List.mem_map.1 (show g ∈ x.kids.map Frame.rel by simpa using h1)
            exact .inr ⟨rfl, rfl, hk w hw⟩
        · rw [List.mem_singleton.1 h1]
          exact .inl ⟨rfl, rfl⟩
    · cases hs
  | throw_ =>
    have fail : ∀ {f : Frame K} {c : Nat} {rest : List (Frame K)} {loc : List (Fw K)}, s.thr[t]? = some (f :: rest) →
        isRel f = false → typ f = c → locs f = loc →
        RankInv calls has { s with thr := s.thr.set t (loc.map .rel ++ .insUnwind c :: rest) } := by
      intro f c rest loc ht h1 h2 h3
      have hl := h.locs t _ ht f List.mem_cons_self
      rw [h3, h2] at hl
      rw [show loc.map Frame.rel ++ .insUnwind c :: rest = (loc.map .rel ++ [.insUnwind c]) ++ rest by simp]
      refine h.lib_of ht h.kids ?_ (above_rel' fun c' hc => by cases hc; exact hl) ?_
      · intro g' hg' w hw
        rcases List.mem_append.1 hg' with h8 | h8
        · obtain ⟨w', _, rfl⟩ := List.mem_map.1 h8
          cases hw
        · rw [List.mem_singleton.1 h8] at hw
          cases hw
      · intro g' hg'
        rcases List.mem_append.1 hg' with h8 | h8
        · obtain ⟨w', hw', rfl⟩ := List.mem_map.1 h8
          rw [h2]
          exact .inr ⟨h1, rfl, hl w' hw'⟩
        · rw [List.mem_singleton.1 h8]
          exact .inl ⟨by rw [h1]; rfl, h2.symm⟩
    simp only [act] at hs
    split at hs
    · cases hs
      refine h.lib_of (new := [_]) ht h.kids ?_ (List.pairwise_singleton _ _) ?_
      · intro g hg w hw
        rw [List.mem_singleton.1 hg] at hw ⊢
        exact h.locs t _ ht _ List.mem_cons_self w hw
      · intro g hg
        rw [List.mem_singleton.1 hg]
        exact .inl ⟨rfl, rfl⟩
    · cases hs
      exact fail ht rfl rfl rfl
    · split at hs
      · cases hs
        exact fail ht rfl rfl rfl
      · cases hs
    · cases hs
  | gcVisit e =>
    simp only [act] at hs
    split at hs
    · repeat' split at hs
      all_goals cases hs
      refine h.lib_of (new := [_, _]) ht h.kids ?_ ?_ ?_
      · intro g hg w hw
        rcases List.mem_cons.1 hg with rfl | hg
        · cases hw
        · rw [List.mem_singleton.1 hg] at hw
          cases hw
      · refine .cons (fun g hg c hc => ?_) (List.pairwise_singleton _ _)
        rw [List.mem_singleton.1 hg] at hc
        cases hc
      · intro g hg
        rcases List.mem_cons.1 hg with rfl | hg
        · exact .inl ⟨rfl, rfl⟩
        · rw [List.mem_singleton.1 hg]
          exact .inl ⟨rfl, rfl⟩
    · cases hs

/-- The states that programs respecting `calls` and `has` can reach with `n` threads and
the collectors of the types `gcs`.  (No code of its own: used in statements and proofs.) -/
inductive Reachable (cfg : Cfg K) (calls has : Nat → Nat → Prop) (n : Nat) (gcs : List Nat) : St K → Prop
  | start : Reachable cfg calls has n gcs (start n gcs)
  | step {s s' : St K} {t : Nat} {st : List (Frame K)} {a : Act K} : Reachable cfg calls has n gcs s →
      s.thr[t]? = some st → Disc calls has s st a → step cfg s t a = .ok s' → Reachable cfg calls has n gcs s'

theorem Reachable.inv (hcfg : CfgOk cfg) {n : Nat} {gcs : List Nat} {s : St K}
    (h : Reachable cfg calls has n gcs s) : Inv cfg s ∧ RankInv calls has s ∧ Passes s := by
  induction h with
  | start =>
    refine ⟨start_inv n gcs, ⟨by simp [CFac.start], ?_, ?_⟩, start_passes n gcs⟩
    · intro t st ht f hf w hw
      rcases start_thr ht with rfl | ⟨c, _, rfl⟩
      · cases hf
      · rw [List.mem_singleton.1 hf] at hw
        cases hw
    · intro t st ht
      rcases start_thr ht with rfl | ⟨c, _, rfl⟩
      · exact .nil
      · exact List.pairwise_singleton _ _
  | @step s s' t st a _ ht hd hs ih =>
    have hg := step_good hcfg ih.1 t a
    rw [hs] at hg
    refine ⟨hg, act_rank ih.2.1 ih.1 ht hd ?_, ih.2.2.step ih.1 hs⟩
    simpa [CFac.step, ht] using hs

/-! ## Locking on destruction -/

/-- Part of the destruction of the last flyweight of its value that locks the mutex.  (No code of its
own: used in statements and proofs.) -/
def isChk : Frame K → Bool
  | .relLock _ => true
  | .relCheck _ => true
  | .relUnlock _ => true
  | _ => false

/-- With `no_tracking` destruction of flyweights does not lock.  (No code of its own: used in
statements and proofs.) -/
def NoChk (cfg : Cfg K) (s : St K) : Prop := ∀ st ∈ s.thr, ∀ f ∈ st, isChk f = true → cfg.tracks = true

theorem NoChk.set {s : St K} (h : NoChk cfg s) {t : Nat} {st new : List (Frame K)} (ht : s.thr[t]? = some st)
    (hn : ∀ f ∈ new, f ∈ st ∨ isChk f = false ∨ (∃ g ∈ st, isChk g = true) ∨ cfg.tracks = true) :
    ∀ st' ∈ s.thr.set t new, ∀ f ∈ st', isChk f = true → cfg.tracks = true := by
  intro st' hst' f hf hc
  have hmem := List.mem_of_getElem? ht
  rcases List.mem_or_eq_of_mem_set hst' with h1 | rfl
  · exact h st' h1 f hf hc
  · rcases hn f hf with h1 | h1 | ⟨g, h1, h2⟩ | h1
    · exact h st hmem f h1 hc
    · rw [h1] at hc; cases hc
    · exact h st hmem g h1 h2
    · exact h1

theorem isChk_rel {l : List (Fw K)} {f : Frame K} (h : f ∈ l.map Frame.rel) : isChk f = false := by
  obtain ⟨w, _, rfl⟩ := List.mem_map.1 h
  rfl

theorem NoChk.step {s s' : St K} (h : NoChk cfg s) {t : Nat} {a : Act K} (hs : step cfg s t a = .ok s') : NoChk cfg s' := by
  unfold CFac.step at hs
  split at hs
  · cases hs
  rename_i st ht
  -- frames of the library in front of the same or of the rest of the stack
  have tl : ∀ {f : Frame K} {rest new : List (Frame K)}, st = f :: rest →
      (∀ g ∈ new, isChk g = false ∨ isChk f = true ∨ cfg.tracks = true) →
      ∀ st' ∈ s.thr.set t (new ++ rest), ∀ f ∈ st', isChk f = true → cfg.tracks = true := by
    rintro f rest new rfl h1
    refine h.set ht fun g hg => ?_
    rcases List.mem_append.1 hg with hg | hg
    · rcases h1 g hg with h1 | h1 | h1
      · exact .inr (.inl h1)
      · exact .inr (.inr (.inl ⟨f, List.mem_cons_self, h1⟩))
      · exact .inr (.inr (.inr h1))
    · exact .inl (List.mem_cons_of_mem _ hg)
  have one : ∀ {f g : Frame K} {rest : List (Frame K)}, st = f :: rest →
      (isChk g = false ∨ isChk f = true ∨ cfg.tracks = true) →
      ∀ st' ∈ s.thr.set t (g :: rest), ∀ f ∈ st', isChk f = true → cfg.tracks = true := by
    intro f g rest he h1
    exact tl (new := [g]) he (by intro g' hg'; rw [List.mem_singleton.1 hg']; exact h1)
  have rels : ∀ {f g : Frame K} {rest : List (Frame K)} {l : List (Fw K)}, st = f :: rest → isChk g = false →
      ∀ st' ∈ s.thr.set t (l.map .rel ++ g :: rest), ∀ f ∈ st', isChk f = true → cfg.tracks = true := by
    intro f g rest l he h1
    have := tl (new := l.map .rel ++ [g]) he (by
      intro g' hg'
      rcases List.mem_append.1 hg' with h2 | h2
      · exact .inl (isChk_rel h2)
      · rw [List.mem_singleton.1 h2]; exact .inl h1)
    simpa using this
  have pop : ∀ {f : Frame K} {rest : List (Frame K)}, st = f :: rest →
      ∀ st' ∈ s.thr.set t rest, ∀ f ∈ st', isChk f = true → cfg.tracks = true := by
    intro f rest he
    exact tl (new := []) he (by simp)
  have push : ∀ {new : List (Frame K)}, (∀ g ∈ new, isChk g = false) →
      ∀ st' ∈ s.thr.set t (new ++ st), ∀ f ∈ st', isChk f = true → cfg.tracks = true := by
    intro new h1
    refine h.set ht fun g hg => ?_
    rcases List.mem_append.1 hg with hg | hg
    · exact .inr (.inl (h1 g hg))
    · exact .inl hg
  cases a with
  | run =>
    cases st with
    | nil => cases hs
    | cons f rest =>
      simp only [act] at hs
      unfold lib at hs
      dsimp only at hs
      cases f with
      | rel w =>
        dsimp only at hs
        split at hs
        · cases hs
        · split at hs
          · rename_i hk
            cases hs
            exact one rfl (.inr (.inr hk))
          · cases hs
            exact one rfl (.inl rfl)
      | insLeave c k e loc => cases hs; exact rels rfl rfl
      | insFail c e loc => cases hs; exact rels rfl rfl
      | gcErase c e =>
        dsimp only at hs
        split at hs
        · cases hs
        · cases hs; exact rels rfl rfl
      | insVisit c k e loc =>
        dsimp only at hs
        split at hs
        · cases hs
        · cases hs; exact one rfl (.inl (by split <;> rfl))
      | gcTest c e =>
        dsimp only at hs
        split at hs
        · cases hs
        · cases hs; exact one rfl (.inl (by split <;> rfl))
      | _ =>
        dsimp only at hs
        repeat' split at hs
        all_goals first
          | cases hs; exact one rfl (.inl rfl)
          | cases hs; exact one rfl (.inr (.inl rfl))
          | cases hs; exact pop rfl
          | cases hs
  | create c k mask pre =>
    simp only [act] at hs
    split at hs
    · cases hs
      exact push (new := [.insLock ..]) (by intro g hg; rw [List.mem_singleton.1 hg]; rfl)
    · cases hs
  | destroy mask =>
    simp only [act] at hs
    split at hs
    · cases hs
      exact push fun g hg => isChk_rel hg
    · cases hs
  | finish mask drop =>
    simp only [act] at hs
    split at hs
    · rename_i rest
      split at hs
      · cases hs
      · split at hs
        · cases hs
        · cases hs
          dsimp only [NoChk]
          split
          · exact rels rfl rfl
          · exact one rfl (.inl rfl)
    · cases hs
  | throw_ =>
    simp only [act] at hs
    split at hs
    · cases hs; exact one rfl (.inl rfl)
    · cases hs; exact rels rfl rfl
    · split at hs
      · cases hs; exact rels rfl rfl
      · cases hs
    · cases hs
  | gcVisit e =>
    simp only [act] at hs
    split at hs
    · split at hs
      · cases hs
      · split at hs
        · cases hs
          refine tl (new := [_, _]) rfl ?_
          intro g hg
          rcases List.mem_cons.1 hg with rfl | hg
          · exact .inl rfl
          · rw [List.mem_singleton.1 hg]; exact .inl rfl
        · cases hs
    · cases hs
  | _ =>
    simp only [act] at hs
    repeat' split at hs
    all_goals first
      | cases hs; exact h
      | cases hs

theorem Reachable.noChk {n : Nat} {gcs : List Nat} {s : St K} (h : Reachable cfg calls has n gcs s) : NoChk cfg s := by
  induction h with
  | start =>
    intro st hst f hf hc
    obtain ⟨t, ht⟩ := List.mem_iff_getElem?.1 hst
    rcases start_thr ht with rfl | ⟨c, _, rfl⟩
    · cases hf
    · rw [List.mem_singleton.1 hf] at hc
      cases hc
  | step _ _ _ hs ih => exact ih.step hs

/-! ## Waiting for each other -/

/-- Thread `t` is about to lock the mutex of type `c`.  (No code of its own: used in statements
and proofs.) -/
def wantsMutex (s : St K) (t c : Nat) : Prop :=
  (∃ k loc pre rest, s.thr[t]? = some (.insLock c k loc pre :: rest)) ∨
    ∃ w rest, s.thr[t]? = some (.relLock w :: rest) ∧ w.c = c

/-- Thread `t` is about to access elements of the container of type `c`.  (No code of its own:
used in statements and proofs.) -/
def wantsElems (s : St K) (t c : Nat) : Prop :=
  (∃ k loc pre rest, s.thr[t]? = some (.insFind c k loc pre :: rest)) ∨
    ∃ f todo rest, s.thr[t]? = some (.gcPass c f todo :: rest)

/-- Thread `t` is accessing an element of the container of type `c`.  (No code of its own: used
in statements and proofs.) -/
def atElem (s : St K) (t c : Nat) : Prop := ∃ e x, s.vis e = some t ∧ s.ents e = some x ∧ x.core = c

/-- Thread `t` may have to wait for thread `t'`: because of a mutex, or because of any
lock that the container may take for the access of elements.  (No code of its own: used in
statements and proofs.) -/
def MayWait (cfg : Cfg K) (s : St K) (t t' : Nat) : Prop :=
  t ≠ t' ∧ ((cfg.locking = true ∧ ∃ c d, wantsMutex s t c ∧ s.lock c = some (t', d)) ∨
    ∃ c, wantsElems s t c ∧ atElem s t' c)

/-- Thread `t` is in the library, not in a value constructor, and cannot go on.  (No code of its
own: used in statements and proofs.) -/
def Blocked (cfg : Cfg K) (s : St K) (t : Nat) : Prop :=
  ∃ st, s.thr[t]? = some st ∧ inUser st = false ∧ step cfg s t .run = .no ∧ ∀ e, step cfg s t (.gcVisit e) = .no

/-- The relation that must not have cycles: destruction of flyweights, of those that values contain for
instance, matters only if it locks, that is, with `refcounted` and `simple_locking`.  (No code of its
own: used in statements and proofs.) -/
def Order (cfg : Cfg K) (calls has : Nat → Nat → Prop) (c c' : Nat) : Prop :=
  calls c c' ∨ (cfg.locking = true ∧ cfg.tracks = true ∧ has c c')

theorem elem_frame {s : St K} (hi : Inv cfg s) {t e : Nat} (hv : s.vis e = some t) {x : Ent K} (hx : s.ents e = some x) :
    ∃ st, s.thr[t]? = some st ∧ ∃ g ∈ st, inside g = some x.core ∧ elemOf g = some e := by
  have hlt := hi.locks.owner e t hv
  refine ⟨_, List.getElem?_eq_getElem hlt, ?_⟩
  have h1 := hi.locks.elem t _ (List.getElem?_eq_getElem hlt) e
  rw [if_pos hv] at h1
  obtain ⟨g, hg, hpos⟩ := exists_of_tot (g := elemF e) (l := s.thr[t]) (by omega)
  have hge : elemOf g = some e := by
    by_cases h2 : elemOf g = some e
    · exact h2
    · simp [elemF, h2] at hpos
  refine ⟨g, hg, ?_, hge⟩
  have hgok := hi.core.frames g (List.mem_flatten.2 ⟨_, List.getElem_mem hlt, hg⟩)
  cases g with
  | insVisit c' k' e' loc' => cases hge; obtain ⟨⟨y, hy, h3, _⟩, _⟩ := hgok; rw [hx] at hy; cases hy; rw [h3]; rfl
  | insUser c' k' e' loc' => cases hge; obtain ⟨⟨y, hy, h3, _⟩, _⟩ := hgok; rw [hx] at hy; cases hy; rw [h3]; rfl
  | insDone c' k' e' loc' => cases hge; obtain ⟨⟨y, hy, h3, _⟩, _⟩ := hgok; rw [hx] at hy; cases hy; rw [h3]; rfl
  | insAddRef c' k' e' loc' =>
    cases hge; obtain ⟨⟨y, hy, h3, _⟩, _⟩ := hgok; dsimp only at hy h3; rw [hx] at hy; cases hy; rw [h3]; rfl
  | insLeave c' k' e' loc' =>
    cases hge; obtain ⟨⟨y, hy, h3, _⟩, _⟩ := hgok; dsimp only at hy h3; rw [hx] at hy; cases hy; rw [h3]; rfl
  | insFail c' e' loc' => cases hge; obtain ⟨⟨y, hy, h3⟩, _⟩ := hgok; rw [hx] at hy; cases hy; rw [h3]; rfl
  | gcTest c' e' => cases hge; obtain ⟨y, hy, h3⟩ := hgok; rw [hx] at hy; cases hy; rw [h3]; rfl
  | gcErase c' e' => cases hge; obtain ⟨y, hy, h3, _⟩ := hgok; rw [hx] at hy; cases hy; rw [h3]; rfl
  | gcUnlink c' e' => cases hge; obtain ⟨y, hy, h3, _⟩ := hgok; rw [hx] at hy; cases hy; rw [h3]; rfl
  | gcLeave c' e' => cases hge; obtain ⟨y, hy, h3⟩ := hgok; rw [hx] at hy; cases hy; rw [h3]; rfl
  | _ => cases hge

/-- What a thread inside type `c` may be about to lock. -/
theorem below {s : St K} (hr : RankInv calls has s) {t c : Nat} {f g : Frame K} {rest : List (Frame K)}
    (ht : s.thr[t]? = some (f :: rest)) (hg : g ∈ rest) (hin : inside g = some c) (hf : isRel f = true → cfg.locking = true ∧ cfg.tracks = true) :
    TransGen (Order cfg calls has) c (typ f) := by
  obtain ⟨_, h1, h2⟩ := (List.pairwise_cons.1 (hr.order t _ ht)).1 g hg c hin
  cases hrf : isRel f with
  | true =>
    obtain ⟨hlk, htr⟩ := hf hrf
    exact (h1 hrf).lift id fun a b h => Or.elim h .inl fun h => .inr ⟨hlk, htr, h⟩
  | false => exact (h2 hrf).lift id fun a b h => .inl h

/-- A thread that can't go on waits for another one. -/
theorem Blocked.mayWait {s : St K} (hi : Inv cfg s) (hr : RankInv calls has s) (hp : Passes s)
    (hwf : WellFounded fun a b => Order cfg calls has b a) {t : Nat} (h : Blocked cfg s t) : ∃ t', MayWait cfg s t t' := by
  obtain ⟨st, ht, hu, hs, hv⟩ := h
  have irr : ∀ c, ¬ TransGen (Order cfg calls has) c c := by
    intro c hc
    have h1 : WellFounded (TransGen fun a b => Order cfg calls has b a) := hwf.transGen
    have h2 : TransGen (fun a b => Order cfg calls has b a) c c := by
      rw [← transGen_swap] at hc
      exact hc
    exact h1.induction (C := fun a => TransGen (fun a b => Order cfg calls has b a) a a → False) c
      (fun a ih h => ih a h h) h2
  have hac : ∀ c, acquire cfg s.lock t c = none → cfg.locking = true ∧ ∃ o d, t ≠ o ∧ s.lock c = some (o, d) := by
    intro c hc
    unfold acquire at hc
    by_cases hlk : cfg.locking = true
    · rw [if_pos hlk] at hc
      refine ⟨hlk, ?_⟩
      cases hl : s.lock c with
      | none => rw [hl] at hc; cases hc
      | some p =>
        obtain ⟨o, d⟩ := p
        rw [hl] at hc
        by_cases ho : o = t
        · simp [ho] at hc
        · exact ⟨o, d, Ne.symm ho, rfl⟩
    · simp [hlk] at hc
  -- the element is held by another thread
  have other : ∀ {f : Frame K} {rest : List (Frame K)} {e t' c : Nat} {x : Ent K}, st = f :: rest → isRel f = false →
      typ f = c → elemOf f = none → s.vis e = some t' → s.ents e = some x → x.core = c → t ≠ t' := by
    rintro f rest e t' c x rfl h1 h2 h3 hve hx hc rfl
    obtain ⟨st', h4, g, hg, h5, h6⟩ := elem_frame hi hve hx
    rw [ht] at h4
    cases h4
    rcases List.mem_cons.1 hg with rfl | hg
    · rw [h3] at h6; cases h6
    · have := below (cfg := cfg) hr ht hg h5 (by rw [h1]; intro h; cases h)
      rw [h2, ← hc] at this
      exact irr _ this
  cases st with
  | nil => cases hu
  | cons f rest =>
    simp only [step, ht, act] at hs
    unfold lib at hs
    dsimp only at hs
    cases f with
    | insLock c k loc pre =>
      dsimp only at hs
      split at hs
      · rename_i ha
        obtain ⟨h0, o, d, h1, h2⟩ := hac c ha
        exact ⟨o, h1, .inl ⟨h0, c, d, .inl ⟨k, loc, pre, rest, ht⟩, h2⟩⟩
      · cases hs
    | relLock w =>
      dsimp only at hs
      split at hs
      · rename_i ha
        obtain ⟨h0, o, d, h1, h2⟩ := hac w.c ha
        exact ⟨o, h1, .inl ⟨h0, w.c, d, .inr ⟨w, rest, ht, rfl⟩, h2⟩⟩
      · cases hs
    | insUser c k e => cases hu
    | insFind c k loc pre =>
      dsimp only at hs
      split at hs
      · cases hs
      · split at hs
        · rename_i e hf
          split at hs
          · cases hs
          · rename_i hne
            obtain ⟨x, hx, hc, _⟩ := find_some hf
            cases hve : s.vis e with
            | none => exact absurd hve hne
            | some t' =>
              exact ⟨t', other rfl rfl rfl rfl hve hx hc, .inr ⟨c, .inl ⟨k, loc, pre, rest, ht⟩, e, x, hve, hx, hc⟩⟩
        · cases hs
    | gcPass c f todo =>
      dsimp only at hs
      split at hs
      · cases hs
      · rename_i hall
        rw [List.all_eq_true] at hall
        simp only [Classical.not_forall] at hall
        obtain ⟨e, he, hn⟩ := hall
        obtain ⟨_, hcore⟩ := hp t _ ht c f todo List.mem_cons_self e he
        cases hx : s.ents e with
        | none => simp [hx] at hn
        | some x =>
          have hve := hv e
          simp only [step, ht, act, hx] at hve
          split at hve
          · cases hve
          · rename_i hcond
            cases hvis : s.vis e with
            | none => exact absurd ⟨hcore x hx, .inl he, hvis⟩ hcond
            | some t' =>
              exact ⟨t', other rfl rfl rfl rfl hvis hx (hcore x hx),
                .inr ⟨c, .inr ⟨f, todo, rest, ht⟩, e, x, hvis, hx, hcore x hx⟩⟩
    | _ =>
      dsimp only at hs
      repeat' split at hs
      all_goals cases hs

/-- Threads never wait for each other in a circle. -/
theorem mayWait_wf {s : St K} (hi : Inv cfg s) (hr : RankInv calls has s) (hn : NoChk cfg s)
    (hwf : WellFounded fun a b => Order cfg calls has b a) : WellFounded fun a b => MayWait cfg s b a := by
  -- a thread that wants nothing
  have nothing : ∀ t, (∀ c, ¬ wantsMutex s t c) → (∀ c, ¬ wantsElems s t c) → Acc (fun a b => MayWait cfg s b a) t := by
    intro t h1 h2
    refine ⟨_, fun t' ⟨_, h⟩ => ?_⟩
    rcases h with ⟨_, c, d, h, _⟩ | ⟨c, h, _⟩
    · exact absurd h (h1 c)
    · exact absurd h (h2 c)
  have key : ∀ c, (∀ t, wantsElems s t c → Acc (fun a b => MayWait cfg s b a) t) ∧
      (cfg.locking = true → ∀ t, wantsMutex s t c → Acc (fun a b => MayWait cfg s b a) t) := by
    intro c
    induction c using hwf.transGen.induction with
    | _ c ih =>
      have down : ∀ {c'}, TransGen (Order cfg calls has) c c' → TransGen (fun a b => Order cfg calls has b a) c' c := by
        intro c' h
        rw [← transGen_swap] at h
        exact h
      -- a thread with a frame inside type `c` below the innermost one
      have deep : ∀ t f rest g, s.thr[t]? = some (f :: rest) → g ∈ rest → inside g = some c →
          Acc (fun a b => MayWait cfg s b a) t := by
        intro t f rest g ht hg hin
        by_cases h1 : ∃ c', wantsElems s t c'
        · obtain ⟨c', h1⟩ := h1
          have h3 : typ f = c' ∧ isRel f = false := by
            rcases h1 with ⟨k, loc, pre, rest', h⟩ | ⟨f', todo, rest', h⟩ <;> rw [ht] at h <;> cases h <;> exact ⟨rfl, rfl⟩
          have := below (cfg := cfg) hr ht hg hin (by rw [h3.2]; intro h; cases h)
          rw [h3.1] at this
          exact (ih c' (down this)).1 t h1
        · by_cases h2 : cfg.locking = true ∧ ∃ c', wantsMutex s t c'
          · obtain ⟨hlk, c', h2⟩ := h2
            have h3 : typ f = c' := by
              rcases h2 with ⟨k, loc, pre, rest', h⟩ | ⟨w, rest', h, rfl⟩ <;> rw [ht] at h <;> cases h <;> rfl
            have h4 : isRel f = true → isChk f = true := by
              rcases h2 with ⟨k, loc, pre, rest', h⟩ | ⟨w, rest', h, rfl⟩ <;> rw [ht] at h <;> cases h <;> exact id
            have := below (cfg := cfg) hr ht hg hin fun h =>
              ⟨hlk, hn _ (List.mem_of_getElem? ht) f List.mem_cons_self (h4 h)⟩
            rw [h3] at this
            exact (ih c' (down this)).2 hlk t h2
          · refine ⟨_, fun t' ⟨_, h⟩ => ?_⟩
            rcases h with ⟨hlk, c', d, h, _⟩ | ⟨c', h, _⟩
            · exact absurd ⟨hlk, c', h⟩ h2
            · exact absurd ⟨c', h⟩ h1
      have helem : ∀ t, wantsElems s t c → Acc (fun a b => MayWait cfg s b a) t := by
        intro t hw
        refine ⟨_, fun t' ⟨hne, h⟩ => ?_⟩
        rcases h with ⟨_, c', d, h, _⟩ | ⟨c', h, hat⟩
        · exfalso
          rcases h with ⟨_, _, _, _, h⟩ | ⟨_, _, h, _⟩ <;> rcases hw with ⟨_, _, _, _, h'⟩ | ⟨_, _, _, h'⟩ <;>
            rw [h] at h' <;> cases h'
        · have hcc : c' = c := by
            rcases h with ⟨_, _, _, _, h⟩ | ⟨_, _, _, h⟩ <;> rcases hw with ⟨_, _, _, _, h'⟩ | ⟨_, _, _, h'⟩ <;>
              rw [h] at h' <;> cases h' <;> rfl
          subst hcc
          obtain ⟨e, x, hve, hx, hc⟩ := hat
          obtain ⟨st, h4, g, hg, h5, h6⟩ := elem_frame hi hve hx
          rw [hc] at h5
          cases st with
          | nil => cases hg
          | cons f rest =>
            rcases List.mem_cons.1 hg with rfl | hg
            · refine nothing t' ?_ ?_
              · intro c'' h
                rcases h with ⟨_, _, _, _, h⟩ | ⟨_, _, h, _⟩ <;> rw [h4] at h <;> cases h <;> cases h6
              · intro c'' h
                rcases h with ⟨_, _, _, _, h⟩ | ⟨_, _, _, h⟩ <;> rw [h4] at h <;> cases h <;> cases h6
            · exact deep t' f rest g h4 hg h5
      refine ⟨helem, fun hlk t hw => ⟨_, fun t' ⟨hne, h⟩ => ?_⟩⟩
      rcases h with ⟨_, c', d, h, hl⟩ | ⟨c', h, _⟩
      · have hcc : c' = c := by
          rcases h with ⟨_, _, _, _, h⟩ | ⟨_, _, h, rfl⟩ <;> rcases hw with ⟨_, _, _, _, h'⟩ | ⟨_, _, h', rfl⟩ <;>
            rw [h] at h' <;> cases h' <;> rfl
        subst hcc
        obtain ⟨hd, hlt⟩ := hi.locks.pos c' t' d hl
        have ht' := List.getElem?_eq_getElem hlt
        have h1 := hi.locks.depth hlk t' _ ht' c'
        simp only [depthOf, hl, if_true] at h1
        obtain ⟨g, hg, hpos⟩ := exists_of_tot (g := holdF c') (l := s.thr[t']) (by omega)
        have h2 : holds g = some c' := by
          by_cases h : holds g = some c'
          · exact h
          · simp [holdF, h] at hpos
        have h3 : inside g = some c' := by cases g <;> first | exact h2 | cases h2
        rcases hst : s.thr[t'] with _ | ⟨f, rest⟩
        · rw [hst] at hg; cases hg
        · rw [hst] at hg ht'
          rcases List.mem_cons.1 hg with rfl | hg
          · -- the frame itself: it may be about to access elements of the same type
            by_cases hwe : wantsElems s t' c'
            · exact helem t' hwe
            · refine nothing t' ?_ ?_
              · intro c'' h
                rcases h with ⟨_, _, _, _, h⟩ | ⟨_, _, h, _⟩ <;> rw [ht'] at h <;> cases h <;> cases h2
              · intro c'' h
                have : c'' = c' := by
                  rcases h with ⟨_, _, _, _, h⟩ | ⟨_, _, _, h⟩ <;> rw [ht'] at h <;> cases h <;> cases h2
                  rfl
                rw [this] at h
                exact hwe h
          · exact deep t' f rest g ht' hg h3
      · exfalso
        rcases h with ⟨_, _, _, _, h⟩ | ⟨_, _, _, h⟩ <;> rcases hw with ⟨_, _, _, _, h'⟩ | ⟨_, _, h', _⟩ <;>
          rw [h] at h' <;> cases h'
  refine ⟨fun t => ?_⟩
  by_cases h1 : ∃ c, wantsElems s t c
  · obtain ⟨c, h1⟩ := h1
    exact (key c).1 t h1
  · by_cases h2 : cfg.locking = true ∧ ∃ c', wantsMutex s t c'
    · obtain ⟨hlk, c', h2⟩ := h2
      exact (key c').2 hlk t h2
    · refine ⟨_, fun t' ⟨_, h⟩ => ?_⟩
      rcases h with ⟨hlk, c', d, h, _⟩ | ⟨c', h, _⟩
      · exact absurd ⟨hlk, c', h⟩ h2
      · exact absurd ⟨c', h⟩ h1

theorem Reachable.length {n : Nat} {gcs : List Nat} {s : St K} (h : Reachable cfg calls has n gcs s) : s.thr.length = n + gcs.length := by
  induction h with
  | start => simp [CFac.start]
  | step _ _ _ hs ih => rw [step_length hs, ih]

/-- Threads that others wait for are among those of the program and the collectors. -/
theorem MayWait.real {n : Nat} {gcs : List Nat} {s : St K} (hr : Reachable cfg calls has n gcs s) (hi : Inv cfg s) {t t' : Nat}
    (h : TransGen (MayWait cfg s) t t') : t' < n + gcs.length := by
  have : ∃ t0, MayWait cfg s t0 t' := by
    cases h with
    | single h => exact ⟨_, h⟩
    | tail _ h => exact ⟨_, h⟩
  rw [← hr.length]
  obtain ⟨_, _, ⟨_, c, d, _, hl⟩ | ⟨c, _, e, x, hv, _⟩⟩ := this
  · exact (hi.locks.pos c t' d hl).2
  · exact hi.locks.owner e t' hv

end Verif.CFac

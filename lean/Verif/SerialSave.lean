import Verif.Observe

/-!
# Saving during a program

Saves to an archive of flyweights of one type, interleaved with any other uses of flyweights of
this type: /repo/include/boost/flyweight/serialize.hpp:47-63 and `save_helper` in
/repo/include/boost/flyweight/detail/serialization_helper.hpp:44-71, on top of the model of
flyweights in `Verif/Core.lean`.
-/

set_option autoImplicit false

namespace Verif

/-- The program's flyweights have even names here, those in the helper of the archive odd ones.
(No code of its own: used in statements and proofs.) -/
def Op.even {K V : Type} : Op K V → Op K V
  | .init => .init
  | .make x s => .make (2 * x) s
  | .copy x y => .copy (2 * x) (2 * y)
  | .move x y => .move (2 * x) (2 * y)
  | .assign x y => .assign (2 * x) (2 * y)
  | .assignVal x s => .assignVal (2 * x) s
  | .swap x y => .swap (2 * x) (2 * y)
  | .destroy x => .destroy (2 * x)
  | .get x => .get (2 * x)
  | .getKey x => .getKey (2 * x)
  | .eq x y => .eq (2 * x) (2 * y)
  | .hash x => .hash (2 * x)

namespace Saving

/-- What in `save` throws: writing the number, writing the key, or `push_back` (allocation),
/repo/include/boost/flyweight/serialize.hpp:58-61. -/
inductive Fail where
  | none
  | item
  | key
  | push
  deriving DecidableEq

/-- What a program does: use flyweights, or save one.  (No code of its own: used in statements
and proofs.) -/
inductive SOp (K V : Type) where
  | op (o : Op K V)
  | save (x : Nat) (f : Fail)

/-- What was done by a call of `save` that got past writing the number: flyweight `x`, which referred to
address `addr`, key `key` and value `val` at that time, was saved as number `item`, followed
by key `wrote` if any; `done`: it returned normally.  (No code of its own: used in statements
and proofs.) -/
structure Rec (K V : Type) where
  x : Nat
  addr : Nat
  key : K
  val : V
  item : Nat
  wrote : Option K
  done : Bool

/-- The program, the size of the table in the archive's helper, whose flyweights are
`1, 3, ..., 2 * size - 1`, and what was saved.  (No code of its own: used in statements and
proofs.) -/
structure ASt (K V Rep F : Type) where
  core : St Rep F
  size : Nat
  log : List (Rec K V)

variable {K V Rep F : Type} (S : Setup K V Rep F)

/-- Address of the value of a flyweight in the table: the key extractor of its hashed index,
/repo/include/boost/flyweight/detail/serialization_helper.hpp:36-42. -/
def addrOf (s : St Rep F) (i : Nat) : Option Nat :=
  match Core.get S.P S.Fa (2 * i + 1) s with
  | .ok p _ => some p.1
  | _ => Option.none

/-- `save_helper::find`, /repo/include/boost/flyweight/detail/serialization_helper.hpp:61-65: the
position of the flyweight in the table with the address of the value of the argument, or
`size()`. -/
def find (s : St Rep F) (size : Nat) (a : Nat) : Nat :=
  (List.range size).findIdx fun i => addrOf S s i == some a

/-- One thing that the program does; `none`: undefined behaviour.  `save` follows
/repo/include/boost/flyweight/serialize.hpp:47-63. -/
def step (hp : Nat → Nat) (st : ASt K V Rep F) : SOp K V → Option (ASt K V Rep F)
  | .op o => match S.resume hp st.core [o.even] with
    | some (_, s) => some { st with core := s }
    | none => Option.none
  | .save x f =>
    if (st.core.objs.map Prod.fst).contains (2 * x) then
      match Core.get S.P S.Fa (2 * x) st.core, Core.getKey S.P S.Fa (2 * x) st.core with
      | .ok (a, v) _, .ok k _ =>
        let n := find S st.core st.size a
        if f = .item then some st
        else if n = st.size then
          if f = .key then some { st with log := st.log ++ [⟨x, a, k, v, n, Option.none, false⟩] }
          else if f = .push then some { st with log := st.log ++ [⟨x, a, k, v, n, some k, false⟩] }
          else match S.perform hp (.copy (2 * n + 1) (2 * x)) st.core with
            | .ok _ s => some ⟨s, st.size + 1, st.log ++ [⟨x, a, k, v, n, some k, true⟩]⟩
            | .exc s => some { st with core := s, log := st.log ++ [⟨x, a, k, v, n, some k, false⟩] }
            | .ub => Option.none
        else some { st with log := st.log ++ [⟨x, a, k, v, n, Option.none, true⟩] }
      | _, _ => Option.none
    else some st

/-- A program that saves to one archive, from its start.  (No code of its own: used in
statements and proofs.) -/
def run (hp : Nat → Nat) (st : ASt K V Rep F) : List (SOp K V) → Option (ASt K V Rep F)
  | [] => some st
  | o :: os => (step S hp st o).bind fun st => run hp st os

/-- State at program start, with an archive without any contents.  (No code of its own: used in
statements and proofs.) -/
def start (fl : Nat → Bool) (alloc : Nat → List Nat → Nat) : ASt K V Rep F :=
  ⟨Core.start S.Fa fl alloc, 0, []⟩

/-! ## Lemmas -/

open Setup

theorem even_touches (o : Op K V) (i : Nat) : o.even.touches (2 * i + 1) = false := by
  cases o <;> simp [Op.even, Op.touches] <;> omega

theorem SStep.odd {trk : Tracking} {keq : K → K → Bool} {sp : SrcSpec K V} {hp : Nat → Nat} {t t' : SSt K V}
    {o : Op K V} {out : Out K V} (hs : SStep trk keq sp hp t o.even out t') {i : Nat}
    (h : 2 * i + 1 ∈ t'.names) : 2 * i + 1 ∈ t.names := by
  have hcv : ∀ {src c t₁}, Create trk keq sp t src c t₁ → t₁.vars = t.vars := by
    intro src c t₁ hc
    cases hc <;> rfl
  cases o <;> simp only [Op.even] at hs <;> cases hs <;> try exact h
  case make b t1 hc =>
    simp only [SSt.names, List.map_cons, List.mem_cons, hcv hc] at h
    exact h.resolve_left (by omega)
  case copy =>
    simp only [SSt.names, List.map_cons, List.mem_cons] at h
    exact h.resolve_left (by omega)
  case move =>
    simp only [SSt.names, List.map_cons, List.mem_cons] at h
    exact h.resolve_left (by omega)
  case assign =>
    simpa only [SSt.names, rebind_names] using h
  case assignVal b t1 hc =>
    simpa only [SSt.names, rebind_names, hcv hc] using h
  case swap =>
    simpa only [SSt.names, rebind_names] using h
  case destroy =>
    obtain ⟨p, hp, he⟩ := List.mem_map.1 h
    exact List.mem_map.2 ⟨p, (List.mem_filter.1 hp).1, he⟩

/-- The helper holds `size` flyweights, and what has been saved is described by them.  (No code
of its own: used in statements and proofs.) -/
structure Ok (fl : Nat → Bool) (st : ASt K V Rep F) (t : SSt K V) : Prop where
  sim : Sim S fl st.core t
  ok : SOk S.trk S.keq t
  odd : ∀ i, 2 * i + 1 ∈ t.names ↔ i < st.size
  log : ∀ r ∈ st.log, (r.done = true → (2 * r.item + 1, ⟨r.addr, r.key, r.val⟩) ∈ t.vars) ∧
    (∀ k, r.wrote = some k → k = r.key) ∧ r.item ≤ st.size
  intro : ∀ i, i < st.size → ∃ r ∈ st.log, r.item = i ∧ r.done = true ∧ r.wrote = some r.key

variable {S}

theorem addrOf_eq {fl : Nat → Bool} {s : St Rep F} {t : SSt K V} (hS : Sim S fl s t) {i : Nat} {b : Bind K V}
    (h : (2 * i + 1, b) ∈ t.vars) : addrOf S s i = some b.addr := by
  have := ((sees_iff hS).2 h).1
  rw [addrOf, this]

theorem step_ok {hp : Nat → Nat} {fl : Nat → Bool} {st : ASt K V Rep F} {t : SSt K V} (h : Ok S fl st t) (o : SOp K V) :
    ∃ st' t', step S hp st o = some st' ∧ Ok S fl st' t' := by
  cases o with
  | op o =>
    obtain ⟨outs, s, t', h1, h2, h3, _⟩ := exec_sim hp [o.even] h.sim
    have hodd : ∀ i, 2 * i + 1 ∈ t'.names → 2 * i + 1 ∈ t.names := by
      intro i hi
      cases h2 with
      | step hv hs hr => cases hr; exact SStep.odd hs hi
      | skip hv hr => cases hr; exact hi
    have hkeep : ∀ {i b}, (2 * i + 1, b) ∈ t.vars → (2 * i + 1, b) ∈ t'.vars := fun hb =>
      h2.keep (fun op hop => by rw [List.mem_singleton.1 hop]; exact even_touches o _) hb
    refine ⟨{ st with core := s }, t', by simp only [step, Setup.resume, h1], h3, h2.ok S.LS h.ok, fun i => ?_, ?_,
      h.intro⟩
    · rw [← h.odd i]
      refine ⟨hodd i, fun hi => ?_⟩
      obtain ⟨⟨z, b⟩, hb, he⟩ := List.mem_map.1 hi
      subst he
      exact List.mem_map.2 ⟨_, hkeep hb, rfl⟩
    · intro r hr
      obtain ⟨l1, l2, l3⟩ := h.log r hr
      exact ⟨fun hd => hkeep (l1 hd), l2, l3⟩
  | save x f =>
    simp only [step]
    by_cases hx : 2 * x ∈ st.core.objs.map Prod.fst
    · rw [if_pos (by simpa using hx)]
      obtain ⟨a, k, v, hsee⟩ := (mem_names h.sim).1 hx
      have hb := (sees_iff h.sim).1 hsee
      rw [hsee.1, hsee.2]
      dsimp only
      have hle : find S st.core st.size a ≤ st.size := by
        have := List.findIdx_le_length (xs := List.range st.size) (p := fun i => addrOf S st.core i == some a)
        rwa [List.length_range] at this
      have hlog : ∀ {w d}, (d = true → (2 * find S st.core st.size a + 1, (⟨a, k, v⟩ : Bind K V)) ∈ t.vars) →
          (∀ l, w = some l → l = k) → ∀ r ∈ st.log ++ [⟨x, a, k, v, find S st.core st.size a, w, d⟩],
          (r.done = true → (2 * r.item + 1, (⟨r.addr, r.key, r.val⟩ : Bind K V)) ∈ t.vars) ∧
          (∀ k, r.wrote = some k → k = r.key) ∧ r.item ≤ st.size := by
        intro w d hd hw r hr
        rcases List.mem_append.1 hr with hr | hr
        · exact h.log r hr
        · rw [List.mem_singleton.1 hr]
          exact ⟨hd, hw, hle⟩
      have hintro : ∀ r : Rec K V, ∀ i, i < st.size →
          ∃ r' ∈ st.log ++ [r], r'.item = i ∧ r'.done = true ∧ r'.wrote = some r'.key := by
        intro r i hi
        obtain ⟨r', h1, h2⟩ := h.intro i hi
        exact ⟨r', List.mem_append.2 (.inl h1), h2⟩
      by_cases hf : f = .item
      · exact ⟨st, t, by rw [if_pos hf], h⟩
      rw [if_neg hf]
      by_cases hn : find S st.core st.size a = st.size
      · rw [if_pos hn]
        by_cases hf1 : f = .key
        · rw [if_pos hf1]
          exact ⟨_, t, rfl, h.sim, h.ok, h.odd, hlog (fun h => (by cases h)) (fun l h => (by cases h)), hintro _⟩
        rw [if_neg hf1]
        by_cases hf2 : f = .push
        · rw [if_pos hf2]
          exact ⟨_, t, rfl, h.sim, h.ok, h.odd, hlog (fun h => (by cases h)) (fun l h => (by cases h; rfl)), hintro _⟩
        rw [if_neg hf2]
        have hnew : 2 * st.size + 1 ∉ t.names := fun hm => Nat.lt_irrefl _ ((h.odd _).1 hm)
        have hv : (Op.copy (2 * find S st.core st.size a + 1) (2 * x) : Op K V).valid S.sp
            (st.core.objs.map Prod.fst) = true := by
          have h' : 2 * st.size + 1 ∉ st.core.objs.map Prod.fst := by
            rw [← h.sim.rel.vars.names]; exact hnew
          rw [hn]
          simp only [Op.valid, Bool.and_eq_true, Bool.not_eq_true', List.contains_eq_mem, decide_eq_true_eq,
            decide_eq_false_iff_not]
          exact ⟨h', hx⟩
        rcases perform_cases h.sim hp hv with ⟨out, s', t', h1, _, h2, h3⟩ | ⟨s', h1, h2, h3, _⟩
        · rw [h1]
          dsimp only
          have hv' : (Op.copy (2 * find S st.core st.size a + 1) (2 * x) : Op K V).valid S.sp t.names = true := by
            rw [show t.names = st.core.objs.map Prod.fst from h.sim.rel.vars.names]; exact hv
          have hok' := h2.ok S.LS h.ok hv'
          cases h2 with
          | copy _ _ b hb' =>
            have : b = ⟨a, k, v⟩ := bind_unique h.ok.nodup hb' hb
            subst this
            refine ⟨_, _, rfl, h3, hok', fun i => ?_, ?_, fun i hi => ?_⟩
            · simp only [SSt.names, List.map_cons, List.mem_cons]
              have := h.odd i
              simp only [SSt.names] at this
              rw [this, hn]
              omega
            · intro r hr
              rcases List.mem_append.1 hr with hr | hr
              · obtain ⟨l1, l2, l3⟩ := h.log r hr
                exact ⟨fun hd => List.mem_cons_of_mem _ (l1 hd), l2, by dsimp only; omega⟩
              · rw [List.mem_singleton.1 hr]
                exact ⟨fun _ => List.mem_cons_self, fun l hl => (by cases hl; rfl), by dsimp only; omega⟩
            · by_cases he : i = st.size
              · exact ⟨_, List.mem_append.2 (.inr (List.mem_singleton.2 rfl)), by rw [he]; exact hn, rfl, rfl⟩
              · exact hintro _ i (by dsimp only at hi; omega)
        · rw [h1]
          exact ⟨_, t, rfl, h3, h.ok, h.odd, hlog (fun h => (by cases h)) (fun l h => (by cases h; rfl)), hintro _⟩
      · rw [if_neg hn]
        refine ⟨_, t, rfl, h.sim, h.ok, h.odd, hlog (fun _ => ?_) (fun l h => (by cases h)), hintro _⟩
        have hlt : find S st.core st.size a < st.size := by omega
        have hfound : addrOf S st.core (find S st.core st.size a) = some a := by
          have := List.findIdx_getElem (xs := List.range st.size) (p := fun i => addrOf S st.core i == some a)
            (w := by rw [List.length_range]; exact hlt)
          rw [List.getElem_range] at this
          simpa [find] using this
        obtain ⟨⟨z, b⟩, hb', he⟩ := List.mem_map.1 ((h.odd _).2 hlt)
        simp only at he
        subst he
        rw [addrOf_eq h.sim hb'] at hfound
        have : b = ⟨a, k, v⟩ := h.ok.addr b (h.ok.bound hb') _ (h.ok.bound hb) (by simpa using hfound)
        rw [← this]
        exact hb'
    · rw [if_neg (by simpa using hx)]
      exact ⟨st, t, rfl, h⟩

theorem run_ok {hp : Nat → Nat} {fl : Nat → Bool} (os : List (SOp K V)) : ∀ {st : ASt K V Rep F} {t : SSt K V},
    Ok S fl st t → ∃ st' t', run S hp st os = some st' ∧ Ok S fl st' t' := by
  induction os with
  | nil => intro st t h; exact ⟨st, t, rfl, h⟩
  | cons o os ih =>
    intro st t h
    obtain ⟨st1, t1, h1, h2⟩ := step_ok (hp := hp) h o
    obtain ⟨st2, t2, h3, h4⟩ := ih h2
    exact ⟨st2, t2, by simp only [run, h1]; exact h3, h4⟩

theorem start_ok (fl : Nat → Bool) {alloc : Nat → List Nat → Nat} (hal : ∀ n l, alloc n l ∉ l) :
    Ok S fl (start S fl alloc) SSt.start :=
  ⟨sim_start S fl hal, SOk.start _ _, fun i => by simp [SSt.start, SSt.names, start], fun r hr => (by cases hr),
    fun i hi => absurd hi (Nat.not_lt_zero i)⟩

end Saving
end Verif

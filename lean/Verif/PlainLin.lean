import Verif.PlainRank
import Verif.Lasting

/-!
# Flyweights without tracking refine the atomic specification
-/

set_option autoImplicit false

namespace Verif.Plain
open Verif.Conc (Fw Act Cfg CfgOk pick tot tot_cons tot_append tot_le split)
open Verif.Atomic (Val Call setVal)
variable {K : Type} {cfg : Cfg K}

/-- Calls that a frame stands for.  (No code of its own: used in statements and proofs.) -/
def absF (ents : Nat → Option (Ent K)) : Frame K → List (Call K)
  | .lock c k loc _ => [.create c k loc]
  | .find c k loc _ => [.create c k loc]
  | .visit c k e loc new =>
    if new then match ents e with
      | some x => if x.cted then [.made ⟨e, c, k⟩ []] else [.build c k x.kids]
      | none => []
    else [.create c k loc]
  | .user c k e => match ents e with
    | some x => [.build c k x.kids]
    | none => []
  | .done c k e => match ents e with
    | some x => [.built c k x.kids]
    | none => []
  | .catch_ _ _ => []
  | .unwind _ => []
  | .unlock c k e => [.made ⟨e, c, k⟩ []]

/-- Calls that a stack stands for.  (No code of its own: used in statements and proofs.) -/
def absS (ents : Nat → Option (Ent K)) (st : List (Frame K)) : List (Call K) := st.flatMap (absF ents)

/-- Values.  (No code of its own: used in statements and proofs.) -/
def absV (ents : Nat → Option (Ent K)) (e : Nat) : Option (Val K) :=
  (ents e).bind fun x => if x.cted then some ⟨x.core, x.key, x.kids⟩ else none

/-- The state of the specification that a state of the model stands for.  (No code of its own: used in statements and proofs.) -/
def abs (s : St K) : Atomic.St K := ⟨absV s.ents, s.objs, s.thr.map (absS s.ents)⟩

@[simp] theorem absS_nil (ents : Nat → Option (Ent K)) : absS ents [] = [] := rfl
@[simp] theorem absS_cons (ents : Nat → Option (Ent K)) (f : Frame K) (st : List (Frame K)) :
    absS ents (f :: st) = absF ents f ++ absS ents st := by simp [absS]

theorem absF_congr {ents ents' : Nat → Option (Ent K)} {f : Frame K} (h : ∀ e, 0 < ownF e f → ents' e = ents e) :
    absF ents' f = absF ents f := by
  cases f with
  | visit c k e loc new =>
    cases new with
    | false => rfl
    | true => simp only [absF]; rw [h e (by simp [ownF])]
  | user c k e => simp only [absF]; rw [h e (by simp [ownF])]
  | done c k e => simp only [absF]; rw [h e (by simp [ownF])]
  | _ => rfl

theorem absS_congr {ents ents' : Nat → Option (Ent K)} {st : List (Frame K)}
    (h : ∀ f ∈ st, ∀ e, 0 < ownF e f → ents' e = ents e) : absS ents' st = absS ents st := by
  induction st with
  | nil => rfl
  | cons f st ih => rw [absS_cons, absS_cons, absF_congr (h f (by simp)), ih fun g hg => h g (by simp [hg])]

theorem abs_top {s : St K} {t : Nat} {st : List (Frame K)} (h : s.thr[t]? = some st) :
    (abs s).thr[t]? = some (absS s.ents st) := by simp [abs, h]

theorem absV_some {ents : Nat → Option (Ent K)} {e : Nat} {x : Ent K} (hx : ents e = some x) (hc : x.cted = true) :
    absV ents e = some ⟨x.core, x.key, x.kids⟩ := by simp [absV, hx, hc]

theorem of_absV {ents : Nat → Option (Ent K)} {e : Nat} {v : Val K} (h : absV ents e = some v) :
    ∃ x, ents e = some x ∧ x.cted = true ∧ v = ⟨x.core, x.key, x.kids⟩ := by
  unfold absV at h
  cases hx : ents e with
  | none => rw [hx] at h; cases h
  | some x =>
    rw [hx] at h
    simp only [Option.bind_some] at h
    split at h
    · rename_i hc
      cases h
      exact ⟨x, rfl, hc, rfl⟩
    · cases h

theorem absV_none {ents : Nat → Option (Ent K)} {e : Nat} (h : ∀ x, ents e = some x → x.cted = false) : absV ents e = none := by
  cases hv : absV ents e with
  | none => rfl
  | some v =>
    obtain ⟨x, hx, hc, _⟩ := of_absV hv
    rw [h x hx] at hc
    cases hc

theorem absV_set {ents : Nat → Option (Ent K)} {e : Nat} {x : Ent K} (hc : x.cted = true) :
    absV (setEnt ents e (some x)) = setVal (absV ents) e (some ⟨x.core, x.key, x.kids⟩) := by
  funext i
  unfold absV setVal setEnt
  split
  · simp [hc]
  · rfl

theorem absV_same {ents : Nat → Option (Ent K)} {e : Nat} {o : Option (Ent K)} (h : ∀ x, ents e = some x → x.cted = false)
    (h' : ∀ x, o = some x → x.cted = false) : absV (setEnt ents e o) = absV ents := by
  funext i
  by_cases hi : i = e
  · subst hi
    rw [absV_none h, absV_none fun x hx => h' x (by rwa [setEnt_same] at hx)]
  · unfold absV
    rw [setEnt_ne _ _ hi]

/-- The stacks when a thread changes its own and an entry that no other frame is in charge of. -/
theorem abs_thr {s : St K} {t : Nat} {f : Frame K} {rest new : List (Frame K)} {ents : Nat → Option (Ent K)}
    (ht : s.thr[t]? = some (f :: rest)) (h1 : ∀ g ∈ rest, ∀ e, 0 < ownF e g → ents e = s.ents e)
    (h2 : ∀ (t' : Nat) (st' : List (Frame K)), t' ≠ t → s.thr[t']? = some st' → ∀ g ∈ st', ∀ e, 0 < ownF e g → ents e = s.ents e) :
    (s.thr.set t (new ++ rest)).map (absS ents) =
      (s.thr.map (absS s.ents)).set t (absS ents new ++ absS s.ents rest) := by
  have hr : absS ents (new ++ rest) = absS ents new ++ absS s.ents rest := by
    rw [← absS_congr h1]
    simp [absS]
  apply List.ext_getElem?
  intro i
  rw [List.getElem?_map]
  by_cases hi : t = i
  · subst hi
    have hlt := (List.getElem?_eq_some_iff.1 ht).1
    rw [List.getElem?_set_self hlt, List.getElem?_set_self (by simpa using hlt)]
    exact congrArg some hr
  · rw [List.getElem?_set_ne hi, List.getElem?_set_ne hi, List.getElem?_map]
    cases hst : s.thr[i]? with
    | none => rfl
    | some st => exact congrArg some (absS_congr (h2 i st (Ne.symm hi) hst))

/-- Frames other than the one in charge. -/
theorem Inv.others {s : St K} (h : Inv cfg s) {t e : Nat} {f : Frame K} {rest : List (Frame K)}
    (ht : s.thr[t]? = some (f :: rest)) (ho : 0 < ownF e f) {x : Option (Ent K)} :
    (∀ g ∈ rest, ∀ i, 0 < ownF i g → setEnt s.ents e x i = s.ents i) ∧
    ∀ (t' : Nat) (st' : List (Frame K)), t' ≠ t → s.thr[t']? = some st' → ∀ g ∈ st', ∀ i, 0 < ownF i g →
      setEnt s.ents e x i = s.ents i := by
  obtain ⟨A, B, h1, _, _⟩ := split ht
  have hown := h.core.own e
  unfold frames at hown
  rw [h1, tot_append, tot_append, tot_cons] at hown
  have ne : ∀ {g : Frame K} {i : Nat}, ownF e g = 0 → 0 < ownF i g → setEnt s.ents e x i = s.ents i := by
    intro g i h2 h3
    refine setEnt_ne _ _ ?_
    rintro rfl
    omega
  refine ⟨fun g hg i hi => ne ?_ hi, fun t' st' hne ht' g hg i hi => ne ?_ hi⟩
  · have := tot_le (g := ownF e) hg
    omega
  · obtain ⟨A', B', h1', h2', h3'⟩ := split ht'
    -- remove the stack of `t'`: the frame of `t` is still there
    have hmem : (f :: rest) ∈ s.thr.set t' [] := by
      refine List.mem_iff_getElem?.2 ⟨t, ?_⟩
      rw [List.getElem?_set_ne hne, ht]
    have h4 : f ∈ A' ++ B' := by
      have := List.mem_flatten.2 ⟨_, hmem, List.mem_cons_self⟩
      rw [h2' []] at this
      simpa using this
    have h5 := h.core.own e
    unfold frames at h5
    rw [h1', tot_append, tot_append] at h5
    have h6 := tot_le (g := ownF e) h4
    rw [tot_append] at h6
    have h7 := tot_le (g := ownF e) hg
    omega

theorem inUser_abs {ents : Nat → Option (Ent K)} {st : List (Frame K)} (hok : ∀ f ∈ st, FrameOk cfg ents f)
    (h : inUser st = true) : Atomic.inUser (absS ents st) = true := by
  cases st with
  | nil => rfl
  | cons f st =>
    cases f with
    | user c k e =>
      obtain ⟨x, hx, _⟩ := hok _ List.mem_cons_self
      simp [absF, hx, Atomic.inUser]
    | _ => cases h

theorem of_eq {eqv : Nat → K → K → Bool} {a a1 a2 : Atomic.St K} {t : Nat} {act : Act K} (h : Lasting.Step eqv a t act a1)
    (he : a2 = a1) : Lasting.Step eqv a t act a2 := he ▸ h

/-- Whatever a thread does next, the specification does the same or, if it is a step in the library, nothing. -/
theorem step_sim {s s' : St K} (hi : Inv cfg s) {t : Nat} {a : Act K} (hs : step cfg s t a = .ok s') :
    (a = .run ∧ abs s' = abs s) ∨ Lasting.Step cfg.eqv (abs s) t a (abs s') := by
  unfold step at hs
  cases ht : s.thr[t]? with
  | none => rw [ht] at hs; cases hs
  | some st =>
    rw [ht] at hs
    have hfr : ∀ f ∈ st, FrameOk cfg s.ents f := fun f hf =>
      hi.core.frames f (List.mem_flatten.2 ⟨_, List.mem_of_getElem? ht, hf⟩)
    have ha := abs_top ht
    -- the entries do not change
    have thr0 : ∀ st', (s.thr.set t st').map (absS s.ents) = (s.thr.map (absS s.ents)).set t (absS s.ents st') :=
      fun st' => List.map_set
    have same : ∀ {f g : Frame K} {rest : List (Frame K)}, st = f :: rest → absF s.ents g = absF s.ents f →
        (s.thr.set t (g :: rest)).map (absS s.ents) = s.thr.map (absS s.ents) := by
      intro f g rest hst he
      rw [thr0, absS_cons, he, ← absS_cons, ← hst]
      apply List.ext_getElem?
      intro i
      by_cases hi : t = i
      · subst hi
        rw [List.getElem?_set_self (by simpa using (List.getElem?_eq_some_iff.1 ht).1), List.getElem?_map, ht]
        rfl
      · rw [List.getElem?_set_ne hi]
    have same0 : ∀ {f : Frame K} {rest : List (Frame K)}, st = f :: rest → absF s.ents f = [] →
        (s.thr.set t rest).map (absS s.ents) = s.thr.map (absS s.ents) := by
      intro f rest hst he
      have h1 : absS s.ents rest = absS s.ents st := by rw [hst, absS_cons, he, List.nil_append]
      rw [thr0, h1]
      apply List.ext_getElem?
      intro i
      by_cases hi : t = i
      · subst hi
        rw [List.getElem?_set_self (by simpa using (List.getElem?_eq_some_iff.1 ht).1), List.getElem?_map, ht]
        rfl
      · rw [List.getElem?_set_ne hi]
    cases a with
    | run =>
      dsimp only [act] at hs
      cases st with
      | nil => cases hs
      | cons f rest =>
        rw [absS_cons] at ha
        have hf := hfr f List.mem_cons_self
        cases f with
        | lock c k loc pre =>
          dsimp only [lib] at hs
          split at hs <;> cases hs
          exact .inl ⟨rfl, by simp only [abs]; rw [same (g := .find c k loc pre) rfl rfl]⟩
        | find c k loc pre =>
          dsimp only [lib] at hs
          split at hs <;> cases hs
          · rename_i e _
            exact .inl ⟨rfl, by simp only [abs]; rw [same (g := .visit c k e loc false) rfl rfl]⟩
          · rename_i hn
            refine .inr ?_
            have hfree := find_none hi.core.bound hn
            have hnext := hi.core.bound s.next (Nat.le_refl _)
            have hcong : ∀ g ∈ frames s, ∀ e, 0 < ownF e g → setEnt s.ents s.next (some ⟨c, k, pre, loc, s.clock⟩) e = s.ents e := by
              intro g hg e he
              refine setEnt_ne _ _ ?_
              rintro rfl
              rw [(hi.core.frames g hg).fresh hnext] at he
              cases he
            have hthr := abs_thr (new := [.visit c k s.next [] true]) ht
              (fun g hg => hcong g (List.mem_flatten.2 ⟨_, List.mem_of_getElem? ht, List.mem_cons_of_mem _ hg⟩))
              (fun t' st' _ ht' g hg => hcong g (List.mem_flatten.2 ⟨_, List.mem_of_getElem? ht', hg⟩))
            have hF : (abs s).Free cfg.eqv c k := by
              intro e v hv hc
              obtain ⟨x, hx, _, rfl⟩ := of_absV hv
              exact hfree e x hx hc
            have hnone : (abs s).vals s.next = none := absV_none fun x hx => by rw [hnext] at hx; cases hx
            cases pre with
            | true =>
              have := Lasting.Step.keep (eqv := cfg.eqv) (h := s.next) ha hF hnone
              refine of_eq this ?_
              simp only [abs, Atomic.St.go]
              rw [absV_set rfl]
              congr 1
              refine Eq.trans hthr ?_
              simp [absF, setEnt_same]
            | false =>
              have := Lasting.Step.start (eqv := cfg.eqv) ha hF
              refine of_eq this ?_
              simp only [abs, Atomic.St.go]
              rw [absV_same (fun x hx => by rw [hnext] at hx; cases hx) (fun x hx => by cases hx; rfl)]
              congr 1
              refine Eq.trans hthr ?_
              simp [absF, setEnt_same]
        | visit c k e loc new =>
          obtain ⟨x, hx, h1, h2, h3⟩ := hf
          dsimp only [lib] at hs
          rw [hx] at hs
          dsimp only at hs
          split at hs
          · rename_i hc
            cases hs
            cases new with
            | true =>
              refine .inl ⟨rfl, ?_⟩
              simp only [abs]
              rw [same rfl]
              simp [absF, hx, hc]
            | false =>
              refine .inr ?_
              have := Lasting.Step.share (eqv := cfg.eqv) (h := e) ha (absV_some hx hc) h1 h2
              refine of_eq this ?_
              simp only [abs, Atomic.St.go]
              rw [thr0]
              rfl
          · rename_i hc
            cases new with
            | true =>
              cases hs
              refine .inl ⟨rfl, ?_⟩
              simp only [abs]
              rw [same rfl]
              simp [absF, hx, hc]
            | false => cases hs
        | user c k e => cases hs
        | done c k e =>
          obtain ⟨x, hx, h1, h2, h3, h4⟩ := hf
          dsimp only [lib] at hs
          rw [hx] at hs
          cases hs
          refine .inr ?_
          obtain ⟨o1, o2⟩ := hi.others ht (e := e) (by simp [ownF]) (x := some { x with cted := true, stamp := s.clock })
          have hthr := abs_thr (new := [.unlock c k e]) ht o1 o2
          simp only [absF, hx] at ha
          have hF : (abs s).Free cfg.eqv c k := by
            intro i v hv hc
            obtain ⟨y, hy, hyc, rfl⟩ := of_absV hv
            cases hb : cfg.eqv c y.key k with
            | false => rfl
            | true =>
              have : i = e := hi.core.uniq i e y x hy hx (by rw [h1]; exact hc) (by
                have hc' : y.core = c := hc
                rw [hc', h4]
                exact hb)
              subst this
              rw [hx] at hy
              cases hy
              rw [h3] at hyc
              cases hyc
          have := Lasting.Step.store (eqv := cfg.eqv) (h := e) ha hF (absV_none fun y hy => by
            rw [hx] at hy; cases hy; exact h3)
          refine of_eq this ?_
          simp only [abs, Atomic.St.go]
          rw [absV_set rfl]
          congr 1
          · simp [h1, h4]
        | catch_ c e =>
          obtain ⟨x, hx, h1, h2⟩ := hf
          dsimp only [lib] at hs
          rw [hx] at hs
          cases hs
          refine .inl ⟨rfl, ?_⟩
          obtain ⟨o1, o2⟩ := hi.others ht (e := e) (by simp [ownF]) (x := none)
          have hthr := abs_thr (new := [.unwind c]) ht o1 o2
          simp only [abs]
          rw [absV_same (fun y hy => by rw [hx] at hy; cases hy; exact h2) (by simp)]
          congr 1
          refine Eq.trans hthr ?_
          have h5 := same (f := .catch_ c e) (g := .unwind c) rfl rfl
          rw [thr0] at h5
          exact h5
        | unwind c =>
          dsimp only [lib] at hs
          split at hs <;> cases hs
          exact .inl ⟨rfl, by simp only [abs]; rw [same0 rfl rfl]⟩
        | unlock c k e =>
          dsimp only [lib] at hs
          split at hs <;> cases hs
          refine .inr ?_
          have := Lasting.Step.ret (eqv := cfg.eqv) ha
          refine of_eq this ?_
          simp only [abs, Atomic.St.go]
          rw [thr0]
          rfl
    | create c k mask pre =>
      dsimp only [act] at hs
      split at hs <;> cases hs
      rename_i hu
      refine .inr ?_
      have := Lasting.Step.create (eqv := cfg.eqv) (c := c) (k := k) (mask := mask) (pre := pre) ha (inUser_abs hfr hu)
      refine of_eq this ?_
      simp only [abs, Atomic.St.go]
      rw [thr0]
      rfl
    | destroy mask =>
      dsimp only [act] at hs
      split at hs <;> cases hs
      rename_i hu
      exact .inr (.destroy ha (inUser_abs hfr hu))
    | copy i =>
      dsimp only [act] at hs
      repeat' split at hs
      all_goals cases hs
      rename_i hu _ _ hw
      exact .inr (.copy ha (inUser_abs hfr hu) hw)
    | copyKid i j =>
      dsimp only [act] at hs
      repeat' split at hs
      all_goals cases hs
      rename_i hu _ _ hw _ _ hx hc _ _ hv
      exact .inr (.copyKid ha (inUser_abs hfr hu) hw (absV_some hx hc) hv)
    | swap i j =>
      dsimp only [act] at hs
      repeat' split at hs
      all_goals cases hs
      rename_i hu _ _ _ _ hv hw
      exact .inr (.swap ha (inUser_abs hfr hu) hv hw)
    | read i =>
      dsimp only [act] at hs
      repeat' split at hs
      all_goals cases hs
      rename_i hu _ _ hw _ _ hx hc
      exact .inr (.read ha (inUser_abs hfr hu) hw (absV_some hx hc))
    | finish mask dr =>
      dsimp only [act] at hs
      split at hs
      · rename_i c k e rest
        obtain ⟨x, hx, h1, h2, h3, h4⟩ := hfr _ List.mem_cons_self
        rw [hx] at hs
        dsimp only at hs
        rw [if_neg (by simp [h3])] at hs
        cases hs
        refine .inr ?_
        rw [absS_cons] at ha
        simp only [absF, hx] at ha
        obtain ⟨o1, o2⟩ := hi.others ht (e := e) (by simp [ownF])
          (x := some { x with kids := if dr then (pick mask s.objs).1 else x.kids ++ (pick mask s.objs).1 })
        have hthr := abs_thr (new := [.done c k e]) ht o1 o2
        have := Lasting.Step.finish (eqv := cfg.eqv) (mask := mask) (dr := dr) ha
        refine of_eq this ?_
        simp only [abs, Atomic.St.go]
        rw [absV_same (fun y hy => by rw [hx] at hy; cases hy; exact h3) (fun y hy => by cases hy; exact h3)]
        congr 1
        refine Eq.trans hthr ?_
        simp [absF, setEnt_same]
      · cases hs
    | throw_ =>
      dsimp only [act] at hs
      split at hs
      · rename_i c k e rest
        obtain ⟨x, hx, _⟩ := hfr _ List.mem_cons_self
        cases hs
        rw [absS_cons] at ha
        simp only [absF, hx] at ha
        refine .inr ?_
        have := Lasting.Step.throwBuild (eqv := cfg.eqv) ha
        refine of_eq this ?_
        simp only [abs, Atomic.St.go]
        rw [thr0]
        rfl
      · cases hs
        rw [absS_cons] at ha
        refine .inr ?_
        have := Lasting.Step.throwFind (eqv := cfg.eqv) ha
        refine of_eq this ?_
        simp only [abs, Atomic.St.go]
        rw [thr0]
        rfl
      · cases hs

theorem start_abs (n : Nat) : abs (start n : St K) = Atomic.start n := by
  simp [abs, start, Atomic.start]
  rfl

end Verif.Plain

import Verif.ConcLinLib

/-!
# The concurrent model refines the atomic specification: steps of the user, and executions
-/

set_option autoImplicit false

namespace Verif.Conc
open Verif.Atomic (Val Call drops setVal)
variable {K : Type} {cfg : Cfg K}

theorem inUser_abs {I : Nat → Option (Info K)} {st : List (Frame K)} (h : inUser st = true) :
    Atomic.inUser (absS I st) = true := by
  cases st with
  | nil => rfl
  | cons f st =>
    cases f with
    | insUser c k e => rfl
    | _ => cases h

theorem abs_val {s : St K} {e : Nat} {x : Ent K} (hx : s.ents e = some x) (hc : x.cted = true) (hr : 0 < x.ref) :
    (abs s).vals e = some ⟨x.core, x.key, x.kids⟩ := absV_some hx hc (Or.inl hr)

theorem act_sim (hcfg : CfgOk cfg) (hlk : cfg.locking = true) (hdl : cfg.deleter = true) {s s' : St K} (h : Inv cfg s)
    (hF : Fit s) {t : Nat} {st : List (Frame K)} (ht : s.thr[t]? = some st) {a : Act K}
    (hs : act cfg s t st a = .ok s') :
    Fit s' ∧ (abs s' = abs s ∧ a = .run ∨ Atomic.Step cfg.eqv (abs s) t a (abs s')) := by
  have htop := abs_top ht
  have hst : (s.thr.set t st).flatten = frames s := by rw [set_self ht]; rfl
  have hr : ∀ g ∈ st, g ∈ st := fun _ hg => hg
  -- counts of one entry change, and the stacks do not
  have keep : ∀ (e : Nat) (x x' : Ent K) (objs : List (Fw K)), s.ents e = some x → shape x' = shape x →
      0 < x.ref → 0 < x'.ref →
      Fit (⟨setEnt s.ents e (some x'), s.next, s.lock, s.thr, objs, s.clock⟩ : St K) ∧
      abs (⟨setEnt s.ents e (some x'), s.next, s.lock, s.thr, objs, s.clock⟩ : St K) = { abs s with objs := objs } := by
    intro e x x' objs hx hsh hp hp'
    have hq := quiet (next := s.next) (clock := s.clock) (objs := objs) (lock := s.lock) (new := [])
      (ents := setEnt s.ents e (some x')) hF ht hr (by
        rw [hst]
        exact info_count hx hsh (fun i _ => by simp) fun _ => iff_of_true (Or.inl hp') (Or.inl hp)) (by simp)
    rw [absS_nil, List.nil_append, List.nil_append, set_self ht] at hq
    refine ⟨hq.1, hq.2.trans ?_⟩
    unfold Atomic.St.go
    rw [set_self htop]
  -- the entries do not change
  have user : ∀ (new : List (Frame K)) (objs : List (Fw K)), (∀ e, tot (pendF e) new = 0) →
      (∀ g ∈ new, FitF (info s.ents (frames s)) g) →
      Fit (⟨s.ents, s.next, s.lock, s.thr.set t (new ++ st), objs, s.clock⟩ : St K) ∧
      abs (⟨s.ents, s.next, s.lock, s.thr.set t (new ++ st), objs, s.clock⟩ : St K) =
        { (abs s).go t (absS (info s.ents (frames s)) new ++ absS (info s.ents (frames s)) st) with objs := objs } := by
    intro new objs h1 h2
    refine quiet hF ht hr ?_ h2
    rw [hst]
    funext e
    exact info_frames (by simp [h1])
  cases a with
  | run =>
    cases st with
    | nil => cases hs
    | cons f rest =>
      obtain ⟨h1, h2⟩ := lib_sim hcfg hlk hdl h hF ht hs
      exact ⟨h1, h2.imp (fun h => ⟨h, rfl⟩) id⟩
  | create c k mask pre =>
    dsimp only [act] at hs
    split at hs
    · rename_i hu
      injection hs with hs
      have hq := user [.insLock c k (pick mask s.objs).1 pre] (pick mask s.objs).2 (by simp [pendF]) (by simp [FitF])
      rw [← hs]
      refine ⟨hq.1, Or.inr ?_⟩
      exact hq.2.symm ▸ .create htop (inUser_abs hu)
    · cases hs
  | destroy mask =>
    dsimp only [act] at hs
    split at hs
    · rename_i hu
      injection hs with hs
      have hq := user ((pick mask s.objs).1.map .relDec) (pick mask s.objs).2 (by simp) (by
        intro g hg
        obtain ⟨w, _, rfl⟩ := List.mem_map.1 hg
        trivial)
      rw [absS_relDec] at hq
      rw [← hs]
      refine ⟨hq.1, Or.inr ?_⟩
      exact hq.2.symm ▸ .destroy htop (inUser_abs hu)
    · cases hs
  | copy i =>
    dsimp only [act] at hs
    split at hs
    · rename_i hu
      cases hi : s.objs[i]? with
      | none => rw [hi] at hs; cases hs
      | some w =>
        rw [hi] at hs
        obtain ⟨x, hx, _, _, hc, hp⟩ := h.core.fw_ent (List.mem_of_getElem? hi)
        dsimp only at hs
        rw [hx] at hs
        injection hs with hs
        have hq := keep w.h x { x with ref := x.ref + 1 } (w :: s.objs) hx rfl hp (by show 0 < x.ref + 1; omega)
        rw [← hs]
        refine ⟨hq.1, Or.inr ?_⟩
        exact hq.2.symm ▸ .copy htop (inUser_abs hu) hi (abs_val hx hc hp)
    · cases hs
  | copyKid i j =>
    dsimp only [act] at hs
    split at hs
    · rename_i hu
      cases hi : s.objs[i]? with
      | none => rw [hi] at hs; cases hs
      | some w =>
        rw [hi] at hs
        obtain ⟨x, hx, _, _, hc, hp⟩ := h.core.fw_ent (List.mem_of_getElem? hi)
        dsimp only at hs
        rw [hx] at hs
        dsimp only at hs
        rw [if_pos hc] at hs
        cases hj : x.kids[j]? with
        | none => rw [hj] at hs; cases hs
        | some v =>
          rw [hj] at hs
          obtain ⟨y, hy, _, _, hyc, hyp⟩ := h.core.kid_ent hx (List.mem_of_getElem? hj)
          dsimp only at hs
          rw [hy] at hs
          injection hs with hs
          have hq := keep v.h y { y with ref := y.ref + 1 } (v :: s.objs) hy rfl hyp (by show 0 < y.ref + 1; omega)
          rw [← hs]
          refine ⟨hq.1, Or.inr ?_⟩
          exact hq.2.symm ▸ .copyKid htop (inUser_abs hu) hi (abs_val hx hc hp) hj
    · cases hs
  | swap i j =>
    dsimp only [act] at hs
    split at hs
    · rename_i hu
      cases hi : s.objs[i]? with
      | none => rw [hi] at hs; cases hs
      | some v =>
        cases hj : s.objs[j]? with
        | none => rw [hi, hj] at hs; cases hs
        | some w =>
          rw [hi, hj] at hs
          injection hs with hs
          have hq := user [] ((s.objs.set i w).set j v) (by simp) (by simp)
          rw [absS_nil, List.nil_append, List.nil_append, set_self ht] at hq
          rw [← hs]
          refine ⟨hq.1, Or.inr ?_⟩
          refine hq.2.symm ▸ ?_
          unfold Atomic.St.go
          rw [set_self htop]
          exact .swap htop (inUser_abs hu) hi hj
    · cases hs
  | read i =>
    dsimp only [act] at hs
    split at hs
    · rename_i hu
      cases hi : s.objs[i]? with
      | none => rw [hi] at hs; cases hs
      | some w =>
        rw [hi] at hs
        obtain ⟨x, hx, _, _, hc, hp⟩ := h.core.fw_ent (List.mem_of_getElem? hi)
        dsimp only at hs
        rw [hx] at hs
        dsimp only at hs
        rw [if_pos hc] at hs
        injection hs with hs
        rw [← hs]
        exact ⟨hF, Or.inr (.read htop (inUser_abs hu) hi (abs_val hx hc hp))⟩
    · cases hs
  | finish mask dr =>
    dsimp only [act] at hs
    split at hs
    · rename_i c k e rest
      have hmem : Frame.insUser c k e ∈ frames s :=
        List.mem_flatten.2 ⟨_, List.mem_of_getElem? ht, List.mem_cons_self⟩
      obtain ⟨k', hste, hk⟩ := h.core.frames _ hmem
      obtain ⟨x, hx, e1, e2, e3⟩ := of_stat hste
      obtain ⟨i, hi, hfit⟩ := hF _ hmem
      obtain ⟨y, hy, rfl⟩ := of_info hi
      rw [hx] at hy
      cases hy
      rw [hx] at hs
      dsimp only at hs
      rw [if_neg (by rw [e3]; simp)] at hs
      injection hs with hs
      have hcore := h.core' ht
      have hex := h.excl ht
      have hinfo : info s.ents (frames s) = info s.ents (Frame.insUser c k e :: (s.thr.set t rest).flatten) :=
        info_perm (frames_cons ht)
      rw [show (if dr then x.kids.map Frame.relDec else []) ++ .insDone c k e :: rest =
        ((if dr then x.kids.map Frame.relDec else []) ++ [.insDone c k e]) ++ rest by simp] at hs
      have hpn : ∀ i, tot (pendF i) (((if dr then x.kids.map Frame.relDec else []) ++ [.insDone c k e]) ++
          (s.thr.set t rest).flatten) = tot (pendF i) (Frame.insUser c k e :: (s.thr.set t rest).flatten) := by
        intro i
        cases dr <;> simp [pendF]
      have hI' := info_some (L := ((if dr then x.kids.map Frame.relDec else []) ++ [.insDone c k e]) ++
          (s.thr.set t rest).flatten)
        (setEnt_same s.ents e (some { x with kids := if dr then (pick mask s.objs).1 else x.kids ++ (pick mask s.objs).1 }))
      have hq := abs_step (next := s.next) (clock := s.clock) (objs := (pick mask s.objs).2) (lock := s.lock)
        (new := (if dr then x.kids.map Frame.relDec else []) ++ [.insDone c k e])
        (ents := setEnt s.ents e (some { x with
          kids := if dr then (pick mask s.objs).1 else x.kids ++ (pick mask s.objs).1 }))
        hF ht (fun g hg => List.mem_cons_of_mem _ hg) (by
          intro g hg i hcl
          rw [hinfo]
          refine info_other _ ?_ (hpn i)
          rintro rfl
          have ho := hcore.own i
          simp only [tot_cons, ownF, if_true] at ho
          have := tot_le (g := ownF i) hg
          have hz := claim_zero (hcore.frames g (List.mem_cons_of_mem _ hg)) hste (hex g hg c rfl) (fun h => by cases h)
            (fun _ => by omega)
          omega) (by
          intro g hg
          rcases List.mem_append.1 hg with hg | hg
          · cases dr with
            | false => cases hg
            | true =>
              obtain ⟨w, _, rfl⟩ := List.mem_map.1 hg
              trivial
          · rw [List.mem_singleton.1 hg]
            exact ⟨_, hI', hfit⟩)
      have hv : absV (info (setEnt s.ents e (some { x with
          kids := if dr then (pick mask s.objs).1 else x.kids ++ (pick mask s.objs).1 }))
          (((if dr then x.kids.map Frame.relDec else []) ++ [.insDone c k e]) ++ (s.thr.set t rest).flatten)) =
          (abs s).vals := by
        show _ = absV (info s.ents (frames s))
        rw [hinfo]
        refine absV_keep (fun i _ => hpn i) ?_
        rw [absV_dead, absV_dead]
        · intro y hy hc
          rw [hx] at hy
          cases hy
          rw [e3] at hc
          cases hc
        · intro y hy hc
          rw [setEnt_same] at hy
          cases hy
          rw [show x.cted = true from hc] at e3
          cases e3
      rw [hv] at hq
      rw [← hs]
      refine ⟨hq.1, Or.inr ?_⟩
      refine hq.2.symm ▸ ?_
      rw [absS_cons, absF, kidsI_some hx] at htop
      have hfin := Atomic.Step.finish (eqv := cfg.eqv) (a := abs s) (t := t) (mask := mask) (dr := dr) htop
      have hnew : absS (info (setEnt s.ents e (some { x with
          kids := if dr then (pick mask s.objs).1 else x.kids ++ (pick mask s.objs).1 }))
          (((if dr then x.kids.map Frame.relDec else []) ++ [.insDone c k e]) ++ (s.thr.set t rest).flatten))
          ((if dr then x.kids.map Frame.relDec else []) ++ [.insDone c k e]) =
          (if dr then drops x.kids else []) ++ [.built c k (if dr then (pick mask s.objs).1 else x.kids ++ (pick mask s.objs).1)] := by
        rw [absS_append, absS_cons, absF, kidsI_some (setEnt_same _ _ _)]
        cases dr <;> simp
      rw [hnew, List.append_assoc]
      exact hfin
    · cases hs
  | throw_ =>
    dsimp only [act] at hs
    split at hs
    · rename_i c k e rest
      injection hs with hs
      have hq := quiet (next := s.next) (clock := s.clock) (objs := s.objs) (lock := s.lock) (new := [.insCatch c e])
        (ents := s.ents) hF ht (rest := rest) (fun g hg => List.mem_cons_of_mem _ hg) (by
          rw [info_perm (frames_cons ht)]
          funext i
          exact info_frames (by simp [pendF])) (by simp [FitF])
      rw [← hs]
      refine ⟨hq.1, Or.inr ?_⟩
      refine hq.2.symm ▸ ?_
      simp only [absS_cons, absS_nil, List.append_nil, absF]
      exact .throwBuild htop
    · rename_i c k loc pre rest
      injection hs with hs
      have hq := quiet (next := s.next) (clock := s.clock) (objs := s.objs) (lock := s.lock) (new := [.insUnwind c loc])
        (ents := s.ents) hF ht (rest := rest) (fun g hg => List.mem_cons_of_mem _ hg) (by
          rw [info_perm (frames_cons ht)]
          funext i
          exact info_frames (by simp [pendF])) (by simp [FitF])
      rw [← hs]
      refine ⟨hq.1, Or.inr ?_⟩
      refine hq.2.symm ▸ ?_
      simp only [absS_cons, absS_nil, List.append_nil, absF]
      exact .throwFind htop
    · cases hs

theorem step_sim (hcfg : CfgOk cfg) (hlk : cfg.locking = true) (hdl : cfg.deleter = true) {s s' : St K} (h : Inv cfg s)
    (hF : Fit s) {t : Nat} {a : Act K} (hs : step cfg s t a = .ok s') :
    Inv cfg s' ∧ Fit s' ∧ (abs s' = abs s ∧ a = .run ∨ Atomic.Step cfg.eqv (abs s) t a (abs s')) := by
  have hg := step_good hcfg hlk hdl h t a
  rw [hs] at hg
  refine ⟨hg, ?_⟩
  unfold step at hs
  cases ht : s.thr[t]? with
  | none => rw [ht] at hs; cases hs
  | some st =>
    rw [ht] at hs
    exact act_sim hcfg hlk hdl h hF ht hs

theorem start_fit (n : Nat) : Fit (start n : St K) := by
  intro f hf
  have : frames (start n : St K) = [] := by simp [frames, start]
  rw [this] at hf
  cases hf

theorem start_abs (n : Nat) : abs (start n : St K) = Atomic.start n := by
  unfold abs Atomic.start
  have h1 : absV (info (start n : St K).ents (frames (start n : St K))) = fun _ => none := by
    funext e
    rfl
  rw [h1]
  simp [start]

end Verif.Conc

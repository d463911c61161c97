import Verif.SessionSerial

/-!
# What saving and loading does, with any factories
-/

set_option autoImplicit false

namespace Verif
open Client (Store Made)

/-! ## Flyweights that share values as they should -/

/-- Flyweights with the same address or with equivalent keys are the same in all respects.  (No code of its own: used in statements and proofs.) -/
def Coherent {K V : Type} (C : Cfg K V) (w : Store K V) : Prop :=
  ∀ x y b c, w x = some b → w y = some c → (b.addr = c.addr ∨ C.keq b.key c.key = true) → b = c

section
variable {K V : Type} {C : Cfg K V} {w v : Store K V}

theorem Coherent.sub (h : Coherent C w) (hv : ∀ y c, v y = some c → ∃ x, w x = some c) : Coherent C v := by
  intro x y b c hx hy hbc
  obtain ⟨x', hx'⟩ := hv x b hx
  obtain ⟨y', hy'⟩ := hv y c hy
  exact h x' y' b c hx' hy' hbc

theorem Coherent.add (he : EquivOk C.keq) (h : Coherent C w) {src : Src K V} {b : Bind K V} (hb : Fits C w src b)
    (hv : ∀ y c, v y = some c → c = b ∨ ∃ x, w x = some c) : Coherent C v := by
  have key : ∀ y c, w y = some c → (c.addr = b.addr ∨ C.keq c.key b.key = true) → c = b := fun y c hy hc =>
    hb.same y c hy (hc.elim id (hb.addr y c hy).2)
  intro x y c d hx hy hcd
  rcases hv x c hx with rfl | ⟨x', hx'⟩
  · rcases hv y d hy with rfl | ⟨y', hy'⟩
    · rfl
    · exact (key y' d hy' (hcd.imp Eq.symm (he.symm _ _))).symm
  · rcases hv y d hy with rfl | ⟨y', hy'⟩
    · exact key x' c hx' hcd
    · exact h x' y' c d hx' hy' hcd

theorem upd_range {x y : Nat} {o : Option (Bind K V)} {c : Bind K V} (h : upd w x o y = some c) : o = some c ∨ ∃ z, w z = some c := by
  by_cases hy : y = x
  · subst hy
    rw [upd_self] at h
    exact .inl h
  · rw [upd_ne _ _ hy] at h
    exact .inr ⟨y, h⟩

theorem Coherent.upd_old (h : Coherent C w) {x z : Nat} {o : Option (Bind K V)} (ho : o = none ∨ o = w z) : Coherent C (upd w x o) := by
  refine h.sub fun y c hy => ?_
  rcases upd_range hy with rfl | hz
  · rcases ho with ho | ho
    · cases ho
    · exact ⟨z, ho.symm⟩
  · exact hz

/-- Operations preserve this. -/
theorem Coherent.act (he : EquivOk C.keq) (h : Coherent C w) {o : Op K V} {b : Option (Bind K V)} {fail : Bool} (ha : Allowed C w o b fail) :
    Coherent C (act C b fail w o).2 := by
  have hF := ha.fits
  cases o with
  | init => exact h
  | make x src =>
    simp only [Verif.act] at hF ⊢
    cases hx : w x with
    | some d => exact h
    | none =>
      cases hs : C.sp.supports src with
      | false => exact h
      | true =>
        simp only [hx, hs] at hF
        cases fail with
        | true => exact h
        | false =>
          obtain ⟨c, rfl, hc⟩ := hF rfl src rfl
          exact h.add he hc fun y d hy => (upd_range hy).imp (fun e => by cases e; rfl) id
  | assignVal x src =>
    simp only [Verif.act] at hF ⊢
    cases hx : w x with
    | none => exact h
    | some d =>
      cases hs : C.sp.supports src with
      | false => exact h
      | true =>
        simp only [hx, hs] at hF
        cases fail with
        | true => exact h
        | false =>
          obtain ⟨c, rfl, hc⟩ := hF rfl src rfl
          exact h.add he hc fun y d hy => (upd_range hy).imp (fun e => by cases e; rfl) id
  | copy x y =>
    simp only [Verif.act]
    cases hx : w x <;> cases hy : w y <;> first | exact h | exact h.upd_old (.inr hy.symm)
  | move x y =>
    simp only [Verif.act]
    cases hx : w x <;> cases hy : w y <;> first | exact h | exact h.upd_old (.inr hy.symm)
  | assign x y =>
    simp only [Verif.act]
    cases hx : w x <;> cases hy : w y <;> first | exact h | exact h.upd_old (.inr hy.symm)
  | swap x y =>
    simp only [Verif.act]
    cases hx : w x <;> cases hy : w y <;> try exact h
    refine h.sub fun z c hz => ?_
    rcases upd_range hz with e | ⟨z', hz'⟩
    · exact ⟨x, by rw [hx, e]⟩
    · rcases upd_range hz' with e | hz''
      · exact ⟨y, by rw [hy, e]⟩
      · exact hz''
  | destroy x =>
    simp only [Verif.act]
    cases hx : w x
    · exact h
    · exact h.upd_old (z := x) (.inl rfl)
  | get x => simp only [Verif.act]; cases hx : w x <;> exact h
  | getKey x => simp only [Verif.act]; cases hx : w x <;> exact h
  | hash x => simp only [Verif.act]; cases hx : w x <;> exact h
  | eq x y => simp only [Verif.act]; cases hx : w x <;> cases hy : w y <;> exact h

end

namespace FlyType
variable {K V : Type}

theorem equiv (T : FlyType K V) : EquivOk T.cfg.keq := by
  cases T with
  | usual S hp fl => exact ⟨S.LS.refl, S.LS.symm, S.LS.trans⟩
  | concurrent lib he trk hp gc fl => exact he

theorem coherent (T : FlyType K V) {s : T.engine.σ} (hr : T.Reach s) {w : Store K V} (hw : ∀ x b, T.Sees s x b ↔ w x = some b) : Coherent T.cfg w := by
  cases T with
  | usual S hp fl =>
    obtain ⟨fl', w', h⟩ := Client.View.of_reach (s := s) hr.1
    have e : ∀ x b, w x = some b → w' x = some b := fun x b hx => (h.sees x _ _ _).1 ((hw x b).2 hx)
    intro x y b c hx hy hbc
    obtain ⟨t, _, hok, _, hv⟩ := h
    have h1 := hok.bound ((hv x b).2 (e x b hx))
    have h2 := hok.bound ((hv y c).2 (e y c hy))
    exact hbc.elim (hok.addr b h1 c h2) (hok.key b h1 c h2)
  | concurrent lib he trk hp gc fl =>
    obtain ⟨LS, L, ⟨X⟩, _⟩ := lib.leaves he
    obtain ⟨w', h⟩ := CFSeq.View.of_reach X LS (s := s.1) hr.1
    have e : ∀ x b, w x = some b → w' x = some b := fun x b hx => (h.sees x b).1 ((hw x b).2 hx)
    intro x y b c hx hy hbc
    obtain ⟨t, _, h2, _, h4⟩ := h
    have g1 := h2.bound x b ((h4 x b).2 (e x b hx))
    have g2 := h2.bound y c ((h4 y c).2 (e y c hy))
    exact hbc.elim (h2.addrs b c g1 g2) (h2.keys b c g1 g2)

end FlyType

namespace Session
variable {ι : Type} [DecidableEq ι] {K V : ι → Type} {α β : Type} {C : (i : ι) → Cfg (K i) (V i)}

theorem Runs.bind {p : Session ι K V α} {f : α → Session ι K V β} {w w' w'' : Vars K V} {a : α} {b : β} (h : Runs C p w a w') (h' : Runs C (f a) w' b w'') :
    Runs C (p.bind f) w b w'' := by
  induction h with
  | ret => exact h'
  | op i o k w b fail a w' ha _ ih => exact .op i o _ w b fail _ _ ha (ih h')
  | user i k w fail a w' hf _ ih => exact .user i _ w fail _ _ hf (ih h')

theorem sat_of_bind {p : Session ι K V α} {f : α → Session ι K V β} {w : Vars K V} {Q : β → Vars K V → Prop} (h : Sat C (p.bind f) w Q) :
    Sat C p w fun a w' => Sat C (f a) w' Q := by
  induction p generalizing w with
  | ret a => exact h
  | op i o k ih => exact fun b fail ha => ih _ (h b fail ha)
  | user i k ih => exact fun fail hf => ih _ (h fail hf)

end Session

namespace SessionSerial
open Session (Vars Sat Runs sat_of_bind)
open SessionTests

/-! ## Variables of the program and of the helpers -/

section
variable {K V : Type} {C : Cfg K V}

/-- Variables of the program below `h`, the exemplars of a helper from there on.  (No code of its own: used in statements and proofs.) -/
def lay1 (h : Nat) (w : Store K V) (L : List (Bind K V)) : Store K V := fun y => if y < h then w y else L[y - h]?

/-- No variables from `h` on.  (No code of its own: used in statements and proofs.) -/
def Free1 (h : Nat) (w : Store K V) : Prop := ∀ y, h ≤ y → w y = none

variable {h : Nat} {w : Store K V} {L : List (Bind K V)}

theorem lay1_lt {y : Nat} (hy : y < h) : lay1 h w L y = w y := if_pos hy

theorem lay1_ge (n : Nat) : lay1 h w L (h + n) = L[n]? := by
  rw [lay1, if_neg (by omega), Nat.add_sub_cancel_left]

theorem lay1_nil (hf : Free1 h w) : lay1 h w [] = w := by
  funext y
  by_cases hy : y < h
  · exact lay1_lt hy
  · rw [hf y (by omega)]
    simp [lay1, hy]

theorem lay1_upd {x : Nat} (hx : x < h) (c : Option (Bind K V)) : upd (lay1 h w L) x c = lay1 h (upd w x c) L := by
  funext y
  by_cases hyx : y = x
  · subst hyx
    rw [upd_self, lay1_lt hx, upd_self]
  · rw [upd_ne _ _ hyx]
    by_cases hy : y < h
    · rw [lay1_lt hy, lay1_lt hy, upd_ne _ _ hyx]
    · simp [lay1, hy]

theorem lay1_push (b : Bind K V) : upd (lay1 h w L) (h + L.length) (some b) = lay1 h w (L ++ [b]) := by
  funext y
  by_cases hyx : y = h + L.length
  · subst hyx
    rw [upd_self, lay1_ge]
    simp
  · rw [upd_ne _ _ hyx]
    by_cases hy : y < h
    · rw [lay1_lt hy, lay1_lt hy]
    · obtain ⟨n, rfl⟩ : ∃ n, y = h + n := ⟨y - h, by omega⟩
      rw [lay1_ge, lay1_ge]
      by_cases hn : n < L.length
      · rw [List.getElem?_append_left hn]
      · rw [List.getElem?_eq_none (by omega), List.getElem?_eq_none (by simp; omega)]

theorem lay1_pop (b : Bind K V) : upd (lay1 h w (L ++ [b])) (h + L.length) none = lay1 h w L := by
  rw [← lay1_push]
  funext y
  by_cases hyx : y = h + L.length
  · subst hyx
    rw [upd_self, lay1_ge, List.getElem?_eq_none (by omega)]
  · rw [upd_ne _ _ hyx, upd_ne _ _ hyx]

theorem lay1_range {y : Nat} {c : Bind K V} (hy : lay1 h w L y = some c) : w y = some c ∨ c ∈ L := by
  by_cases hlt : y < h
  · exact .inl (by rwa [lay1_lt hlt] at hy)
  · obtain ⟨n, rfl⟩ : ∃ n, y = h + n := ⟨y - h, by omega⟩
    rw [lay1_ge] at hy
    exact .inr (List.mem_of_getElem? hy)

theorem lay1_old (hf : Free1 h w) {y : Nat} {c : Bind K V} (hy : w y = some c) : lay1 h w L y = some c := by
  by_cases hlt : y < h
  · rwa [lay1_lt hlt]
  · rw [hf y (by omega)] at hy
    cases hy

theorem lay1_mem {c : Bind K V} (hc : c ∈ L) : ∃ y, lay1 h w L y = some c := by
  obtain ⟨n, hn⟩ := List.getElem?_of_mem hc
  exact ⟨h + n, by rw [lay1_ge, hn]⟩

/-- Operations of the program do not touch the exemplars … -/
theorem act_lay {o : Op K V} (ho : OpBelow h o) (b : Option (Bind K V)) (fail : Bool) :
    act C b fail (lay1 h w L) o = ((act C b fail w o).1, lay1 h (act C b fail w o).2 L) := by
  cases o with
  | init => rfl
  | make x src =>
    simp only [OpBelow] at ho
    simp only [act, lay1_lt ho, lay1_upd ho]
    cases w x <;> cases C.sp.supports src <;> cases fail <;> rfl
  | assignVal x src =>
    simp only [OpBelow] at ho
    simp only [act, lay1_lt ho, lay1_upd ho]
    cases w x <;> cases C.sp.supports src <;> cases fail <;> rfl
  | copy x y | move x y | assign x y | eq x y =>
    simp only [OpBelow] at ho
    simp only [act, lay1_lt ho.1, lay1_lt ho.2, lay1_upd ho.1]
    cases w x <;> cases w y <;> rfl
  | swap x y =>
    simp only [OpBelow] at ho
    simp only [act, lay1_lt ho.1, lay1_lt ho.2, lay1_upd ho.1, lay1_upd ho.2]
    cases w x <;> cases w y <;> rfl
  | destroy x | get x | getKey x | hash x =>
    simp only [OpBelow] at ho
    simp only [act, lay1_lt ho, lay1_upd ho]
    cases w x <;> rfl

/-- … and could do the same without them. -/
theorem allowed_lay (hf : Free1 h w) {o : Op K V} (ho : OpBelow h o) {b : Option (Bind K V)} {fail : Bool} (ha : Allowed C (lay1 h w L) o b fail) :
    Allowed C w o b fail := by
  have h1 := ha.throws
  have h2 := ha.fits
  rw [act_lay ho] at h1 h2
  refine ⟨h1, fun hd src hs => ?_⟩
  obtain ⟨c, hc, hF⟩ := h2 hd src hs
  exact ⟨c, hc, hF.key, hF.made, fun y d hy => hF.addr y d (lay1_old hf hy), fun y d hy => hF.same y d (lay1_old hf hy)⟩

theorem free_upd (hf : Free1 h w) {x : Nat} (hx : x < h) (c : Option (Bind K V)) : Free1 h (upd w x c) := by
  intro y hy
  rw [upd_ne _ _ (by omega)]
  exact hf y hy

theorem free_act (hf : Free1 h w) {o : Op K V} (ho : OpBelow h o) (b : Option (Bind K V)) (fail : Bool) : Free1 h (act C b fail w o).2 := by
  cases o with
  | init => exact hf
  | make x src | assignVal x src =>
    simp only [OpBelow] at ho
    simp only [act]
    cases w x <;> cases C.sp.supports src <;> cases fail <;> first | exact hf | exact free_upd hf ho _
  | copy x y | move x y | assign x y | eq x y =>
    simp only [OpBelow] at ho
    simp only [act]
    cases w x <;> cases w y <;> first | exact hf | exact free_upd hf ho.1 _
  | swap x y =>
    simp only [OpBelow] at ho
    simp only [act]
    cases w x <;> cases w y <;> first | exact hf | exact free_upd (free_upd hf ho.1 _) ho.2 _
  | destroy x | get x | getKey x | hash x =>
    simp only [OpBelow] at ho
    simp only [act]
    cases w x <;> first | exact hf | exact free_upd hf ho _

end

section
variable {ι : Type} {K V : ι → Type} {α β : Type} {C : (i : ι) → Cfg (K i) (V i)}

/-- The same for all types.  (No code of its own: used in statements and proofs.) -/
def lay (h : Nat) (w : Vars K V) (B : (i : ι) → List (Bind (K i) (V i))) : Vars K V := fun i => lay1 h (w i) (B i)

/-- No variables from `h` on.  (No code of its own: used in statements and proofs.) -/
def Free (h : Nat) (w : Vars K V) : Prop := ∀ i, Free1 h (w i)

/-- The keys of exemplars.  (No code of its own: used in statements and proofs.) -/
def keysOfB (B : (i : ι) → List (Bind (K i) (V i))) : (i : ι) → List (K i) := fun i => (B i).map Bind.key

variable [DecidableEq ι] {h : Nat} {w : Vars K V} {B : (i : ι) → List (Bind (K i) (V i))}

omit [DecidableEq ι] in
theorem lay_nil (hf : Free h w) : lay h w (fun _ => []) = w := funext fun i => lay1_nil (hf i)

theorem put_lay (i : ι) (s : Store (K i) (V i)) : put (lay h w B) i (lay1 h s (B i)) = lay h (put w i s) B := by
  funext j
  by_cases hj : j = i
  · subst hj; simp [lay]
  · rw [put_ne _ _ hj, lay, lay, put_ne _ _ hj]

theorem put_lay_B (i : ι) (L : List (Bind (K i) (V i))) : put (lay h w B) i (lay1 h (w i) L) = lay h w (put B i L) := by
  funext j
  by_cases hj : j = i
  · subst hj; simp [lay]
  · rw [put_ne _ _ hj, lay, lay, put_ne _ _ hj]

theorem put_fam {P : (i : ι) → Store (K i) (V i) → Prop} (hw : ∀ i, P i (w i)) {i : ι} {s : Store (K i) (V i)} (hs : P i s) : ∀ j, P j (put w i s j) := by
  intro j
  by_cases hj : j = i
  · subst hj; rwa [put_same]
  · rw [put_ne _ _ hj]; exact hw j

theorem put_length (i : ι) (b : Bind (K i) (V i)) : put (fun i => (B i).length) i ((B i).length + 1) = fun j => (put B i (B i ++ [b]) j).length := by
  funext j
  by_cases hj : j = i
  · subst hj; simp
  · rw [put_ne _ _ hj, put_ne _ _ hj]

theorem put_keys (i : ι) (b : Bind (K i) (V i)) : keysOfB (put B i (B i ++ [b])) = put (keysOfB B) i (keysOfB B i ++ [b.key]) := by
  funext j
  by_cases hj : j = i
  · subst hj; simp [keysOfB]
  · rw [put_ne _ _ hj, keysOfB, put_ne _ _ hj, keysOfB]

/-! ## Rules -/

theorem get_sat {i : ι} {x : Nat} {v : Vars K V} {f : Nat × V i → Test ι K V β} {Q : End β → Vars K V → Prop}
    (h1 : ∀ b, v i x = some b → Sat C (f (b.addr, b.val)) v Q) (h2 : v i x = none → Q .stuck v) : Sat C (get i x >>= f : Test ι K V β) v Q := by
  refine bind_rule fun b fail _ => ?_
  cases hx : v i x with
  | none =>
    simp only [act, hx, put_self]
    exact h2 hx
  | some b =>
    simp only [act, hx, put_self]
    exact h1 b hx

theorem getKey_sat {i : ι} {x : Nat} {v : Vars K V} {f : K i → Test ι K V β} {Q : End β → Vars K V → Prop} {b : Bind (K i) (V i)} (hx : v i x = some b)
    (h : Sat C (f b.key) v Q) : Sat C (getKey i x >>= f : Test ι K V β) v Q := by
  refine bind_rule fun _ fail _ => ?_
  simp only [act, hx, put_self]
  exact h

theorem copy_sat {i : ι} {x y : Nat} {v : Vars K V} {Q : End Unit → Vars K V → Prop} {b : Bind (K i) (V i)} (hx : v i x = none) (hy : v i y = some b)
    (h : Q (.ok ()) (put v i (upd (v i) x (some b)))) : Sat C (perform i (.copy x y)) v Q := by
  intro c fail _
  simp only [act, hx, hy]
  exact h

theorem block_sat {i : ι} {x : Nat} {init : Test ι K V Unit} {rest : Test ι K V α} {v : Vars K V} {Q : End α → Vars K V → Prop}
    (h : Sat C init v fun r v' => match r with
      | .ok _ => Sat C rest v' fun r v'' => (∃ b, v'' i x = some b) ∧ Q r (put v'' i (upd (v'' i) x none))
      | .threw => Q .threw v'
      | .stuck => Q .stuck v') : Sat C (block i x init rest) v Q := by
  refine Sat.bind (h.mono fun r v' h => ?_)
  cases r with
  | stuck => exact h
  | threw => exact h
  | ok a =>
    refine Sat.bind (Sat.mono h fun r v'' h => ?_)
    obtain ⟨⟨b, hb⟩, h2⟩ := h
    intro c fail ha
    simp only [act, hb]
    exact h2

/-- The search finds an exemplar with the address, if there is one. -/
theorem find_sat {i : ι} {a : Nat} {f : Nat → Test ι K V β} {Q : End β → Vars K V → Prop} (m : Nat) : ∀ (j : Nat), j + m = (B i).length →
    (∀ b, b ∈ (B i).take j → b.addr ≠ a) →
    (∀ n b, (B i)[n]? = some b → b.addr = a → Sat C (f n) (lay h w B) Q) →
    ((∀ b, b ∈ B i → b.addr ≠ a) → Sat C (f (B i).length) (lay h w B) Q) → Sat C (find i h a j m >>= f : Test ι K V β) (lay h w B) Q := by
  induction m with
  | zero =>
    intro j hj h1 h2 h3
    obtain rfl : j = (B i).length := hj
    rw [List.take_length] at h1
    exact h3 h1
  | succ m ih =>
    intro j hj h1 h2 h3
    have hlt : j < (B i).length := by omega
    have hx : lay h w B i (h + j) = some (B i)[j] := by
      rw [lay, lay1_ge, List.getElem?_eq_getElem hlt]
    refine bind_rule (get_sat (fun b hb => ?_) fun hn => by rw [hx] at hn; cases hn)
    have hb' : (B i)[j] = b := by
      rw [hx] at hb
      exact Option.some.inj hb
    by_cases ha : b.addr = a
    · simp only [if_pos ha]
      exact h2 j b (by rw [List.getElem?_eq_getElem hlt, hb']) ha
    · simp only [if_neg ha]
      have := ih (j + 1) (by omega) (fun c hc => ?_) h2 h3
      · have h4 := sat_of_bind (show Sat C (Test.bind (find i h a (j + 1) m) f) (lay h w B) Q from this)
        refine h4.mono fun r v' hr => ?_
        cases r <;> exact hr
      · rw [List.take_succ_eq_append_getElem hlt] at hc
        rcases List.mem_append.1 hc with hc | hc
        · exact h1 c hc
        · rw [List.mem_singleton.1 hc, hb']
          exact ha

/-! ## Saving -/

theorem code_ok {i : ι} {w w' : Vars K V} {f : Unit → Test ι K V β} {r : End β} (h : Runs C (f ()) w r w') : Runs C (code i >>= f : Test ι K V β) w r w' :=
  Runs.user i _ w false _ _ nofun h

theorem code_threw {i : ι} {w : Vars K V} {f : Unit → Test ι K V β} (h : (C i).thr) : Runs C (code i >>= f : Test ι K V β) w .threw w :=
  Runs.user i _ w true _ _ (fun _ => h) (.ret _ _)

theorem read_allowed {K V : Type} {C : Cfg K V} {w : Store K V} {o : Op K V} (ho : o.creates = none) (ht : (act C none false w o).1 ≠ .threw) :
    Allowed C w o none false :=
  ⟨fun e => (ht e).elim, fun _ src hs => by rw [ho] at hs; cases hs⟩

theorem getKey_runs {i : ι} {x : Nat} {w w' : Vars K V} {b : Bind (K i) (V i)} {f : K i → Test ι K V β} {r : End β} (hx : w i x = some b)
    (h : Runs C (f b.key) w r w') : Runs C (getKey i x >>= f : Test ι K V β) w r w' := by
  refine Runs.op i (.getKey x) _ w none false _ _ (read_allowed rfl (by simp [act, hx])) ?_
  simp only [act, hx, put_self]
  exact h

theorem getKey_stuck {i : ι} {x : Nat} {w : Vars K V} {f : K i → Test ι K V β} (hx : w i x = none) : Runs C (getKey i x >>= f : Test ι K V β) w .stuck w := by
  refine Runs.op i (.getKey x) _ w none false _ _ (read_allowed rfl (by simp [act, hx])) ?_
  simp only [act, hx, put_self]
  exact .ret _ _

/-- Note another key.  (No code of its own: used in proofs.) -/
def noted (i : ι) (k : K i) : End (List (Σ i, K i) × α) → End (List (Σ i, K i) × α)
  | .ok r => .ok (⟨i, k⟩ :: r.1, r.2)
  | .threw => .threw
  | .stuck => .stuck

theorem plain_save {i : ι} {x : Nat} {k : Saver ι K V α} {w w' : Vars K V} {b : Bind (K i) (V i)} {r : End (List (Σ i, K i) × α)} (hx : w i x = some b)
    (h : Runs C k.plain w r w') : Runs C (Saver.save i x k).plain w (noted i b.key r) w' := by
  refine getKey_runs hx (code_ok (Runs.bind h ?_))
  cases r <;> exact .ret _ _

theorem keysIn_new (i j : ι) (n : Nat) (k : K i) (ts : List (Tok K)) (tab : (i : ι) → List (K i)) :
    tab j ++ keysIn j (.idx n :: .key i k :: ts) = put tab i (tab i ++ [k]) j ++ keysIn j ts := by
  simp only [keysIn]
  by_cases hj : i = j
  · subst hj; simp
  · rw [dif_neg hj, put_ne _ _ fun e => hj e.symm]

/-- A program that writes an archive does what it could do without, and the archive stands for the keys. -/
theorem Saver.archive_sat (he : ∀ i, EquivOk (C i).keq) (p : Saver ι K V α) {h : Nat} (hp : p.Below h) : ∀ {w : Vars K V} {B : (i : ι) → List (Bind (K i) (V i))},
    Free h w → (∀ i, Coherent (C i) (lay h w B i)) → (∀ i, (keysOfB B i).Pairwise fun k l => (C i).keq k l = false) →
    Sat C (p.archive h fun i => (B i).length) (lay h w B) fun r v' => ∃ w' r', v' = lay h w' B ∧ Free h w' ∧ Runs C p.plain w r' w' ∧ Written C (keysOfB B) r r' := by
  induction p with
  | ret a =>
    intro w B hf hc hB
    exact ⟨w, .ok ([], a), rfl, hf, .ret _ _, rfl, .nil _, fun i => by simpa [keysIn] using hB i⟩
  | op i o k ih =>
    intro w B hf hc hB b fail ha
    have h1 := allowed_lay (hf i) hp.1 ha
    have h2 := (hc i).act (he i) ha
    have h3 := free_act (C := C i) (hf i) hp.1 b fail
    have e : act (C i) b fail (lay h w B i) o = _ := act_lay hp.1 b fail
    rw [e] at h2 ⊢
    rw [put_lay]
    refine (ih _ (hp.2 _) (put_fam hf h3) (fun j => ?_) hB).mono ?_
    · by_cases hj : j = i
      · subst hj; simpa [lay] using h2
      · have := hc j
        simp only [lay, put_ne _ _ hj] at this ⊢
        exact this
    · rintro r v' ⟨w', r', g1, g2, g3, g4⟩
      exact ⟨w', r', g1, g2, .op i o _ w b fail _ _ h1 g3, g4⟩
  | user i k ih =>
    intro w B hf hc hB fail ht
    refine (ih _ (hp _) hf hc hB).mono ?_
    rintro r v' ⟨w', r', g1, g2, g3, g4⟩
    exact ⟨w', r', g1, g2, .user i _ w fail _ _ ht g3, g4⟩
  | save i x k ih =>
    intro w B hf hc hB
    have ex : lay h w B i x = w i x := lay1_lt hp.1
    refine get_sat (fun b hb => ?_) fun hn => ⟨w, .stuck, rfl, hf, getKey_stuck (ex ▸ hn), trivial⟩
    have hb' : w i x = some b := ex ▸ hb
    have hthr : (C i).thr → ∃ w' r', lay h w B = lay h w' B ∧ Free h w' ∧ Runs C (Saver.save i x k).plain w r' w' ∧
        Written C (keysOfB B) (.threw : End (List (Tok K) × α)) r' := fun ht =>
      ⟨w, .threw, rfl, hf, getKey_runs hb' (code_threw ht), trivial⟩
    refine find_sat _ 0 (by simp) (by simp) (fun n c hn hcb => code_then ?_ hthr) fun hnone => code_then ?_ hthr
    · have hlt : n < (B i).length := (List.getElem?_eq_some_iff.1 hn).1
      obtain rfl : c = b := hc i (h + n) x c b (by rw [lay, lay1_ge, hn]) hb (.inl hcb)
      simp only [if_neg (Nat.ne_of_lt hlt)]
      refine bind_rule ((ih hp.2 hf hc hB).mono ?_)
      rintro r v' ⟨w', r', rfl, g2, g3, g4⟩
      cases r with
      | ok r =>
        cases r' with
        | ok r' =>
          obtain ⟨g5, g6, g7⟩ := g4
          exact ⟨w', _, rfl, g2, plain_save hb' g3, g5, .old _ i n c.key _ _ (by simp [keysOfB, hn]) g6, g7⟩
        | threw => exact g4.elim
        | stuck => exact g4.elim
      | threw =>
        cases r' with
        | threw => exact ⟨w', _, rfl, g2, plain_save hb' g3, trivial⟩
        | ok _ => exact g4.elim
        | stuck => exact g4.elim
      | stuck =>
        cases r' with
        | stuck => exact ⟨w', _, rfl, g2, plain_save hb' g3, trivial⟩
        | ok _ => exact g4.elim
        | threw => exact g4.elim
    · simp only [if_true]
      refine getKey_sat hb (code_then (block_sat (code_then (copy_sat ?_ hb ?_) hthr)) hthr)
      · rw [lay, lay1_ge, List.getElem?_eq_none (by omega)]
      · have e1 : put (lay h w B) i (upd (lay h w B i) (h + (B i).length) (some b)) = lay h w (put B i (B i ++ [b])) := by
          rw [lay, lay1_push]
          exact put_lay_B i _
        simp only [e1]
        rw [put_length i b]
        have hc' : ∀ j, Coherent (C j) (lay h w (put B i (B i ++ [b])) j) := by
          intro j
          by_cases hj : j = i
          · subst hj
            refine (hc j).sub fun y c hy => ?_
            rw [lay, put_same, ← lay1_push] at hy
            rcases upd_range hy with e | hz
            · exact ⟨x, by rw [hb, e]⟩
            · exact hz
          · have := hc j
            simp only [lay, put_ne _ _ hj] at this ⊢
            exact this
        have hB' : ∀ j, (keysOfB (put B i (B i ++ [b])) j).Pairwise fun k l => (C j).keq k l = false := by
          intro j
          rw [put_keys]
          by_cases hj : j = i
          · subst hj
            rw [put_same]
            refine List.pairwise_append.2 ⟨hB j, by simp, fun k hk l hl => ?_⟩
            obtain ⟨c, hc2, rfl⟩ := List.mem_map.1 hk
            rw [List.mem_singleton.1 hl]
            cases hq : (C j).keq c.key b.key with
            | false => rfl
            | true =>
              obtain ⟨y, hy⟩ := lay1_mem (h := h) (w := w j) hc2
              exact (hnone c hc2 (by rw [hc j y x c b hy hb (.inr hq)])).elim
          · rw [put_ne _ _ hj]
            exact hB j
        refine bind_rule ((ih hp.2 hf hc' hB').mono ?_)
        rintro r v' ⟨w', r', rfl, g2, g3, g4⟩
        have e2 : put (lay h w' (put B i (B i ++ [b]))) i (upd (lay h w' (put B i (B i ++ [b])) i) (h + (B i).length) none) = lay h w' B := by
          rw [lay, put_same, lay1_pop]
          funext j
          by_cases hj : j = i
          · subst hj; simp [lay]
          · rw [put_ne _ _ hj, lay, put_ne _ _ hj]
            rfl
        have e3 : ∃ b', lay h w' (put B i (B i ++ [b])) i (h + (B i).length) = some b' := ⟨b, by rw [lay, put_same, lay1_ge]; simp⟩
        cases r with
        | ok r =>
          cases r' with
          | ok r' =>
            obtain ⟨g5, g6, g7⟩ := g4
            refine ⟨e3, w', _, e2, g2, plain_save hb' g3, g5, ?_, fun j => ?_⟩
            · rw [put_keys] at g6
              have := Stands.new (keysOfB B) i b.key _ _ g6
              simpa [keysOfB] using this
            · have := g7 j
              rwa [put_keys, ← keysIn_new (n := (B i).length)] at this
          | threw => exact g4.elim
          | stuck => exact g4.elim
        | threw =>
          cases r' with
          | threw => exact ⟨e3, w', _, e2, g2, plain_save hb' g3, trivial⟩
          | ok _ => exact g4.elim
          | stuck => exact g4.elim
        | stuck =>
          cases r' with
          | stuck => exact ⟨e3, w', _, e2, g2, plain_save hb' g3, trivial⟩
          | ok _ => exact g4.elim
          | threw => exact g4.elim

theorem Saver.sat (he : ∀ i, EquivOk (C i).keq) (p : Saver ι K V α) {h : Nat} (hp : p.Below h) {w : Vars K V} (hf : Free h w) (hc : ∀ i, Coherent (C i) (w i)) :
    Sat C (p.archive h fun _ => 0) w fun r w' => ∃ r', Free h w' ∧ Runs C p.plain w r' w' ∧ Written C (fun _ => []) r r' := by
  have h1 := Saver.archive_sat (C := C) he p hp (w := w) (B := fun _ => []) hf (by rw [lay_nil hf]; exact hc) (fun i => .nil)
  rw [lay_nil hf] at h1
  refine h1.mono ?_
  rintro r v' ⟨w', r', g1, g2, g3, g4⟩
  rw [lay_nil g2] at g1
  subst g1
  exact ⟨r', g2, g3, g4⟩

/-! ## Loading -/

/-- `f=hlp[n]` -/
theorem fetch_sat {i : ι} {t n f : Nat} {w : Vars K V} {B : (i : ι) → List (Bind (K i) (V i))} {b : Bind (K i) (V i)} (hf : Free t w) (hlt : f < t) (hn : (B i)[n]? = some b)
    {Q : End Unit → Vars K V → Prop} (h1 : ∀ d, w i f = some d → Q (.ok ()) (lay (t + 1) (put w i (upd (w i) f (some b))) B))
    (h2 : w i f = none → Q .stuck (lay (t + 1) w B)) : Sat C (fetch i (t + 1) t n f) (lay (t + 1) w B) Q := by
  have ht : ∀ s : Store (K i) (V i), s t = none → upd (upd s t (some b)) t none = s := by
    intro s hs
    funext y
    by_cases hy : y = t
    · subst hy; rw [upd_self, hs]
    · rw [upd_ne _ _ hy, upd_ne _ _ hy]
  have h0 : lay (t + 1) w B i t = none := by rw [lay, lay1_lt (by omega)]; exact hf i t (by omega)
  refine block_sat (copy_sat h0 (by rw [lay, lay1_ge, hn]) ?_)
  intro c fail _
  have e1 : upd (lay (t + 1) w B i) t (some b) f = w i f := by rw [upd_ne _ _ (by omega), lay, lay1_lt (by omega)]
  simp only [put_same]
  cases hx : w i f with
  | none =>
    simp only [act, e1, hx, put_put]
    refine ⟨⟨b, by rw [put_same, upd_self]⟩, ?_⟩
    simp only [put_same, put_put, ht _ h0, put_self]
    exact h2 hx
  | some d =>
    simp only [act, e1, hx, upd_self, put_put]
    refine ⟨⟨b, by rw [put_same, upd_ne _ _ (by omega), upd_self]⟩, ?_⟩
    have e2 : upd (upd (upd (lay (t + 1) w B i) t (some b)) f (some b)) t none = lay1 (t + 1) (upd (w i) f (some b)) (B i) := by
      rw [← lay1_upd (by omega)]
      funext y
      by_cases hy : y = t
      · subst hy
        rw [upd_self, upd_ne _ _ (by omega)]
        exact h0.symm
      · rw [upd_ne _ _ hy]
        by_cases hyf : y = f
        · subst hyf; rw [upd_self, upd_self]
        · rw [upd_ne _ _ hyf, upd_ne _ _ hyf, upd_ne _ _ hy]
          rfl
    simp only [put_same, put_put, e2]
    rw [put_lay]
    exact h1 d hx

/-- The exemplars of a helper are made of the keys read.  (No code of its own: used in statements and proofs.) -/
structure Holds (C : (i : ι) → Cfg (K i) (V i)) (tab : (i : ι) → List (K i)) (B : (i : ι) → List (Bind (K i) (V i))) : Prop where
  len : ∀ i, (tab i).length = (B i).length
  key : ∀ i (n : Nat) k b, (tab i)[n]? = some k → (B i)[n]? = some b → (C i).keq b.key k = true ∧ Made (C i).sp b

theorem Holds.push {tab : (i : ι) → List (K i)} {B : (i : ι) → List (Bind (K i) (V i))} (hH : Holds C tab B) {i : ι} {k : K i} {b : Bind (K i) (V i)}
    (h : (C i).keq b.key k = true ∧ Made (C i).sp b) : Holds C (put tab i (tab i ++ [k])) (put B i (B i ++ [b])) where
  len j := by
    by_cases hj : j = i
    · subst hj; simp [hH.len]
    · rw [put_ne _ _ hj, put_ne _ _ hj]; exact hH.len j
  key j n k' b' := by
    by_cases hj : j = i
    · subst hj
      rw [put_same, put_same]
      intro h1 h2
      by_cases hn : n < (tab j).length
      · rw [List.getElem?_append_left hn] at h1
        rw [List.getElem?_append_left (hH.len j ▸ hn)] at h2
        exact hH.key j n k' b' h1 h2
      · rw [List.getElem?_append_right (by omega)] at h1
        rw [List.getElem?_append_right (by rw [← hH.len]; omega)] at h2
        have e := List.mem_of_getElem? h1
        have e' := List.mem_of_getElem? h2
        rw [List.mem_singleton.1 e, List.mem_singleton.1 e']
        exact h
    · rw [put_ne _ _ hj, put_ne _ _ hj]
      exact hH.key j n k' b'

/-- Any flyweight that shares values with the others as it should may be the result of a creation. -/
theorem fits_old {K V : Type} {C : Cfg K V} (he : EquivOk C.keq) {w v : Store K V} (hc : Coherent C v) (hw : ∀ y c, w y = some c → v y = some c) {z : Nat}
    {src : Src K V} {b : Bind K V} (hz : v z = some b) (hk : C.keq b.key (C.sp.key0 src) = true) (hm : Made C.sp b) : Fits C w src b where
  key := hk
  made := hm
  addr y c hy := ⟨fun e => by rw [hc y z c b (hw y c hy) hz (.inl e)]; exact he.refl _, fun e => by rw [hc y z c b (hw y c hy) hz (.inr e)]⟩
  same y c hy e := hc y z c b (hw y c hy) hz (.inl e)

theorem assignVal_runs {i : ι} {x : Nat} {w w' : Vars K V} {b d : Bind (K i) (V i)} {src : Src (K i) (V i)} {f : Unit → Test ι K V β} {r : End β} (hx : w i x = some d)
    (hs : (C i).sp.supports src = true) (hF : Fits (C i) (w i) src b) (h : Runs C (f ()) (put w i (upd (w i) x (some b))) r w') :
    Runs C (perform i (.assignVal x src) >>= f : Test ι K V β) w r w' := by
  refine Runs.op i (.assignVal x src) _ w (some b) false _ _ ⟨fun e => ?_, fun _ s hs => ⟨b, rfl, ?_⟩⟩ ?_
  · simp [act, hx, hs] at e
  · obtain rfl : src = s := by simpa [Op.creates] using hs
    exact hF
  · simp only [act, hx, hs]
    exact h

theorem assignVal_stuck {i : ι} {x : Nat} {w : Vars K V} {src : Src (K i) (V i)} {f : Unit → Test ι K V β} (hx : w i x = none) :
    Runs C (perform i (.assignVal x src) >>= f : Test ι K V β) w .stuck w := by
  refine Runs.op i (.assignVal x src) _ w none false _ _ ⟨fun e => ?_, fun e => ?_⟩ ?_
  · simp [act, hx] at e
  · simp [act, hx] at e
  · simp only [act, hx, put_self]
    exact .ret _ _

/-- What remains to be done after the exemplar is there. -/
theorem Loader.load_sat (he : ∀ i, EquivOk (C i).keq) {src : (i : ι) → K i → Src (K i) (V i)} (hsrc : ∀ i k, (C i).sp.supports (src i k) = true ∧ (C i).sp.key0 (src i k) = k)
    {i : ι} {f t n : Nat} (hlt : f < t) {k : Loader ι K V α} {w : Vars K V} {B : (i : ι) → List (Bind (K i) (V i))} {tab : (i : ι) → List (K i)} {ts : List (Tok K)}
    {b : Bind (K i) (V i)} {key : K i} (hf : Free t w) (hc : ∀ i, Coherent (C i) (lay (t + 1) w B i)) (hn : (B i)[n]? = some b)
    (hk : (C i).keq b.key key = true ∧ Made (C i).sp b)
    (ih : ∀ w, Free t w → (∀ i, Coherent (C i) (lay (t + 1) w B i)) →
      Sat C (k.archive src (t + 1) t (fun i => (B i).length) ts) (lay (t + 1) w B) fun r v' => ∃ w', v' = lay (t + 1) w' B ∧ Free t w' ∧ Runs C (k.plain src tab ts) w r w') :
    Sat C (do fetch i (t + 1) t n f; k.archive src (t + 1) t (fun i => (B i).length) ts : Test ι K V α) (lay (t + 1) w B) fun r v' =>
      ∃ w', v' = lay (t + 1) w' B ∧ Free t w' ∧ Runs C (do perform i (.assignVal f (src i key)); k.plain src tab ts : Test ι K V α) w r w' := by
  refine bind_rule (fetch_sat hf hlt hn (fun d hd => ?_) fun hx => ⟨w, rfl, hf, assignVal_stuck hx⟩)
  have hz : lay (t + 1) w B i (t + 1 + n) = some b := by rw [lay, lay1_ge, hn]
  have hF : Fits (C i) (w i) (src i key) b :=
    fits_old (he i) (hc i) (fun y c hy => lay1_old (fun y hy => hf i y (by omega)) hy) hz (by rw [(hsrc i key).2]; exact hk.1) hk.2
  refine (ih _ (put_fam hf (free_upd (hf i) hlt _)) fun j => ?_).mono ?_
  · by_cases hj : j = i
    · subst hj
      rw [lay, put_same, ← lay1_upd (by omega)]
      exact (hc j).upd_old (.inr hz.symm)
    · have := hc j
      simp only [lay, put_ne _ _ hj] at this ⊢
      exact this
  · rintro r v' ⟨w', g1, g2, g3⟩
    exact ⟨w', g1, g2, assignVal_runs hd (hsrc i key).1 hF g3⟩

/-- A program that reads an archive does what it could do if it made the flyweights of the keys. -/
theorem Loader.archive_sat (he : ∀ i, EquivOk (C i).keq) {src : (i : ι) → K i → Src (K i) (V i)} (hsrc : ∀ i k, (C i).sp.supports (src i k) = true ∧ (C i).sp.key0 (src i k) = k)
    (p : Loader ι K V α) {t : Nat} (hp : p.Below t) : ∀ {w : Vars K V} {B : (i : ι) → List (Bind (K i) (V i))} {tab : (i : ι) → List (K i)} {ts : List (Tok K)},
    Free t w → (∀ i, Coherent (C i) (lay (t + 1) w B i)) → Holds C tab B →
    Sat C (p.archive src (t + 1) t (fun i => (B i).length) ts) (lay (t + 1) w B) fun r v' => ∃ w', v' = lay (t + 1) w' B ∧ Free t w' ∧ Runs C (p.plain src tab ts) w r w' := by
  have below : ∀ {K V : Type} {o : Op K V}, OpBelow t o → OpBelow (t + 1) o := by
    intro K V o ho
    cases o <;> simp only [OpBelow] at ho ⊢ <;> omega
  induction p with
  | ret a =>
    intro w B tab ts hf hc hH
    exact ⟨w, rfl, hf, .ret _ _⟩
  | op i o k ih =>
    intro w B tab ts hf hc hH b fail ha
    have h1 := allowed_lay (fun y hy => hf i y (by omega)) (below hp.1) ha
    have h2 := (hc i).act (he i) ha
    have h3 := free_act (C := C i) (hf i) hp.1 b fail
    have e : act (C i) b fail (lay (t + 1) w B i) o = _ := act_lay (below hp.1) b fail
    rw [e] at h2 ⊢
    rw [put_lay]
    refine (ih _ (hp.2 _) (put_fam hf h3) (fun j => ?_) hH).mono ?_
    · by_cases hj : j = i
      · subst hj; simpa [lay] using h2
      · have := hc j
        simp only [lay, put_ne _ _ hj] at this ⊢
        exact this
    · rintro r v' ⟨w', g1, g2, g3⟩
      exact ⟨w', g1, g2, .op i o _ w b fail _ _ h1 g3⟩
  | user i k ih =>
    intro w B tab ts hf hc hH fail ht
    refine (ih _ (hp _) hf hc hH).mono ?_
    rintro r v' ⟨w', g1, g2, g3⟩
    exact ⟨w', g1, g2, .user i _ w fail _ _ ht g3⟩
  | load i f k ih =>
    intro w B tab ts hf hc hH
    have hthr : (C i).thr → ∃ w', lay (t + 1) w B = lay (t + 1) w' B ∧ Free t w' ∧ Runs C ((Loader.load i f k).plain src tab ts) w .threw w' :=
      fun ht => ⟨w, rfl, hf, code_threw ht⟩
    have hbad : next tab i ts = none → ∃ w', lay (t + 1) w B = lay (t + 1) w' B ∧ Free t w' ∧ Runs C ((Loader.load i f k).plain src tab ts) w .threw w' := by
      intro e
      refine ⟨w, rfl, hf, code_ok ?_⟩
      simp only [e]
      exact .ret _ _
    refine code_then ?_ hthr
    cases ts with
    | nil => exact hbad rfl
    | cons tok ts =>
      cases tok with
      | key j key => exact hbad rfl
      | idx n =>
        by_cases h1 : n > (B i).length
        · simp only [if_pos h1]
          refine hbad ?_
          simp only [next]
          rw [List.getElem?_eq_none (by rw [hH.len]; omega), hH.len]
          simp only [if_neg (Nat.ne_of_gt h1)]
        · simp only [if_neg h1]
          by_cases h2 : n = (B i).length
          · subst h2
            simp only [if_true]
            have hnx : ∀ ts, next tab i (.idx (B i).length :: ts) = match ts with
                | .key j k :: ts => if e : j = i then some (e ▸ k, put tab i (tab i ++ [e ▸ k]), ts) else none
                | _ => none := by
              intro ts
              simp only [next]
              rw [List.getElem?_eq_none (by rw [hH.len]; omega), hH.len]
              rcases ts with _ | ⟨_ | _, _⟩ <;> simp
            cases ts with
            | nil => exact hbad (hnx _)
            | cons tok ts =>
              cases tok with
              | idx m => exact hbad (hnx _)
              | key j key =>
                by_cases hj : j = i
                · subst hj
                  have hnx' := hnx (.key j key :: ts)
                  simp only [dif_pos] at hnx'
                  simp only [dif_pos]
                  have h0 : lay (t + 1) w B j t = none := by rw [lay, lay1_lt (by omega)]; exact hf j t (by omega)
                  refine block_sat (code_then (block_sat ?_) hthr)
                  intro c fail ha
                  have hT := ha.throws
                  have hF := ha.fits
                  simp only [act, h0, (hsrc j key).1] at hT hF ⊢
                  cases fail with
                  | true =>
                    simp only [if_true, put_self]
                    exact hthr (hT rfl)
                  | false =>
                    obtain ⟨b, rfl, hb⟩ := hF rfl _ rfl
                    simp only [Bool.false_eq_true, if_false]
                    have ht : upd (upd (lay (t + 1) w B j) t (some b)) t none = lay (t + 1) w B j := by
                      funext y
                      by_cases hy : y = t
                      · subst hy; rw [upd_self, h0]
                      · rw [upd_ne _ _ hy, upd_ne _ _ hy]
                    refine code_then (copy_sat (b := b) ?_ ?_ ?_) fun hthr' => ⟨⟨b, by rw [put_same, upd_self]⟩, ?_⟩
                    · rw [put_same, upd_ne _ _ (by omega), lay, lay1_ge, List.getElem?_eq_none (by omega)]
                    · rw [put_same, upd_self]
                    · have e1 : upd (upd (upd (lay (t + 1) w B j) t (some b)) (t + 1 + (B j).length) (some b)) t none = lay1 (t + 1) (w j) (B j ++ [b]) := by
                        rw [← lay1_push]
                        funext y
                        by_cases hy : y = t
                        · subst hy
                          rw [upd_self, upd_ne _ _ (by omega)]
                          exact h0.symm
                        · rw [upd_ne _ _ hy]
                          by_cases hyf : y = t + 1 + (B j).length
                          · subst hyf; rw [upd_self, upd_self]
                          · rw [upd_ne _ _ hyf, upd_ne _ _ hyf, upd_ne _ _ hy]
                            rfl
                      refine ⟨⟨b, by rw [put_same, upd_ne _ _ (by omega), put_same, upd_self]⟩, ?_⟩
                      simp only [put_same, put_put, e1]
                      rw [put_lay_B, put_length j b]
                      have hc' : ∀ i, Coherent (C i) (lay (t + 1) w (put B j (B j ++ [b])) i) := by
                        intro i
                        by_cases hi : i = j
                        · subst hi
                          refine (hc i).add (he i) hb fun y c hy => ?_
                          rw [lay, put_same, ← lay1_push] at hy
                          rcases upd_range hy with e | hz
                          · exact .inl (by cases e; rfl)
                          · exact .inr hz
                        · have := hc i
                          simp only [lay, put_ne _ _ hi] at this ⊢
                          exact this
                      have hk : (C j).keq b.key key = true ∧ Made (C j).sp b := ⟨by have := hb.key; rwa [(hsrc j key).2] at this, hb.made⟩
                      have hH' := hH.push hk
                      refine (Loader.load_sat he hsrc (B := put B j (B j ++ [b])) (tab := put tab j (tab j ++ [key])) hp.1 hf hc' (by rw [put_same]; simp) hk
                        fun w hf hc => ih hp.2 hf hc hH').mono ?_
                      rintro r v' ⟨w', rfl, g2, g3⟩
                      refine ⟨⟨b, by rw [lay, put_same, lay1_ge]; simp⟩, w', ?_, g2, code_ok ?_⟩
                      · rw [lay, put_same, lay1_pop]
                        funext i
                        by_cases hi : i = j
                        · subst hi; simp [lay]
                        · rw [put_ne _ _ hi, lay, put_ne _ _ hi]
                          rfl
                      · simp only [hnx']
                        exact g3
                    · simp only [put_same, put_put, ht, put_self]
                      exact hthr hthr'
                · simp only [dif_neg hj]
                  refine hbad ?_
                  rw [hnx]
                  simp only [dif_neg hj]
          · simp only [if_neg h2]
            have hn : n < (B i).length := by omega
            have hn' : n < (tab i).length := by rw [hH.len]; exact hn
            have hk := hH.key i n _ _ (List.getElem?_eq_getElem hn') (List.getElem?_eq_getElem hn)
            refine (Loader.load_sat he hsrc (tab := tab) hp.1 hf hc (List.getElem?_eq_getElem hn) hk fun w hf hc => ih hp.2 hf hc hH).mono ?_
            rintro r v' ⟨w', g1, g2, g3⟩
            refine ⟨w', g1, g2, code_ok ?_⟩
            simp only [next, List.getElem?_eq_getElem hn']
            exact g3

theorem Loader.sat (he : ∀ i, EquivOk (C i).keq) {src : (i : ι) → K i → Src (K i) (V i)} (hsrc : ∀ i k, (C i).sp.supports (src i k) = true ∧ (C i).sp.key0 (src i k) = k)
    (p : Loader ι K V α) {t : Nat} (hp : p.Below t) {w : Vars K V} (hf : Free t w) (hc : ∀ i, Coherent (C i) (w i)) (ts : List (Tok K)) :
    Sat C (p.archive src (t + 1) t (fun _ => 0) ts) w fun r w' => Free t w' ∧ Runs C (p.plain src (fun _ => []) ts) w r w' := by
  have hf' : Free (t + 1) w := fun i y hy => hf i y (by omega)
  have h1 := Loader.archive_sat he hsrc p hp (w := w) (B := fun _ => []) (tab := fun _ => []) (ts := ts) hf (by rw [lay_nil hf']; exact hc)
    ⟨fun _ => rfl, fun _ _ _ _ h => by simp at h⟩
  rw [lay_nil hf'] at h1
  refine h1.mono ?_
  rintro r v' ⟨w', g1, g2, g3⟩
  rw [lay_nil fun i y hy => g2 i y (by omega)] at g1
  subst g1
  exact ⟨g2, g3⟩

/-- The keys an archive stands for are those that are read. -/
theorem Stands.next {tab : (i : ι) → List (K i)} {ts : List (Tok K)} {i : ι} {k : K i} {ks : List (Σ i, K i)} (hs : Stands tab ts (⟨i, k⟩ :: ks)) :
    ∃ tab' ts', SessionSerial.next tab i ts = some (k, tab', ts') ∧ Stands tab' ts' ks := by
  cases hs with
  | old _ _ n _ ts _ h1 h2 => exact ⟨tab, ts, by simp only [SessionSerial.next, h1], h2⟩
  | new _ _ _ ts _ h => exact ⟨_, ts, by simp [SessionSerial.next], h⟩

theorem Stands.given (src : (i : ι) → K i → Src (K i) (V i)) (p : Loader ι K V α) : ∀ {tab : (i : ι) → List (K i)} {ts : List (Tok K)} {ks : List (Σ i, K i)},
    Stands tab ts ks → p.Asks (ks.map Sigma.fst) → p.plain src tab ts = p.given src ks := by
  induction p with
  | ret a => intros; rfl
  | op i o k ih =>
    intro tab ts ks hs hp
    simp only [Loader.plain, Loader.given]
    congr 1
    funext r
    exact ih r hs (hp r)
  | user i k ih =>
    intro tab ts ks hs hp
    simp only [Loader.plain, Loader.given]
    congr 1
    funext r
    exact ih r hs (hp r)
  | load i f k ih =>
    intro tab ts ks hs hp
    obtain ⟨l', e, hl⟩ := hp
    cases ks with
    | nil => cases e
    | cons a ks =>
      obtain ⟨j, key⟩ := a
      simp only [List.map_cons, List.cons.injEq] at e
      obtain ⟨rfl, rfl⟩ := e
      obtain ⟨tab', ts', h1, h2⟩ := hs.next
      simp only [Loader.plain, Loader.given, h1]
      rw [ih h2 hl]

end
end SessionSerial
end Verif

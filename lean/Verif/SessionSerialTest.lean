import Verif.SessionSerialOk

/-!
# The test of serialization succeeds with any factories
-/

set_option autoImplicit false

namespace Verif.SessionSerial
open Client (Store Made)
open Session (Vars Sat Runs)
open SessionTests
variable {ι : Type} [DecidableEq ι] {K V : ι → Type} {α : Type} {C : (i : ι) → Cfg (K i) (V i)}

/-! ## Variables -/

omit [DecidableEq ι] in
theorem names_named (n : Nat) (l : List ((i : ι) × Src (K i) (V i))) : ∀ p ∈ names (named n l), n ≤ p.2 ∧ p.2 < n + l.length := by
  induction l generalizing n with
  | nil => intro p hp; cases hp
  | cons a l ih =>
    intro p hp
    rcases List.mem_cons.1 hp with rfl | hp
    · simp
    · have := ih (n + 1) p hp
      simp only [List.length_cons]
      omega

omit [DecidableEq ι] in
theorem named_nodup (n : Nat) (l : List ((i : ι) × Src (K i) (V i))) : (names (named n l)).Nodup := by
  induction l generalizing n with
  | nil => exact .nil
  | cons a l ih =>
    refine List.nodup_cons.2 ⟨fun h => ?_, ih (n + 1)⟩
    have := names_named (n + 1) l _ h
    simp only at this
    omega

omit [DecidableEq ι] in
theorem named_types (n : Nat) (l : List ((i : ι) × Src (K i) (V i))) : (names (named n l)).map Prod.fst = l.map Sigma.fst := by
  induction l generalizing n with
  | nil => rfl
  | cons a l ih => exact congrArg (a.1 :: ·) (ih (n + 1))

omit [DecidableEq ι] in
theorem named_sources (n : Nat) (l : List ((i : ι) × Src (K i) (V i))) : ∀ p ∈ named n l, (⟨p.1, p.2.2⟩ : (i : ι) × Src (K i) (V i)) ∈ l := by
  induction l generalizing n with
  | nil => intro p hp; cases hp
  | cons a l ih =>
    intro p hp
    rcases List.mem_cons.1 hp with rfl | hp
    · exact .head _
    · exact .tail _ (ih _ p hp)

/-- Variables in a block. -/
theorem withVars_sat (he : ∀ i, EquivOk (C i).keq) {w : Vars K V} {Q : α → Prop} {rest : Test ι K V α} (l : List ((i : ι) × Nat × Src (K i) (V i))) :
    ∀ {L : List (ι × Nat)} {v : Vars K V}, (∀ p ∈ l, (C p.1).sp.supports p.2.2 = true ∧ w p.1 p.2.1 = none ∧ (p.1, p.2.1) ∉ L) → (names l).Nodup →
    Within w L v → (∀ i, Coherent (C i) (v i)) →
    (∀ v', Within w ((names l).reverse ++ L) v' → (∀ i, Coherent (C i) (v' i)) → Sat C rest v' (Post C w ((names l).reverse ++ L) Q)) →
    Sat C (withVars l rest) v (Post C w L Q) := by
  induction l with
  | nil =>
    intro L v _ _ hv hc h
    exact h v hv hc
  | cons p l ih =>
    intro L v hl hnd hv hc h
    obtain ⟨h1, h2, h3⟩ := hl p (.head _)
    obtain ⟨h4, h5⟩ := List.nodup_cons.1 hnd
    refine block_rule h3 h2 ?_
    intro b fail ha
    have h0 : v p.1 p.2.1 = none := by rw [hv.out _ _ h3, h2]
    have hT := ha.throws
    have hF := ha.fits
    have hC := (hc p.1).act (he p.1) ha
    simp only [act, h0, h1] at hT hF hC ⊢
    cases fail with
    | true =>
      simp only [if_true, put_self]
      exact ⟨hv, p.1, hT rfl⟩
    | false =>
      obtain ⟨c, rfl, hb⟩ := hF rfl _ rfl
      simp only [Bool.false_eq_true, if_false] at hC ⊢
      have hW : Within w ((p.1, p.2.1) :: L) (put v p.1 (upd (v p.1) p.2.1 (some c))) := by
        refine ⟨fun i y hy => ?_, fun q hq => ?_⟩
        · rw [← hv.out i y fun hm => hy (.tail _ hm)]
          by_cases hi : i = p.1
          · subst hi
            rw [put_same, upd_ne]
            rintro rfl
            exact hy (.head _)
          · rw [put_ne _ _ hi]
        · obtain ⟨j, y⟩ := q
          by_cases hj : j = p.1
          · subst hj
            by_cases hy : y = p.2.1
            · subst hy
              exact ⟨c, by rw [put_same, upd_self]⟩
            · rcases List.mem_cons.1 hq with e | hq
              · cases e; exact (hy rfl).elim
              · obtain ⟨d, hd⟩ := hv.in_ _ hq
                exact ⟨d, by rw [put_same, upd_ne _ _ hy]; exact hd⟩
          · rcases List.mem_cons.1 hq with e | hq
            · cases e; exact (hj rfl).elim
            · obtain ⟨d, hd⟩ := hv.in_ _ hq
              exact ⟨d, by rw [put_ne _ _ hj]; exact hd⟩
      refine ih (L := (p.1, p.2.1) :: L) (fun q hq => ⟨(hl q (.tail _ hq)).1, (hl q (.tail _ hq)).2.1, fun hm => ?_⟩) h5 hW (put_fam hc hC) fun v' g1 g2 => ?_
      · rcases List.mem_cons.1 hm with e | hm
        · exact h4 (List.mem_map.2 ⟨q, hq, e⟩)
        · exact (hl q (.tail _ hq)).2.2 hm
      · have e : (names (p :: l)).reverse ++ L = (names l).reverse ++ (p.1, p.2.1) :: L := by
          simp [names]
        have := h v' (e ▸ g1) g2
        rw [e] at this
        exact this

/-! ## Saving and loading all of them -/

/-- The keys of these flyweights.  (No code of its own: used in statements and proofs.) -/
def KeysAre (v : Vars K V) : List (ι × Nat) → List (Σ i, K i) → Prop
  | [], [] => True
  | p :: l, k :: ks => (∃ b, v p.1 p.2 = some b ∧ k = ⟨p.1, b.key⟩) ∧ KeysAre v l ks
  | _, _ => False

theorem saves_sat {v : Vars K V} (xs : List (ι × Nat)) (hx : ∀ p ∈ xs, ∃ b, v p.1 p.2 = some b) :
    Sat C (saves xs).plain v fun r v' => v' = v ∧ match r with
      | .ok a => KeysAre v xs a.1
      | .threw => ∃ i, (C i).thr
      | .stuck => False := by
  induction xs with
  | nil => exact ⟨rfl, trivial⟩
  | cons p xs ih =>
    obtain ⟨b, hb⟩ := hx p (.head _)
    refine getKey_sat hb (code_then (bind_rule ((ih fun q hq => hx q (.tail _ hq)).mono ?_)) fun ht => ⟨rfl, p.1, ht⟩)
    rintro r v' ⟨rfl, h⟩
    cases r with
    | ok a => exact ⟨rfl, ⟨b, hb, rfl⟩, h⟩
    | threw => exact ⟨rfl, h⟩
    | stuck => exact h.elim

omit [DecidableEq ι] in
theorem saves_below {n : Nat} (xs : List (ι × Nat)) (hx : ∀ p ∈ xs, p.2 < n) : (saves xs : Saver ι K V Unit).Below n := by
  induction xs with
  | nil => trivial
  | cons p xs ih => exact ⟨hx p (.head _), ih fun q hq => hx q (.tail _ hq)⟩

omit [DecidableEq ι] in
theorem loads_below {n : Nat} (xs : List (ι × Nat)) (hx : ∀ p ∈ xs, p.2 < n) : (loads xs : Loader ι K V Unit).Below n := by
  induction xs with
  | nil => trivial
  | cons p xs ih => exact ⟨hx p (.head _), ih fun q hq => hx q (.tail _ hq)⟩

omit [DecidableEq ι] in
theorem loads_asks (xs : List (ι × Nat)) : (loads xs : Loader ι K V Unit).Asks (xs.map Prod.fst) := by
  induction xs with
  | nil => trivial
  | cons p xs ih => exact ⟨_, rfl, ih⟩

omit [DecidableEq ι] in
theorem KeysAre.types {v : Vars K V} : ∀ {xs : List (ι × Nat)} {ks : List (Σ i, K i)}, KeysAre v xs ks → ks.map Sigma.fst = xs.map Prod.fst
  | [], [], _ => rfl
  | _ :: _, _ :: _, ⟨⟨_, _, h⟩, h'⟩ => by simp [h, h'.types]

omit [DecidableEq ι] in
theorem keys_congr {v v' : Vars K V} : ∀ {xs : List (ι × Nat)} {ks : List (Σ i, K i)}, (∀ p ∈ xs, v' p.1 p.2 = v p.1 p.2) → KeysAre v xs ks → KeysAre v' xs ks
  | [], [], _, _ => trivial
  | p :: _, _ :: _, h, ⟨⟨b, h1, h2⟩, h'⟩ => ⟨⟨b, (h p (.head _)).trans h1, h2⟩, keys_congr (fun q hq => h q (.tail _ hq)) h'⟩

/-- These flyweights have been made of these keys.  (No code of its own: used in statements and proofs.) -/
def MadeOf (C : (i : ι) → Cfg (K i) (V i)) (v : Vars K V) : List (ι × Nat) → List (Σ i, K i) → Prop
  | [], [] => True
  | p :: l, k :: ks => (∃ b l, v p.1 p.2 = some b ∧ k = ⟨p.1, l⟩ ∧ (C p.1).keq b.key l = true) ∧ MadeOf C v l ks
  | _, _ => False

omit [DecidableEq ι] in
theorem MadeOf.congr {v v' : Vars K V} : ∀ {ys : List (ι × Nat)} {ks : List (Σ i, K i)}, (∀ p ∈ ys, v' p.1 p.2 = v p.1 p.2) → MadeOf C v ys ks → MadeOf C v' ys ks
  | [], [], _, _ => trivial
  | p :: _, _ :: _, h, ⟨⟨b, l, h1, h2⟩, h'⟩ => ⟨⟨b, l, (h p (.head _)).trans h1, h2⟩, h'.congr fun q hq => h q (.tail _ hq)⟩

theorem loads_sat {src : (i : ι) → K i → Src (K i) (V i)} (hsrc : ∀ i k, (C i).sp.supports (src i k) = true ∧ (C i).sp.key0 (src i k) = k) (ys : List (ι × Nat)) :
    ∀ {v : Vars K V} {ks : List (Σ i, K i)}, ys.Nodup → (∀ p ∈ ys, ∃ b, v p.1 p.2 = some b) → ks.map Sigma.fst = ys.map Prod.fst →
    Sat C ((loads ys).given src ks) v fun r v' => (∀ i y, (i, y) ∉ ys → v' i y = v i y) ∧ (∀ p ∈ ys, ∃ b, v' p.1 p.2 = some b) ∧ match r with
      | .ok _ => MadeOf C v' ys ks
      | .threw => ∃ i, (C i).thr
      | .stuck => False := by
  induction ys with
  | nil =>
    intro v ks _ _ hk
    cases ks with
    | nil => exact ⟨fun _ _ _ => rfl, fun _ h => (nomatch h), trivial⟩
    | cons k ks => cases hk
  | cons p ys ih =>
    intro v ks hnd hv hk
    cases ks with
    | nil => cases hk
    | cons k ks =>
      obtain ⟨j, key⟩ := k
      obtain ⟨i, y⟩ := p
      simp only [List.map_cons, List.cons.injEq] at hk
      obtain ⟨rfl, hk⟩ := hk
      obtain ⟨h1, h2⟩ := List.nodup_cons.1 hnd
      obtain ⟨d, hd⟩ := hv (j, y) (.head _)
      refine code_then (bind_rule ?_) fun ht => ⟨fun _ _ _ => rfl, hv, j, ht⟩
      intro b fail ha
      have hT := ha.throws
      have hF := ha.fits
      simp only at hd
      simp only [act, hd, (hsrc j key).1] at hT hF ⊢
      cases fail with
      | true =>
        simp only [if_true, put_self]
        exact ⟨fun _ _ _ => rfl, hv, j, hT rfl⟩
      | false =>
        obtain ⟨c, rfl, hb⟩ := hF rfl _ rfl
        simp only [Bool.false_eq_true, if_false]
        have hex : ∀ p ∈ (j, y) :: ys, ∃ b, put v j (upd (v j) y (some c)) p.1 p.2 = some b := by
          rintro ⟨i, z⟩ hp
          obtain ⟨b, hb'⟩ := hv _ hp
          by_cases hi : i = j
          · subst hi
            by_cases hz : z = y
            · subst hz; exact ⟨c, by rw [put_same, upd_self]⟩
            · exact ⟨b, by rw [put_same, upd_ne _ _ hz]; exact hb'⟩
          · exact ⟨b, by rw [put_ne _ _ hi]; exact hb'⟩
        refine (ih h2 (fun q hq => hex q (.tail _ hq)) hk).mono ?_
        rintro r v' ⟨g1, g2, g3⟩
        have hy : v' j y = some c := by rw [g1 j y h1, put_same, upd_self]
        refine ⟨fun i z hz => ?_, fun q hq => ?_, ?_⟩
        · rw [g1 i z fun hm => hz (.tail _ hm)]
          by_cases hi : i = j
          · subst hi
            rw [put_same, upd_ne]
            rintro rfl
            exact hz (.head _)
          · rw [put_ne _ _ hi]
        · rcases List.mem_cons.1 hq with rfl | hq
          · exact ⟨c, hy⟩
          · exact g2 q hq
        · cases r with
          | ok a => exact ⟨⟨c, key, hy, rfl, by have := hb.key; rwa [(hsrc j key).2] at this⟩, g3⟩
          | threw => exact g3
          | stuck => exact g3

theorem same_sat (he : ∀ i, EquivOk (C i).keq) {v : Vars K V} : ∀ {xs ys : List (ι × Nat)} {ks : List (Σ i, K i)}, KeysAre v xs ks → MadeOf C v ys ks →
    Sat C (same xs ys) v fun r v' => v' = v ∧ ∃ bs, r = .ok bs ∧ bs = List.replicate xs.length true
  | [], [], _, _, _ => ⟨rfl, _, rfl, rfl⟩
  | [], _ :: _, [], _, h => h.elim
  | _ :: _, [], _ :: _, _, h => h.elim
  | _ :: _, _, [], h, _ => h.elim
  | (i, x) :: xs, (j, y) :: ys, k :: ks, ⟨⟨b, hb, h1⟩, h2⟩, ⟨⟨c, l, hc, h3, h4⟩, h5⟩ => by
    simp only at hb hc h1 h3 h4
    subst h1
    simp only [Sigma.mk.injEq] at h3
    obtain ⟨rfl, h3⟩ := h3
    cases h3
    refine bind_rule fun d fail _ => ?_
    simp only [act, hb, hc, put_self]
    refine bind_rule ((same_sat he h2 h5).mono ?_)
    rintro r v' ⟨rfl, bs, rfl, rfl⟩
    exact ⟨rfl, _, rfl, by rw [(he i).symm _ _ h4]; rfl⟩

/-! ## The test -/

theorem test_sat (he : ∀ i, EquivOk (C i).keq) {src : (i : ι) → K i → Src (K i) (V i)}
    (hsrc : ∀ i k, (C i).sp.supports (src i k) = true ∧ (C i).sp.key0 (src i k) = k) {dflt : (i : ι) → Src (K i) (V i)} (hd : ∀ i, (C i).sp.supports (dflt i) = true)
    {w : Vars K V} {n : Nat} (hf : Free n w) (hc : ∀ i, Coherent (C i) (w i)) {xs : List (ι × Nat)} (hx : ∀ p ∈ xs, ∃ b, w p.1 p.2 = some b) :
    Sat C (test src dflt n xs) w (Post C w [] fun bs => bs = List.replicate xs.length true) := by
  have hlt : ∀ p ∈ xs, p.2 < n := fun p hp => Nat.lt_of_not_le fun hle => by
    obtain ⟨b, hb⟩ := hx p hp
    rw [hf p.1 p.2 hle] at hb
    cases hb
  have hnil : Within w [] w := ⟨fun _ _ _ => rfl, fun _ h => (nomatch h)⟩
  refine bind_rule ?_
  refine (Saver.sat he (saves xs) (saves_below xs hlt) hf hc).mono ?_
  rintro r v' ⟨r', g2, g3, g4⟩
  obtain ⟨rfl, g6⟩ := g3.sat (saves_sat xs hx)
  cases r with
  | threw =>
    cases r' with
    | threw => exact ⟨hnil, g6⟩
    | ok _ => exact g4.elim
    | stuck => exact g4.elim
  | stuck =>
    cases r' with
    | stuck => exact g6.elim
    | ok _ => exact g4.elim
    | threw => exact g4.elim
  | ok r =>
    cases r' with
    | threw => exact g4.elim
    | stuck => exact g4.elim
    | ok r' =>
      obtain ⟨_, hst, _⟩ := g4
      let l : List ((i : ι) × Src (K i) (V i)) := xs.map fun p => ⟨p.1, dflt p.1⟩
      have hl : l.length = xs.length := by simp [l]
      have hty : (names (named n l)).map Prod.fst = xs.map Prod.fst := by
        rw [named_types]
        simp [l, Function.comp_def]
      have hin := names_named n l
      rw [hl] at hin
      refine withVars_sat (L := []) he (named n l) (fun p hp => ⟨?_, ?_, by simp⟩) (named_nodup n l) hnil hc fun v g1 g2 => ?_
      · obtain ⟨q, _, hq⟩ := List.mem_map.1 (named_sources n l p hp)
        have e1 : q.1 = p.1 := congrArg Sigma.fst hq
        obtain ⟨i, y, s⟩ := p
        simp only at e1 hq ⊢
        subst e1
        simp only [Sigma.mk.injEq, heq_eq_eq, true_and] at hq
        rw [← hq]
        exact hd _
      · exact hf _ _ (hin _ (List.mem_map.2 ⟨p, hp, rfl⟩)).1
      · rw [List.append_nil] at g1 ⊢
        have hmem : ∀ {i y}, (i, y) ∈ (names (named n l)).reverse ↔ (i, y) ∈ names (named n l) := List.mem_reverse
        have hf' : Free (n + xs.length) v := fun i y hy => by
          rw [g1.out i y fun hm => ?_]
          · exact hf i y (by omega)
          · have := (hin _ (hmem.1 hm)).2
            simp only at this
            omega
        refine bind_rule ?_
        refine (Loader.sat he hsrc (loads (names (named n l))) (t := n + xs.length) (loads_below _ fun p hp => (hin p hp).2) hf' g2 r.1).mono ?_
        rintro r v'' ⟨k2, k3⟩
        have ht := g6.types.trans hty.symm
        rw [Stands.given src _ hst (by rw [ht]; exact loads_asks _)] at k3
        obtain ⟨m1, m2, m3⟩ := k3.sat (loads_sat hsrc _ (named_nodup n l) (fun p hp => g1.in_ p (List.mem_reverse.2 hp)) ht)
        have hW : Within v' (names (named n l)).reverse v'' :=
          ⟨fun i y hy => (m1 i y fun hm => hy (hmem.2 hm)).trans (g1.out i y hy), fun p hp => m2 p (List.mem_reverse.1 hp)⟩
        cases r with
        | threw => exact ⟨hW, m3⟩
        | stuck => exact m3.elim
        | ok a =>
          have hK : KeysAre v'' xs r'.1 := by
            have : ∀ p ∈ xs, v'' p.1 p.2 = v' p.1 p.2 := fun p hp => hW.out p.1 p.2 fun hm => by
              have := (hin _ (hmem.1 hm)).1
              have := hlt p hp
              simp only at *
              omega
            exact keys_congr this g6
          refine (same_sat he hK m3).mono ?_
          rintro r v3 ⟨rfl, bs, rfl, rfl⟩
          exact ⟨hW, rfl⟩

theorem testAll_sat (he : ∀ i, EquivOk (C i).keq) {src : (i : ι) → K i → Src (K i) (V i)}
    (hsrc : ∀ i k, (C i).sp.supports (src i k) = true ∧ (C i).sp.key0 (src i k) = k) {dflt : (i : ι) → Src (K i) (V i)} (hd : ∀ i, (C i).sp.supports (dflt i) = true)
    {w : Vars K V} {n : Nat} (hf : Free n w) (hc : ∀ i, Coherent (C i) (w i)) {its : List ((i : ι) × Src (K i) (V i))}
    (hs : ∀ p ∈ its, (C p.1).sp.supports p.2 = true) : Sat C (testAll src dflt n its) w (Post C w [] fun bs => bs = List.replicate its.length true) := by
  have hin := names_named n its
  refine withVars_sat (L := []) he (named n its) (fun p hp => ⟨hs _ (named_sources n its p hp), hf _ _ (hin _ (List.mem_map.2 ⟨p, hp, rfl⟩)).1, by simp⟩) (named_nodup n its)
    ⟨fun _ _ _ => rfl, fun _ h => (nomatch h)⟩ hc fun v g1 g2 => ?_
  rw [List.append_nil] at g1 ⊢
  have hlen : (names (named n its)).length = its.length := by
    have := congrArg List.length (named_types n its)
    simpa using this
  have hf' : Free (n + its.length) v := fun i y hy => by
    rw [g1.out i y fun hm => ?_]
    · exact hf i y (by omega)
    · have := (hin _ (List.mem_reverse.1 hm)).2
      simp only at this
      omega
  refine (test_sat he hsrc hd hf' g2 (xs := names (named n its)) fun p hp => g1.in_ p (List.mem_reverse.2 hp)).mono ?_
  rintro r v' ⟨h1, h2⟩
  rw [h1.nil]
  refine ⟨g1, ?_⟩
  rw [hlen] at h2
  cases r <;> exact h2

end Verif.SessionSerial

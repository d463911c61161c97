import Verif.SerialCore
import Verif.Props.Tests

/-!
# Saving and loading the flyweights of a program: C67
-/

set_option autoImplicit false

namespace Verif.Props
open Setup Client SerialCore
variable {K V Rep F K' V' Rep' F' : Type}

private theorem names_free {S : Setup K V Rep F} {fl : Nat → Bool} {w : Store K V} {s : St Rep F} (hv : View S fl w s) {n : Nat}
    (hn : ∀ y a k v, S.Sees s y a k v → y < n) (y : Nat) (hy : n ≤ y) : w y = Option.none := by
  cases hw : w y with
  | none => rfl
  | some b => exact absurd (hn y b.addr b.key b.val ((hv.sees _ _ _ _).2 hw)) (by omega)

private theorem saved {S : Setup K V Rep F} {fl : Nat → Bool} {w : Store K V} {s : St Rep F} (hv : View S fl w s) {xs : List Nat}
    {bs : List (Bind K V)} (hbs : xs.map w = bs.map some) :
    decode [] xs.length (encode [] (bs.map fun b => (b.addr, b.key))) = some (bs.map Bind.key) := by
  have hl : xs.length = (bs.map fun b => (b.addr, b.key)).length := by simpa using congrArg List.length hbs
  have hd := decode_encode (K := K) (ps := bs.map fun b => (b.addr, b.key)) (seen := []) (table := []) ?_ rfl (by simp)
  · rw [hl, hd, List.map_map]
    rfl
  · rintro _ hp _ hq e
    obtain ⟨b, hb, rfl⟩ := List.mem_map.1 hp
    obtain ⟨c, hc, rfl⟩ := List.mem_map.1 hq
    obtain ⟨x, _, hx⟩ := bound_mem hbs hb
    obtain ⟨y, _, hy⟩ := bound_mem hbs hc
    exact congrArg Bind.key ((hv.same hx hy).2 e)

private theorem at_index {w : Store K V} {xs : List Nat} {bs : List (Bind K V)} (h : xs.map w = bs.map some) {i x : Nat}
    (hi : xs[i]? = some x) : ∃ b, bs[i]? = some b ∧ w x = some b := by
  have h1 : (xs.map w)[i]? = some (w x) := by simp [hi]
  rw [h, List.getElem?_map] at h1
  cases hb : bs[i]? with
  | none => rw [hb] at h1; simp at h1
  | some b =>
    rw [hb] at h1
    exact ⟨b, rfl, (Option.some.inj h1).symm⟩

/-- **C67.**  Saving flyweights: the archive contains each different key once, and stands for the sequence of the keys of the
flyweights.  The program's flyweights and the values are as before.  Otherwise an operation of the user has thrown. -/
theorem C67_save (S : Setup K V Rep F) (s : St Rep F) (hr : S.Reach s) (n : Nat) (hn : ∀ y a k v, S.Sees s y a k v → y < n)
    (xs : List Nat) (hx : ∀ x ∈ xs, ∃ a k v, S.Sees s x a k v) :
    match save S n 0 xs s with
    | .ok ts s' => Restored S s s' ∧ ((keysIn ts).Pairwise fun k l => S.keq k l = false) ∧
        (∀ k ∈ keysIn ts, ∃ x ∈ xs, ∃ a v, S.Sees s x a k v) ∧
        (∀ x ∈ xs, ∀ a k v, S.Sees s x a k v → k ∈ keysIn ts) ∧
        ∃ ks, decode [] xs.length ts = some ks ∧ ks.length = xs.length ∧
          ∀ (i : Nat) x a k v, xs[i]? = some x → S.Sees s x a k v → ks[i]? = some k
    | .exc s' => Restored S s s' ∧ ∃ n, s.env.faults n = true
    | .ub => False := by
  obtain ⟨fl, w, hv⟩ := View.of_reach hr
  obtain ⟨bs, hbs⟩ := bound_list (v := w) (xs := xs) fun x hm => by
    obtain ⟨a, k, v, h⟩ := hx x hm
    exact ⟨_, (hv.sees _ _ _ _).1 h⟩
  have hsv := save_ok (S := S) (fl := fl) (h := n) hbs (B := []) (by simp) (fun j => names_free hv hn _ (by simp)) s hv
  simp only [List.length_nil, List.map_nil] at hsv
  cases hm : save S n 0 xs s with
  | ub => rw [hm] at hsv; exact hsv
  | exc s' =>
    rw [hm] at hsv
    exact ⟨restored_of_view hv hsv.1, by rw [Tests.View.flags hv]; exact hsv.2⟩
  | ok ts s' =>
    rw [hm] at hsv
    obtain ⟨h1, h2⟩ := hsv
    subst h2
    obtain ⟨qs, q1, q2, q3, q4⟩ := keys_encode (ps := bs.map fun b => (b.addr, b.key)) []
    have hq : ∀ q ∈ qs, ∃ b, q = (b.addr, b.key) ∧ ∃ x ∈ xs, w x = some b := by
      intro q hq
      obtain ⟨b, hb, rfl⟩ := List.mem_map.1 (q2 q hq).1
      exact ⟨b, rfl, bound_mem hbs hb⟩
    refine ⟨restored_of_view hv h1, ?_, ?_, ?_, bs.map Bind.key, saved hv hbs, ?_, ?_⟩
    · rw [q1, List.pairwise_map]
      have := List.pairwise_map.1 q3
      refine this.imp_of_mem fun {p q} hp hq' hne => ?_
      obtain ⟨b, rfl, x, _, hb⟩ := hq p hp
      obtain ⟨c, rfl, y, _, hc⟩ := hq q hq'
      cases he : S.keq b.key c.key with
      | false => rfl
      | true => exact absurd ((hv.same hb hc).1.2 he) hne
    · intro k hk
      rw [q1] at hk
      obtain ⟨q, hqm, rfl⟩ := List.mem_map.1 hk
      obtain ⟨b, rfl, x, hxm, hb⟩ := hq q hqm
      exact ⟨x, hxm, b.addr, b.val, (hv.sees _ _ _ _).2 hb⟩
    · intro x hxm a k v hs
      have hw := (hv.sees _ _ _ _).1 hs
      have hmem : (⟨a, k, v⟩ : Bind K V) ∈ bs := by
        have : w x ∈ bs.map some := hbs ▸ List.mem_map_of_mem hxm
        rw [hw] at this
        simpa using this
      rcases q4 (a, k) (List.mem_map.2 ⟨_, hmem, rfl⟩) with h | ⟨q, hqm, he⟩
      · cases h
      · obtain ⟨b, rfl, y, _, hb⟩ := hq q hqm
        rw [q1]
        refine List.mem_map.2 ⟨_, hqm, ?_⟩
        have := (hv.same hb hw).2 he
        rw [this]
    · simpa using (congrArg List.length hbs).symm
    · intro i x a k v hi hs
      obtain ⟨b, e1, e2⟩ := at_index hbs hi
      rw [(hv.sees _ _ _ _).1 hs] at e2
      cases e2
      simp [e1]

/-- A program with three flyweights, keys being compared modulo 10, of which the first is saved twice. -/
example : ∃ s, (Sample.var .refcounted).Reach s ∧ (∀ x ∈ [0, 1, 2, 0], ∃ a k v, (Sample.var .refcounted).Sees s x a k v) ∧
    (match save (Sample.var .refcounted) 3 0 [0, 1, 2, 0] s with
    | .ok ts _ => some ts
    | _ => Option.none) = some [.idx 0, .key 3, .idx 1, .key 14, .idx 0, .idx 0] := by
  refine ⟨_, ⟨id, Sample.calm, Sample.alloc, [.make 0 (.key 3), .make 1 (.key 14), .make 2 (.key 13)], _, Sample.alloc_ok, rfl⟩,
    ?_, by decide +kernel⟩
  intro x hx
  simp only [List.mem_cons, List.not_mem_nil, or_false] at hx
  rcases hx with rfl | rfl | rfl | rfl <;> exact ⟨_, _, _, rfl, rfl⟩

/-- **C67.**  Loading from any archive into the elements of a vector: the elements refer to values with keys equivalent to those the
archive stands for, they share values with each other and with the program's flyweights exactly if the keys are equivalent.  The
program's flyweights and the values are as before once the elements are gone.  Otherwise the archive was not saved from flyweights
or an operation of the user has thrown. -/
theorem C67_load (S : Setup K V Rep F) (src : K → Src K V)
    (hsrc : ∀ k, S.sp.supports (src k) = true ∧ S.sp.key0 (src k) = k) (dflt : K) (hd : S.sp.supports (.key dflt) = true)
    (s : St Rep F) (hr : S.Reach s) (n : Nat) (hn : ∀ y a k v, S.Sees s y a k v → y < n) (c : Nat) (ts : List (Tok K)) :
    match loading S src dflt n c ts s with
    | .ok os s' => Restored S s s' ∧ os.length = c ∧
        (∃ ks, decode [] c ts = some ks ∧ ks.length = c ∧
          ∀ (i : Nat) a k l, os[i]? = some (a, k) → ks[i]? = some l → S.keq k l = true) ∧
        (∀ a k b l, (a, k) ∈ os → (b, l) ∈ os → (a = b ↔ S.keq k l = true)) ∧
        (∀ a k, (a, k) ∈ os → ∀ y b l v, S.Sees s y b l v → (a = b ↔ S.keq k l = true))
    | .exc s' => Restored S s s' ∧ ((∃ n, s.env.faults n = true) ∨ decode [] c ts = Option.none)
    | .ub => False := by
  obtain ⟨fl, w, hv⟩ := View.of_reach hr
  have hw := names_free hv hn
  have hl := loaded_ok (S := S) (fl := fl) (w := w) hsrc hd hw (c := c) (ts := ts)
    (check := observe S (List.range' (n + 1) c))
    (Q := fun os => os.length = c ∧
        (∃ ks, decode [] c ts = some ks ∧ ks.length = c ∧
          ∀ (i : Nat) a k l, os[i]? = some (a, k) → ks[i]? = some l → S.keq k l = true) ∧
        (∀ a k b l, (a, k) ∈ os → (b, l) ∈ os → (a = b ↔ S.keq k l = true)) ∧
        (∀ a k, (a, k) ∈ os → ∀ y b l v, S.Sees s y b l v → (a = b ↔ S.keq k l = true))) ?_ s hv
  · unfold loading
    cases hm : (withVector S dflt (n + 1) c (do
        load S src (n + 1 + c) n 0 (List.range' (n + 1) c) ts
        observe S (List.range' (n + 1) c))) s with
    | ok os s' =>
      rw [hm] at hl
      exact ⟨restored_of_view hv hl.1, hl.2⟩
    | exc s' =>
      rw [hm] at hl
      exact ⟨restored_of_view hv hl.1, by rw [Tests.View.flags hv]; exact hl.2⟩
    | ub => rw [hm] at hl; exact hl
  · intro v cs ks s' hv' hoff hcs hdec hag
    refine ⟨_, observe_ok hcs hv', ?_, ⟨ks, hdec, ?_, ?_⟩, ?_, ?_⟩
    · simpa using (congrArg List.length hcs).symm
    · rw [← hag.length]
      simpa using (congrArg List.length hcs).symm
    · intro i a k l hi hk
      rw [List.getElem?_map] at hi
      cases hc : cs[i]? with
      | none => rw [hc] at hi; simp at hi
      | some b =>
        rw [hc] at hi
        obtain ⟨l', e1, e2⟩ := hag.get hc
        rw [e1] at hk
        cases hk
        simp only [Option.map_some, Option.some.injEq, Prod.mk.injEq] at hi
        rw [← hi.2]
        exact e2
    · intro a k b l h1 h2
      obtain ⟨b1, hb1, e1⟩ := List.mem_map.1 h1
      obtain ⟨b2, hb2, e2⟩ := List.mem_map.1 h2
      cases e1
      cases e2
      obtain ⟨x, _, hx⟩ := bound_mem hcs hb1
      obtain ⟨y, _, hy⟩ := bound_mem hcs hb2
      exact (hv'.same hx hy).1
    · intro a k h1 y b l val hs
      obtain ⟨b1, hb1, e1⟩ := List.mem_map.1 h1
      cases e1
      obtain ⟨x, _, hx⟩ := bound_mem hcs hb1
      have hy : v y = some ⟨b, l, val⟩ := by
        rw [hoff y ?_]
        · exact (hv.sees _ _ _ _).1 hs
        · have := hn y _ _ _ hs
          simp only [List.mem_range'_1]
          omega
      exact (hv'.same hx hy).1

/-- Into an empty program, from an archive and from something that is not one. -/
example : (∀ k, (Sample.var .refcounted).sp.supports (.key k) = true ∧ (Sample.var .refcounted).sp.key0 (.key k) = k) ∧
    ∃ s, (Sample.var .refcounted).Reach s ∧
    (match loading (Sample.var .refcounted) .key 0 0 3 [.idx 0, .key 3, .idx 1, .key 14, .idx 0] s with
      | .ok os _ => some (os.map Prod.snd)
      | _ => Option.none) = some [3, 14, 3] ∧
    (match loading (Sample.var .refcounted) .key 0 0 3 [.idx 0, .key 3, .idx 2] s with
      | .exc _ => true
      | _ => false) = true :=
  ⟨fun _ => ⟨rfl, rfl⟩, _, ⟨id, Sample.calm, Sample.alloc, [], _, Sample.alloc_ok, rfl⟩, by decide +kernel, by decide +kernel⟩

/-- **C67.**  What one program has saved another one, with other parameters of the flyweight type, loads: the elements refer to values with keys
equivalent to those saved, unless an operation of the user throws. -/
theorem C67_transfer (S : Setup K V Rep F) (S' : Setup K V' Rep' F') (s s₁ : St Rep F) (hr : S.Reach s) (n : Nat)
    (hn : ∀ y a k v, S.Sees s y a k v → y < n) (xs : List Nat) (hx : ∀ x ∈ xs, ∃ a k v, S.Sees s x a k v) (ts : List (Tok K))
    (hsave : save S n 0 xs s = .ok ts s₁) (src : K → Src K V')
    (hsrc : ∀ k, S'.sp.supports (src k) = true ∧ S'.sp.key0 (src k) = k) (dflt : K) (hd : S'.sp.supports (.key dflt) = true)
    (s' : St Rep' F') (hr' : S'.Reach s') (n' : Nat) (hn' : ∀ y a k v, S'.Sees s' y a k v → y < n') :
    match loading S' src dflt n' xs.length ts s' with
    | .ok os s₂ => Restored S' s' s₂ ∧ os.length = xs.length ∧ ∀ (i : Nat) x a k v b l, xs[i]? = some x → S.Sees s x a k v →
        os[i]? = some (b, l) → S'.keq l k = true
    | .exc s₂ => Restored S' s' s₂ ∧ ∃ n, s'.env.faults n = true
    | .ub => False := by
  have h1 := C67_save S s hr n hn xs hx
  rw [hsave] at h1
  obtain ⟨_, _, _, _, ks, hk1, hk2, hk3⟩ := h1
  have h2 := C67_load S' src hsrc dflt hd s' hr' n' hn' xs.length ts
  cases hm : loading S' src dflt n' xs.length ts s' with
  | ok os s₂ =>
    rw [hm] at h2
    obtain ⟨g1, g2, ⟨ks', g3, _, g4⟩, _⟩ := h2
    rw [hk1] at g3
    cases g3
    exact ⟨g1, g2, fun i x a k v b l hi hs ho => g4 i b l k ho (hk3 i x a k v hi hs)⟩
  | exc s₂ =>
    rw [hm] at h2
    exact ⟨h2.1, h2.2.resolve_right (by rw [hk1]; simp)⟩
  | ub => rw [hm] at h2; exact h2

/-- From `flyweight<key_value<...>>` to `flyweight<T>`. -/
example : ∃ s s', (Sample.var .refcounted).Reach s ∧ (Sample.dflt .noTracking).Reach s' ∧
    (match save (Sample.var .refcounted) 2 0 [1, 0, 1] s with
    | .ok ts _ =>
      match loading (Sample.dflt .noTracking) .copy 0 0 3 ts s' with
      | .ok os _ => some (os.map Prod.snd)
      | _ => Option.none
    | _ => Option.none) = some [14, 3, 14] :=
  ⟨_, _, ⟨id, Sample.calm, Sample.alloc, [.make 0 (.key 3), .make 1 (.key 14)], _, Sample.alloc_ok, rfl⟩,
    ⟨id, Sample.calm, Sample.alloc, [], _, Sample.alloc_ok, rfl⟩, by decide +kernel⟩

/-- **C67.**  The test of serialization succeeds for any flyweights of any program: those loaded are equal to those saved. -/
theorem C67_round_trip (S : Setup K V Rep F) (src : K → Src K V)
    (hsrc : ∀ k, S.sp.supports (src k) = true ∧ S.sp.key0 (src k) = k) (dflt : K) (hd : S.sp.supports (.key dflt) = true)
    (s : St Rep F) (hr : S.Reach s) (n : Nat) (hn : ∀ y a k v, S.Sees s y a k v → y < n) (xs : List Nat)
    (hx : ∀ x ∈ xs, ∃ a k v, S.Sees s x a k v) :
    match SerialCore.test S src dflt n xs s with
    | .ok rs s' => rs = List.replicate xs.length true ∧ Restored S s s'
    | .exc s' => Restored S s s' ∧ ∃ n, s.env.faults n = true
    | .ub => False := by
  obtain ⟨fl, w, hv⟩ := View.of_reach hr
  have hw := names_free hv hn
  obtain ⟨bs, hbs⟩ := bound_list (v := w) (xs := xs) fun x hm => by
    obtain ⟨a, k, v, h⟩ := hx x hm
    exact ⟨_, (hv.sees _ _ _ _).1 h⟩
  have hT : Triple (View S fl w) (SerialCore.test S src dflt n xs)
      (fun rs s' => View S fl w s' ∧ rs = List.replicate xs.length true)
      (fun s' => View S fl w s' ∧ ∃ n, fl n = true) := by
    unfold SerialCore.test
    refine Triple.bind (save_ok (S := S) (fl := fl) (h := n + 1) hbs (B := []) (by simp) (fun j => hw _ (by simp; omega))) fun ts => ?_
    rintro s' ⟨hs', rfl⟩
    have hdec := saved hs' hbs
    have hl := loaded_ok (S := S) (fl := fl) (w := w) hsrc hd hw (c := xs.length)
      (ts := encode [] (bs.map fun b => (b.addr, b.key)))
      (check := same S xs (List.range' (n + 1) xs.length)) (Q := fun rs => rs = List.replicate xs.length true) ?_
    · refine hl.conseq (fun _ h => h) (fun _ _ h => h) (fun s h => ⟨h.1, h.2.resolve_right ?_⟩) s' hs'
      rw [hdec]
      simp
    · intro v cs ks s'' hv'' hoff hcs hdec' hag
      rw [hdec] at hdec'
      cases hdec'
      have hxs : xs.map v = bs.map some := by
        rw [← hbs]
        refine List.map_congr_left fun x hxm => hoff x ?_
        obtain ⟨a, k, vv, h⟩ := hx x hxm
        have := hn x _ _ _ h
        simp only [List.mem_range'_1]
        omega
      refine ⟨_, same_ok hxs hcs hv'', ?_⟩
      have hlen : xs.length = bs.length := by simpa using congrArg List.length hbs
      rw [hlen]
      have hall : ∀ b ∈ bs, ∀ c ∈ cs, S.keq c.key b.key = true → b.addr = c.addr := by
        intro b hb c hc hk
        obtain ⟨x, _, h1⟩ := bound_mem hxs hb
        obtain ⟨y, _, h2⟩ := bound_mem hcs hc
        exact ((hv''.same h2 h1).1.2 hk).symm
      clear hdec hcs hxs hlen hbs
      induction bs generalizing cs with
      | nil => cases cs <;> rfl
      | cons b bs ih => cases cs with
        | nil => exact hag.elim
        | cons c cs =>
          simp only [List.zipWith_cons_cons, List.length_cons, List.replicate_succ]
          rw [ih cs hag.2 fun b hb c hc => hall b (by simp [hb]) c (by simp [hc]), hall b (by simp) c (by simp) hag.1]
          simp
  have := hT s hv
  cases hm : SerialCore.test S src dflt n xs s with
  | ok rs s' =>
    rw [hm] at this
    exact ⟨this.2, restored_of_view hv this.1⟩
  | exc s' =>
    rw [hm] at this
    exact ⟨restored_of_view hv this.1, by rw [Tests.View.flags hv]; exact this.2⟩
  | ub => rw [hm] at this; exact this

example : ∃ s, (Sample.var .refcounted).Reach s ∧
    (match SerialCore.test (Sample.var .refcounted) .key 0 2 [1, 0, 1] s with
    | .ok rs _ => some rs
    | _ => Option.none) = some [true, true, true] :=
  ⟨_, ⟨id, Sample.calm, Sample.alloc, [.make 0 (.key 3), .make 1 (.key 14)], _, Sample.alloc_ok, rfl⟩, by decide +kernel⟩

/-- **C67** for `flyweight<T>`, any factory and tracking policy: loaded flyweights are constructed from values. -/
theorem C67_plain {Fa : Factory F (Ent (DRep V))} {keq : V → V → Bool} (u : UserFns V V) (hF : LibFactory (DRep.policy u) Fa keq)
    (trk : Tracking) : ∃ S : Setup V V (DRep V) F, S.Is (DRep.policy u) Fa trk (SrcSpec.default V) keq ∧
      ∀ (s : St (DRep V) F), S.Reach s → ∀ n, (∀ x a k v, S.Sees s x a k v → x < n) →
      ∀ xs : List Nat, (∀ x ∈ xs, ∃ a k v, S.Sees s x a k v) → ∀ dflt : V, Succeeds S s (SerialCore.test S .copy dflt n xs s) := by
  obtain ⟨S, ⟨h1, h2, h3, h4, h5⟩, _⟩ := (LibPolicy.plain u keq).setup hF trk
  refine ⟨S, ⟨h1, h2, h3, h4, h5⟩, fun s hr n hn xs hx dflt => ?_⟩
  have := C67_round_trip S .copy (by rw [h4]; exact fun k => ⟨rfl, rfl⟩) dflt (by rw [h4]; rfl) s hr n hn xs hx
  unfold Succeeds
  split
  · rename_i rs s' hm
    rw [hm] at this
    exact ⟨fun b hb => by rw [this.1] at hb; exact (List.mem_replicate.1 hb).2, this.2⟩
  · rename_i s' hm
    rw [hm] at this
    exact this
  · rename_i hm
    rw [hm] at this
    exact this

example := C67_plain Sample.u₀ (.list (P := DRep.policy Sample.u₀) Sample.hashOk.equiv) .noTracking

/-- **C67** for `flyweight<key_value<...>>`, any factory and tracking policy: loaded flyweights are constructed from keys. -/
theorem C67_key_value {P : Policy K V Rep} {sp : SrcSpec K V} {Fa : Factory F (Ent Rep)} {keq : K → K → Bool}
    (hP : LibPolicy P sp keq true) (hF : LibFactory P Fa keq) (trk : Tracking) :
    ∃ S : Setup K V Rep F, S.Is P Fa trk sp keq ∧
      ∀ (s : St Rep F), S.Reach s → ∀ n, (∀ x a k v, S.Sees s x a k v → x < n) →
      ∀ xs : List Nat, (∀ x ∈ xs, ∃ a k v, S.Sees s x a k v) → ∀ dflt : K, Succeeds S s (SerialCore.test S .key dflt n xs s) := by
  obtain ⟨S, ⟨h1, h2, h3, h4, h5⟩, _⟩ := hP.setup hF trk
  have hk : ∀ k, S.sp.supports (.key k) = true ∧ S.sp.key0 (.key k) = k := by
    rw [h4]
    cases hP <;> exact fun k => ⟨rfl, rfl⟩
  refine ⟨S, ⟨h1, h2, h3, h4, h5⟩, fun s hr n hn xs hx dflt => ?_⟩
  have := C67_round_trip S .key hk dflt (hk dflt).1 s hr n hn xs hx
  unfold Succeeds
  split
  · rename_i rs s' hm
    rw [hm] at this
    exact ⟨fun b hb => by rw [this.1] at hb; exact (List.mem_replicate.1 hb).2, this.2⟩
  · rename_i s' hm
    rw [hm] at this
    exact this
  · rename_i hm
    rw [hm] at this
    exact this

/-! Flyweights with keys 3, 14, 13 and 3, keys being compared modulo 10. -/

/-- The archive for these flyweights.  (No code of its own: used to state a property or an example.) -/
def archive (fl : Nat → Bool) : Option (List (Tok Nat)) :=
  match (Sample.var .refcounted).run id fl Sample.alloc
      [.make 0 (.key 3), .make 1 (.key 14), .make 2 (.key 13), .copy 3 0] with
  | some (_, s) => match save (Sample.var .refcounted) 4 0 [0, 1, 2, 3] s with
    | .ok ts _ => some ts
    | _ => Option.none
  | _ => Option.none

example : archive Sample.calm = some [.idx 0, .key 3, .idx 1, .key 14, .idx 0, .idx 0] ∧ archive (Sample.failAt 20) = Option.none :=
  ⟨by decide +kernel, by decide +kernel⟩

/-- What is loaded from archives, in a program with a flyweight with key 24: keys, whether the elements share their values with it, and
the number of values afterwards.  (No code of its own: used to state a property or an example.) -/
def restored (trk : Tracking) (c : Nat) (ts : List (Tok Nat)) : Option (List (Nat × Bool) × Int) :=
  match (Sample.dflt trk).run id Sample.calm Sample.alloc [.make 0 (.key 24)] with
  | some (_, s) => match loading (Sample.dflt trk) .copy 0 1 c ts s with
    | .ok os s' => match Core.get (Sample.dflt trk).P (Sample.dflt trk).Fa 0 s' with
      | .ok p s'' => some (os.map fun o => (o.2, o.1 == p.1), s''.env.vals)
      | _ => Option.none
    | _ => Option.none
  | _ => Option.none

/-- The second and the last archive are not saved from flyweights: index 2 comes too early; a key is missing.  Loading the first again needs no
key twice; with `no_tracking` the values stay. -/
example : restored .refcounted 4 [.idx 0, .key 3, .idx 1, .key 14, .idx 0, .idx 0] =
      some ([(3, false), (24, true), (3, false), (3, false)], 1) ∧
    restored .noTracking 2 [.idx 0, .key 3, .idx 1, .key 14] = some ([(3, false), (24, true)], 3) ∧
    restored .refcounted 2 [.idx 0, .key 3, .idx 2, .key 14] = Option.none ∧
    restored .refcounted 2 [.idx 0, .key 3, .idx 1] = Option.none :=
  ⟨by decide +kernel, by decide +kernel, by decide +kernel, by decide +kernel⟩

example : decode [] 4 [.idx 0, .key 3, .idx 1, .key 14, .idx 0, .idx 0] = some [3, 14, 3, 3] ∧
    decode [] 2 [.idx 0, .key 3, .idx 2, .key 14] = Option.none := ⟨by decide, by decide⟩

/-- The test, in the program of the first example, as it is and with the `n`-th operation of the user throwing.  (No code of its own: used to state a
property or an example.) -/
def tested (fl : Nat → Bool) : Option (List Bool) :=
  match (Sample.var .refcounted).run id fl Sample.alloc
      [.make 0 (.key 3), .make 1 (.key 14), .make 2 (.key 13), .copy 3 0] with
  | some (_, s) => match SerialCore.test (Sample.var .refcounted) .key 0 4 [0, 1, 2, 3] s with
    | .ok rs _ => some rs
    | _ => Option.none
  | _ => Option.none

example : tested Sample.calm = some [true, true, true, true] ∧ tested (Sample.failAt 40) = Option.none :=
  ⟨by decide +kernel, by decide +kernel⟩

/-- The hypotheses on the sources. -/
example : (∀ k, (Sample.dflt .refcounted).sp.supports (.copy k) = true ∧ (Sample.dflt .refcounted).sp.key0 (.copy k) = k) ∧
    ∀ k, (Sample.var .refcounted).sp.supports (.key k) = true ∧ (Sample.var .refcounted).sp.key0 (.key k) = k :=
  ⟨fun _ => ⟨rfl, rfl⟩, fun _ => ⟨rfl, rfl⟩⟩

end Verif.Props

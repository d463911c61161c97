import Verif.Examples.Perf
import Verif.Examples.Archive
import Verif.Props.Transparent

/-!
# The number of values and the performance example: C66
-/

set_option autoImplicit false

namespace Verif.Props
open Setup Client
variable {K V T Rep F : Type}

/-- **C66.**  With `refcounted` tracking the number of values alive is the number of inequivalent keys of the flyweights alive,
however many flyweights there are. -/
theorem C66_refcounted (S : Setup K V Rep F) (ht : S.trk = .refcounted) (s : St Rep F) (hr : S.Reach s) (ks : List K)
    (hn : ks.Pairwise fun k l => S.keq k l = false)
    (h1 : ∀ x a k v, S.Sees s x a k v → ∃ l ∈ ks, S.keq k l = true)
    (h2 : ∀ l ∈ ks, ∃ x a k v, S.Sees s x a k v ∧ S.keq k l = true) : s.env.vals = ks.length := by
  obtain ⟨fl, t, hS, hO⟩ := hr.sim
  refine distinct_pool hS hO hn (fun b hb => ?_) fun l hl => ?_
  · rw [ht] at hb
    obtain ⟨⟨x, c⟩, hc, rfl⟩ := List.mem_map.1 hb
    exact h1 x _ _ _ ((sees_iff hS).2 hc)
  · obtain ⟨x, a, k, v, hs, hk⟩ := h2 l hl
    refine ⟨⟨a, k, v⟩, ?_, hk⟩
    rw [ht]
    exact List.mem_map.2 ⟨_, (sees_iff hS).1 hs, rfl⟩

/-- **C66.**  With `no_tracking` the number of values alive is the number of inequivalent keys from which flyweights have ever been
created or assigned. -/
theorem C66_no_tracking (S : Setup K V Rep F) (ht : S.trk = .noTracking) (hp : Nat → Nat) (fl : Nat → Bool)
    (alloc : Nat → List Nat → Nat) (hal : ∀ n l, alloc n l ∉ l) (ops : List (Op K V)) (outs : List (Out K V)) (s : St Rep F)
    (hrun : S.run hp fl alloc ops = some (outs, s)) (ks : List K) (hn : ks.Pairwise fun k l => S.keq k l = false)
    (h1 : ∀ k ∈ asked S.sp ops outs, ∃ l ∈ ks, S.keq k l = true)
    (h2 : ∀ l ∈ ks, ∃ k ∈ asked S.sp ops outs, S.keq k l = true) : s.env.vals = ks.length := by
  obtain ⟨t, hr, hS, hO, _⟩ := run_sim hal hrun
  rw [ht] at hr
  have ha := hr.asked S.LS (A := []) ⟨by simp, by simp [SSt.start]⟩
  rw [List.nil_append] at ha
  have hp : t.pool S.trk = t.kept := by rw [ht]; rfl
  refine distinct_pool hS hO hn (fun b hb => ?_) fun l hl => ?_
  · obtain ⟨k, hk, hbk⟩ := ha.2 b (hp ▸ hb)
    obtain ⟨l, hl, hkl⟩ := h1 k hk
    exact ⟨l, hl, S.LS.trans _ _ _ hbk hkl⟩
  · obtain ⟨k, hk, hkl⟩ := h2 l hl
    obtain ⟨b, hb, hbk⟩ := ha.1 k hk
    exact ⟨b, hp ▸ hb, S.LS.trans _ _ _ hbk hkl⟩

/-- **C66.**  The performance example, for any text, numbers of passes and configuration of the library: the result is that computed with
plain strings, and when the memory is measured there is one value for each different token.  Otherwise an operation of the user has
thrown. -/
theorem C66_perf [DecidableEq T] {Fa : Factory F (Ent (DRep T))} {keq : T → T → Bool} (u : UserFns T T)
    (hF : LibFactory (DRep.policy u) Fa keq) (trk : Tracking) (heq : ∀ v w, keq v w = true ↔ v = w) :
    ∃ S : Setup T T (DRep T) F, S.Is (DRep.policy u) Fa trk (SrcSpec.default T) keq ∧
      ∀ (hp : Nat → Nat) (faults : Nat → Bool) (alloc : Nat → List Nat → Nat), (∀ n l, alloc n l ∉ l) →
      ∀ (len : T → Nat) (toks : List T), toks ≠ [] → ∀ a b d : Nat,
        ∃ r s', (Perf.run len toks a b d).fly S hp (Core.start S.Fa faults alloc) = some (r, s') ∧
          (r = Option.none ∧ (∃ n, faults n = true) ∨
            r = some (Perf.occurrences toks b 0 + (2 ^ d - 1) * (a * (toks.map len).sum)) ∧
            r = ((Perf.run len toks a b d).plain (SrcSpec.default T) id fun _ => Option.none).1 ∧
            ∀ ts : List T, ts.Nodup → (∀ t, t ∈ ts ↔ t ∈ toks) → s'.env.vals = ts.length) := by
  obtain ⟨S, ⟨h1, h2, h3, h4, h5⟩, _⟩ := (LibPolicy.plain u keq).setup hF trk
  refine ⟨S, ⟨h1, h2, h3, h4, h5⟩, fun hp faults alloc hal len toks hne a b d => ?_⟩
  have hr : S.Reach (Core.start S.Fa faults alloc) := ⟨hp, faults, alloc, [], [], hal, rfl⟩
  obtain ⟨fl, w, hv⟩ := View.of_reach hr
  have hw : w = fun _ => Option.none := by
    funext x
    cases hx : w x with
    | none => rfl
    | some b =>
      obtain ⟨h, _⟩ := (hv.sees x b.addr b.key b.val).2 hx
      cases h
  subst hw
  obtain ⟨r, s', w', g1, g2, g3⟩ := fly_plain (regular_plain h4 h5 heq) hp (Perf.run len toks a b d) hv
  rw [← Tests.View.flags hv, h4] at g3
  refine ⟨r, s', g1, ?_⟩
  rcases Perf.run_run hne g3 with h | ⟨h, hn⟩
  · exact .inl h
  refine .inr ⟨h, ?_, fun ts hts hm => ?_⟩
  · have hpl : Runs False (Perf.run len toks a b d) (fun _ => Option.none)
        ((Perf.run len toks a b d).plain (SrcSpec.default T) id fun _ => Option.none).1
        ((Perf.run len toks a b d).plain (SrcSpec.default T) id fun _ => Option.none).2 := Prog.Plain.of_plain _ _
    rcases Perf.run_run hne hpl with h' | ⟨h', _⟩
    · exact h'.2.elim
    · rw [h, h']
  · obtain ⟨ops, outs, e1, e2⟩ := fly_ops (Perf.all_run len toks a b d) g1
    have hinj : ts.Pairwise fun k l => S.keq k l = false := by
      refine hts.imp fun {k l} hne => ?_
      rw [h5, Bool.eq_false_iff]
      exact fun h => hne ((heq k l).1 h)
    have hex : ∀ t ∈ toks, ∃ x a v, S.Sees s' x a t v := by
      intro t ht
      obtain ⟨x, hx⟩ := (hn t).1 ht
      obtain ⟨b, hb, rfl⟩ := Option.map_eq_some_iff.1 hx
      exact ⟨x, b.addr, b.val, (g2.sees _ _ _ _).2 hb⟩
    cases htr : trk with
    | refcounted =>
      refine C66_refcounted S (h3.trans htr) s' ⟨hp, faults, alloc, ops, outs, hal, e1⟩ ts hinj (fun x a k v hs => ?_) fun l hl => ?_
      · have hk : k ∈ toks := (hn k).2 ⟨x, by simp [keysOf, (g2.sees x a k v).1 hs]⟩
        exact ⟨k, (hm k).2 hk, S.LS.refl k⟩
      · obtain ⟨x, a, v, hs⟩ := hex l ((hm l).1 hl)
        exact ⟨x, a, l, v, hs, S.LS.refl l⟩
    | noTracking =>
      refine C66_no_tracking S (h3.trans htr) hp faults alloc hal ops outs s' e1 ts hinj (fun k hk => ?_) fun l hl => ?_
      · obtain ⟨o, ho, src, hs, rfl⟩ := asked_creates hk
        have := e2 o ho src hs
        rw [h4]
        exact ⟨_, (hm _).2 this, S.LS.refl _⟩
      · obtain ⟨x, a, v, hs⟩ := hex l ((hm l).1 hl)
        obtain ⟨t, hr', hS, hO, _⟩ := run_sim hal (show S.run hp faults alloc ops = some (outs, s') from e1)
        rw [h3.trans htr] at hr'
        have ha := hr'.asked S.LS (A := []) ⟨by simp, by simp [SSt.start]⟩
        rw [List.nil_append] at ha
        have hb := hO.bound ((sees_iff hS).1 hs)
        rw [h3.trans htr] at hb
        obtain ⟨k, hk, hbk⟩ := ha.2 _ hb
        exact ⟨k, hk, S.LS.symm _ _ hbk⟩

/-- Three flyweights of two keys modulo 10, and with `no_tracking` a third key of which no flyweight is left. -/
example : ∃ s outs s',
    (Sample.dflt .refcounted).run id Sample.calm Sample.alloc
      [.make 0 (.key 3), .make 1 (.key 13), .make 2 (.key 8), .make 3 (.key 5), .destroy 3] = some (outs, s) ∧
    (Sample.dflt .refcounted).Sees s 1 1 3 3 ∧ s.env.vals = ([23, 8] : List Nat).length ∧
    (Sample.dflt .noTracking).run id Sample.calm Sample.alloc
      [.make 0 (.key 3), .make 1 (.key 13), .make 2 (.key 8), .make 3 (.key 5), .destroy 3] = some (outs, s') ∧
    s'.env.vals = ([23, 8, 5] : List Nat).length :=
  ⟨_, _, _, rfl, ⟨rfl, rfl⟩, rfl, rfl, rfl⟩

/-- Lengths of the tokens are the tokens themselves: three tokens, two of them different, copied once; the result is that of the formula and there
are two values. -/
example : ((Perf.run id [5, 3, 5] 1 2 2).fly (numbers .refcounted) id
      (Core.start (numbers .refcounted).Fa Sample.calm Sample.alloc)).map (fun p => (p.1, p.2.env.vals)) = some (some 43, 2) ∧
    ((Perf.run id [5, 3, 5] 1 2 2).fly (numbers .noTracking) id
      (Core.start (numbers .noTracking).Fa Sample.calm Sample.alloc)).map (fun p => (p.1, p.2.env.vals)) = some (some 43, 2) ∧
    Perf.occurrences [5, 3, 5] 2 0 + (2 ^ 2 - 1) * (1 * ([5, 3, 5].map id).sum) = 43 ∧
    ((Perf.run id [5, 3, 5] 1 2 2).fly (numbers .noTracking) id
      (Core.start (numbers .noTracking).Fa (Sample.failAt 5) Sample.alloc)).map Prod.fst = some Option.none :=
  ⟨by decide +kernel, by decide +kernel, by decide, by decide +kernel⟩

/-- The tokens of a text. -/
example : (Archive.tokens "to be, or not to be".toList).map String.ofList =
    ["to", " ", "be", ",", " ", "or", " ", "not", " ", "to", " ", "be"] := by decide +kernel

end Verif.Props

import Verif.Examples.KeyValue
import Verif.Sample

/-!
# C61: the lines that textures print
-/

set_option autoImplicit false

namespace Verif.Props
open Textures Verbose

/-- The factory of the examples below.  (No code of its own: an example.) -/
private abbrev sampleFac := luFactory (liftPred (VRep.policy (fns id)) fun a b : Nat => a == b)

/-- It is one of those the theorems speak about. -/
example : LibFactory (VRep.policy (fns id)) sampleFac (fun a b : Nat => a == b) ∧ ∀ a b : Nat, (a == b) = true → a = b :=
  ⟨.list ⟨fun a => by simp, fun a b h => by simpa using (eq_of_beq h).symm, fun a b c h h' => by
    rw [eq_of_beq h, eq_of_beq h']; simp⟩, fun a b h => eq_of_beq h⟩

section
variable {K F : Type} [DecidableEq K] {movedK : K → K} {Fa : Factory F (Ent (VRep K (Texture K)))} {keq : K → K → Bool}

omit [DecidableEq K] in
private theorem textures_setup (hF : LibFactory (VRep.policy (fns movedK)) Fa keq) :
    ∃ S : Setup K (Texture K) (VRep K (Texture K)) F, S.Is (VRep.policy (fns movedK)) Fa .refcounted (SrcSpec.variant (fns movedK)) keq ∧
      S.Billed true ∧ ∀ src, Moves.Fits Env.Even S.P src := by
  have hP : LibPolicy (VRep.policy (fns movedK)) (SrcSpec.variant (fns movedK)) keq true :=
    .variant (fns movedK) keq fun k => hF.equiv.refl k
  obtain ⟨S, hI, hB⟩ := hP.billed hF .refcounted
  exact ⟨S, hI, hB, fun src => by rw [hI.policy]; exact hP.even src⟩

/-- **C61.**  The program of example/key_value.cpp, for every factory of the library whose equivalent keys are equal, all
file names chosen, all random numbers, all ways the vector may grow: without exceptions, it creates a flyweight
for every name chosen and every random number, and the textures print that each of them is loaded once, in the order in
which the names are first chosen, and, once the vector is destroyed, that each is unloaded once. They never
print that a texture is copied, and in the end no texture, file name or flyweight is left. -/
theorem C61_main (hF : LibFactory (VRep.policy (fns movedK)) Fa keq) (hkeq : ∀ a b, keq a b = true → a = b)
    (hp : Nat → Nat) {fl : Nat → Bool} (hfl : ∀ n, fl n = false) {alloc : Nat → List Nat → Nat}
    (hal : ∀ n l, alloc n l ∉ l) (grow : Nat → Nat) (names : List K) (rolls : List Nat) (hne : names ≠ []) :
    ∃ (gone : List K) (s : St (VRep K (Texture K)) F),
      main (VRep.policy (fns movedK)) Fa .refcounted (SrcSpec.variant (fns movedK)) hp grow names rolls (Core.start Fa fl alloc) =
        some (names.length + rolls.length,
          names.eraseDups.map (fun k => .loaded (some k)) ++ gone.map (fun k => .unloaded (some k)), s) ∧
      gone.Nodup ∧ (∀ k, k ∈ gone ↔ k ∈ names) ∧ s.objs = [] ∧ s.env.vals = 0 ∧ s.env.keys = 0 := by
  obtain ⟨S, hI, hB, hE⟩ := textures_setup hF
  have hiff : ∀ a b, S.keq a b = true ↔ a = b := fun a b => by
    rw [hI.keys]
    exact ⟨hkeq a b, fun h => h ▸ hF.equiv.refl a⟩
  obtain ⟨v1, s1, h1, hr1⟩ := load_ready hB hE hI.tracking hfl hp grow
    (fun k => by rw [hI.sources]; exact ⟨rfl, rfl⟩) names (start_ready (S := S) hal) []
  rw [first_uses hiff] at h1
  obtain ⟨v2, s2, more, h2, hr2, hlen, hmore⟩ := reuse_ready hB hE hI.tracking hfl hp grow (file := Texture.filename)
    (fun v => by rw [hI.sources]; exact ⟨rfl, rfl⟩)
    (fun r v k hv hk => by
      rw [hI.policy] at hv hk
      have hv' : VRep.toValue r = some v := hv
      have hk' : VRep.toKey (fns movedK) r = some k := hk
      unfold VRep.toValue at hv'
      unfold VRep.toKey at hk'
      split at hv'
      · rename_i hc
        rw [if_pos hc, hv'] at hk'
        exact Option.some.inj hk'
      · cases hv')
    (fun a b => (hiff a b).1) rolls (by simpa using hne) hr1 _
  obtain ⟨s3, ds, h3, hfin, h4, h5, h6⟩ := destroy_ready hB hE hI.tracking hfl hp hr2
    (([] : List (Line (Option K))) ++ (names.filter fun k => k ∉ ([] : List K).reverse).eraseDups.map fun k => Line.loaded (some k))
  have hel : v2.elems.length = names.length + rolls.length := by
    have := hr2.choose_spec.choose_spec.2.2.2.2.2.2
    rw [← this]
    simp [hlen]
  refine ⟨ds, s3, ?_, ?_, fun k => ⟨fun h => ?_, fun h => ?_⟩, h4, h5, h6⟩
  · obtain ⟨e1, e2, e3, e4, e5⟩ := hI
    rw [← e1, ← e2, ← e3, ← e4]
    unfold main
    rw [h1, Option.bind_some, h2, Option.bind_some, h3, Option.map_some, hel]
    have : (names.filter fun k => k ∉ ([] : List K).reverse) = names := by simp
    rw [this, List.nil_append]
  · refine hfin.apart.imp fun {a b} h hab => ?_
    rw [(hiff a b).2 hab] at h
    cases h
  · obtain ⟨l, hl, hk⟩ := hfin.sub k h
    rw [(hiff k l).1 hk]
    simp only [List.nil_append, List.mem_append] at hl
    exact hl.elim id fun h => by simpa using hmore l h
  · obtain ⟨d, hd, hk⟩ := hfin.all hI.tracking k (by simp [h])
    rw [← (hiff d k).1 hk]
    exact hd

/-- The program with five names chosen, three random numbers and a vector of doubling capacity. -/
example : (main (VRep.policy (fns id)) sampleFac .refcounted
    (SrcSpec.variant (fns id)) id (fun c => 2 * c + 1) [5, 7, 5, 8, 7] [9, 2, 5]
    (Core.start sampleFac Sample.calm Sample.alloc)).map (fun r => (r.1, r.2.1)) =
    some (8, [.loaded (some 5), .loaded (some 7), .loaded (some 8), .unloaded (some 8), .unloaded (some 5), .unloaded (some 7)]) := by
  decide +kernel

omit [DecidableEq K] in
/-- **C61, reading.**  After the first loop, the elements of the vector refer to the textures of the names chosen, in the
order they were chosen. -/
theorem C61_elements (hF : LibFactory (VRep.policy (fns movedK)) Fa keq) (hkeq : ∀ a b, keq a b = true → a = b)
    (hp : Nat → Nat) {fl : Nat → Bool} (hfl : ∀ n, fl n = false) {alloc : Nat → List Nat → Nat}
    (hal : ∀ n l, alloc n l ∉ l) (grow : Nat → Nat) (names : List K) :
    ∃ (v : Vec) (o : List (Line (Option K))) (s : St (VRep K (Texture K)) F),
      load (VRep.policy (fns movedK)) Fa .refcounted (SrcSpec.variant (fns movedK)) hp grow names ⟨0, 0, []⟩
        ([], Core.start Fa fl alloc) = some (v, o, s) ∧ v.elems.length = names.length ∧
      ∀ (i x : Nat) (k : K), v.elems[i]? = some x → names[i]? = some k → ∃ a,
        act (VRep.policy (fns movedK)) Fa .refcounted (SrcSpec.variant (fns movedK)) hp (.get x) (o, s) =
          some (.val a ⟨k⟩, o, s) := by
  obtain ⟨S, hI, hB, hE⟩ := textures_setup hF
  obtain ⟨v1, s1, h1, hr1⟩ := load_ready hB hE hI.tracking hfl hp grow
    (fun k => by rw [hI.sources]; exact ⟨rfl, rfl⟩) names (start_ready (S := S) hal) []
  refine ⟨v1, [] ++ (askLines S.keq ([] : List K).reverse names).flatMap (say false), s1, ?_, ?_, fun i x k hx hk => ?_⟩
  · obtain ⟨e1, e2, e3, e4, e5⟩ := hI
    rw [← e1, ← e2, ← e3, ← e4]
    exact h1
  · have := hr1.choose_spec.choose_spec.2.2.2.2.2.2
    simpa using this.symm
  · obtain ⟨a, l, tx, k', hg, _, hk', hkk, r, hv, hl⟩ := get_ready hp hr1 hx
      (([] : List (Line (Option K))) ++ (askLines S.keq ([] : List K).reverse names).flatMap (say false))
    rw [List.nil_append, hk] at hk'
    cases hk'
    rw [hI.keys] at hkk
    have hlk := hkeq l k hkk
    rw [hI.policy] at hv hl
    have htx : tx = ⟨k⟩ := by
      have hv' : VRep.toValue r = some tx := hv
      have hl' : VRep.toKey (fns movedK) r = some l := hl
      unfold VRep.toValue at hv'
      unfold VRep.toKey at hl'
      split at hv'
      · rename_i hc
        rw [if_pos hc, hv'] at hl'
        have : tx.filename = l := Option.some.inj hl'
        cases tx
        rw [← hlk, ← this]
      · cases hv'
    obtain ⟨e1, e2, e3, e4, e5⟩ := hI
    rw [← e1, ← e2, ← e3, ← e4]
    rw [htx] at hg
    exact ⟨a, hg⟩

example : (load (VRep.policy (fns id)) sampleFac .refcounted
    (SrcSpec.variant (fns id)) id (fun c => 2 * c + 1) [5, 7, 5] ⟨0, 0, []⟩
    ([], Core.start sampleFac Sample.calm Sample.alloc)).map (fun r => (r.1.elems.length, r.2.1)) =
    some (3, [.loaded (some 5), .loaded (some 7)]) := by
  decide +kernel

end
end Verif.Props

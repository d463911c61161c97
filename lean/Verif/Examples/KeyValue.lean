import Verif.VerboseMain
import Verif.CountLib

/-!
# The program of example/key_value.cpp

Textures tell when they are loaded, copied and unloaded.  What an operation prints is read off the numbers of
values constructed and destroyed by it.
-/

set_option autoImplicit false

namespace Verif.Textures
open Verbose

/-! ## The code -/

/-- `texture`, a class with a file name, /repo/example/key_value.cpp:23-46.  (File names are of any type here.) -/
structure Texture (K : Type) where
  filename : K
  deriving DecidableEq

/-- The constructor from a file name (26-29) and the key extractor (50-56), /repo/example/key_value.cpp.  There is no
move constructor: moving copies.  `movedK` is what moving leaves of a `std::string`. -/
def fns {K : Type} (movedK : K → K) : UserFns K (Texture K) where
  ctor := Texture.mk
  kfv := Texture.filename
  movedK := movedK
  movedV := id

/-- The lines that textures print, /repo/example/key_value.cpp:26-40. -/
inductive Line (K : Type) where
  | loaded (k : K)
  | copied (k : K)
  | unloaded (k : K)
  deriving DecidableEq

section Code
variable {K V Rep F : Type} (P : Policy K V Rep) (Fa : Factory F (Ent Rep)) (trk : Tracking) (sp : SrcSpec K V)
  (hp : Nat → Nat)

/-- The file name of the texture an operation may construct or destroy: that of the object the flyweight is created
from, or else that of the texture the flyweight refers to. -/
def about : Op K V → St Rep F → Option K
  | .make _ src, _ => some (sp.key0 src)
  | .copy _ x, s | .move _ x, s | .destroy x, s | .get x, s =>
    match Core.getKey P Fa x s with
    | .ok k _ => some k
    | _ => none
  | _, _ => none

/-- What an operation leading from `s` to `s'` prints: one line for every texture constructed or
destroyed, /repo/example/key_value.cpp:26-40. -/
def printed (op : Op K V) (s s' : St Rep F) : List (Line (Option K)) :=
  let k := about P Fa sp op s
  List.replicate (s'.env.tally .valArgs - s.env.tally .valArgs) (.loaded k) ++
  List.replicate (s'.env.tally .valCopy - s.env.tally .valCopy) (.copied k) ++
  List.replicate (s'.env.tally .valMove - s.env.tally .valMove) (.copied k) ++
  List.replicate (s'.env.tally .valGone - s.env.tally .valGone) (.unloaded k)

/-- An operation of the program, which adds to the lines printed.  `none`: the operation throws, or is undefined.
(No code of its own: a statement of /repo/example/key_value.cpp.) -/
def act (op : Op K V) (w : List (Line (Option K)) × St Rep F) :
    Option (Out K V × List (Line (Option K)) × St Rep F) :=
  if op.valid sp (w.2.objs.map Prod.fst) then
    match Core.step P Fa trk hp op w.2 with
    | .ok out s => some (out, w.1 ++ printed P Fa sp op w.2 s, s)
    | _ => none
  else none

/-- Several operations.  (No code of its own: statements of /repo/example/key_value.cpp.) -/
def acts : List (Op K V) → List (Line (Option K)) × St Rep F → Option (List (Line (Option K)) × St Rep F)
  | [], w => some w
  | op :: ops, w => (act P Fa trk sp hp op w).bind fun r => acts ops r.2

/-- The first loop, /repo/example/key_value.cpp:80-84, `names` being the file names chosen. -/
def load (grow : Nat → Nat) : List K → Vec → List (Line (Option K)) × St Rep F →
    Option (Vec × List (Line (Option K)) × St Rep F)
  | [], v, w => some (v, w)
  | k :: names, v, w =>
    (acts P Fa trk sp hp (push (V := V) grow v (.key k)).1 w).bind fun w' => load grow names (push (V := V) grow v (.key k)).2 w'

/-- The second loop, /repo/example/key_value.cpp:90-94, `rolls` being what `std::rand()` returns. -/
def reuse (grow : Nat → Nat) : List Nat → Vec → List (Line (Option K)) × St Rep F →
    Option (Vec × List (Line (Option K)) × St Rep F)
  | [], v, w => some (v, w)
  | r :: rolls, v, w =>
    (v.elems[r % v.elems.length]?).bind fun x =>
      match act P Fa trk sp hp (.get x) w with
      | some (.val _ t, w₁) => (acts P Fa trk sp hp (push (K := K) grow v (.copy t)).1 w₁).bind fun w₂ =>
          reuse grow rolls (push (K := K) grow v (.copy t)).2 w₂
      | _ => none

/-- `main`, /repo/example/key_value.cpp:66-99: the number of flyweights created, which it prints, the lines
that textures print, and the final state.  The other lines it prints are left out. -/
def main (grow : Nat → Nat) (names : List K) (rolls : List Nat) (s : St Rep F) :
    Option (Nat × List (Line (Option K)) × St Rep F) :=
  (load P Fa trk sp hp grow names ⟨0, 0, []⟩ ([], s)).bind fun r =>
    (reuse P Fa trk sp hp grow rolls r.1 r.2).bind fun r' =>
      (acts P Fa trk sp hp (r'.1.elems.map .destroy) r'.2).map fun w => (r'.1.elems.length, w)

end Code

/-! ## What operations print -/

/-- The line for a note; `c` tells that flyweights are created from textures.  (No code of its own: used in statements
and proofs.) -/
def say {K : Type} (c : Bool) : Note K → List (Line (Option K))
  | .new k => [if c then .copied (some k) else .loaded (some k)]
  | .hit _ => []
  | .del k => [.unloaded (some k)]

theorem say_dels {K : Type} (ds : List K) : (ds.map Note.del).flatMap (say false) = ds.map fun k => Line.unloaded (some k) := by
  induction ds with
  | nil => rfl
  | cons d ds ih => rw [List.map_cons, List.flatMap_cons, ih]; rfl

/-- A flyweight is created from a texture.  (No code of its own: used in statements and proofs.) -/
def isTex {K V : Type} : Src K V → Bool
  | .key _ => false
  | _ => true

/-- Operations occurring in the program.  (No code of its own: used in statements and proofs.) -/
def Fit {K V : Type} (c : Bool) : Op K V → Prop
  | .make _ src => c = isTex src
  | .copy _ _ | .move _ _ | .destroy _ | .get _ => True
  | _ => False

section Step
variable {K V Rep F : Type} {S : Setup K V Rep F} {fl : Nat → Bool}
open Setup

/-- The number of values, from the addresses. -/
theorem vals_eq {s s' : St Rep F} {t t' : SSt K V} (h : Sim S fl s t) (h' : Sim S fl s' t')
    (hm : ∀ a, (∃ b ∈ t'.pool S.trk, b.addr = a) ↔ ∃ b ∈ t.pool S.trk, b.addr = a) : s'.env.vals = s.env.vals := by
  rw [(live_count h).2, (live_count h').2]
  obtain ⟨n, m⟩ := pool_addrs h
  obtain ⟨n', m'⟩ := pool_addrs h'
  have := length_of_same n n' fun a => by rw [m, m', hm]
  simp only [List.length_map] at this
  omega

theorem vals_more {s s' : St Rep F} {t t' : SSt K V} (h : Sim S fl s t) (h' : Sim S fl s' t') {x : Nat}
    (hx : ¬ ∃ b ∈ t.pool S.trk, b.addr = x)
    (hm : ∀ a, (∃ b ∈ t'.pool S.trk, b.addr = a) ↔ a = x ∨ ∃ b ∈ t.pool S.trk, b.addr = a) :
    s'.env.vals = s.env.vals + 1 := by
  rw [(live_count h).2, (live_count h').2]
  obtain ⟨n, m⟩ := pool_addrs h
  obtain ⟨n', m'⟩ := pool_addrs h'
  have := length_of_same (l := x :: (S.Fa.ids s.fac).map s.addr) (List.nodup_cons.2 ⟨fun hx' => hx ((m x).1 hx'), n⟩) n'
    fun a => by rw [List.mem_cons, m, m', hm]
  simp only [List.length_map, List.length_cons] at this
  omega

/-- What an operation prints. -/
theorem printed_step (B : S.Billed true) (E : ∀ src, Moves.Fits Env.Even S.P src) (htrk : S.trk = .refcounted)
    {hp : Nat → Nat} {s s' : St Rep F} {t t' : SSt K V} (hS : Sim S fl s t) (hok : SOk S.trk S.keq t) {op : Op K V}
    (hv : op.valid S.sp t.names = true) {out : Out K V} (hm : Core.step S.P S.Fa S.trk hp op s = .ok out s')
    (hne : out ≠ .threw) (hst : SStep S.trk S.keq S.sp hp t op out t') (hS' : Sim S fl s' t') {δ : List (Note K)}
    (hl : LStep S.trk S.keq S.sp t t' δ op) {c : Bool} (hc : Fit c op) :
    printed S.P S.Fa S.sp op s s' = δ.flatMap (say c) := by
  have he := Moves.step Count.good_even (E op.creates) S.Fa S.trk hp op rfl s
  rw [hm] at he
  have he2 := he.vals
  have pool : ∀ {t : SSt K V}, t.pool S.trk = t.vars.map Prod.snd := fun {t} => by rw [htrk]; rfl
  have key : ∀ {x : Nat} {b : Bind K V}, (x, b) ∈ t.vars → ∃ s1, Core.getKey S.P S.Fa x s = .ok b.key s1 := fun h =>
    ⟨s, ((sees_iff hS).2 h).2⟩
  have still : op.creates = Option.none → ∀ a : Act, a.builds → s'.env.tally a = s.env.tally a := fun ho a ha => by
    have := B.other hp ho ha s
    rw [hm] at this
    exact this
  cases op with
  | make x src =>
    obtain ⟨b, s1, hcr, rfl⟩ := make_inv hne hst
    have hb := B.create hS hp (src := src) rfl hv s rfl
    rw [hm] at hb
    obtain ⟨new, hn, hall⟩ := hb
    have hδ : δ = [told S.keq (t.pool S.trk) (S.sp.key0 src)] := hl
    have h1 := hall .valArgs ⟨by decide, by decide⟩
    have h2 := hall .valCopy ⟨by decide, by decide⟩
    have h3 := hall .valMove ⟨by decide, by decide⟩
    have hvars : s1.vars = t.vars := by cases hcr <;> rfl
    have hpool : ∀ a, (∃ d ∈ SSt.pool S.trk { s1 with vars := (x, b) :: s1.vars }, d.addr = a) ↔
        a = b.addr ∨ ∃ d ∈ t.pool S.trk, d.addr = a := by
      intro a
      rw [pool, pool, hvars]
      simp [eq_comm]
    cases new with
    | true =>
      have hno : ∀ d ∈ t.pool S.trk, S.keq d.key (S.sp.key0 src) = false := fun d hd => by
        obtain ⟨i, hi⟩ := (hS.rel.pool d).1 hd
        exact hn.1 rfl i d hi
      have ht : told S.keq (t.pool S.trk) (S.sp.key0 src) = .new (S.sp.key0 src) := by
        unfold told
        rw [if_neg]
        intro h
        obtain ⟨d, hd, hk⟩ := List.any_eq_true.1 h
        rw [hno d hd] at hk
        cases hk
      have hvals : s'.env.vals = s.env.vals + 1 := by
        refine vals_more hS hS' (x := b.addr) ?_ hpool
        cases hcr with
        | share _ hb hk => rw [hno _ hb] at hk; cases hk
        | fresh a _ ha =>
          rintro ⟨d, hd, hda⟩
          exact ha d hd hda
      rw [hδ, ht]
      have hc' : c = isTex src := hc
      subst hc'
      rw [htrk] at h1 h2 h3
      unfold printed
      cases src <;> cases htk : S.Fa.take <;> simp [bill, nodeActs, valAct, VRep.srcAct, htk, Count.moved] at h1 h2 h3 <;>
        (have hg : s'.env.tally .valGone = s.env.tally .valGone := by omega
         simp [h1, h2, h3, hg, about, say, isTex])
    | false =>
      have hex : ∃ d ∈ t.pool S.trk, S.keq d.key (S.sp.key0 src) = true := by
        by_cases h : ∃ d ∈ t.pool S.trk, S.keq d.key (S.sp.key0 src) = true
        · exact h
        · refine absurd (hn.2 fun i d hd => ?_) (fun h => (nomatch h))
          cases hk : S.keq d.key (S.sp.key0 src) with
          | false => rfl
          | true => exact absurd ⟨d, (hS.rel.pool d).2 ⟨i, hd⟩, hk⟩ h
      have ht : told S.keq (t.pool S.trk) (S.sp.key0 src) = .hit (S.sp.key0 src) := by
        unfold told
        rw [if_pos]
        exact List.any_eq_true.2 hex
      have hvals : s'.env.vals = s.env.vals := by
        refine vals_eq hS hS' fun a => (hpool a).trans ⟨fun h => h.elim (fun h => ?_) id, .inr⟩
        cases hcr with
        | share _ hb hk => exact ⟨b, hb, h.symm⟩
        | fresh a' hno _ =>
          obtain ⟨d, hd, hk⟩ := hex
          rw [hno d hd] at hk
          cases hk
      rw [hδ, ht]
      rw [htrk] at h1 h2 h3
      unfold printed
      cases src <;> cases htk : S.Fa.take <;> simp [bill, VRep.srcAct, Count.moved] at h1 h2 h3 <;>
        (have hg : s'.env.tally .valGone = s.env.tally .valGone := by omega
         simp [h1, h2, h3, hg, say])
  | copy x y | move x y =>
    have hδ : δ = [] := hl
    obtain ⟨b, hb, rfl⟩ := copy_inv (x := x) (y := y) (by simp) hst
    have h1 := still rfl .valArgs ⟨by decide, by decide⟩
    have h2 := still rfl .valCopy ⟨by decide, by decide⟩
    have h3 := still rfl .valMove ⟨by decide, by decide⟩
    have hvals : s'.env.vals = s.env.vals := by
      refine vals_eq hS hS' fun a => ?_
      rw [pool, pool]
      constructor
      · rintro ⟨d, hd, rfl⟩
        simp only [List.map_cons, List.mem_cons] at hd
        rcases hd with rfl | hd
        · exact ⟨_, List.mem_map.2 ⟨_, hb, rfl⟩, rfl⟩
        · exact ⟨d, hd, rfl⟩
      · rintro ⟨d, hd, rfl⟩
        exact ⟨d, by simp only [List.map_cons, List.mem_cons]; exact .inr hd, rfl⟩
    have hg : s'.env.tally .valGone = s.env.tally .valGone := by omega
    rw [hδ]
    unfold printed
    simp [h1, h2, h3, hg]
  | get x =>
    have hδ : δ = [] := hl
    have h1 := still rfl .valArgs ⟨by decide, by decide⟩
    have h2 := still rfl .valCopy ⟨by decide, by decide⟩
    have h3 := still rfl .valMove ⟨by decide, by decide⟩
    have hvals : s'.env.vals = s.env.vals := by
      cases hst
      exact vals_eq hS hS' fun a => Iff.rfl
    have hg : s'.env.tally .valGone = s.env.tally .valGone := by omega
    rw [hδ]
    unfold printed
    simp [h1, h2, h3, hg]
  | destroy x =>
    obtain ⟨b, hb, rfl⟩ := hl
    cases hst
    have h1 := still rfl .valArgs ⟨by decide, by decide⟩
    have h2 := still rfl .valCopy ⟨by decide, by decide⟩
    have h3 := still rfl .valMove ⟨by decide, by decide⟩
    obtain ⟨s1, hk⟩ := key hb
    have hmem : ∀ d, d ∈ SSt.pool S.trk { t with vars := t.vars.filter fun p => p.1 ≠ x } ↔
        ∃ p ∈ t.vars, p.1 ≠ x ∧ p.2 = d := by
      intro d
      rw [pool]
      simp [and_assoc]
    have hold : ∀ d, d ∈ t.pool S.trk ↔ d = b ∨ d ∈ SSt.pool S.trk { t with vars := t.vars.filter fun p => p.1 ≠ x } := by
      intro d
      rw [hmem, pool, List.mem_map]
      constructor
      · rintro ⟨p, hp', rfl⟩
        by_cases hpx : p.1 = x
        · exact .inl (bind_unique hok.nodup (by rw [← hpx]; exact hp') hb)
        · exact .inr ⟨p, hp', hpx, rfl⟩
      · rintro (rfl | ⟨p, hp', _, rfl⟩)
        · exact ⟨_, hb, rfl⟩
        · exact ⟨p, hp', rfl⟩
    rw [htrk]
    unfold dropped
    dsimp only
    split
    · rename_i hany
      obtain ⟨p, hp', hpk⟩ := List.any_eq_true.1 hany
      have hp2 := List.mem_filter.1 hp'
      have hpb : p.2 = b := hok.key _ ((hold _).2 (.inr ((hmem _).2 ⟨p, hp2.1, by simpa using hp2.2, rfl⟩))) _
        ((hold b).2 (.inl rfl)) hpk
      have hvals : s'.env.vals = s.env.vals := by
        refine vals_eq hS hS' fun a => ?_
        constructor
        · rintro ⟨d, hd, rfl⟩
          exact ⟨d, (hold d).2 (.inr hd), rfl⟩
        · rintro ⟨d, hd, rfl⟩
          rcases (hold d).1 hd with rfl | hd
          · exact ⟨_, (hmem _).2 ⟨p, hp2.1, by simpa using hp2.2, hpb⟩, rfl⟩
          · exact ⟨d, hd, rfl⟩
      have hg : s'.env.tally .valGone = s.env.tally .valGone := by omega
      unfold printed
      simp [h1, h2, h3, hg]
    · rename_i hany
      have hvals : s.env.vals = s'.env.vals + 1 := by
        refine vals_more hS' hS (x := b.addr) ?_ fun a => ?_
        · rintro ⟨d, hd, hda⟩
          have := hok.addr _ ((hold d).2 (.inr hd)) _ ((hold b).2 (.inl rfl)) hda
          subst this
          obtain ⟨p, hp', hpx, rfl⟩ := (hmem _).1 hd
          exact hany (List.any_eq_true.2 ⟨p, List.mem_filter.2 ⟨hp', by simpa using hpx⟩, S.LS.refl _⟩)
        · constructor
          · rintro ⟨d, hd, rfl⟩
            rcases (hold d).1 hd with rfl | hd
            · exact .inl rfl
            · exact .inr ⟨d, hd, rfl⟩
          · rintro (rfl | ⟨d, hd, rfl⟩)
            · exact ⟨b, (hold b).2 (.inl rfl), rfl⟩
            · exact ⟨d, (hold d).2 (.inr hd), rfl⟩
      have hg : s'.env.tally .valGone = s.env.tally .valGone + 1 := by omega
      unfold printed
      simp [h1, h2, h3, hg, about, hk, say]
  | _ => exact hc.elim

/-- There is a list of notes for every operation that succeeds. -/
theorem LStep.exists {trk : Tracking} {keq : K → K → Bool} {sp : SrcSpec K V} {t t' : SSt K V} {op : Op K V}
    (hv : op.valid sp t.names = true) : ∃ δ, LStep trk keq sp t t' δ op := by
  have name : ∀ {x : Nat}, t.names.contains x = true → ∃ b, (x, b) ∈ t.vars := fun {x} hx =>
    mem_names.1 (by simpa using hx : x ∈ t.names)
  cases op with
  | make x src => exact ⟨_, rfl⟩
  | assign x y =>
    obtain ⟨b, hb⟩ := name (x := x) (by simp [Op.valid] at hv ⊢; exact hv.1)
    exact ⟨_, b, hb, rfl⟩
  | destroy x =>
    obtain ⟨b, hb⟩ := name (x := x) hv
    exact ⟨_, b, hb, rfl⟩
  | assignVal x src =>
    obtain ⟨b, hb⟩ := name (x := x) (by simp [Op.valid] at hv ⊢; exact hv.1)
    exact ⟨_, b, hb, rfl⟩
  | _ => exact ⟨[], rfl⟩

/-- What several operations print. -/
theorem acts_lines (B : S.Billed true) (E : ∀ src, Moves.Fits Env.Even S.P src) (htrk : S.trk = .refcounted)
    (hfl : ∀ n, fl n = false) (hp : Nat → Nat) (c : Bool) (ops : List (Op K V)) (hc : ∀ op ∈ ops, Fit c op)
    {s : St Rep F} {t : SSt K V} (hS : Sim S fl s t) (hok : SOk S.trk S.keq t) (o : List (Line (Option K))) :
    ∃ outs δ s' t', LRun S.trk S.keq S.sp hp t ops outs δ t' ∧ .threw ∉ outs ∧
      (.skipped ∉ outs → acts S.P S.Fa S.trk S.sp hp ops (o, s) = some (o ++ δ.flatMap (say c), s') ∧ Sim S fl s' t') := by
  induction ops generalizing s t o with
  | nil => exact ⟨[], [], s, t, .nil t, by simp, fun _ => ⟨by simp [acts], hS⟩⟩
  | cons op ops ih =>
    have hn : s.objs.map Prod.fst = t.names := hS.rel.vars.names.symm
    by_cases hv : op.valid S.sp t.names = true
    · have h := step_sim hS hp hv s rfl
      cases hm : Core.step S.P S.Fa S.trk hp op s with
      | ub => rw [hm] at h; exact h.elim
      | exc s1 =>
        rw [hm] at h
        obtain ⟨_, _, n, hn⟩ := h
        rw [hfl n] at hn
        cases hn
      | ok out s1 =>
        rw [hm] at h
        obtain ⟨hne, t1, hst, hS1⟩ := h
        obtain ⟨δ, hl⟩ := LStep.exists (trk := S.trk) (keq := S.keq) (sp := S.sp) (t' := t1) hv
        have hpr := printed_step B E htrk hS hok hv hm hne hst hS1 hl (hc op (by simp))
        obtain ⟨outs, δs, s', t', h1, h2, h3⟩ := ih (fun op h => hc op (by simp [h])) hS1 (hst.ok S.LS hok hv)
          (o ++ δ.flatMap (say c))
        refine ⟨out :: outs, δ ++ δs, s', t', .step hv hne hst hl h1, ?_, fun hsk => ?_⟩
        · simp only [List.mem_cons, not_or]
          exact ⟨hne.symm, h2⟩
        · obtain ⟨h4, h5⟩ := h3 fun h => hsk (by simp [h])
          refine ⟨?_, h5⟩
          unfold acts act
          rw [hn, if_pos hv, hm]
          simp only [Option.bind_some, hpr]
          rw [h4, List.flatMap_append, List.append_assoc]
    · obtain ⟨outs, δs, s', t', h1, h2, h3⟩ := ih (fun op h => hc op (by simp [h])) hS hok o
      exact ⟨.skipped :: outs, δs, s', t', .skip (by simpa using hv) h1, by simp [h2], fun h => absurd (by simp) h⟩

/-! ## The loops -/

/-- The vector `v` holds flyweights made for the keys `keys`.  (No code of its own: used in statements and proofs.) -/
def Ready (S : Setup K V Rep F) (fl : Nat → Bool) (v : Vec) (keys : List K) (s : St Rep F) : Prop :=
  ∃ t live, Sim S fl s t ∧ SOk S.trk S.keq t ∧ Held S.trk S.keq t live keys ∧
    (∀ x i, (x, i) ∈ live ↔ v.elems[i]? = some x) ∧ (∀ x ∈ v.elems, x < v.next) ∧ v.elems.Nodup ∧
    keys.length = v.elems.length

theorem fit_push (grow : Nat → Nat) (v : Vec) (src : Src K V) : ∀ op ∈ (push grow v src).1, Fit (isTex src) op := by
  have hmoves : ∀ (es : List Nat) (n : Nat), ∀ op ∈ (moves n es : List (Op K V)), Fit (isTex src) op := by
    intro es
    induction es with
    | nil => intro n op h; cases h
    | cons e es ih =>
      intro n op h
      rcases List.mem_cons.1 h with rfl | h
      · trivial
      · exact ih _ op h
  intro op h
  unfold push at h
  split at h
  · simp only [List.mem_cons, List.not_mem_nil, or_false] at h
    rcases h with rfl | rfl | rfl
    · rfl
    · trivial
    · trivial
  · simp only [List.mem_append, List.mem_cons, List.not_mem_nil, or_false, List.mem_map] at h
    rcases h with (((rfl | rfl) | h) | ⟨e, _, rfl⟩) | rfl
    · rfl
    · trivial
    · exact hmoves _ _ op h
    · trivial
    · trivial

section Loops
variable (B : S.Billed true) (E : ∀ src, Moves.Fits Env.Even S.P src) (htrk : S.trk = .refcounted)
  (hfl : ∀ n, fl n = false) (hp : Nat → Nat) (grow : Nat → Nat)

include B E htrk hfl

theorem push_ready {src : Src K V} (hsup : S.sp.supports src = true) {v : Vec} {keys : List K} {s : St Rep F}
    (h : Ready S fl v keys s) (o : List (Line (Option K))) :
    ∃ s', acts S.P S.Fa S.trk S.sp hp (push grow v src).1 (o, s) =
        some (o ++ (askLines S.keq keys.reverse [S.sp.key0 src]).flatMap (say (isTex src)), s') ∧
      Ready S fl (push grow v src).2 (keys ++ [S.sp.key0 src]) s' := by
  obtain ⟨t, live, hS, hok, hh, hl, hlt, hnd, hlen⟩ := h
  obtain ⟨outs, δ, s', t', h1, h2, h3⟩ := acts_lines B E htrk hfl hp (isTex src) (push grow v src).1
    (fit_push grow v src) hS hok o
  have hseg := seg_push (E := fun _ live' ops => ops = [] ∧ (∀ x i, (x, i) ∈ live' ↔ (push grow v src).2.elems[i]? = some x) ∧
      (∀ x ∈ (push grow v src).2.elems, x < (push grow v src).2.next) ∧ (push grow v src).2.elems.Nodup)
    grow src [] [] v live hl hlt hnd fun live' a b c => .stop ⟨rfl, a, b, c⟩
  rw [List.append_nil] at hseg
  obtain ⟨live', ops', t1, outs', δ', ⟨rfl, hl', hlt', hnd'⟩, hh', hok', hr', rfl, hsk, _⟩ :=
    seg_lines S.LS hseg (fun src' h => by simp at h; rw [h]; exact hsup) hlen hh hok h2 h1
  cases hr'
  obtain ⟨h4, h5⟩ := h3 fun h => nomatch (hsk h)
  refine ⟨s', ?_, t', live', h5, hok', by simpa using hh', hl', hlt', hnd', ?_⟩
  · rw [h4]
    simp
  · rw [push_length, List.length_append, hlen]
    rfl

theorem load_ready (hkey : ∀ k, S.sp.supports (.key k) = true ∧ S.sp.key0 (.key k) = k) (names : List K) {v : Vec}
    {keys : List K} {s : St Rep F} (h : Ready S fl v keys s) (o : List (Line (Option K))) :
    ∃ v' s', load S.P S.Fa S.trk S.sp hp grow names v (o, s) =
        some (v', o ++ (askLines S.keq keys.reverse names).flatMap (say false), s') ∧
      Ready S fl v' (keys ++ names) s' := by
  induction names generalizing v keys s o with
  | nil => exact ⟨v, s, by simp [load, askLines], by simpa using h⟩
  | cons k names ih =>
    obtain ⟨s1, h1, h2⟩ := push_ready B E htrk hfl hp grow (hkey k).1 h o
    rw [(hkey k).2] at h1 h2
    obtain ⟨v', s', h3, h4⟩ := ih h2 (o ++ (askLines S.keq keys.reverse [k]).flatMap (say false))
    refine ⟨v', s', ?_, by simpa using h4⟩
    unfold load
    rw [show isTex (Src.key k : Src K V) = false from rfl] at h1
    rw [h1, Option.bind_some, h3]
    simp [askLines]

omit B E htrk hfl in
/-- Reading an element. -/
theorem get_ready {v : Vec} {keys : List K} {s : St Rep F} (h : Ready S fl v keys s) {i x : Nat}
    (hx : v.elems[i]? = some x) (o : List (Line (Option K))) :
    ∃ a k tx k', act S.P S.Fa S.trk S.sp hp (.get x) (o, s) = some (.val a tx, o, s) ∧ S.Sees s x a k tx ∧
      keys[i]? = some k' ∧ S.keq k k' = true ∧ ∃ r, S.P.toValue r = some tx ∧ S.P.toKey r = some k := by
  obtain ⟨t, live, hS, hok, hh, hl, hlt, hnd, hlen⟩ := h
  have hn : s.objs.map Prod.fst = t.names := hS.rel.vars.names.symm
  have hxn : x ∈ t.names := (hh.names x).2 ⟨i, (hl x i).2 hx⟩
  obtain ⟨⟨a, k, tx⟩, hb⟩ := mem_names.1 hxn
  have hsee := (sees_iff hS).2 hb
  obtain ⟨k', hk', hkk⟩ := hh.key x _ i hb ((hl x i).2 hx)
  obtain ⟨j, e, _, hf, _⟩ := (hS.rel.pool _).1 (hok.bound hb)
  refine ⟨a, k, tx, k', ?_, hsee, hk', hkk, e.rep, S.L.full_val hf, S.L.full_key hf⟩
  unfold act
  rw [hn, if_pos (by simpa [Op.valid] using hxn)]
  have : Core.step S.P S.Fa S.trk hp (.get x) s = .ok (.val a tx) s := by
    simp only [Core.step, bind, M.bind, hsee.1]
    rfl
  rw [this]
  simp [printed]

theorem reuse_ready {file : V → K} (htex : ∀ v, S.sp.supports (.copy v) = true ∧ S.sp.key0 (.copy v) = file v)
    (hval : ∀ r v k, S.P.toValue r = some v → S.P.toKey r = some k → file v = k) (hkeq : ∀ a b, S.keq a b = true → a = b)
    (rolls : List Nat) {v : Vec} {keys : List K} (hne : keys ≠ []) {s : St Rep F} (h : Ready S fl v keys s) (o : List (Line (Option K))) :
    ∃ v' s' more, reuse S.P S.Fa S.trk S.sp hp grow rolls v (o, s) = some (v', o, s') ∧
      Ready S fl v' (keys ++ more) s' ∧ more.length = rolls.length ∧ ∀ k ∈ more, k ∈ keys := by
  induction rolls generalizing v keys s with
  | nil => exact ⟨v, s, [], by simp [reuse], by simpa using h, rfl, by simp⟩
  | cons r rolls ih =>
    have hlen : keys.length = v.elems.length := h.choose_spec.choose_spec.2.2.2.2.2.2
    have hpos : 0 < v.elems.length := by
      rw [← hlen]
      exact List.length_pos_iff.2 hne
    have hx : v.elems[r % v.elems.length]? = some (v.elems[r % v.elems.length]'(Nat.mod_lt _ hpos)) := by
      simp [Nat.mod_lt _ hpos]
    obtain ⟨a, k, tx, k', hg, _, hk', hkk, rep, hr⟩ := get_ready hp h hx o
    have hfile : file tx = k := hval _ _ _ hr.1 hr.2
    have hin : k ∈ keys := by
      rw [hkeq k k' hkk]
      exact List.mem_of_getElem? hk'
    obtain ⟨s1, h1, h2⟩ := push_ready B E htrk hfl hp grow (htex tx).1 h o
    rw [(htex tx).2, hfile] at h1 h2
    have hhit : (askLines S.keq keys.reverse [k]).flatMap (say (isTex (Src.copy tx : Src K V))) = [] := by
      have : (keys.reverse.any (S.keq · k)) = true :=
        List.any_eq_true.2 ⟨k, by simpa using hin, S.LS.refl k⟩
      simp only [askLines, this, if_true]
      rfl
    rw [hhit, List.append_nil] at h1
    obtain ⟨v', s', more, h3, h4, h5, h6⟩ := ih (by simp) h2
    refine ⟨v', s', k :: more, ?_, by simpa using h4, by simp [h5], fun l hl => ?_⟩
    · unfold reuse
      rw [hx, Option.bind_some, hg]
      simp only [h1, Option.bind_some]
      exact h3
    · rcases List.mem_cons.1 hl with rfl | hl
      · exact hin
      · have := h6 l hl
        simp only [List.mem_append, List.mem_singleton] at this
        exact this.elim id fun h => h ▸ hin

theorem destroy_ready {v : Vec} {keys : List K} {s : St Rep F} (h : Ready S fl v keys s) (o : List (Line (Option K))) :
    ∃ s' ds, acts S.P S.Fa S.trk S.sp hp (v.elems.map .destroy) (o, s) = some (o ++ ds.map fun k => .unloaded (some k), s') ∧
      Final S.trk S.keq keys ds ∧ s'.objs = [] ∧ s'.env.vals = 0 ∧ s'.env.keys = 0 := by
  obtain ⟨t, live, hS, hok, hh, hl, hlt, hnd, hlen⟩ := h
  obtain ⟨outs, δ, s', t', h1, h2, h3⟩ := acts_lines B E htrk hfl hp false (v.elems.map .destroy)
    (fun op h => by obtain ⟨x, _, rfl⟩ := List.mem_map.1 h; trivial) hS hok o
  have hx : ∀ x, x ∈ v.elems ↔ x ∈ t.names := fun x => by
    rw [hh.names, List.mem_iff_getElem?]
    exact ⟨fun ⟨i, h⟩ => ⟨i, (hl x i).2 h⟩, fun ⟨i, h⟩ => ⟨i, (hl x i).1 h⟩⟩
  obtain ⟨hv, hsk, ds, rfl, hd⟩ := dels S.LS hnd hx hok h1
  obtain ⟨h4, h5⟩ := h3 hsk
  have hnil : S.Fa.ids s'.fac = [] := by
    obtain ⟨_, hm⟩ := pool_addrs h5
    rw [htrk] at hm
    cases hi : S.Fa.ids s'.fac with
    | nil => rfl
    | cons i l =>
      obtain ⟨b, hb, _⟩ := (hm (s'.addr i)).1 (by rw [hi]; simp)
      rw [show t'.pool .refcounted = t'.vars.map Prod.snd from rfl, hv] at hb
      cases hb
  obtain ⟨hk, hvv⟩ := live_count h5
  refine ⟨s', ds, ?_, hd.final S.LS hh, ?_, by rw [hvv, hnil]; rfl, by rw [hk, hnil]; simp⟩
  · rw [h4]
    rw [say_dels]
  · have := h5.rel.vars.names
    rw [hv] at this
    exact List.map_eq_nil_iff.1 this.symm

omit B E htrk hfl in
theorem start_ready {alloc : Nat → List Nat → Nat} (hal : ∀ n l, alloc n l ∉ l) :
    Ready S fl ⟨0, 0, []⟩ [] (Core.start S.Fa fl alloc) := by
  refine ⟨SSt.start, [], sim_start S fl hal, SOk.start _ _, ⟨fun x => by simp [SSt.start, SSt.names], fun x b i h => (by cases h), fun k => ?_⟩,
    by simp, by simp, by simp, rfl⟩
  cases S.trk <;> rfl

end Loops
end Step

/-! ## The lines of the first loop -/

theorem first_uses {K : Type} [DecidableEq K] {keq : K → K → Bool} (hkeq : ∀ a b, keq a b = true ↔ a = b) (names seen : List K) :
    (askLines keq seen names).flatMap (say false) =
      (names.filter fun k => k ∉ seen).eraseDups.map fun k => Line.loaded (some k) := by
  induction names generalizing seen with
  | nil => simp [askLines]
  | cons k names ih =>
    have hseen : (seen.any (keq · k)) = decide (k ∈ seen) := by
      rw [Bool.eq_iff_iff, List.any_eq_true, decide_eq_true_iff]
      exact ⟨fun ⟨l, hl, h⟩ => (hkeq l k).1 h ▸ hl, fun h => ⟨k, h, (hkeq k k).2 rfl⟩⟩
    simp only [askLines, hseen, List.flatMap_cons, ih]
    by_cases h : k ∈ seen
    · have : (names.filter fun l => l ∉ k :: seen) = names.filter fun l => l ∉ seen := by
        refine List.filter_congr fun l _ => ?_
        by_cases hlk : l = k
        · simp [hlk, h]
        · simp [hlk]
      rw [this]
      simp [h, say]
    · rw [List.filter_cons_of_pos (by simpa using h), List.eraseDups_cons]
      simp only [h, decide_false, Bool.false_eq_true, if_false, say, List.map_cons, List.singleton_append, List.cons.injEq,
        true_and, List.filter_filter]
      congr 2
      refine List.filter_congr fun l _ => ?_
      by_cases hlk : l = k
      · simp [hlk]
      · simp [hlk]

end Verif.Textures

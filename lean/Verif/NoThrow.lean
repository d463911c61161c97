import Verif.Operators
import Verif.Library
import Verif.CFSeqLib

/-!
# Functions declared `noexcept`

Which members of `flyweight` are declared `noexcept`, and what happens if an exception leaves one: `std::terminate` is called.  The point of
interest is `get_key()`, which calls the user's key extractor if there is one.
-/

set_option autoImplicit false

namespace Verif

/-- The outcome of a call when `noexcept` is taken into account: a fourth possibility is that `std::terminate` is called.  (No code of its own:
C++ language.) -/
inductive Call (σ α : Type) where
  | ok (a : α) (s : σ)
  | exc (s : σ)
  | terminate
  | ub

namespace Call
variable {σ α β : Type}

/-- A function body.  (No code of its own: C++ language.) -/
def of : Res σ α → Call σ α
  | .ok a s => .ok a s
  | .exc s => .exc s
  | .ub => .ub

/-- A function declared `noexcept(b)`.  (No code of its own: C++ language.) -/
def noexcept (b : Bool) : Call σ α → Call σ α
  | .exc s => if b then .terminate else .exc s
  | c => c

/-- Use the result.  (No code of its own.) -/
def map (f : α → β) : Call σ α → Call σ β
  | .ok a s => .ok (f a) s
  | .exc s => .exc s
  | .terminate => .terminate
  | .ub => .ub

end Call

/-- The three kinds of flyweight types: `flyweight<T>`, `flyweight<key_value<K,V>>`, and `flyweight<key_value<K,V,KeyFromValue>>`, where `safe` says whether
calling the key extractor is `noexcept`.  Models the value policies of /repo/include/boost/flyweight/detail/default_value_policy.hpp:30-76 and
/repo/include/boost/flyweight/key_value.hpp:50-295. -/
inductive Kind where
  | plain
  | product
  | extractor (safe : Bool)

/-- Is the conversion of `rep_type` to `const key_type&` declared `noexcept`?
/repo/include/boost/flyweight/detail/default_value_policy.hpp:65, /repo/include/boost/flyweight/key_value.hpp:103-105, 238. -/
def Kind.toKey : Kind → Bool
  | .plain => true
  | .product => true
  | .extractor safe => safe

/-- Is `static_cast<const rep_type&>` of a `const entry_type&` a `noexcept` expression?  With `no_tracking` the types are the same
(/repo/include/boost/flyweight/no_tracking.hpp:29-33); with `refcounted` a conversion function is called that is not declared `noexcept`
(/repo/include/boost/flyweight/refcounted.hpp:87). -/
def entryToRep : Tracking → Bool
  | .noTracking => true
  | .refcounted => false

/-- Is `flyweight_core::key` declared `noexcept`?  /repo/include/boost/flyweight/detail/flyweight_core.hpp:196-198. -/
def coreKeySpec (trk : Tracking) : Bool := entryToRep trk

/-- Is `get_key()` declared `noexcept`?  /repo/include/boost/flyweight/flyweight.hpp:243-244. -/
def getKeySpec (trk : Tracking) : Bool := coreKeySpec trk

/-- Is an operation other than `get_key()` declared `noexcept`?  Copy and move constructors, assignment, `swap`, `get()`, `==` and hashing are:
/repo/include/boost/flyweight/flyweight.hpp:213-218, 231, 249-252, 257, 271, 278, 422, 479, 498; destructors are implicitly. -/
def declared {K V : Type} : Op K V → Bool
  | .init => false
  | .make _ _ => false
  | .copy _ _ => true
  | .move _ _ => true
  | .assign _ _ => true
  | .assignVal _ _ => false
  | .swap _ _ => true
  | .destroy _ => true
  | .get _ => true
  | .getKey _ => false
  | .eq _ _ => true
  | .hash _ => true

section
variable {K V Rep F : Type}

/-- Conversion of a `rep_type` to its key.  `asks`: it calls the key extractor.  /repo/include/boost/flyweight/detail/default_value_policy.hpp:65,
/repo/include/boost/flyweight/key_value.hpp:103-109, 130-134, 238. -/
def toKeyX (P : Policy K V Rep) (kind : Kind) (asks : Rep → Bool) (r : Rep) : M Env K := do
  if asks r && !kind.toKey then mayThrow else pure ()
  match P.toKey r with
  | none => M.undef
  | some k => pure k

/-- The value policies of the library with their kinds; only `variant_key_value::rep_type` calls an extractor, namely if it holds a value
(/repo/include/boost/flyweight/key_value.hpp:107). -/
inductive LibKind : {K V Rep : Type} → Policy K V Rep → SrcSpec K V → (K → K → Bool) → Kind → (Rep → Bool) → Prop
  | plain {V : Type} (u : UserFns V V) (keq : V → V → Bool) :
      LibKind (DRep.policy u) (SrcSpec.default V) keq .plain fun _ => false
  | product {K V : Type} (u : UserFns K V) (keq : K → K → Bool) :
      LibKind (PRep.policy u) (SrcSpec.product u) keq .product fun _ => false
  | variant {K V : Type} (u : UserFns K V) (keq : K → K → Bool) (contract : ∀ k, keq (u.kfv (u.ctor k)) k = true) (safe : Bool) :
      LibKind (VRep.policy u) (SrcSpec.variant u) keq (.extractor safe) VRep.cted

theorem LibKind.policy {P : Policy K V Rep} {sp : SrcSpec K V} {keq : K → K → Bool} {kind : Kind} {asks : Rep → Bool}
    (h : LibKind P sp keq kind asks) : ∃ kd, LibPolicy P sp keq kd := by
  cases h with
  | plain u => exact ⟨_, .plain u _⟩
  | product u => exact ⟨_, .product u _⟩
  | variant u _ c => exact ⟨_, .variant u _ c⟩

/-- The end of a program: it has run to its end, or `std::terminate` has been called, after some operations with these outputs, or there has been
undefined behaviour.  (No code of its own: used in statements and proofs.) -/
inductive XEnd (σ K V : Type) where
  | ran (outs : List (Out K V)) (s : σ)
  | terminated (outs : List (Out K V))
  | ub

/-- One more output at the beginning.  (No code of its own: used in statements and proofs.) -/
def XEnd.cons {σ : Type} (o : Out K V) : XEnd σ K V → XEnd σ K V
  | .ran outs s => .ran (o :: outs) s
  | .terminated outs => .terminated (o :: outs)
  | .ub => .ub

namespace Core

/-- `flyweight_core::key`, /repo/include/boost/flyweight/detail/flyweight_core.hpp:196-201. -/
def keyX (P : Policy K V Rep) (Fa : Factory F (Ent Rep)) (trk : Tracking) (kind : Kind) (asks : Rep → Bool) (h : Nat) (s : St Rep F) :
    Call (St Rep F) K :=
  .noexcept (coreKeySpec trk) (.of ((do let e ← entry Fa h; env (toKeyX P kind asks e.rep)) s))

/-- `get_key()`, /repo/include/boost/flyweight/flyweight.hpp:243-247. -/
def getKeyX (P : Policy K V Rep) (Fa : Factory F (Ent Rep)) (trk : Tracking) (kind : Kind) (asks : Rep → Bool) (x : Nat) (s : St Rep F) :
    Call (St Rep F) K :=
  .noexcept (getKeySpec trk) (match handleOf x s with
    | .ok h s' => keyX P Fa trk kind asks h s'
    | .exc s' => .exc s'
    | .ub => .ub)

/-- One operation, exception specifications included.  Models the calls of /repo/include/boost/flyweight/flyweight.hpp:181-278 by the program. -/
def stepX (P : Policy K V Rep) (Fa : Factory F (Ent Rep)) (trk : Tracking) (kind : Kind) (asks : Rep → Bool) (hp : Nat → Nat) (o : Op K V)
    (s : St Rep F) : Call (St Rep F) (Out K V) :=
  match o with
  | .getKey x => (getKeyX P Fa trk kind asks x s).map .key
  | o => .noexcept (declared o) (.of (step P Fa trk hp o s))

/-- A program; see `exec`.  (The user's program, no code of the library.) -/
def execX (P : Policy K V Rep) (Fa : Factory F (Ent Rep)) (trk : Tracking) (kind : Kind) (asks : Rep → Bool) (hp : Nat → Nat) (sp : SrcSpec K V) :
    List (Op K V) → St Rep F → XEnd (St Rep F) K V
  | [], s => .ran [] s
  | o :: ops, s =>
    if o.valid sp (s.objs.map Prod.fst) then
      match stepX P Fa trk kind asks hp o s with
      | .ok out s' => (execX P Fa trk kind asks hp sp ops s').cons out
      | .exc s' => (execX P Fa trk kind asks hp sp ops s').cons .threw
      | .terminate => .terminated []
      | .ub => .ub
    else (execX P Fa trk kind asks hp sp ops s).cons .skipped

end Core

namespace CFSeq

/-- `flyweight_core::key` with `concurrent_factory`, /repo/include/boost/flyweight/detail/flyweight_core.hpp:196-201. -/
def keyX (P : Policy K V Rep) (trk : Tracking) (kind : Kind) (asks : Rep → Bool) (h : Nat) (s : St Rep) : Call (St Rep) K :=
  .noexcept (coreKeySpec trk) (.of ((do let n ← node h; env (toKeyX P kind asks n.rep)) s))

/-- `get_key()`, /repo/include/boost/flyweight/flyweight.hpp:243-247. -/
def getKeyX (P : Policy K V Rep) (trk : Tracking) (kind : Kind) (asks : Rep → Bool) (x : Nat) (s : St Rep) : Call (St Rep) K :=
  .noexcept (getKeySpec trk) (match handleOf x s with
    | .ok h s' => keyX P trk kind asks h s'
    | .exc s' => .exc s'
    | .ub => .ub)

/-- One operation, exception specifications included.  Models the calls of /repo/include/boost/flyweight/flyweight.hpp:181-278 by the program. -/
def stepX (P : Policy K V Rep) (keq : K → K → Bool) (trk : Tracking) (kind : Kind) (asks : Rep → Bool) (hp : Nat → Nat) (o : Op K V)
    (s : St Rep) : Call (St Rep) (Out K V) :=
  match o with
  | .getKey x => (getKeyX P trk kind asks x s).map .key
  | o => .noexcept (declared o) (.of (step P keq trk hp o s))

/-- A program with the garbage collector at work; see `exec`.  (The user's program, no code of the library.) -/
def execX (P : Policy K V Rep) (keq : K → K → Bool) (trk : Tracking) (kind : Kind) (asks : Rep → Bool) (hp : Nat → Nat) (sp : SrcSpec K V) :
    List (CFSpec.Ev K V) → St Rep → XEnd (St Rep) K V
  | [], s => .ran [] s
  | .op o :: evs, s =>
    if o.valid sp (s.objs.map Prod.fst) then
      match stepX P keq trk kind asks hp o s with
      | .ok out s' => (execX P keq trk kind asks hp sp evs s').cons out
      | .exc s' => (execX P keq trk kind asks hp sp evs s').cons .threw
      | .terminate => .terminated []
      | .ub => .ub
    else (execX P keq trk kind asks hp sp evs s).cons .skipped
  | .collect i :: evs, s =>
    match collect P i s with
    | .ok _ s' => execX P keq trk kind asks hp sp evs s'
    | .exc _ => .terminated []
    | .ub => .ub

end CFSeq

/-! ## Programs whose `get_key()` throws -/

/-- The operations of a program with their outputs, without the calls of `get_key()` that have thrown.  (No code of its own: used to state a
property or an example.) -/
def heard : List (Op K V) → List (Out K V) → List (Op K V × Out K V)
  | .getKey _ :: ops, .threw :: outs => heard ops outs
  | o :: ops, out :: outs => (o, out) :: heard ops outs
  | _, _ => []

theorem heard_cons {o : Op K V} {out : Out K V} (h : (∀ x, o ≠ .getKey x) ∨ out ≠ .threw) (ops : List (Op K V)) (outs : List (Out K V)) :
    heard (o :: ops) (out :: outs) = (o, out) :: heard ops outs := by
  cases o with
  | getKey x =>
    cases out with
    | threw => rcases h with h | h
               · exact absurd rfl (h x)
               · exact absurd rfl h
    | _ => rfl
  | _ => rfl

/-- The extractor is called for what holds a value, if there is one. -/
theorem LibKind.asks {P : Policy K V Rep} {sp : SrcSpec K V} {keq : K → K → Bool} {kind : Kind} {asks : Rep → Bool} (h : LibKind P sp keq kind asks)
    {r : Rep} {v : V} (hv : P.toValue r = some v) : (asks r && !kind.toKey) = !kind.toKey := by
  cases h with
  | plain u => rfl
  | product u => rfl
  | variant u _ c safe =>
    have : r.cted = true := by
      cases hc : r.cted with
      | true => rfl
      | false => simp [VRep.policy, VRep.toValue, hc] at hv
    simp [this]

/-- The environment after an operation of the user.  (No code of its own: used in statements and proofs.) -/
def Env.ticked (e : Env) : Env := { e with tick := e.tick + 1 }

theorem toKeyX_ok {P : Policy K V Rep} {sp : SrcSpec K V} {keq : K → K → Bool} {kind : Kind} {asks : Rep → Bool} (h : LibKind P sp keq kind asks)
    {r : Rep} {k : K} {v : V} (hk : P.toKey r = some k) (hv : P.toValue r = some v) (e : Env) :
    toKeyX P kind asks r e = if kind.toKey = true then .ok k e else if e.faults e.tick = true then .exc e.ticked else .ok k e.ticked := by
  unfold toKeyX
  rw [h.asks hv]
  cases kind.toKey with
  | true => simp [hk, pure, M.ret]
  | false =>
    cases hf : e.faults e.tick <;> simp [hk, bind, M.bind, pure, M.ret, mayThrow, hf, Env.ticked]

namespace Setup
variable {S : Setup K V Rep F} {kind : Kind} {asks : Rep → Bool}

/-- What `get_key()` does. -/
theorem getKeyX_eq (hk : LibKind S.P S.sp S.keq kind asks) {fl : Nat → Bool} {s : St Rep F} {t : SSt K V} (hS : Sim S fl s t) {x : Nat}
    {b : Bind K V} (hb : (x, b) ∈ t.vars) :
    Core.getKeyX S.P S.Fa S.trk kind asks x s = if kind.toKey = true then .ok b.key s
      else if fl s.env.tick = true then (if S.trk = .noTracking then .terminate else .exc { s with env := s.env.ticked })
      else .ok b.key { s with env := s.env.ticked } := by
  have hR := hS.rel
  have hx : x ∈ t.vars.map Prod.fst := List.mem_map.2 ⟨_, hb, rfl⟩
  have hx' : x ∈ s.objs.map Prod.fst := by rw [← hR.vars.names]; exact hx
  obtain ⟨h, hl⟩ := Assoc.lookup_of_name hx'
  obtain ⟨c, hc, hat⟩ := hR.vars.lookup hl
  have hnd : (t.vars.map Prod.fst).Nodup := by rw [hR.vars.names]; exact hR.nodup
  have hbc : b = c := Option.some.inj ((Assoc.lookup_of_mem hnd hb).symm.trans (Assoc.lookup_of_mem hnd hc))
  subst hbc
  obtain ⟨e, he, hf, ha⟩ := id hat
  have h1 : Core.handleOf x s = .ok h s := handleOf_ok hl
  have h2 : Core.entry S.Fa h s = .ok e s := entry_ok (hR.inv.ini h hat.some) he
  have h3 := toKeyX_ok hk (S.L.full_key hf) (S.L.full_val hf) s.env
  unfold Core.getKeyX Core.keyX
  simp only [h1, bind, M.bind, h2, Core.env, h3, hS.faults]
  cases kind.toKey <;> cases fl s.env.tick <;> cases S.trk <;> rfl

/-- Only creations and assignments of values throw. -/
theorem step_nothrow {fl : Nat → Bool} {s s' : St Rep F} {t : SSt K V} (hS : Sim S fl s t) (hp : Nat → Nat) {o : Op K V}
    (hv : o.valid S.sp t.names = true) (hd : ∀ x src, o ≠ .make x src ∧ o ≠ .assignVal x src) : Core.step S.P S.Fa S.trk hp o s ≠ .exc s' := by
  intro h
  have := step_sim hS hp hv s rfl
  rw [h] at this
  obtain ⟨h1, _⟩ := this
  cases h1 with
  | makeThrow x src => exact (hd x src).1 rfl
  | assignValThrow x src => exact (hd x src).2 rfl

/-- The end of a program, related to the specification.  (No code of its own: used in statements and proofs.) -/
def Ended (S : Setup K V Rep F) (kind : Kind) (hp : Nat → Nat) (fl : Nat → Bool) (t : SSt K V) (ops : List (Op K V)) :
    XEnd (St Rep F) K V → Prop
  | .ran outs s => outs.length = ops.length ∧
      (∃ t', SRun S.trk S.keq S.sp hp t ((heard ops outs).map Prod.fst) ((heard ops outs).map Prod.snd) t' ∧ Sim S fl s t') ∧
      (S.trk = .noTracking ∨ kind.toKey = true → heard ops outs = ops.zip outs) ∧ (.threw ∈ outs → ∃ n, fl n = true)
  | .terminated outs => S.trk = .noTracking ∧ kind.toKey = false ∧ (∃ n, fl n = true) ∧ ∃ x rest, ops = ops.take outs.length ++ .getKey x :: rest ∧
      ∃ t', SRun S.trk S.keq S.sp hp t (ops.take outs.length) outs t' ∧ x ∈ t'.names
  | .ub => False

theorem Ended.cons {hp : Nat → Nat} {fl : Nat → Bool} {t t' : SSt K V} {ops : List (Op K V)} {o : Op K V} {out : Out K V} {r : XEnd (St Rep F) K V}
    (h : (∀ x, o ≠ .getKey x) ∨ out ≠ .threw) (hr : ∀ ops' outs' u, SRun S.trk S.keq S.sp hp t' ops' outs' u →
      SRun S.trk S.keq S.sp hp t (o :: ops') (out :: outs') u) (ht : out = .threw → ∃ n, fl n = true)
    (hE : Ended S kind hp fl t' ops r) : Ended S kind hp fl t (o :: ops) (r.cons out) := by
  cases r with
  | ub => exact hE
  | ran outs s =>
    obtain ⟨h1, ⟨u, h2, h3⟩, h4, h5⟩ := hE
    refine ⟨by simp [h1], ⟨u, ?_, h3⟩, fun hc => ?_, fun hm => ?_⟩
    · rw [heard_cons h]
      exact hr _ _ _ h2
    · rw [heard_cons h, h4 hc]; rfl
    · rcases List.mem_cons.1 hm with hm | hm
      · exact ht hm.symm
      · exact h5 hm
  | terminated outs =>
    obtain ⟨h1, h2, h3, x, rest, h4, u, h5, h6⟩ := hE
    refine ⟨h1, h2, h3, x, rest, ?_, u, ?_, h6⟩
    · simp only [List.length_cons, List.take_succ_cons, List.cons_append]
      rw [← h4]
    · simp only [List.length_cons, List.take_succ_cons]
      exact hr _ _ _ h5

theorem execX_sim (hk : LibKind S.P S.sp S.keq kind asks) (hp : Nat → Nat) {fl : Nat → Bool} (ops : List (Op K V)) :
    ∀ {s : St Rep F} {t : SSt K V}, Sim S fl s t → Ended S kind hp fl t ops (Core.execX S.P S.Fa S.trk kind asks hp S.sp ops s) := by
  induction ops with
  | nil => exact fun {s t} hS => ⟨rfl, ⟨t, .nil t, hS⟩, fun _ => rfl, fun h => nomatch h⟩
  | cons o ops ih =>
    intro s t hS
    have hn : s.objs.map Prod.fst = t.names := hS.rel.vars.names.symm
    unfold Core.execX
    rw [hn]
    cases hv : o.valid S.sp t.names with
    | false => exact .cons (.inr nofun) (fun _ _ _ h => .skip hv h) nofun (ih hS)
    | true =>
      rw [if_pos rfl]
      by_cases hg : ∃ x, o = .getKey x
      · obtain ⟨x, rfl⟩ := hg
        have hx : x ∈ t.vars.map Prod.fst := by simpa [Op.valid, SSt.names] using hv
        obtain ⟨⟨_, b⟩, hb, rfl⟩ := List.mem_map.1 hx
        simp only [Core.stepX, getKeyX_eq hk hS hb]
        have hT : Sim S fl { s with env := s.env.ticked } t := hS.setTick _
        cases hc : kind.toKey with
        | true => exact .cons (.inr nofun) (fun _ _ _ h => .step hv (.getKey _ _ _ hb) h) nofun (ih hS)
        | false =>
          cases hf : fl s.env.tick with
          | false => exact .cons (.inr nofun) (fun _ _ _ h => .step hv (.getKey _ _ _ hb) h) nofun (ih hT)
          | true =>
            cases htr : S.trk with
            | noTracking => exact ⟨htr, hc, ⟨_, hf⟩, _, ops, rfl, t, .nil t, hx⟩
            | refcounted =>
              have := ih hT
              rw [htr] at this
              show Ended S kind hp fl t (.getKey _ :: ops) (XEnd.cons .threw (Core.execX S.P S.Fa .refcounted kind asks hp S.sp ops { s with env := s.env.ticked }))
              generalize Core.execX S.P S.Fa .refcounted kind asks hp S.sp ops { s with env := s.env.ticked } = r at this ⊢
              cases r with
              | ub => exact this
              | terminated outs => obtain ⟨h1, _⟩ := this; rw [htr] at h1; cases h1
              | ran outs s' =>
                obtain ⟨h1, h2, h3, h4⟩ := this
                refine ⟨by simp [h1], h2, fun h => ?_, fun _ => ⟨_, hf⟩⟩
                rw [htr, hc] at h
                rcases h with h | h <;> cases h
      · have hstep : Core.stepX S.P S.Fa S.trk kind asks hp o s = .noexcept (declared o) (.of (Core.step S.P S.Fa S.trk hp o s)) := by
          cases o <;> first | rfl | exact absurd ⟨_, rfl⟩ hg
        rw [hstep]
        have hs := step_sim hS hp hv s rfl
        have hg' : ∀ x, o ≠ .getKey x := fun x h => hg ⟨x, h⟩
        cases hm : Core.step S.P S.Fa S.trk hp o s with
        | ub => rw [hm] at hs; exact hs.elim
        | ok out s1 =>
          rw [hm] at hs
          obtain ⟨hne, t1, h1, h2⟩ := hs
          exact .cons (.inl hg') (fun _ _ _ h => .step hv h1 h) (fun h => absurd h hne) (ih h2)
        | exc s1 =>
          rw [hm] at hs
          obtain ⟨h1, h2, h3⟩ := hs
          have hd : declared o = false := by
            cases h1 <;> rfl
          rw [hd]
          exact .cons (.inl hg') (fun _ _ _ h => .step hv h1 h) (fun _ => h3) (ih h2)

end Setup
namespace CFSeq
open CFSpec (Ev LSt)
variable {P : Policy K V Rep} {sp : SrcSpec K V} {L : P.Lawful sp} {X : L.Leaves} {keq : K → K → Bool} {kind : Kind} {asks : Rep → Bool}

/-- The same as `heard` with a garbage collector, whose actions have no output: what remains, and its outputs.  (No code of its own: used to state a
property or an example.) -/
def heard : List (Ev K V) → List (Out K V) → List (Ev K V) × List (Out K V)
  | .collect i :: evs, outs => (.collect i :: (heard evs outs).1, (heard evs outs).2)
  | .op (.getKey _) :: evs, .threw :: outs => heard evs outs
  | .op o :: evs, out :: outs => (.op o :: (heard evs outs).1, out :: (heard evs outs).2)
  | _, _ => ([], [])

theorem heard_cons {o : Op K V} {out : Out K V} (h : (∀ x, o ≠ .getKey x) ∨ out ≠ .threw) (evs : List (Ev K V)) (outs : List (Out K V)) :
    heard (.op o :: evs) (out :: outs) = (.op o :: (heard evs outs).1, out :: (heard evs outs).2) := by
  cases o with
  | getKey x =>
    cases out with
    | threw => rcases h with h | h
               · exact absurd rfl (h x)
               · exact absurd rfl h
    | _ => rfl
  | _ => rfl

theorem Rel.setTick {s : St Rep} {t : LSt K V} (h : Rel X keq zero s t) : Rel X keq zero { s with env := s.env.ticked } t :=
  ⟨h.inv.setEnv _, ⟨h.bal.keys, h.bal.vals⟩, h.vars, h.pool, h.left⟩

/-- What `get_key()` does. -/
theorem getKeyX_eq (hk : LibKind P sp keq kind asks) (trk : Tracking) {s : St Rep} {t : LSt K V} (hR : Rel X keq zero s t) {x : Nat}
    {b : Bind K V} (hb : (x, b) ∈ t.vars) :
    getKeyX P trk kind asks x s = if kind.toKey = true then .ok b.key s
      else if s.env.faults s.env.tick = true then (if trk = .noTracking then .terminate else .exc { s with env := s.env.ticked })
      else .ok b.key { s with env := s.env.ticked } := by
  obtain ⟨i, c, hl, hc, hat⟩ := hR.name (List.mem_map.2 ⟨_, hb, rfl⟩)
  have hnd : (t.vars.map Prod.fst).Nodup := by rw [hR.vars.names]; exact hR.inv.names
  have hbc : b = c := Option.some.inj ((Assoc.lookup_of_mem hnd hb).symm.trans (Assoc.lookup_of_mem hnd hc))
  subst hbc
  obtain ⟨n, hn, rfl, ha, hF⟩ := hat
  have h3 := toKeyX_ok hk (L.full_key hF) (L.full_val hF) s.env
  unfold getKeyX keyX
  simp only [handleOf_ok hl, bind, M.bind, node_ok hR.inv hn, env, h3]
  cases kind.toKey <;> cases s.env.faults s.env.tick <;> cases trk <;> rfl

/-- The end of a program, related to the specification.  (No code of its own: used in statements and proofs.) -/
def Ended (X : L.Leaves) (keq : K → K → Bool) (trk : Tracking) (kind : Kind) (hp : Nat → Nat) (t : LSt K V) (evs : List (Ev K V)) :
    XEnd (St Rep) K V → Prop
  | .ran outs s => (∃ t', CFSpec.Run keq sp hp t (heard evs outs).1 (heard evs outs).2 t' ∧ Rel X keq zero s t') ∧
      (trk = .noTracking ∨ kind.toKey = true → heard evs outs = (evs, outs))
  | .terminated outs => trk = .noTracking ∧ kind.toKey = false ∧ ∃ pre x rest, evs = pre ++ .op (.getKey x) :: rest ∧
      ∃ t', CFSpec.Run keq sp hp t pre outs t' ∧ x ∈ t'.vars.map Prod.fst
  | .ub => False

theorem Ended.cons {trk : Tracking} {hp : Nat → Nat} {t t' : LSt K V} {evs : List (Ev K V)} {o : Op K V} {out : Out K V} {r : XEnd (St Rep) K V}
    (h : (∀ x, o ≠ .getKey x) ∨ out ≠ .threw) (hr : ∀ evs' outs' u, CFSpec.Run keq sp hp t' evs' outs' u →
      CFSpec.Run keq sp hp t (.op o :: evs') (out :: outs') u) (hE : Ended X keq trk kind hp t' evs r) :
    Ended X keq trk kind hp t (.op o :: evs) (r.cons out) := by
  cases r with
  | ub => exact hE
  | ran outs s =>
    obtain ⟨⟨u, h2, h3⟩, h4⟩ := hE
    refine ⟨⟨u, ?_, h3⟩, fun hc => ?_⟩
    · rw [heard_cons h]
      exact hr _ _ _ h2
    · rw [heard_cons h, h4 hc]
  | terminated outs =>
    obtain ⟨h1, h2, pre, x, rest, h4, u, h5, h6⟩ := hE
    exact ⟨h1, h2, .op o :: pre, x, rest, by rw [h4]; rfl, u, hr _ _ _ h5, h6⟩

theorem execX_sim (LS : sp.Lawful keq) (hk : LibKind P sp keq kind asks) (trk : Tracking) (hp : Nat → Nat) (evs : List (Ev K V)) :
    ∀ {s : St Rep} {t : LSt K V}, Rel X keq zero s t → Ended X keq trk kind hp t evs (execX P keq trk kind asks hp sp evs s) := by
  induction evs with
  | nil => exact fun {s t} hR => ⟨⟨t, .nil t, hR⟩, fun _ => rfl⟩
  | cons ev evs ih =>
    intro s t hR
    cases ev with
    | collect i =>
      obtain ⟨s1, e1, h1⟩ := collect_ok hR.inv hR.bal i
      obtain ⟨t1, hC, h2⟩ := hR.swept (q := fun n => !(([i] : List Nat).contains n.id && n.cnt == 0)) (fun n _ h0 => by simp [h0]) h1.cont h1.inv
        h1.bal h1.objs
      have := ih h2
      simp only [execX, e1]
      generalize execX P keq trk kind asks hp sp evs s1 = r at this ⊢
      cases r with
      | ub => exact this
      | ran outs s' =>
        obtain ⟨⟨u, g2, g3⟩, g4⟩ := this
        refine ⟨⟨u, .collect hC g2, g3⟩, fun hc => ?_⟩
        have e : heard (Ev.collect i :: evs) outs = (Ev.collect i :: (heard evs outs).1, (heard evs outs).2) := by
          cases outs <;> rfl
        rw [e, g4 hc]
      | terminated outs =>
        obtain ⟨g1, g2, pre, x, rest, g4, u, g5, g6⟩ := this
        exact ⟨g1, g2, .collect i :: pre, x, rest, by rw [g4]; rfl, u, .collect hC g5, g6⟩
    | op o =>
      have hn : s.objs.map Prod.fst = t.vars.map Prod.fst := hR.vars.names.symm
      unfold execX
      rw [hn]
      cases hv : o.valid sp (t.vars.map Prod.fst) with
      | false => exact .cons (.inr nofun) (fun _ _ _ h => .skip hv h) (ih hR)
      | true =>
        rw [if_pos rfl]
        by_cases hg : ∃ x, o = .getKey x
        · obtain ⟨x, rfl⟩ := hg
          have hx : x ∈ t.vars.map Prod.fst := by simpa [Op.valid] using hv
          obtain ⟨⟨_, b⟩, hb, rfl⟩ := List.mem_map.1 hx
          simp only [stepX, getKeyX_eq hk trk hR hb]
          have hT := hR.setTick
          cases hc : kind.toKey with
          | true => exact .cons (.inr nofun) (fun _ _ _ h => .step hv (.getKey _ _ hb) h) (ih hR)
          | false =>
            cases hf : s.env.faults s.env.tick with
            | false => exact .cons (.inr nofun) (fun _ _ _ h => .step hv (.getKey _ _ hb) h) (ih hT)
            | true =>
              cases htr : trk with
              | noTracking => exact ⟨rfl, hc, [], _, evs, rfl, t, .nil t, hx⟩
              | refcounted =>
                have := ih hT
                rw [htr] at this
                show Ended X keq .refcounted kind hp t (.op (.getKey _) :: evs)
                  (XEnd.cons .threw (execX P keq .refcounted kind asks hp sp evs { s with env := s.env.ticked }))
                generalize execX P keq .refcounted kind asks hp sp evs { s with env := s.env.ticked } = r at this ⊢
                cases r with
                | ub => exact this
                | terminated outs => obtain ⟨h1, _⟩ := this; cases h1
                | ran outs s' =>
                  obtain ⟨h2, h3⟩ := this
                  refine ⟨h2, fun h => ?_⟩
                  rw [hc] at h
                  rcases h with h | h <;> cases h
        · have hstep : stepX P keq trk kind asks hp o s = .noexcept (declared o) (.of (step P keq trk hp o s)) := by
            cases o <;> first | rfl | exact absurd ⟨_, rfl⟩ hg
          rw [hstep]
          have hs := step_sim LS trk hp hR hv s rfl
          have hg' : ∀ x, o ≠ .getKey x := fun x h => hg ⟨x, h⟩
          cases hm : step P keq trk hp o s with
          | ub => rw [hm] at hs; exact hs.elim
          | ok out s1 =>
            rw [hm] at hs
            obtain ⟨⟨t1, h1, h2⟩, _⟩ := hs
            exact .cons (.inl hg') (fun _ _ _ h => .step hv h1 h) (ih h2)
          | exc s1 =>
            rw [hm] at hs
            obtain ⟨⟨⟨t1, h1, h2⟩, _⟩, _, x, src, ho, _⟩ := hs
            have hd : declared o = false := by rcases ho with rfl | rfl <;> rfl
            rw [hd]
            exact .cons (.inl hg') (fun _ _ _ h => .step hv h1 h) (ih h2)

end CFSeq
end
end Verif

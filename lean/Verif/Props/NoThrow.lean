import Verif.NoThrow
import Verif.Sample
import Verif.Props.CFSeq

/-!
# Functions declared `noexcept` (C75)

`get_key()` is documented to be `noexcept` unless the flyweight has a key extractor that may throw.  In the code whether it is depends on the tracking
policy only: never with `refcounted`, always with `no_tracking`.  In the latter case an exception thrown by the key extractor calls `std::terminate`.
-/

set_option autoImplicit false

namespace Verif.Props
variable {K V Rep F : Type}

/-- What the reference promises: `get_key()` is "`noexcept` if `flyweight` is not key-value or else `KeyFromValue` was not provided or else
`noexcept(std::declval<KeyFromValue>()(std::declval<const value_type&>()))`", /repo/doc/reference/flyweight.html:496-498. -/
def keyPromise : Kind → Bool
  | .plain => true
  | .product => true
  | .extractor safe => safe

/-- `flyweight<key_value<int,V,Extract>>`, where the extractor may throw, with `set_factory`.  (No code of its own: used to state a property or an
example.) -/
def nxRun (trk : Tracking) (safe : Bool) (faults : Nat → Bool) (ops : List (Op Nat (Nat × Nat))) : Option (List (Out Nat (Nat × Nat)) × Bool) :=
  let S := Sample.varSet trk
  match Core.execX S.P S.Fa S.trk (.extractor safe) VRep.cted id S.sp ops (Core.start S.Fa faults Sample.alloc) with
  | .ran outs _ => some (outs, true)
  | .terminated outs => some (outs, false)
  | .ub => none

/-- A flyweight is created and asked for its key twice.  (No code of its own: used to state a property or an example.) -/
def nxProg : List (Op Nat (Nat × Nat)) := [.make 0 (.key 3), .getKey 0, .get 0, .getKey 0]

/-- This type is one of the library. -/
theorem nxKind (safe : Bool) : LibKind (VRep.policy Sample.u) (SrcSpec.variant Sample.u) (incomparable Sample.less) (.extractor safe) VRep.cted :=
  .variant _ _ (fun k => by simp [Sample.u, incomparable, Sample.less]) safe

/-- **C75, violated.**  The documented exception specification of `get_key()` is that of the code in neither tracking policy: with `refcounted` it is never
`noexcept`, with `no_tracking` always, and then a program may be terminated by an exception of its key extractor, which need not be `noexcept`. -/
theorem C75_violated :
    (keyPromise .plain = true ∧ getKeySpec .refcounted = false) ∧ (keyPromise (.extractor false) = false ∧ getKeySpec .noTracking = true) ∧
    nxRun .noTracking false (Sample.failAt 7) nxProg = some ([.done, .key 3, .val 1 (3, 9)], false) :=
  ⟨⟨rfl, rfl⟩, ⟨rfl, rfl⟩, by decide +kernel⟩

/-- **C75, specification.**  `get_key()` is declared as documented exactly if there is no tracking and it is documented to be `noexcept`, or there is tracking
and it is documented not to be. -/
theorem C75_spec (trk : Tracking) (kind : Kind) : getKeySpec trk = keyPromise kind ↔ (trk = .noTracking ↔ keyPromise kind = true) := by
  cases trk <;> cases h : keyPromise kind <;> simp [getKeySpec, coreKeySpec, entryToRep]

example : getKeySpec .noTracking = keyPromise .plain ∧ getKeySpec .refcounted = keyPromise (.extractor false) ∧
    getKeySpec .refcounted ≠ keyPromise .product := by decide

section
open Setup
variable {P : Policy K V Rep} {Fa : Factory F (Ent Rep)} {sp : SrcSpec K V} {keq : K → K → Bool} {kind : Kind} {asks : Rep → Bool}

theorem toKey_promise (kind : Kind) : kind.toKey = keyPromise kind := by cases kind <;> rfl

/-- **C75, partial.**  With `refcounted`, or if `get_key()` is documented to be `noexcept`, a program is never terminated and runs without undefined behaviour.
If a key extractor throws, `get_key()` passes the exception on, and all is as if it had not been called.  (Missing: `no_tracking` with a key extractor that
may throw, where this is false.) -/
theorem C75_runs_partial (hk : LibKind P sp keq kind asks) (hF : LibFactory P Fa keq) (trk : Tracking)
    (hc : trk = .refcounted ∨ keyPromise kind = true) (hp : Nat → Nat) (fl : Nat → Bool) (alloc : Nat → List Nat → Nat) (hal : ∀ n l, alloc n l ∉ l)
    (ops : List (Op K V)) :
    ∃ outs s t, Core.execX P Fa trk kind asks hp sp ops (Core.start Fa fl alloc) = .ran outs s ∧ outs.length = ops.length ∧
      SRun trk keq sp hp SSt.start ((heard ops outs).map Prod.fst) ((heard ops outs).map Prod.snd) t ∧
      (∀ x a k v, Core.get P Fa x s = .ok (a, v) s ∧ Core.getKey P Fa x s = .ok k s ↔ (x, ⟨a, k, v⟩) ∈ t.vars) ∧
      (keyPromise kind = true → heard ops outs = ops.zip outs) ∧ (.threw ∈ outs → ∃ n, fl n = true) := by
  obtain ⟨kd, hP⟩ := hk.policy
  obtain ⟨S, ⟨rfl, rfl, rfl, rfl, rfl⟩, _⟩ := hP.setup hF trk
  have h := execX_sim hk hp ops (sim_start S fl hal)
  cases hm : Core.execX S.P S.Fa S.trk kind asks hp S.sp ops (Core.start S.Fa fl alloc) with
  | ub => rw [hm] at h; exact h.elim
  | terminated outs =>
    rw [hm] at h
    obtain ⟨h1, h2, _⟩ := h
    rw [← toKey_promise, h2, h1] at hc
    rcases hc with hc | hc <;> cases hc
  | ran outs s =>
    rw [hm] at h
    obtain ⟨h1, ⟨t, h2, h3⟩, h4, h5⟩ := h
    exact ⟨outs, s, t, rfl, h1, h2, fun x a k v => sees_iff h3, fun h => h4 (.inr (by rw [toKey_promise]; exact h)), h5⟩

/-- The first call of `get_key()` throws, the second does not. -/
example : nxRun .refcounted false (Sample.failAt 6) nxProg = some ([.done, .threw, .val 1 (3, 9), .key 3], true) ∧
    (heard nxProg [.done, .threw, .val 1 (3, 9), .key 3]).map Prod.fst = [.make 0 (.key 3), .get 0, .getKey 0] ∧
    nxRun .noTracking true (Sample.failAt 6) nxProg = some ([.done, .key 3, .val 1 (3, 9), .key 3], true) := by
  refine ⟨by decide +kernel, rfl, by decide +kernel⟩

/-- **C75, no tracking.**  With `no_tracking`, a program behaves as specified until it ends or a call of `get_key()` terminates it; the latter only if there is
a key extractor that is not `noexcept`. -/
theorem C75_no_tracking (hk : LibKind P sp keq kind asks) (hF : LibFactory P Fa keq) (hp : Nat → Nat) (fl : Nat → Bool)
    (alloc : Nat → List Nat → Nat) (hal : ∀ n l, alloc n l ∉ l) (ops : List (Op K V)) :
    (∃ outs s t, Core.execX P Fa .noTracking kind asks hp sp ops (Core.start Fa fl alloc) = .ran outs s ∧
      SRun .noTracking keq sp hp SSt.start ops outs t) ∨
    (∃ outs x rest t, Core.execX P Fa .noTracking kind asks hp sp ops (Core.start Fa fl alloc) = .terminated outs ∧
      keyPromise kind = false ∧ (∃ n, fl n = true) ∧ ops = ops.take outs.length ++ .getKey x :: rest ∧
      SRun .noTracking keq sp hp SSt.start (ops.take outs.length) outs t ∧ x ∈ t.names) := by
  obtain ⟨kd, hP⟩ := hk.policy
  obtain ⟨S, ⟨rfl, rfl, htr, rfl, rfl⟩, _⟩ := hP.setup hF .noTracking
  have h := execX_sim hk hp ops (sim_start S fl hal)
  rw [htr] at h
  cases hm : Core.execX S.P S.Fa .noTracking kind asks hp S.sp ops (Core.start S.Fa fl alloc) with
  | ub => rw [hm] at h; exact h.elim
  | terminated outs =>
    rw [hm] at h
    obtain ⟨h1, h2, h3, x, rest, h4, t, h5, h6⟩ := h
    rw [htr] at h5
    exact .inr ⟨outs, x, rest, t, rfl, by rw [← toKey_promise]; exact h2, h3, h4, h5, h6⟩
  | ran outs s =>
    rw [hm] at h
    obtain ⟨h1, ⟨t, h2, h3⟩, h4, h5⟩ := h
    rw [h4 (.inl htr), htr] at h2
    rw [List.map_fst_zip (by omega), List.map_snd_zip (by omega)] at h2
    exact .inl ⟨outs, s, t, rfl, h2⟩

/-- Terminated by the second call; and not, as only the creation throws. -/
example : nxRun .noTracking false (Sample.failAt 7) nxProg = some ([.done, .key 3, .val 1 (3, 9)], false) ∧
    nxRun .noTracking false (Sample.failAt 5) nxProg = some ([.threw, .skipped, .skipped, .skipped], true) := by
  refine ⟨by decide +kernel, by decide +kernel⟩

/-- **C75, get_key().**  What a call of `get_key()` does, in any state that a program reaches: it returns the key, unless the key extractor throws; then the
exception is passed on with `refcounted`, and the program terminated with `no_tracking`. -/
theorem C75_get_key (hk : LibKind P sp keq kind asks) (hF : LibFactory P Fa keq) (trk : Tracking) (hp : Nat → Nat) (fl : Nat → Bool)
    (alloc : Nat → List Nat → Nat) (hal : ∀ n l, alloc n l ∉ l) (ops : List (Op K V)) (outs : List (Out K V)) (s : St Rep F)
    (hr : Core.execX P Fa trk kind asks hp sp ops (Core.start Fa fl alloc) = .ran outs s) (x a : Nat) (k : K) (v : V)
    (hx : Core.get P Fa x s = .ok (a, v) s ∧ Core.getKey P Fa x s = .ok k s) :
    Core.getKeyX P Fa trk kind asks x s = if keyPromise kind = true then .ok k s
      else if fl s.env.tick = true then (if trk = .noTracking then .terminate else .exc { s with env := s.env.ticked })
      else .ok k { s with env := s.env.ticked } := by
  obtain ⟨kd, hP⟩ := hk.policy
  obtain ⟨S, ⟨rfl, rfl, rfl, rfl, rfl⟩, _⟩ := hP.setup hF trk
  have h := execX_sim hk hp ops (sim_start S fl hal)
  rw [hr] at h
  obtain ⟨_, ⟨t, _, hS⟩, _⟩ := h
  rw [← toKey_promise]
  exact getKeyX_eq hk hS (b := ⟨a, k, v⟩) ((sees_iff hS).1 hx)

/-- For a type of the library; the extractor throws in the next call. -/
example := C75_get_key (nxKind false) (.set Sample.lessOk) .noTracking id (Sample.failAt 6) Sample.alloc Sample.alloc_ok [.make 0 (.key 3)]

example : (match Core.execX (Sample.varSet .noTracking).P (Sample.varSet .noTracking).Fa .noTracking (.extractor false) VRep.cted id
      (Sample.varSet .noTracking).sp [.make 0 (.key 3)] (Core.start (Sample.varSet .noTracking).Fa (Sample.failAt 6) Sample.alloc) with
    | .ran outs s => some (outs, s.env.tick, match Core.getKey (Sample.varSet .noTracking).P (Sample.varSet .noTracking).Fa 0 s,
        Core.getKeyX (Sample.varSet .noTracking).P (Sample.varSet .noTracking).Fa .noTracking (.extractor false) VRep.cted 0 s with
      | .ok k _, .terminate => some k
      | _, _ => none)
    | _ => none) = some ([.done], 6, some 3) := by decide +kernel

/-- **C75, the others.**  All operations other than `init`, `get_key()`, construction from and assignment of something else than a flyweight (copying, moving,
assigning, swapping and destroying flyweights, `get()`, `==`, hashing) are declared `noexcept` and never throw, so they never terminate the program. -/
theorem C75_others (hk : LibKind P sp keq kind asks) (hF : LibFactory P Fa keq) (trk : Tracking) (hp : Nat → Nat) (fl : Nat → Bool)
    (alloc : Nat → List Nat → Nat) (hal : ∀ n l, alloc n l ∉ l) (ops : List (Op K V)) (outs : List (Out K V)) (s : St Rep F)
    (hr : Core.execX P Fa trk kind asks hp sp ops (Core.start Fa fl alloc) = .ran outs s) (o : Op K V) (hi : o ≠ .init)
    (hm : ∀ x src, o ≠ .make x src ∧ o ≠ .assignVal x src) (hg : ∀ x, o ≠ .getKey x) (hv : o.valid sp (s.objs.map Prod.fst) = true) :
    declared o = true ∧ ∃ out s', Core.step P Fa trk hp o s = .ok out s' ∧ Core.stepX P Fa trk kind asks hp o s = .ok out s' := by
  have hd : declared o = true := by
    cases o <;> first | rfl | exact absurd rfl hi | exact absurd rfl (hm _ _).1 | exact absurd rfl (hm _ _).2 | exact absurd rfl (hg _)
  refine ⟨hd, ?_⟩
  obtain ⟨kd, hP⟩ := hk.policy
  obtain ⟨S, ⟨rfl, rfl, rfl, rfl, rfl⟩, _⟩ := hP.setup hF trk
  have h := execX_sim hk hp ops (sim_start S fl hal)
  rw [hr] at h
  obtain ⟨_, ⟨t, _, hS⟩, _⟩ := h
  rw [hS.rel.vars.names.symm] at hv
  have hs := step_sim hS hp hv s rfl
  have e : Core.stepX S.P S.Fa S.trk kind asks hp o s = .noexcept (declared o) (.of (Core.step S.P S.Fa S.trk hp o s)) := by
    cases o <;> first | rfl | cases hd
  cases hm' : Core.step S.P S.Fa S.trk hp o s with
  | ub => rw [hm'] at hs; exact hs.elim
  | ok out s' => exact ⟨out, s', rfl, by rw [e, hm']; rfl⟩
  | exc s' =>
    exact absurd hm' (step_nothrow hS hp hv hm)

/-- Everything the user does from the sixth operation on throws: the flyweight can still be copied, assigned, compared and destroyed. -/
example : nxRun .refcounted true (fun n => 5 < n) [.make 0 (.key 3), .copy 1 0, .assign 0 1, .eq 0 1, .make 2 (.key 4), .swap 0 1, .destroy 0, .destroy 1] =
    some ([.done, .done, .done, .bool true, .threw, .done, .done, .done], true) := by decide +kernel

end

/-! ## concurrent_factory -/

section
open CFSpec (Ev LSt)
variable {P : Policy K V Rep} {sp : SrcSpec K V} {keq : K → K → Bool} {kind : Kind} {asks : Rep → Bool}

/-- The same type with `concurrent_factory`.  (No code of its own: used to state a property or an example.) -/
def nxcRun (trk : Tracking) (safe : Bool) (faults : Nat → Bool) (evs : List (Ev Nat (Nat × Nat))) : Option (List (Out Nat (Nat × Nat)) × Bool) :=
  match CFSeq.execX (VRep.policy Sample.u) Sample.keq trk (.extractor safe) VRep.cted id (SrcSpec.variant Sample.u) evs
    (CFSeq.start faults Sample.alloc) with
  | .ran outs _ => some (outs, true)
  | .terminated outs => some (outs, false)
  | .ub => none

/-- **C75, concurrent_factory.**  The same: with `refcounted`, or if `get_key()` is documented to be `noexcept`, no program is terminated, and calls of
`get_key()` that throw have no effect. -/
theorem C75_concurrent_partial (hk : LibKind P sp keq kind asks) (he : EquivOk keq) (trk : Tracking) (hc : trk = .refcounted ∨ keyPromise kind = true)
    (hp : Nat → Nat) (fl : Nat → Bool) (alloc : Nat → List Nat → Nat) (hal : ∀ n l, alloc n l ∉ l) (evs : List (Ev K V)) :
    ∃ outs s t, CFSeq.execX P keq trk kind asks hp sp evs (CFSeq.start fl alloc) = .ran outs s ∧
      CFSpec.Run keq sp hp .start (CFSeq.heard evs outs).1 (CFSeq.heard evs outs).2 t ∧ (∀ x b, CFSeq.Sees P s x b ↔ (x, b) ∈ t.vars) ∧
      (keyPromise kind = true → CFSeq.heard evs outs = (evs, outs)) := by
  obtain ⟨kd, hP⟩ := hk.policy
  obtain ⟨LS, L, ⟨X⟩, hf⟩ := hP.leaves he
  have h := CFSeq.execX_sim LS hk trk hp evs (CFSeq.start_rel X keq fl hal)
  cases hm : CFSeq.execX P keq trk kind asks hp sp evs (CFSeq.start fl alloc) with
  | ub => rw [hm] at h; exact h.elim
  | terminated outs =>
    rw [hm] at h
    obtain ⟨h1, h2, _⟩ := h
    rw [← toKey_promise, h2, h1] at hc
    rcases hc with hc | hc <;> cases hc
  | ran outs s =>
    rw [hm] at h
    obtain ⟨⟨t, h2, h3⟩, h4⟩ := h
    exact ⟨outs, s, t, rfl, h2, h3.sees, fun h => h4 (.inr (by rw [toKey_promise]; exact h))⟩

/-- The first call of `get_key()` throws; the collector acts in between. -/
example : nxcRun .refcounted false (Sample.failAt 7) [.op (.make 0 (.key 3)), .op (.getKey 0), .collect 0, .op (.getKey 0)] =
      some ([.done, .threw, .key 3], true) ∧
    CFSeq.heard (K := Nat) (V := Nat × Nat) [.op (.make 0 (.key 3)), .op (.getKey 0), .collect 0, .op (.getKey 0)] [.done, .threw, .key 3] =
      ([.op (.make 0 (.key 3)), .collect 0, .op (.getKey 0)], [.done, .key 3]) := by
  refine ⟨by decide +kernel, rfl⟩

/-- **C75, concurrent_factory, no tracking.**  A program behaves as specified until it ends or a call of `get_key()` terminates it, the latter only if there
is a key extractor that is not `noexcept`. -/
theorem C75_concurrent_no_tracking (hk : LibKind P sp keq kind asks) (he : EquivOk keq) (hp : Nat → Nat) (fl : Nat → Bool)
    (alloc : Nat → List Nat → Nat) (hal : ∀ n l, alloc n l ∉ l) (evs : List (Ev K V)) :
    (∃ outs s t, CFSeq.execX P keq .noTracking kind asks hp sp evs (CFSeq.start fl alloc) = .ran outs s ∧ CFSpec.Run keq sp hp .start evs outs t) ∨
    (∃ outs pre x rest t, CFSeq.execX P keq .noTracking kind asks hp sp evs (CFSeq.start fl alloc) = .terminated outs ∧ keyPromise kind = false ∧
      evs = pre ++ .op (.getKey x) :: rest ∧ CFSpec.Run keq sp hp .start pre outs t ∧ x ∈ t.vars.map Prod.fst) := by
  obtain ⟨kd, hP⟩ := hk.policy
  obtain ⟨LS, L, ⟨X⟩, hf⟩ := hP.leaves he
  have h := CFSeq.execX_sim LS hk .noTracking hp evs (CFSeq.start_rel X keq fl hal)
  cases hm : CFSeq.execX P keq .noTracking kind asks hp sp evs (CFSeq.start fl alloc) with
  | ub => rw [hm] at h; exact h.elim
  | terminated outs =>
    rw [hm] at h
    obtain ⟨h1, h2, pre, x, rest, h4, t, h5, h6⟩ := h
    exact .inr ⟨outs, pre, x, rest, t, rfl, by rw [← toKey_promise]; exact h2, h4, h5, h6⟩
  | ran outs s =>
    rw [hm] at h
    obtain ⟨⟨t, h2, h3⟩, h4⟩ := h
    rw [h4 (.inl rfl)] at h2
    exact .inl ⟨outs, s, t, rfl, h2⟩

/-- Terminated; and not, as the extractor is `noexcept`. -/
example : nxcRun .noTracking false (Sample.failAt 8) [.op (.make 0 (.key 3)), .op (.getKey 0), .collect 0, .op (.getKey 0)] =
      some ([.done, .key 3], false) ∧
    nxcRun .noTracking true (Sample.failAt 8) [.op (.make 0 (.key 3)), .op (.getKey 0), .collect 0, .op (.getKey 0)] =
      some ([.done, .key 3, .key 3], true) := by
  refine ⟨by decide +kernel, by decide +kernel⟩

end

end Verif.Props

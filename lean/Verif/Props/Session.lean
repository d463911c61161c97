import Verif.SessionLib
import Verif.Props.Transparent
import Verif.Props.CFSeq

/-!
# What a program may rely on, whatever the factory: C70
-/

set_option autoImplicit false

namespace Verif.Props
open Client (Store Made keysOf)
open Session (Vars Keys)
variable {ι : Type} [DecidableEq ι] {K V : ι → Type} {α : Type}

/-- The flyweights of all types are given by `w`.  (No code of its own: used to state a property or an example.) -/
def Shows (T : (i : ι) → FlyType (K i) (V i)) (s : (i : ι) → (T i).engine.σ) (w : Vars K V) : Prop :=
  ∀ i x b, (T i).Sees (s i) x b ↔ w i x = some b

omit [DecidableEq ι] in
theorem Shows.unique {T : (i : ι) → FlyType (K i) (V i)} {s : (i : ι) → (T i).engine.σ} {w w' : Vars K V} (h : Shows T s w) (h' : Shows T s w') :
    w = w' := by
  funext i x
  cases hx : w i x with
  | some b => exact ((h' i x b).1 ((h i x b).2 hx)).symm
  | none =>
    cases hx' : w' i x with
    | none => rfl
    | some b =>
      rw [(h i x b).1 ((h' i x b).2 hx')] at hx
      cases hx

theorem session_runs (T : (i : ι) → FlyType (K i) (V i)) (s : (i : ι) → (T i).engine.σ) (hr : ∀ i, (T i).Reach (s i)) (w : Vars K V)
    (hw : Shows T s w) (p : Session ι K V α) :
    (∀ i x b, w i x = some b → Made (T i).cfg.sp b) ∧
    ∃ a s' w', p.run (fun i => (T i).engine) s = some (a, s') ∧ p.Runs (fun i => (T i).cfg) w a w' ∧ Shows T s' w' := by
  have hS := fun i => (T i).sound
  have hR : ∀ i, (hS i).choose (s i) (w i) := by
    intro i
    obtain ⟨w', h'⟩ := (hS i).choose_spec.2.1 (s i) (hr i)
    have h2 := ((hS i).choose_spec.2.2 _ _ h').1
    have : w i = w' := by
      funext x
      cases hx : w i x with
      | some b => exact ((h2 x b).1 ((hw i x b).2 hx)).symm
      | none =>
        cases hx' : w' x with
        | none => rfl
        | some b =>
          rw [(hw i x b).1 ((h2 x b).2 hx')] at hx
          cases hx
    rw [this]
    exact h'
  refine ⟨fun i => ((hS i).choose_spec.2.2 _ _ (hR i)).2, ?_⟩
  obtain ⟨a, s', w', h1, h2, h3⟩ := Session.run_sound (fun i => (hS i).choose_spec.1) p hR
  exact ⟨a, s', w', h1, h2, fun i => ((hS i).choose_spec.2.2 _ _ (h3 i)).1⟩

/-- **C70.**  A program with flyweights of several types, each with any of the factories, continuing from any state, does what `Session.Runs` says: creations yield flyweights
whose keys are equivalent to those asked for, with the addresses of exactly those flyweights whose keys are equivalent; nothing but a creation or the program's own code throws, and only
if an operation of the user may; there is no undefined behaviour. -/
theorem C70_runs (T : (i : ι) → FlyType (K i) (V i)) (s : (i : ι) → (T i).engine.σ) (hr : ∀ i, (T i).Reach (s i)) (w : Vars K V)
    (hw : Shows T s w) (p : Session ι K V α) :
    ∃ a s' w', p.run (fun i => (T i).engine) s = some (a, s') ∧ p.Runs (fun i => (T i).cfg) w a w' ∧ Shows T s' w' :=
  (session_runs T s hr w hw p).2

/-- **C70.**  Whatever can be proved of a program without looking at the factory holds with every factory. -/
theorem C70_rely (T : (i : ι) → FlyType (K i) (V i)) (s : (i : ι) → (T i).engine.σ) (hr : ∀ i, (T i).Reach (s i)) (w : Vars K V)
    (hw : Shows T s w) (p : Session ι K V α) (Q : α → Vars K V → Prop) (hQ : ∀ a w', p.Runs (fun i => (T i).cfg) w a w' → Q a w') :
    ∃ a s' w', p.run (fun i => (T i).engine) s = some (a, s') ∧ Shows T s' w' ∧ Q a w' := by
  obtain ⟨a, s', w', h1, h2, h3⟩ := C70_runs T s hr w hw p
  exact ⟨a, s', w', h1, h3, hQ _ _ h2⟩

/-- **C70.**  If keys are compared by equality and determine values, a program that does not look at addresses and hashes does with flyweights what it does with variables that hold the
keys and values themselves. -/
theorem C70_plain [∀ i, DecidableEq (K i)] (T : (i : ι) → FlyType (K i) (V i)) (mk : (i : ι) → K i → V i) (R : ∀ i, (T i).cfg.Regular (mk i))
    (s : (i : ι) → (T i).engine.σ) (hr : ∀ i, (T i).Reach (s i)) (w : Vars K V) (hw : Shows T s w) (p : Session ι K V α) (hp : p.Blind) :
    ∃ a s' w', p.run (fun i => (T i).engine) s = some (a, s') ∧ Shows T s' w' ∧
      p.Plain (fun i => (T i).cfg.sp) mk (fun i => (T i).cfg.thr) (fun i => keysOf (w i)) a fun i => keysOf (w' i) := by
  obtain ⟨hm, a, s', w', h1, h2, h3⟩ := session_runs T s hr w hw p
  exact ⟨a, s', w', h1, h3, h2.plain R hp hm⟩

theorem calm_run [∀ i, DecidableEq (K i)] (T : (i : ι) → FlyType (K i) (V i)) (mk : (i : ι) → K i → V i) (R : ∀ i, (T i).cfg.Regular (mk i))
    (calm : ∀ i, ¬ (T i).cfg.thr) (alloc : ι → Nat → List Nat → Nat) (hal : ∀ i n l, alloc i n l ∉ l) (p : Session ι K V α) (hp : p.Blind) :
    ∃ s', p.run (fun i => (T i).engine) (fun i => (T i).start (alloc i)) = some ((p.plain (fun i => (T i).cfg.sp) mk fun _ _ => none).1, s') := by
  have hw : Shows T (fun i => (T i).start (alloc i)) fun _ _ => none :=
    fun i x b => ⟨fun h => ((T i).start_sees (alloc i) x b h).elim, fun h => (nomatch h)⟩
  obtain ⟨a, s', w', h1, _, h3⟩ := C70_plain T mk R (fun i => (T i).start (alloc i)) (fun i => (T i).start_reach (hal i)) _ hw p hp
  refine ⟨s', ?_⟩
  rw [h1]
  have : p.plain (fun i => (T i).cfg.sp) mk (fun _ _ => none) = _ := h3.calm calm
  rw [this]

/-- **C70.**  The factories do not matter: two choices of factories, `concurrent_factory` included, of tracking policies, of allocators and of what the garbage collector does give
the same result, if nothing throws. -/
theorem C70_same [∀ i, DecidableEq (K i)] (T T' : (i : ι) → FlyType (K i) (V i)) (mk : (i : ι) → K i → V i) (hsp : ∀ i, (T i).cfg.sp = (T' i).cfg.sp)
    (R : ∀ i, (T i).cfg.Regular (mk i)) (R' : ∀ i, (T' i).cfg.Regular (mk i)) (calm : ∀ i, ¬ (T i).cfg.thr) (calm' : ∀ i, ¬ (T' i).cfg.thr)
    (alloc alloc' : ι → Nat → List Nat → Nat) (hal : ∀ i n l, alloc i n l ∉ l) (hal' : ∀ i n l, alloc' i n l ∉ l) (p : Session ι K V α) (hp : p.Blind) :
    ∃ a s s', p.run (fun i => (T i).engine) (fun i => (T i).start (alloc i)) = some (a, s) ∧
      p.run (fun i => (T' i).engine) (fun i => (T' i).start (alloc' i)) = some (a, s') := by
  obtain ⟨s, h⟩ := calm_run T mk R calm alloc hal p hp
  obtain ⟨s', h'⟩ := calm_run T' mk R' calm' alloc' hal' p hp
  have : (fun i => (T i).cfg.sp) = fun i => (T' i).cfg.sp := funext hsp
  rw [this] at h
  exact ⟨_, s, s', h, h'⟩

/-! ## Examples -/

/-- Two types: `flyweight<key_value<int,V>>` and `flyweight<key_value<int,V>,concurrent_factory<>>`, whose garbage collector looks at the elements 0, 1 and 2 all the time.
(No code of its own: used to state a property or an example.) -/
def twoTypes (fl : Nat → Bool) : Bool → FlyType Nat (Nat × Nat)
  | false => .usual (Sample.prod .refcounted) id fl
  | true => .concurrent cf_lib Sample.hashOk.equiv .refcounted id (fun _ => [0, 1, 2]) fl

/-- (No code of its own: used to state a property or an example.) -/
def valueOf : Out Nat (Nat × Nat) → Nat × Nat
  | .val _ v => v
  | _ => (0, 0)

/-- (No code of its own: used to state a property or an example.) -/
def answer : Out Nat (Nat × Nat) → Bool
  | .bool b => b
  | _ => false

/-- Make a flyweight of the first type, and one of the second type with the square as key; throw away another one of the second type; copy; compare.  (The user's program, no code of
the library.) -/
def square (k : Nat) : Session Bool (fun _ => Nat) (fun _ => Nat × Nat) (Nat × Nat × Bool × Bool) :=
  .op false (.make 0 (.key k)) fun _ => .op true (.make 1 (.key (k + 1))) fun _ => .op true (.destroy 1) fun _ =>
  .op false (.get 0) fun o => .op true (.make 0 (.key (valueOf o).2)) fun _ => .user true fun f => .op true (.copy 1 0) fun _ =>
  .op true (.get 1) fun o' => .op true (.eq 0 1) fun o'' => .ret ((valueOf o').1, (valueOf o').2, answer o'', f)

/-- It gets the square of the square from both types, and is told when its own code throws; if a creation throws what depends on it is skipped. -/
example : ((square 3).run (fun i => (twoTypes Sample.calm i).engine) (fun i => (twoTypes Sample.calm i).start Sample.alloc)).map Prod.fst = some (9, 81, true, false) ∧
    ((square 3).run (fun i => (twoTypes (Sample.failAt 14) i).engine) (fun i => (twoTypes (Sample.failAt 14) i).start Sample.alloc)).map Prod.fst = some (9, 81, true, true) ∧
    ((square 3).run (fun i => (twoTypes (Sample.failAt 7) i).engine) (fun i => (twoTypes (Sample.failAt 7) i).start Sample.alloc)).map Prod.fst = some (0, 0, false, false) :=
  ⟨by decide +kernel, by decide +kernel, by decide +kernel⟩

/-- Whatever the factories of the two types do, a flyweight and its copy are equal, and have the same address. -/
example (T : Bool → FlyType Nat (Nat × Nat)) (s : (i : Bool) → (T i).engine.σ) (hr : ∀ i, (T i).Reach (s i)) (w : Vars (fun _ : Bool => Nat) fun _ => Nat × Nat) (hw : Shows T s w)
    (b : Bind Nat (Nat × Nat)) (h0 : w true 0 = some b) (h1 : w true 1 = none) :
    ∃ s', (Session.op true (.copy 1 0) fun _ => .op true (.get 0) fun o => .op true (.get 1) fun o' => .ret (o, o') :
        Session Bool (fun _ => Nat) (fun _ => Nat × Nat) _).run (fun i => (T i).engine) s = some ((.val b.addr b.val, .val b.addr b.val), s') := by
  obtain ⟨a, s', w', g1, _, g3⟩ := C70_rely T s hr w hw (Session.op true (.copy 1 0) fun _ => .op true (.get 0) fun o => .op true (.get 1) fun o' => .ret (o, o'))
    (fun a _ => a = (.val b.addr b.val, .val b.addr b.val)) (by
      rintro a w' (_ | ⟨_, _, _, _, c, f, _, _, _, h⟩)
      simp only [act, h0, h1] at h
      rcases h with _ | ⟨_, _, _, _, c, f, _, _, _, h⟩
      simp only [act, put_same, upd, h0] at h
      rcases h with _ | ⟨_, _, _, _, c, f, _, _, _, h⟩
      simp [act, put_same, upd] at h
      cases h
      rfl)
  exact ⟨s', g3 ▸ g1⟩

/-- `flyweight<int>` twice: with `hashed_factory`, or with `concurrent_factory` and a garbage collector at work.  (No code of its own: used to state a property or an example.) -/
def intTypes (c : Bool → Bool) (i : Bool) : FlyType Nat Nat :=
  if c i then .concurrent (.plain Sample.u₀ fun k l => k == l) numHash.equiv .refcounted (fun a => a) (fun n => [n, n - 1]) Sample.calm
  else .usual (numbers .noTracking) (fun a => 3 * a) Sample.calm

/-- (No code of its own: used to state a property or an example.) -/
def number : Out Nat Nat → Nat
  | .val _ v => v
  | _ => 0

/-- Fibonacci numbers, with a variable of each type.  (The user's program, no code of the library.) -/
def fibs : Nat → Session Bool (fun _ => Nat) (fun _ => Nat) Nat
  | 0 => .op true (.get 0) fun o => .ret (number o)
  | n + 1 => .op true (.get 0) fun o => .op false (.get 0) fun o' => .op false (.assignVal 0 (.copy (number o))) fun _ =>
      .op true (.assignVal 0 (.copy (number o + number o'))) fun _ => fibs n

/-- (The user's program, no code of the library.) -/
def fib (n : Nat) : Session Bool (fun _ => Nat) (fun _ => Nat) Nat :=
  .op false (.make 0 (.key 0)) fun _ => .op true (.make 0 (.key 1)) fun _ => fibs n

theorem number_erase {o o' : Out Nat Nat} (h : Client.erase o = Client.erase o') : number o = number o' := by
  cases o <;> cases o' <;> simp_all [Client.erase, number]

theorem fibs_blind (n : Nat) : (fibs n).Blind := by
  induction n with
  | zero => exact ⟨fun o o' h => by have := number_erase h; simp only [this], fun o => trivial⟩
  | succ n ih =>
    exact ⟨fun o o' h => by have := number_erase h; simp only [this], fun o => ⟨fun o o' h => by have := number_erase h; simp only [this], fun o => ⟨fun _ _ _ => rfl, fun _ => ⟨fun _ _ _ => rfl, fun _ => ih⟩⟩⟩⟩

theorem intTypes_regular (c : Bool → Bool) (i : Bool) : (intTypes c i).cfg.Regular id ∧ (intTypes c i).cfg.sp = SrcSpec.default Nat ∧ ¬ (intTypes c i).cfg.thr := by
  unfold intTypes
  split
  · exact ⟨⟨fun k l => by simp [FlyType.cfg], fun src _ => by cases src <;> exact ⟨rfl, rfl⟩⟩, rfl, fun ⟨_, h⟩ => (nomatch h)⟩
  · exact ⟨⟨fun k l => by simp [FlyType.cfg, numbers, Setup.hashed], fun src _ => by cases src <;> exact ⟨rfl, rfl⟩⟩, rfl, fun ⟨_, h⟩ => (nomatch h)⟩

/-- All four choices of factories give the same numbers, those of plain variables: the tenth is 89. -/
example (c c' : Bool → Bool) (n : Nat) :
    (∃ a s s', (fib n).run (fun i => (intTypes c i).engine) (fun i => (intTypes c i).start Sample.alloc) = some (a, s) ∧
      (fib n).run (fun i => (intTypes c' i).engine) (fun i => (intTypes c' i).start Sample.alloc) = some (a, s')) ∧
    ((fib 10).run (fun i => (intTypes not i).engine) (fun i => (intTypes not i).start Sample.alloc)).map Prod.fst = some 89 :=
  ⟨C70_same _ _ (fun _ => id) (fun i => (intTypes_regular c i).2.1.trans (intTypes_regular c' i).2.1.symm) (fun i => (intTypes_regular c i).1)
    (fun i => (intTypes_regular c' i).1) (fun i => (intTypes_regular c i).2.2) (fun i => (intTypes_regular c' i).2.2) _ _ (fun _ => Sample.alloc_ok)
    (fun _ => Sample.alloc_ok) (fib n) ⟨fun _ _ _ => rfl, fun _ => ⟨fun _ _ _ => rfl, fun _ => fibs_blind n⟩⟩, by decide +kernel⟩

end Verif.Props

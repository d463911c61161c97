import Verif.SessionSerialTest
import Verif.Props.SessionTests

/-!
# Saving and loading, with any factories: C72
-/

set_option autoImplicit false

namespace Verif.Props
open Client (Store Made)
open Session (Vars Runs Sat)
open SessionTests (Test End)
open SessionSerial (Tok Saver Loader Stands Written)
variable {ι : Type} [DecidableEq ι] {K V V' : ι → Type} {α β : Type}

omit [DecidableEq ι] in
theorem coherent_of {T : (i : ι) → FlyType (K i) (V i)} {s : (i : ι) → (T i).engine.σ} (hr : ∀ i, (T i).Reach (s i)) {w : Vars K V} (hw : Shows T s w) (i : ι) :
    Coherent (T i).cfg (w i) :=
  (T i).coherent (hr i) (hw i)

/-- **C72.**  A program that writes flyweights of several types to an archive, whenever it likes and each type with any factory, does nothing it could not do if it merely noted
the keys: the same outcomes and the same flyweights afterwards; and the archive stands for the keys noted, with no two equivalent keys of the same type. -/
theorem C72_saving (T : (i : ι) → FlyType (K i) (V i)) (s : (i : ι) → (T i).engine.σ) (hr : ∀ i, (T i).Reach (s i)) (w : Vars K V) (hw : Shows T s w)
    (p : Saver ι K V α) (h : Nat) (hp : p.Below h) (hf : ∀ i y, h ≤ y → w i y = none) :
    ∃ r s' w' r', Session.run (fun i => (T i).engine) (p.archive h fun _ => 0) s = some (r, s') ∧ Shows T s' w' ∧
      Runs (fun i => (T i).cfg) p.plain w r' w' ∧ Written (fun i => (T i).cfg) (fun _ => []) r r' := by
  obtain ⟨r, s', w', h1, h2, r', _, h3, h4⟩ := C70_rely T s hr w hw _ _ fun a w' hp' =>
    hp'.sat (Saver.sat (fun i => (T i).equiv) p hp hf (coherent_of hr hw))
  exact ⟨r, s', w', r', h1, h2, h3, h4⟩

/-- **C72.**  A program that reads flyweights from any archive, damaged ones included, does nothing it could not do if it made the flyweights of the keys in the archive:
the same outcomes, an exception where the archive is not one that was saved, and the same flyweights afterwards. -/
theorem C72_loading (T : (i : ι) → FlyType (K i) (V i)) (s : (i : ι) → (T i).engine.σ) (hr : ∀ i, (T i).Reach (s i)) (w : Vars K V) (hw : Shows T s w)
    (src : (i : ι) → K i → Src (K i) (V i)) (hsrc : ∀ i k, (T i).cfg.sp.supports (src i k) = true ∧ (T i).cfg.sp.key0 (src i k) = k)
    (p : Loader ι K V α) (t : Nat) (hp : p.Below t) (hf : ∀ i y, t ≤ y → w i y = none) (ts : List (Tok K)) :
    ∃ r s' w', Session.run (fun i => (T i).engine) (p.archive src (t + 1) t (fun _ => 0) ts) s = some (r, s') ∧ Shows T s' w' ∧
      Runs (fun i => (T i).cfg) (p.plain src (fun _ => []) ts) w r w' := by
  obtain ⟨r, s', w', h1, h2, _, h3⟩ := C70_rely T s hr w hw _ _ fun a w' hp' =>
    hp'.sat (Loader.sat (fun i => (T i).equiv) hsrc p hp hf (coherent_of hr hw) ts)
  exact ⟨r, s', w', h1, h2, h3⟩

/-- **C72.**  What one program has saved another one loads, with other factories, other tracking policies, other values and other notions of equivalence: it does what it could do if it
were given the keys the first program would have noted. -/
theorem C72_transfer (T : (i : ι) → FlyType (K i) (V i)) (s : (i : ι) → (T i).engine.σ) (hr : ∀ i, (T i).Reach (s i)) (w : Vars K V) (hw : Shows T s w)
    (p : Saver ι K V α) (h : Nat) (hp : p.Below h) (hf : ∀ i y, h ≤ y → w i y = none) (ts : List (Tok K)) (a : α) (s₁ : (i : ι) → (T i).engine.σ)
    (hrun : Session.run (fun i => (T i).engine) (p.archive h fun _ => 0) s = some (.ok (ts, a), s₁)) :
    ∃ ks w₁, Shows T s₁ w₁ ∧ Runs (fun i => (T i).cfg) p.plain w (.ok (ks, a)) w₁ ∧
    ∀ (T' : (i : ι) → FlyType (K i) (V' i)) (s' : (i : ι) → (T' i).engine.σ) (_ : ∀ i, (T' i).Reach (s' i)) (w' : Vars K V') (_ : Shows T' s' w')
      (src : (i : ι) → K i → Src (K i) (V' i)) (_ : ∀ i k, (T' i).cfg.sp.supports (src i k) = true ∧ (T' i).cfg.sp.key0 (src i k) = k)
      (q : Loader ι K V' β) (t : Nat) (_ : q.Below t) (_ : ∀ i y, t ≤ y → w' i y = none) (_ : q.Asks (ks.map Sigma.fst)),
      ∃ r s₂ w₂, Session.run (fun i => (T' i).engine) (q.archive src (t + 1) t (fun _ => 0) ts) s' = some (r, s₂) ∧ Shows T' s₂ w₂ ∧
        Runs (fun i => (T' i).cfg) (q.given src ks) w' r w₂ := by
  obtain ⟨r, s'', w₁, r', h1, h2, h3, h4⟩ := C72_saving T s hr w hw p h hp hf
  rw [hrun] at h1
  cases h1
  cases r' with
  | threw => exact h4.elim
  | stuck => exact h4.elim
  | ok r' =>
    obtain ⟨ks, a'⟩ := r'
    obtain ⟨rfl, h5, _⟩ := h4
    refine ⟨ks, w₁, h2, h3, fun T' s' hr' w' hw' src hsrc q t hq hf' hA => ?_⟩
    obtain ⟨r, s₂, w₂, g1, g2, g3⟩ := C72_loading T' s' hr' w' hw' src hsrc q t hq hf' ts
    rw [Stands.given src q h5 hA] at g3
    exact ⟨r, s₂, w₂, g1, g2, g3⟩

/-- How the test of serialization ends.  (No code of its own: used to state a property or an example.) -/
def Restores (T : (i : ι) → FlyType (K i) (V i)) (w : Vars K V) (n : Nat) (r : Option (End (List Bool) × ((i : ι) → (T i).engine.σ))) : Prop :=
  ∃ e s, r = some (e, s) ∧ Shows T s w ∧ match e with
    | .ok bs => bs = List.replicate n true
    | .threw => ∃ i, (T i).cfg.thr
    | .stuck => False

theorem restores_of_sat {T : (i : ι) → FlyType (K i) (V i)} {s : (i : ι) → (T i).engine.σ} (hr : ∀ i, (T i).Reach (s i)) {w : Vars K V} (hw : Shows T s w)
    {p : Test ι K V (List Bool)} {n : Nat} (h : Sat (fun i => (T i).cfg) p w (SessionTests.Post (fun i => (T i).cfg) w [] fun bs => bs = List.replicate n true)) :
    Restores T w n (Session.run (fun i => (T i).engine) p s) := by
  obtain ⟨e, s', w', h1, h2, h3⟩ := C70_rely T s hr w hw p _ fun a w' hp => hp.sat h
  obtain rfl : w' = w := h3.1.nil
  refine ⟨e, s', h1, h2, ?_⟩
  have := h3.2
  cases e <;> exact this

/-- **C72.**  The test of serialization succeeds for any flyweights of any program, of several types in one archive and with any factories: what is loaded compares equal to what was saved. -/
theorem C72_round_trip (T : (i : ι) → FlyType (K i) (V i)) (s : (i : ι) → (T i).engine.σ) (hr : ∀ i, (T i).Reach (s i)) (w : Vars K V) (hw : Shows T s w)
    (src : (i : ι) → K i → Src (K i) (V i)) (hsrc : ∀ i k, (T i).cfg.sp.supports (src i k) = true ∧ (T i).cfg.sp.key0 (src i k) = k)
    (dflt : (i : ι) → Src (K i) (V i)) (hd : ∀ i, (T i).cfg.sp.supports (dflt i) = true) (n : Nat) (hf : ∀ i y, n ≤ y → w i y = none)
    (xs : List (ι × Nat)) (hx : ∀ p ∈ xs, ∃ b, w p.1 p.2 = some b) :
    Restores T w xs.length (Session.run (fun i => (T i).engine) (SessionSerial.test src dflt n xs) s) :=
  restores_of_sat hr hw (SessionSerial.test_sat (C := fun i => (T i).cfg) (fun i => (T i).equiv) hsrc hd hf (coherent_of hr hw) hx)

/-- **C72.**  The whole test, which makes the flyweights from any sequence first. -/
theorem C72_test (T : (i : ι) → FlyType (K i) (V i)) (s : (i : ι) → (T i).engine.σ) (hr : ∀ i, (T i).Reach (s i)) (w : Vars K V) (hw : Shows T s w)
    (src : (i : ι) → K i → Src (K i) (V i)) (hsrc : ∀ i k, (T i).cfg.sp.supports (src i k) = true ∧ (T i).cfg.sp.key0 (src i k) = k)
    (dflt : (i : ι) → Src (K i) (V i)) (hd : ∀ i, (T i).cfg.sp.supports (dflt i) = true) (n : Nat) (hf : ∀ i y, n ≤ y → w i y = none)
    (its : List ((i : ι) × Src (K i) (V i))) (hs : ∀ p ∈ its, (T p.1).cfg.sp.supports p.2 = true) :
    Restores T w its.length (Session.run (fun i => (T i).engine) (SessionSerial.testAll src dflt n its) s) :=
  restores_of_sat hr hw (SessionSerial.testAll_sat (C := fun i => (T i).cfg) (fun i => (T i).equiv) hsrc hd hf (coherent_of hr hw) hs)

/-! ## Examples -/

/-- A flyweight of each of the types of `twoTypes`, and a program that saves them, changes one of them meanwhile, and destroys them.  (No code of its own: used to state a property or an
example.) -/
def writer : Saver Bool (fun _ => Nat) (fun _ => Nat × Nat) Unit :=
  .op false (.make 0 (.key 5)) fun _ => .op true (.make 0 (.key 6)) fun _ => .op true (.make 1 (.key 16)) fun _ =>
  .save false 0 <| .save true 0 <| .save true 1 <| .op false (.assignVal 0 (.key 7)) fun _ => .save false 0 <|
  .op false (.destroy 0) fun _ => .op true (.destroy 0) fun _ => .save true 1 <| .op true (.destroy 1) fun _ => .ret ()

/-- A program that loads five flyweights into variables made before; the result is the values and whether the second and the third are equal.  (No code of its own: used to state a property or
an example.) -/
def reader : Loader Bool (fun _ => Nat) (fun _ => Nat × Nat) (List Nat × Bool) :=
  .op false (.make 0 (.key 0)) fun _ => .op true (.make 1 (.key 0)) fun _ => .op true (.make 2 (.key 0)) fun _ => .op false (.make 3 (.key 0)) fun _ =>
  .op true (.make 4 (.key 6)) fun _ =>
  .load false 0 <| .load true 1 <| .load true 2 <| .load false 3 <| .load true 4 <|
  .op false (.get 0) fun a => .op true (.get 1) fun b => .op true (.get 2) fun c => .op false (.get 3) fun d => .op true (.get 4) fun e => .op true (.eq 1 2) fun r =>
  .ret ([a, b, c, d, e].map fun o => (valueOf o).1, answer r)

/-- (No code of its own: used to state a property or an example.) -/
def tokens (ts : List (Tok (ι := Bool) fun _ => Nat)) : List (Option Bool × Nat) := ts.map fun
  | .idx n => (none, n)
  | .key i k => (some i, k)

/-- What is written.  (No code of its own: used to state a property or an example.) -/
def written (fl : Nat → Bool) : Option (List (Tok (ι := Bool) fun _ => Nat)) :=
  match Session.run (fun i => (twoTypes fl i).engine) (writer.archive 2 fun _ => 0) fun i => (twoTypes fl i).start Sample.alloc with
  | some (.ok (ts, _), _) => some ts
  | _ => none

/-- What is read.  (No code of its own: used to state a property or an example.) -/
def readBack (fl : Nat → Bool) (ts : List (Tok (ι := Bool) fun _ => Nat)) : Option (Option (List Nat × Bool)) :=
  match Session.run (fun i => (twoTypes fl !i).engine) (reader.archive (fun _ k => .key k) 6 5 (fun _ => 0) ts) fun i => (twoTypes fl !i).start Sample.alloc with
  | some (.ok r, _) => some (some r)
  | some (.threw, _) => some none
  | _ => none

/-- The keys 6 and 16 are equivalent, so only the first is saved, and the archive has an index of its own for each type. -/
example : (written Sample.calm).map tokens =
    some [(none, 0), (some false, 5), (none, 0), (some true, 6), (none, 0), (none, 1), (some false, 7), (none, 0)] := by decide +kernel

/-- They are loaded with the factories exchanged; an archive that ends too early, or has a key of another type or an index too large, is refused. -/
example : (written Sample.calm).bind (readBack Sample.calm) = some (some ([5, 6, 6, 7, 6], true)) ∧
    ((written Sample.calm).map (·.take 5)).bind (readBack Sample.calm) = some none ∧
    readBack Sample.calm [.idx 0, .key true 5] = some none ∧ readBack Sample.calm [.idx 1, .key false 5] = some none :=
  ⟨by decide +kernel, by decide +kernel, by decide +kernel, by decide +kernel⟩

theorem twoTypes_keys (fl : Nat → Bool) (i : Bool) (k : Nat) : (twoTypes fl i).cfg.sp.supports (.key k) = true ∧ (twoTypes fl i).cfg.sp.key0 (.key k) = k := by
  cases i <;> exact ⟨rfl, rfl⟩

theorem twoTypes_shows (fl : Nat → Bool) : Shows (twoTypes fl) (fun i => (twoTypes fl i).start Sample.alloc) fun _ _ => none :=
  fun i x b => ⟨fun h => ((twoTypes fl i).start_sees Sample.alloc x b h).elim, fun h => (nomatch h)⟩

/-- The program that writes. -/
example (fl : Nat → Bool) : ∃ r s' w' r', Session.run (fun i => (twoTypes fl i).engine) (writer.archive 2 fun _ => 0) (fun i => (twoTypes fl i).start Sample.alloc) = some (r, s') ∧
    Shows (twoTypes fl) s' w' ∧ Runs (fun i => (twoTypes fl i).cfg) writer.plain (fun _ _ => none) r' w' ∧ Written (fun i => (twoTypes fl i).cfg) (fun _ => []) r r' :=
  C72_saving (twoTypes fl) _ (fun i => FlyType.start_reach Sample.alloc_ok _) _ (twoTypes_shows fl) writer 2
    (by simp [writer, Saver.Below, SessionSerial.OpBelow]) fun _ _ _ => rfl

/-- The program that reads, from any archive. -/
example (fl : Nat → Bool) (ts : List (Tok (ι := Bool) fun _ => Nat)) :
    ∃ r s' w', Session.run (fun i => (twoTypes fl i).engine) (reader.archive (fun _ k => .key k) 6 5 (fun _ => 0) ts) (fun i => (twoTypes fl i).start Sample.alloc) = some (r, s') ∧
      Shows (twoTypes fl) s' w' ∧ Runs (fun i => (twoTypes fl i).cfg) (reader.plain (fun _ k => .key k) (fun _ => []) ts) (fun _ _ => none) r w' :=
  C72_loading (twoTypes fl) _ (fun i => FlyType.start_reach Sample.alloc_ok _) _ (twoTypes_shows fl) _ (twoTypes_keys fl) reader 5
    (by simp [reader, Loader.Below, SessionSerial.OpBelow]) (fun _ _ _ => rfl) ts

/-- What `writer` has written, whatever it is and whatever throws, `reader` reads with the factories exchanged, if it asks for the types that were saved. -/
example (fl : Nat → Bool) (ts : List (Tok (ι := Bool) fun _ => Nat)) (hts : written fl = some ts) :
    ∃ ks w₁, Runs (fun i => (twoTypes fl i).cfg) writer.plain (fun _ _ => none) (.ok (ks, ())) w₁ ∧ (ks.map Sigma.fst = [false, true, true, false, true] →
      ∃ r s₂ w₂, Session.run (fun i => (twoTypes fl !i).engine) (reader.archive (fun _ k => .key k) 6 5 (fun _ => 0) ts) (fun i => (twoTypes fl !i).start Sample.alloc) = some (r, s₂) ∧
        Shows (fun i => twoTypes fl !i) s₂ w₂ ∧ Runs (fun i => (twoTypes fl !i).cfg) (reader.given (fun _ k => .key k) ks) (fun _ _ => none) r w₂) := by
  unfold written at hts
  split at hts
  · rename_i ts' a s₁ hrun
    cases hts
    obtain ⟨ks, w₁, _, h1, h2⟩ := C72_transfer (twoTypes fl) _ (fun i => FlyType.start_reach Sample.alloc_ok _) _ (twoTypes_shows fl) writer 2
      (by simp [writer, Saver.Below, SessionSerial.OpBelow]) (fun _ _ _ => rfl) _ _ _ hrun
    exact ⟨ks, w₁, h1, fun hk => h2 (fun i => twoTypes fl !i) _ (fun i => FlyType.start_reach Sample.alloc_ok _) (fun _ _ => none) (fun i => twoTypes_shows fl !i) _
      (fun i k => twoTypes_keys fl (!i) k) reader 5 (by simp [reader, Loader.Below, SessionSerial.OpBelow]) (fun _ _ _ => rfl) (by rw [hk]; simp [reader, Loader.Asks])⟩
  · cases hts

/-- The test, with elements of both types, whatever throws. -/
example (fl : Nat → Bool) : Restores (twoTypes fl) (fun _ _ => none) 4 (Session.run (fun i => (twoTypes fl i).engine)
    (SessionSerial.testAll (fun _ k => .key k) (fun _ => .key 0) 0 [⟨true, .key 6⟩, ⟨false, .key 5⟩, ⟨true, .key 16⟩, ⟨false, .key 6⟩]) fun i => (twoTypes fl i).start Sample.alloc) :=
  C72_test (twoTypes fl) _ (fun i => FlyType.start_reach Sample.alloc_ok _) _ (twoTypes_shows fl) _ (twoTypes_keys fl) _ (fun i => (twoTypes_keys fl i 0).1) 0 (fun _ _ _ => rfl) _
    (by simp only [List.mem_cons, List.not_mem_nil, or_false]; rintro p (rfl | rfl | rfl | rfl) <;> exact (twoTypes_keys fl _ _).1)

/-- (No code of its own: used to state a property or an example.) -/
def tryRoundTrip (fl : Nat → Bool) : Option (Nat × Nat) :=
  score (Session.run (fun i => (twoTypes fl i).engine)
    (SessionSerial.testAll (fun _ k => .key k) (fun _ => .key 0) 0 [⟨true, .key 6⟩, ⟨false, .key 5⟩, ⟨true, .key 16⟩, ⟨false, .key 6⟩])
    fun i => (twoTypes fl i).start Sample.alloc)

/-- It succeeds if nothing throws, and throws if an operation of the user does. -/
example : tryRoundTrip Sample.calm = some (4, 4) ∧ tryRoundTrip (Sample.failAt 20) = none := ⟨by decide +kernel, by decide +kernel⟩

end Verif.Props

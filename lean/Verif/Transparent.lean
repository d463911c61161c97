import Verif.Client

/-!
# Interactive programs, with flyweights and with plain values

A program performs operations on variables and decides by what it sees how to go
on.  It can be run with flyweight variables, or with variables that simply hold a
key and the value made of it.
-/

set_option autoImplicit false

namespace Verif
namespace Client

/-- What a program sees of the outcome of an operation if it does not look at addresses and hashes.  (No code of its own: used in
statements and proofs.) -/
inductive Obs (K V : Type) where
  | done
  | threw
  | val (v : V)
  | key (k : K)
  | bool (b : Bool)
  | skipped

/-- (No code of its own: used in statements and proofs.) -/
def erase {K V : Type} : Out K V → Obs K V
  | .done => .done
  | .threw => .threw
  | .val _ v => .val v
  | .key k => .key k
  | .bool b => .bool b
  | .num _ => .done
  | .skipped => .skipped

/-- A program that ends with a result of type `α`.  (The user's program, no code of the library.) -/
inductive Prog (K V α : Type) where
  | ret (a : α)
  | op (o : Op K V) (k : Obs K V → Prog K V α)

namespace Prog
variable {K V α β : Type}

/-- Sequencing.  (No code of its own.) -/
def bind : Prog K V α → (α → Prog K V β) → Prog K V β
  | .ret a, f => f a
  | .op o k, f => .op o fun r => (k r).bind f

instance : Monad (Prog K V) where
  pure := .ret
  bind := Prog.bind

/-- Run with flyweights: invalid operations are skipped, exceptions are reported to the program; `none` is undefined behaviour.
The operations are those of /repo/include/boost/flyweight/flyweight.hpp:181-278. -/
def fly {Rep F : Type} (S : Setup K V Rep F) (hp : Nat → Nat) : Prog K V α → St Rep F → Option (α × St Rep F)
  | .ret a, s => some (a, s)
  | .op o k, s =>
    if o.valid S.sp (s.objs.map Prod.fst) then
      match Core.step S.P S.Fa S.trk hp o s with
      | .ok out s' => (k (erase out)).fly S hp s'
      | .exc s' => (k .threw).fly S hp s'
      | .ub => Option.none
    else (k .skipped).fly S hp s

/-- One operation on plain variables: each holds a key, and the value made of it.  `fail`: making the value throws.  (No code
of its own: used in statements and proofs.) -/
def plainStep [DecidableEq K] (sp : SrcSpec K V) (mk : K → V) (fail : Bool) (w : Nat → Option K) :
    Op K V → Obs K V × (Nat → Option K)
  | .init => (.done, w)
  | .hash x => match w x with
    | some _ => (.done, w)
    | none => (.skipped, w)
  | .make x src => match w x, sp.supports src with
    | none, true => if fail then (.threw, w) else (.done, upd w x (some (sp.key0 src)))
    | _, _ => (.skipped, w)
  | .assignVal x src => match w x, sp.supports src with
    | some _, true => if fail then (.threw, w) else (.done, upd w x (some (sp.key0 src)))
    | _, _ => (.skipped, w)
  | .copy x y | .move x y => match w x, w y with
    | none, some k => (.done, upd w x (some k))
    | _, _ => (.skipped, w)
  | .assign x y => match w x, w y with
    | some _, some k => (.done, upd w x (some k))
    | _, _ => (.skipped, w)
  | .swap x y => match w x, w y with
    | some k, some l => (.done, upd (upd w x (some l)) y (some k))
    | _, _ => (.skipped, w)
  | .destroy x => match w x with
    | some _ => (.done, upd w x none)
    | none => (.skipped, w)
  | .get x => match w x with
    | some k => (.val (mk k), w)
    | none => (.skipped, w)
  | .getKey x => match w x with
    | some k => (.key k, w)
    | none => (.skipped, w)
  | .eq x y => match w x, w y with
    | some k, some l => (.bool (k == l), w)
    | _, _ => (.skipped, w)

/-- A run with plain variables; `thr` says whether making a value may throw.  (No code of its own: used in statements and
proofs.) -/
inductive Plain [DecidableEq K] (sp : SrcSpec K V) (mk : K → V) (thr : Prop) :
    Prog K V α → (Nat → Option K) → α → (Nat → Option K) → Prop
  | ret (a w) : Plain sp mk thr (.ret a) w a w
  | op (o k w fail a w') : (fail = true → thr) →
      Plain sp mk thr (k (plainStep sp mk fail w o).1) (plainStep sp mk fail w o).2 a w' →
      Plain sp mk thr (.op o k) w a w'

/-- The run with plain variables if nothing throws.  (No code of its own: used in statements and
proofs.) -/
def plain [DecidableEq K] (sp : SrcSpec K V) (mk : K → V) : Prog K V α → (Nat → Option K) → α × (Nat → Option K)
  | .ret a, w => (a, w)
  | .op o k, w => (k (plainStep sp mk false w o).1).plain sp mk (plainStep sp mk false w o).2

theorem Plain.calm [DecidableEq K] {sp : SrcSpec K V} {mk : K → V} {thr : Prop} (ht : ¬ thr) {p : Prog K V α}
    {w w' : Nat → Option K} {a : α} (h : Plain sp mk thr p w a w') : p.plain sp mk w = (a, w') := by
  induction h with
  | ret => rfl
  | op o k w fail a w' hf _ ih =>
    cases fail with
    | false => exact ih
    | true => exact absurd (hf rfl) ht

theorem Plain.of_plain [DecidableEq K] {sp : SrcSpec K V} {mk : K → V} {thr : Prop} (p : Prog K V α)
    (w : Nat → Option K) : Plain sp mk thr p w (p.plain sp mk w).1 (p.plain sp mk w).2 := by
  induction p generalizing w with
  | ret a => exact .ret a w
  | op o k ih => exact .op o k w false _ _ (fun h => by cases h) (ih _ _)

end Prog

section
variable {K V Rep F : Type} {S : Setup K V Rep F} {fl : Nat → Bool} {mk : K → V}

/-- The keys of the variables.  (No code of its own: used in statements and proofs.) -/
def keysOf (w : Store K V) : Nat → Option K := fun x => (w x).map Bind.key

theorem keysOf_upd (w : Store K V) (x : Nat) (o : Option (Bind K V)) :
    keysOf (upd w x o) = upd (keysOf w) x (o.map Bind.key) := by
  funext y
  by_cases h : y = x
  · simp [keysOf, upd, h]
  · simp [keysOf, upd, h]

theorem step_done {w : Store K V} {m : M (St Rep F) Unit} {Q : Out K V → St Rep F → Prop} {E : St Rep F → Prop}
    (h : Triple (View S fl w) m (fun _ => Q .done) E) : Triple (View S fl w) (m >>= fun _ => pure Out.done) Q E :=
  Triple.bind h fun _ => Triple.ret fun _ h => h

/-- One operation does the same on flyweights as on plain variables. -/
theorem step_plain [DecidableEq K] (R : Regular S mk) (hp : Nat → Nat) (o : Op K V) {w : Store K V} {names : List Nat}
    (hn : ∀ x, names.contains x = (w x).isSome) (hv : o.valid S.sp names = true) :
    Triple (View S fl w) (Core.step S.P S.Fa S.trk hp o)
      (fun out s' => ∃ w', View S fl w' s' ∧ Prog.plainStep S.sp mk false (keysOf w) o = (erase out, keysOf w'))
      (fun s' => View S fl w s' ∧ (∃ n, fl n = true) ∧
        Prog.plainStep S.sp mk true (keysOf w) o = (.threw, keysOf w)) := by
  have none_ : ∀ {x}, (!names.contains x) = true → w x = none := by
    intro x h
    rw [hn] at h
    simpa using h
  have some_ : ∀ {x}, names.contains x = true → ∃ b, w x = some b := by
    intro x h
    rw [hn] at h
    exact Option.isSome_iff_exists.1 h
  cases o with
  | init =>
    rintro s ⟨t, h1, h2, h3, h4⟩
    have := Setup.step_sim h1 hp (op := .init) rfl s rfl
    refine ⟨w, ?_, rfl⟩
    simp only [Core.step, Core.init, bind, M.bind, M.update, pure, M.ret] at this ⊢
    obtain ⟨_, t', h5, h6⟩ := this
    cases h5
    exact ⟨t, h6, h2, h3, h4⟩
  | make x src =>
    simp only [Op.valid, Bool.and_eq_true] at hv
    have hx := none_ hv.1
    have hk : keysOf w x = none := by simp [keysOf, hx]
    refine step_done ((R.make hx hv.2 rfl).conseq (fun _ h => h) ?_ ?_)
    · rintro _ s ⟨a, ha⟩
      exact ⟨_, ha, by simp [Prog.plainStep, hk, hv.2, keysOf_upd, erase]⟩
    · rintro s ⟨h1, h2⟩
      exact ⟨h1, h2, by simp [Prog.plainStep, hk, hv.2]⟩
  | assignVal x src =>
    simp only [Op.valid, Bool.and_eq_true] at hv
    obtain ⟨b, hx⟩ := some_ hv.1
    have hk : keysOf w x = some b.key := by simp [keysOf, hx]
    refine step_done ((R.assignVal hx hv.2 rfl).conseq (fun _ h => h) ?_ ?_)
    · rintro _ s ⟨a, ha⟩
      exact ⟨_, ha, by simp [Prog.plainStep, hk, hv.2, keysOf_upd, erase]⟩
    · rintro s ⟨h1, h2⟩
      exact ⟨h1, h2, by simp [Prog.plainStep, hk, hv.2]⟩
  | copy x y =>
    simp only [Op.valid, Bool.and_eq_true] at hv
    have hx := none_ hv.1
    obtain ⟨b, hy⟩ := some_ hv.2
    refine step_done fun s hs => ?_
    obtain ⟨s', h1, h2⟩ := hs.copy hx hy
    rw [h1]
    exact ⟨_, h2, by simp [Prog.plainStep, keysOf_upd, erase, show keysOf w x = none by simp [keysOf, hx],
      show keysOf w y = some b.key by simp [keysOf, hy]]⟩
  | move x y =>
    simp only [Op.valid, Bool.and_eq_true] at hv
    have hx := none_ hv.1
    obtain ⟨b, hy⟩ := some_ hv.2
    refine step_done fun s hs => ?_
    obtain ⟨s', h1, h2⟩ := hs.copy hx hy
    rw [h1]
    exact ⟨_, h2, by simp [Prog.plainStep, keysOf_upd, erase, show keysOf w x = none by simp [keysOf, hx],
      show keysOf w y = some b.key by simp [keysOf, hy]]⟩
  | assign x y =>
    simp only [Op.valid, Bool.and_eq_true] at hv
    obtain ⟨d, hx⟩ := some_ hv.1
    obtain ⟨b, hy⟩ := some_ hv.2
    refine step_done fun s hs => ?_
    obtain ⟨s', h1, h2⟩ := hs.assign hx hy
    rw [h1]
    exact ⟨_, h2, by simp [Prog.plainStep, keysOf_upd, erase, show keysOf w x = some d.key by simp [keysOf, hx],
      show keysOf w y = some b.key by simp [keysOf, hy]]⟩
  | swap x y =>
    simp only [Op.valid, Bool.and_eq_true] at hv
    obtain ⟨d, hx⟩ := some_ hv.1
    obtain ⟨b, hy⟩ := some_ hv.2
    refine step_done fun s hs => ?_
    obtain ⟨s', h1, h2⟩ := hs.swap hx hy
    rw [h1]
    exact ⟨_, h2, by simp [Prog.plainStep, keysOf_upd, erase, show keysOf w x = some d.key by simp [keysOf, hx],
      show keysOf w y = some b.key by simp [keysOf, hy]]⟩
  | destroy x =>
    obtain ⟨b, hx⟩ := some_ hv
    refine step_done fun s hs => ?_
    obtain ⟨s', h1, h2⟩ := hs.destroy hx
    rw [h1]
    exact ⟨_, h2, by simp [Prog.plainStep, keysOf_upd, erase, show keysOf w x = some b.key by simp [keysOf, hx]]⟩
  | get x =>
    obtain ⟨b, hx⟩ := some_ hv
    refine get_then hx (Triple.ret fun s hs => ⟨w, hs, ?_⟩)
    simp [Prog.plainStep, erase, show keysOf w x = some b.key by simp [keysOf, hx], R.val hs hx]
  | getKey x =>
    obtain ⟨b, hx⟩ := some_ hv
    refine getKey_then hx (Triple.ret fun s hs => ⟨w, hs, ?_⟩)
    simp [Prog.plainStep, erase, show keysOf w x = some b.key by simp [keysOf, hx]]
  | eq x y =>
    simp only [Op.valid, Bool.and_eq_true] at hv
    obtain ⟨b, hx⟩ := some_ hv.1
    obtain ⟨c, hy⟩ := some_ hv.2
    refine eq_then hx hy (Triple.ret fun s hs => ⟨w, hs, ?_⟩)
    have : (b.addr == c.addr) = (b.key == c.key) := by
      rw [Bool.eq_iff_iff, beq_iff_eq, beq_iff_eq]
      exact R.addr hs hx hy
    simp [Prog.plainStep, erase, show keysOf w x = some b.key by simp [keysOf, hx],
      show keysOf w y = some c.key by simp [keysOf, hy], this]
  | hash x =>
    obtain ⟨b, hx⟩ := some_ hv
    refine hash_then hx (Triple.ret fun s hs => ⟨w, hs, ?_⟩)
    simp [Prog.plainStep, erase, show keysOf w x = some b.key by simp [keysOf, hx]]

/-- Invalid operations are skipped in both. -/
theorem skip_plain [DecidableEq K] {sp : SrcSpec K V} (o : Op K V) {w : Nat → Option K} {names : List Nat}
    (hn : ∀ x, names.contains x = (w x).isSome) (hv : o.valid sp names = false) :
    Prog.plainStep sp mk false w o = (.skipped, w) := by
  cases o <;> simp only [Op.valid, hn] at hv <;> simp only [Prog.plainStep]
  all_goals first | rfl | (cases hv; done) | (split <;> simp_all)

/-- A program does the same with flyweights as with plain variables. -/
theorem fly_plain [DecidableEq K] {α : Type} (R : Regular S mk) (hp : Nat → Nat) (p : Prog K V α) {w : Store K V}
    {s : St Rep F} (hs : View S fl w s) :
    ∃ a s' w', p.fly S hp s = some (a, s') ∧ View S fl w' s' ∧
      Prog.Plain S.sp mk (∃ n, fl n = true) p (keysOf w) a (keysOf w') := by
  induction p generalizing w s with
  | ret a => exact ⟨a, s, w, rfl, hs, .ret a _⟩
  | op o k ih =>
    have hn : ∀ x, (s.objs.map Prod.fst).contains x = (w x).isSome := by
      obtain ⟨t, h1, _, _, h4⟩ := hs
      intro x
      rw [← h1.rel.vars.names]
      exact View.name h4 x
    unfold Prog.fly
    cases hv : o.valid S.sp (s.objs.map Prod.fst) with
    | true =>
      rw [if_pos rfl]
      have := step_plain (fl := fl) R hp o hn hv s hs
      cases hm : Core.step S.P S.Fa S.trk hp o s with
      | ok out s1 =>
        rw [hm] at this
        obtain ⟨w1, h1, h2⟩ := this
        obtain ⟨a, s', w', g1, g2, g3⟩ := ih (erase out) h1
        refine ⟨a, s', w', g1, g2, .op o k _ false a _ (fun h => by cases h) ?_⟩
        rw [h2]
        exact g3
      | exc s1 =>
        rw [hm] at this
        obtain ⟨h1, h2, h3⟩ := this
        obtain ⟨a, s', w', g1, g2, g3⟩ := ih .threw h1
        refine ⟨a, s', w', g1, g2, .op o k _ true a _ (fun _ => h2) ?_⟩
        rw [h3]
        exact g3
      | ub => rw [hm] at this; exact this.elim
    | false =>
      rw [if_neg (by simp)]
      obtain ⟨a, s', w', g1, g2, g3⟩ := ih .skipped hs
      refine ⟨a, s', w', g1, g2, .op o k _ false a _ (fun h => by cases h) ?_⟩
      rw [skip_plain o (w := keysOf w) (fun x => by rw [hn]; simp [keysOf]) hv]
      exact g3

end
end Client
end Verif

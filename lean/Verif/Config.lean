import Mathlib.Data.List.Nodup

/-!
# Template arguments of `flyweight`

Models the resolution of `flyweight<T,Arg1,...,Arg5>` in /repo/include/boost/flyweight/flyweight.hpp:73-173.  The
binding of arguments is Boost.Parameter's, which is not in /repo: what is assumed of it is said at `bind1`.
-/

set_option autoImplicit false

namespace Verif.Config

/-- The five keywords, /repo/include/boost/flyweight/flyweight.hpp:73-97. -/
inductive Kind
  | tag | tracking | factory | locking | holder
deriving DecidableEq, Repr

/-- The keywords in the order of declaration, /repo/include/boost/flyweight/flyweight.hpp:73-97. -/
def Kind.all : List Kind := [.tag, .tracking, .factory, .locking, .holder]

theorem Kind.mem_all (k : Kind) : k ∈ Kind.all := by cases k <;> simp [Kind.all]

/-- A template argument: `name` if it has the form `tag<T>`, `tracking<T>`, `factory<T>`, `locking<T>` or `holder<T>`
(e.g. /repo/include/boost/flyweight/tracking_tag.hpp:36-38); `is k` the value of `is_tag`, `is_tracking`,
`is_factory`, `is_locking` and `is_holder` for it (e.g. /repo/include/boost/flyweight/tracking_tag.hpp:30-34), which
users may specialize; `val` the policy or specifier itself, without the keyword. -/
structure Arg (T : Type) where
  name : Option Kind
  is : Kind → Bool
  val : T

variable {T : Type}

/-- Bindings made so far.  Models `boost::parameter::parameters<...>::bind`, used in
/repo/include/boost/flyweight/flyweight.hpp:73-115. -/
abbrev Pack (T : Type) := List (Kind × T)

/-- The keyword is bound.  (No code of its own.) -/
def bound (p : Pack T) (k : Kind) : Bool := p.any fun x => x.1 == k

/-- Boost.Parameter's binding of one more argument (signature of /repo/include/boost/flyweight/flyweight.hpp:73-97): to its
keyword if it has one, otherwise to the first keyword whose predicate it satisfies; an argument that satisfies none
is left over, which is no error (`flyweight_unmatched_signature::bind`,
/repo/include/boost/flyweight/flyweight.hpp:151-154, is given arguments that its only keyword does not accept); binding a keyword
twice is an error, `none`.  `again` says whether the deduction considers keywords already bound: this cannot be told
from /repo, so both possibilities are modelled. -/
def bind1 (again : Bool) (p : Pack T) (a : Arg T) : Option (Pack T) :=
  match a.name.or (Kind.all.find? fun k => a.is k && (again || !bound p k)) with
  | none => some p
  | some k => if bound p k then none else some ((k, a.val) :: p)

/-- `flyweight_signature::bind<Arg1,...,Arg5>`, /repo/include/boost/flyweight/flyweight.hpp:131-134.  Simplification: any
number of arguments. -/
def bind (again : Bool) : List (Arg T) → Pack T → Option (Pack T)
  | [], p => some p
  | a :: l, p => match bind1 again p a with
    | none => none
    | some p => bind again l p

/-- `unmatched_arg_detected`: some argument without keyword satisfies no predicate,
/repo/include/boost/flyweight/flyweight.hpp:99-115, 151-158. -/
def unmatched (l : List (Arg T)) : Bool := l.any fun a => a.name.isNone && Kind.all.all fun k => !a.is k

/-- The configuration: what each keyword is bound to, or its default
(/repo/include/boost/flyweight/flyweight.hpp:135-149: no tag, `refcounted`, `hashed_factory<>`, `simple_locking`,
`static_holder`); `none` is a compile error, e.g. the assertion of lines 160-166.  The core, and with it the factory, depends
on this and the value policy only (168-173). -/
def resolve (again : Bool) (dflt : Kind → T) (l : List (Arg T)) : Option (Kind → T) :=
  if unmatched l then none
  else (bind again l []).map fun p k => (p.lookup k).getD (dflt k)

/-! ## Lemmas -/

/-- The argument is of kind `k` and no other.  (No code of its own: used in statements and
proofs.) -/
structure Arg.Of (a : Arg T) (k : Kind) : Prop where
  name : a.name = none ∨ a.name = some k
  is : a.name = none → ∀ j, a.is j = decide (j = k)

theorem bound_iff (p : Pack T) (k : Kind) : bound p k = true ↔ k ∈ p.map Prod.fst := by
  simp [bound]

theorem bind1_of {a : Arg T} {k : Kind} (h : a.Of k) (again : Bool) (p : Pack T) (hp : bound p k = false) :
    bind1 again p a = some ((k, a.val) :: p) := by
  unfold bind1
  have : a.name.or (Kind.all.find? fun k => a.is k && (again || !bound p k)) = some k := by
    rcases h.name with hn | hn
    · rw [hn, Option.none_or]
      have hi : (fun j => a.is j && (again || !bound p j)) = fun j => decide (j = k) := by
        funext j
        rw [h.is hn j]
        by_cases hj : j = k
        · subst hj; simp [hp]
        · simp [hj]
      rw [hi]
      cases k <;> rfl
    · rw [hn]; rfl
  rw [this]
  simp [hp]

/-- The kinds of the arguments.  (No code of its own: used in statements and proofs.) -/
inductive Kinds : List (Arg T) → List Kind → Prop
  | nil : Kinds [] []
  | cons {a k l ks} : Arg.Of a k → Kinds l ks → Kinds (a :: l) (k :: ks)

theorem bind_of (again : Bool) {l : List (Arg T)} {ks : List Kind} (h : Kinds l ks) : ∀ p : Pack T,
    (∀ k ∈ ks, bound p k = false) → ks.Nodup →
    bind again l p = some ((ks.zip (l.map Arg.val)).reverse ++ p) := by
  induction h with
  | nil => intro p _ _; rfl
  | @cons a k l ks ha hl ih =>
    intro p hp hn
    rw [List.nodup_cons] at hn
    have h1 := bind1_of ha again p (hp k (by simp))
    unfold bind
    rw [h1]
    simp only
    rw [ih ((k, a.val) :: p) ?_ hn.2]
    · simp
    · intro j hj
      have hne : j ≠ k := fun h => hn.1 (h ▸ hj)
      have := hp j (by simp [hj])
      simp only [bound, List.any_cons, Bool.or_eq_false_iff]
      exact ⟨by simpa using fun h => hne h.symm, this⟩

theorem kinds_matched {l : List (Arg T)} {ks : List Kind} (h : Kinds l ks) : unmatched l = false := by
  induction h with
  | nil => rfl
  | @cons a k l ks ha hl ih =>
    simp only [unmatched, List.any_cons] at ih ⊢
    rw [ih, Bool.or_false]
    rcases ha.name with hn | hn
    · have := ha.is hn k
      simp only [hn, Option.isNone_none, Bool.true_and]
      cases hall : Kind.all.all fun k => !a.is k with
      | false => rfl
      | true =>
        rw [List.all_eq_true] at hall
        have := hall k (Kind.mem_all k)
        simp_all
    · simp [hn]

theorem zip_lookup {ks : List Kind} {vs : List T} (hn : ks.Nodup) (hl : ks.length = vs.length) (k : Kind) (v : T) :
    (k, v) ∈ ks.zip vs ↔ (ks.zip vs).reverse.lookup k = some v := by
  have hk : ((ks.zip vs).reverse.map Prod.fst).Nodup := by
    rw [List.map_reverse, List.nodup_reverse, List.map_fst_zip (Nat.le_of_eq hl)]
    exact hn
  rw [← List.mem_reverse]
  generalize (ks.zip vs).reverse = l at hk
  induction l with
  | nil => simp
  | cons x l ih =>
    obtain ⟨j, w⟩ := x
    simp only [List.map_cons, List.nodup_cons] at hk
    rw [List.mem_cons, List.lookup_cons]
    by_cases hj : k = j
    · subst hj
      simp only [beq_self_eq_true]
      constructor
      · rintro (h | h)
        · cases h; rfl
        · exact (hk.1 (List.mem_map.2 ⟨_, h, rfl⟩)).elim
      · intro h; cases h; exact .inl rfl
    · have : (k == j) = false := by simpa using hj
      rw [this]
      simp only
      constructor
      · rintro (h | h)
        · cases h; exact (hj rfl).elim
        · exact (ih hk.2).1 h
      · exact fun h => .inr ((ih hk.2).2 h)

theorem bind_none (again : Bool) : ∀ (l : List (Arg T)) (p : Pack T) (a : Arg T) (k : Kind), a ∈ l → a.name = some k →
    bound p k = true → bind again l p = none := by
  intro l
  induction l with
  | nil => intro p a k ha; cases ha
  | cons b l ih =>
    intro p a k ha hn hk
    unfold bind
    rcases List.mem_cons.1 ha with rfl | ha
    · simp [bind1, hn, hk]
    · cases hb : bind1 again p b with
      | none => rfl
      | some p' =>
        refine ih p' a k ha hn ?_
        unfold bind1 at hb
        cases hm : b.name.or (Kind.all.find? fun k => b.is k && (again || !bound p k)) with
        | none => rw [hm] at hb; cases hb; exact hk
        | some j =>
          rw [hm] at hb
          simp only at hb
          split at hb
          · cases hb
          · cases hb
            simp only [bound, List.any_cons]
            rw [Bool.or_eq_true]
            exact .inr hk

/-- Two arguments of the same kind. -/
theorem bind_twice (again : Bool) {l : List (Arg T)} {ks : List Kind} (h : Kinds l ks) : ∀ p : Pack T,
    (¬ ks.Nodup ∨ ∃ k ∈ ks, bound p k = true) → (again = true ∨ ∀ a ∈ l, a.name ≠ none) → bind again l p = none := by
  induction h with
  | nil => intro p hd _; rcases hd with h | ⟨k, h, _⟩; exact (h .nil).elim; cases h
  | @cons a k l ks ha hl ih =>
    intro p hd hag
    unfold bind
    by_cases hk : bound p k = true
    · -- bound already
      have : bind1 again p a = none := by
        unfold bind1
        rcases ha.name with hn | hn
        · have hag : again = true := hag.resolve_right fun h => h a (by simp) hn
          subst hag
          have : a.name.or (Kind.all.find? fun k => a.is k && (true || !bound p k)) = some k := by
            rw [hn, Option.none_or]
            have hi : (fun j => a.is j && (true || !bound p j)) = fun j => decide (j = k) := by
              funext j
              rw [ha.is hn j]; simp
            rw [hi]
            cases k <;> rfl
          rw [this]; simp [hk]
        · rw [hn]; simp [hk]
      rw [this]
    · have hk' : bound p k = false := by simpa using hk
      rw [bind1_of ha again p hk']
      refine ih _ ?_ (hag.imp id fun h b hb => h b (by simp [hb]))
      rcases hd with hd | ⟨j, hj, hb⟩
      · rw [List.nodup_cons] at hd
        by_cases hm : k ∈ ks
        · exact .inr ⟨k, hm, by simp [bound]⟩
        · exact .inl fun hn => hd ⟨hm, hn⟩
      · rcases List.mem_cons.1 hj with rfl | hj
        · exact (hk hb).elim
        · refine .inr ⟨j, hj, ?_⟩
          simp only [bound, List.any_cons] at hb ⊢
          rw [Bool.or_eq_true]
          exact .inr hb

end Verif.Config

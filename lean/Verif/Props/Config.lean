import Verif.Config

/-!
# Properties of the configuration of flyweight types: C32
-/

set_option autoImplicit false

namespace Verif.Props
open Config
variable {T : Type}

/-! ## C32 -/

/-- An argument without keyword of the given kind.  (No code of its own: used to state a
property or an example.) -/
def plain (k : Kind) (v : T) : Arg T := ⟨none, fun j => decide (j = k), v⟩

/-- An argument given by keyword, which need not satisfy any predicate.  (No code of its own:
used to state a property or an example.) -/
def named (k : Kind) (v : T) : Arg T := ⟨some k, fun _ => false, v⟩

theorem plain_of (k : Kind) (v : T) : (plain k v).Of k := ⟨.inl rfl, fun _ _ => rfl⟩

theorem named_of (k : Kind) (v : T) : (named k v).Of k := ⟨.inr rfl, fun h => by cases h⟩

/-- **C32.**  Arguments of pairwise different kinds are accepted; each aspect is what the argument of that kind says,
and the default if there is none. -/
theorem C32_resolves (again : Bool) (dflt : Kind → T) (l : List (Arg T)) (ks : List Kind) (h : Kinds l ks) (hn : ks.Nodup) :
    ∃ cfg, resolve again dflt l = some cfg ∧
      ∀ k, (∀ a ∈ l, a.Of k → cfg k = a.val) ∧ ((∀ a ∈ l, ¬ a.Of k) → cfg k = dflt k) := by
  have hlen : ks.length = (l.map Arg.val).length := by
    clear hn
    induction h with
    | nil => rfl
    | cons _ _ ih => simpa using ih
  refine ⟨fun k => (((ks.zip (l.map Arg.val)).reverse ++ []).lookup k).getD (dflt k), ?_, fun k => ⟨fun a ha hk => ?_, fun hk => ?_⟩⟩
  · unfold resolve
    rw [kinds_matched h, bind_of again h [] (fun _ _ => rfl) hn]
    rfl
  · have hm : (k, a.val) ∈ ks.zip (l.map Arg.val) := by
      clear hn hlen
      induction h with
      | nil => cases ha
      | @cons b j l ks hb hl ih =>
        rcases List.mem_cons.1 ha with rfl | ha
        · have : j = k := by
            rcases hb.name with h1 | h1
            · have h2 := hb.is h1 j
              have h3 := hk.is h1 j
              rw [h2] at h3
              simpa using h3
            · rcases hk.name with h2 | h2
              · rw [h1] at h2; cases h2
              · rw [h1] at h2; exact Option.some.inj h2
          subst this
          simp
        · simp only [List.map_cons, List.zip_cons_cons, List.mem_cons]
          exact .inr (ih ha)
    simp only [List.append_nil]
    rw [(zip_lookup hn hlen k a.val).1 hm]
    rfl
  · have : k ∉ ks := by
      clear hn hlen
      induction h with
      | nil => simp
      | @cons b j l ks hb hl ih =>
        intro hm
        rcases List.mem_cons.1 hm with rfl | hm
        · exact hk b (by simp) hb
        · exact ih (fun a ha => hk a (by simp [ha])) hm
    simp only [List.append_nil]
    cases hl : (ks.zip (l.map Arg.val)).reverse.lookup k with
    | none => rfl
    | some v =>
      exact (this (List.of_mem_zip ((zip_lookup hn hlen k v).2 hl)).1).elim

/-- `flyweight<T,no_locking,tag<X>>`. -/
example : ∃ cfg, resolve false (fun _ => "default") [plain .locking "no_locking", named .tag "X"] = some cfg ∧
    cfg .locking = "no_locking" ∧ cfg .tag = "X" ∧ cfg .factory = "default" := by
  obtain ⟨cfg, h1, h2⟩ := C32_resolves false (fun _ => "default") [plain .locking "no_locking", named .tag "X"] [.locking, .tag]
    (.cons (plain_of _ _) (.cons (named_of _ _) .nil)) (by decide)
  refine ⟨cfg, h1, (h2 _).1 _ (by simp) (plain_of .locking "no_locking"), (h2 _).1 _ (by simp) (named_of .tag "X"),
    (h2 _).2 fun a ha hk => ?_⟩
  simp only [List.mem_cons, List.not_mem_nil, or_false] at ha
  rcases ha with rfl | rfl
  · exact absurd (hk.is rfl .factory) (by simp [plain])
  · rcases hk.name with h | h <;> simp [named] at h

/-- **C32.**  The order of the arguments does not matter. -/
theorem C32_order (again : Bool) (dflt : Kind → T) (l l' : List (Arg T)) (hp : l.Perm l') (ks : List Kind) (h : Kinds l ks)
    (hn : ks.Nodup) : resolve again dflt l = resolve again dflt l' := by
  have : ∃ ks', Kinds l' ks' ∧ ks.Perm ks' := by
    clear hn
    induction hp generalizing ks with
    | nil => exact ⟨ks, h, .refl _⟩
    | cons a _ ih =>
      cases h with
      | cons ha hl =>
        obtain ⟨ks', h1, h2⟩ := ih _ hl
        exact ⟨_, .cons ha h1, h2.cons _⟩
    | swap a b l =>
      cases h with
      | cons ha hl =>
        cases hl with
        | cons hb hl => exact ⟨_, .cons hb (.cons ha hl), List.Perm.swap _ _ _⟩
    | trans _ _ ih1 ih2 =>
      obtain ⟨ks1, h1, h2⟩ := ih1 ks h
      obtain ⟨ks2, h3, h4⟩ := ih2 ks1 h1
      exact ⟨ks2, h3, h2.trans h4⟩
  obtain ⟨ks', h', hk⟩ := this
  obtain ⟨c, h1, h2⟩ := C32_resolves again dflt l ks h hn
  obtain ⟨c', h1', h2'⟩ := C32_resolves again dflt l' ks' h' (hk.nodup_iff.1 hn)
  rw [h1, h1']
  congr 1
  funext k
  by_cases hx : ∃ a ∈ l, a.Of k
  · obtain ⟨a, ha, hak⟩ := hx
    rw [(h2 k).1 a ha hak, (h2' k).1 a (hp.mem_iff.1 ha) hak]
  · have hx' : ∀ a ∈ l, ¬ a.Of k := fun a ha hk => hx ⟨a, ha, hk⟩
    rw [(h2 k).2 hx', (h2' k).2 fun a ha => hx' a (hp.mem_iff.2 ha)]

example : resolve false (fun _ => "default") [plain .locking "no_locking", named .tag "X", plain .factory "set_factory<>"] =
    resolve false (fun _ => "default") [named .tag "X", plain .locking "no_locking", plain .factory "set_factory<>"] :=
  C32_order _ _ _ _ (.swap _ _ _) [.locking, .tag, .factory]
    (.cons (plain_of _ _) (.cons (named_of _ _) (.cons (plain_of _ _) .nil))) (by decide)

/-- **C32.**  An argument of no recognised kind is rejected, whatever the others are. -/
theorem C32_unmatched (again : Bool) (dflt : Kind → T) (l : List (Arg T)) (a : Arg T) (ha : a ∈ l) (hn : a.name = none)
    (hk : ∀ k, a.is k = false) : resolve again dflt l = none := by
  have : unmatched l = true := by
    unfold unmatched
    rw [List.any_eq_true]
    exact ⟨a, ha, by simp [hn, hk]⟩
  simp [resolve, this]

/-- `flyweight<T,int,no_locking>`. -/
example : resolve true (fun _ => "default") [⟨none, fun _ => false, "int"⟩, plain .locking "no_locking"] = none :=
  C32_unmatched _ _ _ ⟨none, fun _ => false, "int"⟩ (by simp) rfl fun _ => rfl

/-- **C32**, partial.  Two arguments of the same kind are rejected if they are all given by keyword, or if Boost.Parameter's
deduction considers keywords already bound.  Missing: two deduced arguments of the same kind if it does not, for which
see `C32_duplicate_ignored`. -/
theorem C32_duplicate_partial (again : Bool) (dflt : Kind → T) (l : List (Arg T)) (ks : List Kind) (h : Kinds l ks)
    (hd : ¬ ks.Nodup) (hag : again = true ∨ ∀ a ∈ l, a.name ≠ none) : resolve again dflt l = none := by
  unfold resolve
  rw [bind_twice again h [] (.inl hd) hag]
  simp

/-- `flyweight<T,tag<A>,no_locking,tag<B>>` if the deduction considers keywords already bound. -/
example : resolve true (fun _ => "default") [plain .tag "A", plain .locking "no_locking", plain .tag "B"] = none :=
  C32_duplicate_partial _ _ _ [.tag, .locking, .tag]
    (.cons (plain_of _ _) (.cons (plain_of _ _) (.cons (plain_of _ _) .nil))) (by decide) (.inl rfl)

/-- **C32.**  Otherwise the checks in the library do not notice: of two arguments of a kind, the second is ignored, and the order
matters (`flyweight<T,refcounted,no_tracking>`). -/
theorem C32_duplicate_ignored (dflt : Kind → T) (k : Kind) (v w : T) :
    ∃ c, resolve false dflt [plain k v, plain k w] = some c ∧ c k = v ∧
      ∃ c', resolve false dflt [plain k w, plain k v] = some c' ∧ c' k = w := by
  cases k <;> exact ⟨_, rfl, rfl, _, rfl, rfl⟩

/-- `flyweight<T,no_locking,tag<X>,set_factory<>>` and a permutation of it; the tracking policy and the holder are the defaults. -/
example : Kinds [plain .locking "no_locking", named .tag "X", plain .factory "set_factory<>"] [.locking, .tag, .factory] ∧
    [Kind.locking, .tag, .factory].Nodup ∧
    ∃ c, resolve false (fun _ => "default") [plain .factory "set_factory<>", plain .locking "no_locking", named .tag "X"] = some c ∧
      c .locking = "no_locking" ∧ c .tag = "X" ∧ c .factory = "set_factory<>" ∧ c .tracking = "default" :=
  ⟨.cons (plain_of _ _) (.cons (named_of _ _) (.cons (plain_of _ _) .nil)), by decide, _, rfl, rfl, rfl, rfl, rfl⟩

/-- `flyweight<T,no_locking,int>`. -/
example : resolve false (fun _ => "default") [plain .locking "no_locking", ⟨none, fun _ => false, "int"⟩] = none := rfl

/-- `flyweight<T,tag<A>,tag<B>>`. -/
example : Kinds [named .tag "A", named .tag "B"] [.tag, .tag] ∧ ¬ [Kind.tag, .tag].Nodup ∧
    ∀ a ∈ [named .tag "A", named .tag "B"], a.name ≠ none :=
  ⟨.cons (named_of _ _) (.cons (named_of _ _) .nil), by decide, by simp [named]⟩

/-- **C32.**  An argument of two kinds (which the documentation does not foresee) makes the order matter. -/
theorem C32_ambiguous (dflt : Kind → T) (v w : T) :
    let both : Arg T := ⟨none, fun j => decide (j = .tracking ∨ j = .factory), v⟩
    (∃ c, resolve false dflt [both, plain .tracking w] = some c ∧ c .tracking = v) ∧
      ∃ c', resolve false dflt [plain .tracking w, both] = some c' ∧ c' .tracking = w ∧ c' .factory = v :=
  ⟨⟨_, rfl, rfl⟩, _, rfl, rfl, rfl⟩

end Verif.Props

import Verif.Lambda

/-!
# Lemmas on lambda expressions
-/

set_option autoImplicit false

namespace Verif.Lambda
variable {w : World} {g : Guard}

/-- A placeholder occurs in the type, where Boost.MPL sees it.  (No code of its own: used in statements and proofs.) -/
inductive Occurs (w : World) (g : Guard) : Ty → Prop
  | ph (n : Fin 5) : Occurs w g (.ph n)
  | app {t : Tmpl} {as : List Ty} {a : Ty} : visible w g t = true → a ∈ as → Occurs w g a → Occurs w g (.app t as)

mutual
theorem isLe_iff : ∀ t : Ty, isLe w g t = true ↔ Occurs w g t
  | .int => ⟨fun h => by simp [isLe] at h, fun h => nomatch h⟩
  | .cls _ => ⟨fun h => by simp [isLe] at h, fun h => nomatch h⟩
  | .na => ⟨fun h => by simp [isLe] at h, fun h => nomatch h⟩
  | .ph n => ⟨fun _ => .ph n, fun _ => by simp [isLe]⟩
  | .app t as => by
    rw [isLe, Bool.and_eq_true, anyLe_iff as]
    constructor
    · rintro ⟨hv, a, ha, ho⟩
      exact .app hv ha ho
    · intro h
      cases h with
      | app hv ha ho => exact ⟨hv, _, ha, ho⟩
theorem anyLe_iff : ∀ as : List Ty, anyLe w g as = true ↔ ∃ a ∈ as, Occurs w g a
  | [] => by simp [anyLe]
  | a :: as => by
    rw [anyLe, Bool.or_eq_true, isLe_iff a, anyLe_iff as]
    simp
end

theorem isLe_false {t : Ty} (h : ¬ Occurs w g t) : isLe w g t = false := by
  rw [← isLe_iff] at h
  simpa using h

theorem resolve_of_not {args : List Ty} {t : Ty} (h : ¬ Occurs w g t) : resolve w g args t = some t := by
  cases t with
  | ph n => exact absurd (.ph n) h
  | app t as => rw [resolve, if_neg]; rw [isLe_false h]; simp
  | int => rfl
  | cls c => rfl
  | na => rfl

mutual
/-- Replacement of `_1` and `_2`, as a reader would do it, where Boost.MPL sees them.  (No code of its own: used in statements
and proofs.) -/
def inst (w : World) (g : Guard) (e k : Ty) : Ty → Ty
  | .ph n => if n = 0 then e else k
  | .app t as => if visible w g t then .app t (insts w g e k as) else .app t as
  | x => x
/-- The same for a list of types.  (No code of its own: used in statements and proofs.) -/
def insts (w : World) (g : Guard) (e k : Ty) : List Ty → List Ty
  | [] => []
  | a :: as => inst w g e k a :: insts w g e k as
end

/-- A type whose placeholders are `_1` and `_2`, and whose templates have no nested type `type` (or one that is the
class itself).  (No code of its own: used in statements and proofs.) -/
inductive Plain (w : World) : Ty → Prop
  | int : Plain w .int
  | cls (c : Cls) : Plain w (.cls c)
  | na : Plain w .na
  | one : Plain w (.ph 0)
  | two : Plain w (.ph 1)
  | app {t : Tmpl} {as : List Ty} : (∀ bs, quote w t bs = .app t bs) → (∀ a ∈ as, Plain w a) → Plain w (.app t as)

mutual
theorem inst_of_not {e k : Ty} : ∀ t : Ty, ¬ Occurs w g t → inst w g e k t = t
  | .int, _ => rfl
  | .cls _, _ => rfl
  | .na, _ => rfl
  | .ph n, h => absurd (.ph n) h
  | .app t as, h => by
    rw [inst]
    split
    · rename_i hv
      rw [insts_of_not as fun a ha ho => h (.app hv ha ho)]
    · rfl
theorem insts_of_not {e k : Ty} : ∀ as : List Ty, (∀ a ∈ as, ¬ Occurs w g a) → insts w g e k as = as
  | [], _ => rfl
  | a :: as, h => by
    rw [insts, inst_of_not a (h a (by simp)), insts_of_not as fun b hb => h b (by simp [hb])]
end

theorem nth_two {e k : Ty} (he : e ≠ .na) (hk : k ≠ .na) : nth [e, k] 0 = some e ∧ nth [e, k] 1 = some k := by
  constructor
  · cases e <;> first | rfl | exact absurd rfl he
  · cases k <;> first | rfl | exact absurd rfl hk

mutual
theorem resolve_plain {e k : Ty} (he : e ≠ .na) (hk : k ≠ .na) :
    ∀ t : Ty, Plain w t → resolve w g [e, k] t = some (inst w g e k t)
  | .int, _ => rfl
  | .cls _, _ => rfl
  | .na, _ => rfl
  | .ph n, h => by
    cases h with
    | one => rw [resolve, (nth_two he hk).1]; rfl
    | two => rw [resolve, (nth_two he hk).2]; rfl
  | .app t as, h => by
    by_cases ho : Occurs w g (.app t as)
    · cases h with
      | app hq hp =>
        rw [resolve, if_pos ((isLe_iff _).2 ho), resolves_plain he hk as hp]
        have hv : visible w g t = true := by cases ho with | app hv _ _ => exact hv
        rw [inst, if_pos hv, Option.map_some, hq]
    · rw [resolve_of_not ho, inst_of_not _ ho]
theorem resolves_plain {e k : Ty} (he : e ≠ .na) (hk : k ≠ .na) :
    ∀ as : List Ty, (∀ a ∈ as, Plain w a) → resolves w g [e, k] as = some (insts w g e k as)
  | [], _ => rfl
  | a :: as, h => by
    rw [resolves, resolve_plain he hk a (h a (by simp)), resolves_plain he hk as fun b hb => h b (by simp [hb])]
    rfl
end

mutual
/-- What has been put in for the placeholders decides whether there are any left. -/
theorem not_occurs_inst {e k : Ty} (he : ¬ Occurs w g e) (hk : ¬ Occurs w g k) :
    ∀ t : Ty, ¬ Occurs w g (inst w g e k t)
  | .int => fun h => nomatch h
  | .cls _ => fun h => nomatch h
  | .na => fun h => nomatch h
  | .ph n => by
    rw [inst]
    split
    · exact he
    · exact hk
  | .app t as => by
    intro h
    rw [inst] at h
    split at h
    · cases h with
      | app hv ha ho => exact not_occurs_insts he hk as _ ha ho
    · rename_i hn
      cases h with
      | app hv ha ho => exact hn hv
theorem not_occurs_insts {e k : Ty} (he : ¬ Occurs w g e) (hk : ¬ Occurs w g k) :
    ∀ as : List Ty, ∀ a ∈ insts w g e k as, ¬ Occurs w g a
  | [], a, h => nomatch h
  | b :: bs, a, h => by
    rw [insts] at h
    rcases List.mem_cons.1 h with rfl | h
    · exact not_occurs_inst he hk b
    · exact not_occurs_insts he hk bs a h
end

mutual
theorem resolve_ints : ∀ t : Ty, ∃ t', resolve w g [.int, .int, .int, .int, .int] t = some t'
  | .int => ⟨_, rfl⟩
  | .cls _ => ⟨_, rfl⟩
  | .na => ⟨_, rfl⟩
  | .ph n => ⟨.int, by
      rw [resolve]
      match n with
      | 0 => rfl
      | 1 => rfl
      | 2 => rfl
      | 3 => rfl
      | 4 => rfl⟩
  | .app t as => by
    obtain ⟨bs, hb⟩ := resolves_ints as
    rw [resolve, hb]
    split
    · exact ⟨_, rfl⟩
    · exact ⟨_, rfl⟩
theorem resolves_ints : ∀ as : List Ty, ∃ bs, resolves w g [.int, .int, .int, .int, .int] as = some bs
  | [] => ⟨_, rfl⟩
  | a :: as => by
    obtain ⟨b, hb⟩ := resolve_ints a
    obtain ⟨bs, hbs⟩ := resolves_ints as
    rw [resolves, hb, hbs]
    exact ⟨_, rfl⟩
end

theorem visible_probe : visible w g .probe = true := by simp [visible, params]

theorem isPlaceholderExpr_eq (t : Ty) : isPlaceholderExpr w g t = some (isLe w g t) := by
  have h1 : isLe w g (.app .probe [t]) = isLe w g t := by simp [isLe, anyLe, visible_probe]
  rw [isPlaceholderExpr, apply, h1]
  cases h : isLe w g t with
  | true =>
    obtain ⟨t', ht⟩ := resolve_ints (w := w) (g := g) t
    rw [if_pos rfl, resolve, if_pos (by rw [h1, h]), resolves, ht]
    rfl
  | false =>
    rw [if_neg (by simp)]
    simp [nested]

end Verif.Lambda

import Verif.CFacHB
import Verif.PlainHB

/-!
# Identities of flyweight objects

The models that label steps with events (`Verif/ConcHB.lean`, `Verif/CFacHB.lean`, `Verif/PlainHB.lean`) give each flyweight
object of the program an identity.  Objects that exist at the same time have different ones.
-/

set_option autoImplicit false

namespace Verif.Idents
open Verif.Conc (pick)
variable {K : Type}

/-- Identities in use are different from each other and from those still to be used.  (No code of its own: used in statements and
proofs.) -/
def Fresh (ids : List Nat) (nid : Nat) : Prop := ids.Nodup ∧ ∀ o ∈ ids, o < nid

theorem fresh_nil : Fresh [] 0 := ⟨List.nodup_nil, by simp⟩

theorem pick_sublist {α : Type} (m : List Bool) (l : List α) : (pick m l).2.Sublist l := by
  induction l generalizing m with
  | nil => cases m <;> exact List.Sublist.refl _
  | cons a l ih =>
    cases m with
    | nil => exact List.Sublist.refl _
    | cons b m =>
      cases b with
      | true => exact (ih m).cons a
      | false => exact (ih m).cons_cons a

theorem Fresh.pick {ids : List Nat} {nid : Nat} (h : Fresh ids nid) (m : List Bool) : Fresh (pick m ids).2 nid :=
  ⟨h.1.sublist (pick_sublist m ids), fun o ho => h.2 o ((pick_sublist m ids).subset ho)⟩

theorem Fresh.new {ids : List Nat} {nid : Nat} (h : Fresh ids nid) : Fresh (nid :: ids) (nid + 1) := by
  refine ⟨List.nodup_cons.2 ⟨fun hm => Nat.lt_irrefl _ (h.2 _ hm), h.1⟩, ?_⟩
  intro o ho
  rcases List.mem_cons.1 ho with rfl | ho
  · exact Nat.lt_succ_self _
  · exact Nat.lt_succ_of_lt (h.2 o ho)

theorem conc_label {cfg : Conc.Cfg K} {mo : Conc.Orders} {h : Conc.HSt K} (t : Nat) (st : List (Conc.Frame K)) (a : Conc.Act K)
    (hf : Fresh h.ids h.nid) : Fresh (Conc.label cfg mo h t st a).2.1 (Conc.label cfg mo h t st a).2.2 := by
  cases a with
  | run =>
    cases st with
    | nil => exact hf
    | cons f st => cases f <;> first | exact hf | exact hf.new
  | create c k mask pre => exact hf.pick mask
  | destroy mask => exact hf.pick mask
  | copy i => exact hf.new
  | copyKid i j => exact hf.new
  | swap i j => exact hf
  | read i => exact hf
  | finish mask d =>
    cases st with
    | nil => exact hf
    | cons f st => cases f <;> first | exact hf | exact hf.pick mask
  | throw_ =>
    cases st with
    | nil => exact hf
    | cons f st => cases f <;> exact hf

theorem conc_fresh {cfg : Conc.Cfg K} {mo : Conc.Orders} : ∀ (acts : List (Nat × Conc.Act K)) {h : Conc.HSt K},
    Fresh h.ids h.nid → Fresh (Conc.hexec cfg mo acts h).ids (Conc.hexec cfg mo acts h).nid
  | [], _, hf => hf
  | (t, a) :: l, h, hf => by
    unfold Conc.hexec
    split
    · exact conc_fresh l hf
    · split
      · exact conc_fresh l (conc_label t _ a hf)
      · exact conc_fresh l hf
      · exact hf
      · exact hf

theorem cfac_label {cfg : Conc.Cfg K} {mo : CFac.Orders} {h : CFac.HSt K} (t : Nat) (st : List (CFac.Frame K)) (a : CFac.Act K)
    (hf : Fresh h.ids h.nid) : Fresh (CFac.label cfg mo h t st a).2.1 (CFac.label cfg mo h t st a).2.2 := by
  cases a with
  | run =>
    cases st with
    | nil => exact hf
    | cons f st => cases f <;> first | exact hf | exact hf.new
  | create c k mask pre => exact hf.pick mask
  | destroy mask => exact hf.pick mask
  | copy i => exact hf.new
  | copyKid i j => exact hf.new
  | swap i j => exact hf
  | read i => exact hf
  | finish mask d =>
    cases st with
    | nil => exact hf
    | cons f st => cases f <;> first | exact hf | exact hf.pick mask
  | throw_ =>
    cases st with
    | nil => exact hf
    | cons f st => cases f <;> exact hf
  | gcVisit e => exact hf

theorem cfac_fresh {cfg : Conc.Cfg K} {mo : CFac.Orders} : ∀ (acts : List (Nat × CFac.Act K)) {h : CFac.HSt K},
    Fresh h.ids h.nid → Fresh (CFac.hexec cfg mo acts h).ids (CFac.hexec cfg mo acts h).nid
  | [], _, hf => hf
  | (t, a) :: l, h, hf => by
    unfold CFac.hexec
    split
    · exact cfac_fresh l hf
    · split
      · exact cfac_fresh l (cfac_label t _ a hf)
      · exact cfac_fresh l hf
      · exact hf
      · exact hf

theorem plain_label {cfg : Conc.Cfg K} {h : Plain.HSt K} (t : Nat) (st : List (Plain.Frame K)) (a : Conc.Act K)
    (hf : Fresh h.ids h.nid) : Fresh (Plain.label cfg h t st a).2.1 (Plain.label cfg h t st a).2.2 := by
  cases a with
  | run =>
    cases st with
    | nil => exact hf
    | cons f st => cases f <;> first | exact hf | exact hf.new
  | create c k mask pre => exact hf.pick mask
  | destroy mask => exact hf.pick mask
  | copy i => exact hf.new
  | copyKid i j => exact hf.new
  | swap i j => exact hf
  | read i => exact hf
  | finish mask d =>
    cases st with
    | nil => exact hf
    | cons f st => cases f <;> first | exact hf | exact hf.pick mask
  | throw_ =>
    cases st with
    | nil => exact hf
    | cons f st => cases f <;> exact hf

theorem plain_fresh {cfg : Conc.Cfg K} : ∀ (acts : List (Nat × Conc.Act K)) {h : Plain.HSt K},
    Fresh h.ids h.nid → Fresh (Plain.hexec cfg acts h).ids (Plain.hexec cfg acts h).nid
  | [], _, hf => hf
  | (t, a) :: l, h, hf => by
    unfold Plain.hexec
    split
    · exact plain_fresh l hf
    · split
      · exact plain_fresh l (plain_label t _ a hf)
      · exact plain_fresh l hf
      · exact hf
      · exact hf

end Verif.Idents

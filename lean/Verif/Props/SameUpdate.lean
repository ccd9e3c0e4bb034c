import Verif.Props.Product
import Verif.Props.Repeat

/-
Part of C32: which updates of a case are applied, when another case was before it.
-/

namespace Verif.Props
open Verif.Py Verif.Model

variable {V : Type}

/-- Two dictionaries have the same keys and values, in any order. -/
def SameDict (a b : Dict String V) : Prop := ∀ k, a.get? k = b.get? k

/-- Two updates are for the same path with the same values. -/
def SameUpdate (u v : Upd V) : Prop :=
  u.path = v.path ∧ u.persist = v.persist ∧ SameDict u.kw v.kw ∧
    ((u.d = none ∧ v.d = none) ∨ ∃ x y, u.d = some x ∧ v.d = some y ∧ SameDict x y)

theorem length_le_of_sub {a b : Dict String V} (h : ∀ k, (a.get? k).isSome = true → (b.get? k).isSome = true) :
    a.items.length ≤ b.items.length := by
  have h1 : ∀ x ∈ a.keys, x ∈ b.keys := fun x hx => (Dict.mem_keys_iff b x).2 (h x ((Dict.mem_keys_iff a x).1 hx))
  have h2 := a.nodup.length_le_of_subset h1
  simpa [Dict.keys] using h2

theorem dictEq_iff [BEq V] (he : EqIsSame V) (hv : ∀ v : V, (v == v) = true) (a b : Dict String V) :
    dictEq a b = true ↔ SameDict a b := by
  refine ⟨fun h k => Iter.dictEq_get? he h k, fun h => ?_⟩
  unfold dictEq
  rw [Bool.and_eq_true, List.all_eq_true]
  refine ⟨beq_iff_eq.2 (Nat.le_antisymm (length_le_of_sub (fun k hk => h k ▸ hk)) (length_le_of_sub (fun k hk => (h k).symm ▸ hk))), ?_⟩
  intro e hm
  have := (Dict.mem_items_iff a e.1 e.2).1 hm
  rw [h e.1] at this
  simp only [this]
  exact hv e.2

theorem updEq_iff [BEq V] (he : EqIsSame V) (hv : ∀ v : V, (v == v) = true) (u v : Upd V) : u.eq v = true ↔ SameUpdate u v := by
  unfold Upd.eq SameUpdate
  simp only [Bool.and_eq_true, decide_eq_true_eq, dictEq_iff he hv, and_assoc]
  refine and_congr_right fun _ => and_congr_right fun _ => and_congr_right fun _ => ?_
  cases hu : u.d with
  | none => cases hw : v.d <;> simp
  | some x =>
    cases hw : v.d with
    | none => simp
    | some y => simp [dictEq_iff he hv]

/-- C32: exactly the updates of a case that the case before did not contain are applied, in their order; without a case before
all of them. -/
theorem C32_applied [BEq V] (he : EqIsSame V) (hv : ∀ v : V, (v == v) = true) (last : Option (List (Upd V))) (case : List (Upd V)) :
    (IRunner.changed last case).Sublist case ∧
    ∀ u, u ∈ IRunner.changed last case ↔ u ∈ case ∧ ∀ l, last = some l → ∀ v ∈ l, ¬ SameUpdate u v := by
  cases last with
  | none => exact ⟨List.Sublist.refl _, fun u => ⟨fun h => ⟨h, fun l hl => by cases hl⟩, fun h => h.1⟩⟩
  | some l =>
    refine ⟨List.filter_sublist, fun u => ?_⟩
    unfold IRunner.changed
    rw [List.mem_filter]
    refine and_congr_right fun _ => ?_
    simp only [Bool.not_eq_true', List.any_eq_false, Option.some.injEq]
    constructor
    · rintro h l' rfl v hm hs
      exact h v hm ((updEq_iff he hv u v).2 hs)
    · intro h v hm hs
      exact h l rfl v hm ((updEq_iff he hv u v).1 hs)

/-- Two updates that differ in `d_` only. -/
example : (⟨some (.str "p.a"), none, none, Dict.empty⟩ : Upd Nat) ∈
      IRunner.changed (some [⟨some (.str "p.a"), some Dict.empty, none, Dict.empty⟩]) [⟨some (.str "p.a"), none, none, Dict.empty⟩] ∧
    IRunner.changed (some [(⟨some (.str "p.a"), none, none, Dict.ofList [("x", 1), ("y", 2)]⟩ : Upd Nat)])
      [⟨some (.str "p.a"), none, none, Dict.ofList [("y", 2), ("x", 1)]⟩] = [] := by
  refine ⟨?_, rfl⟩
  simp [IRunner.changed, Upd.eq]

end Verif.Props

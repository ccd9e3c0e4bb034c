import Verif.Lemmas.SetAt

/-
Changing a section of the tree in place: what is there afterwards, and changing it again.
-/

namespace Verif.Py.AList

variable {K V : Type} [DecidableEq K]

theorem set_same {l : List (K × V)} {k : K} {v : V} (h : get? l k = some v) : set l k v = l := by
  induction l with
  | nil => cases h
  | cons e l ih =>
    obtain ⟨a, b⟩ := e
    rw [get?] at h
    rw [set]
    split at h
    · next ha => cases h; rw [if_pos ha]
    · next ha => rw [if_neg ha, ih h]

theorem set_again (l : List (K × V)) (k : K) (v w : V) : set (set l k v) k w = set l k w := by
  induction l with
  | nil => simp [set]
  | cons e l ih =>
    obtain ⟨a, b⟩ := e
    by_cases ha : a = k
    · simp [set, ha]
    · simp [set, ha, ih]

end Verif.Py.AList

namespace Verif.Model.Node
open Verif.Py

variable {V : Type}

/-- Changing what is below a child changes the child. -/
theorem modifyAt_attr {res : List String} {nm : String} {cfg : Option (Conf V)} {attrs map : List (String × Node V)} {x : String}
    {n' : Node V} (hr : x ∉ res) (ha : AList.get? attrs x = some n') (hn : n' ≠ .own) (p : List String) (f : Node V → Node V) :
    modifyAt res nm (.sect cfg attrs map) (x :: p) f = .sect cfg (AList.set attrs x (modifyAt sectionReserved x n' p f)) map := by
  rw [modifyAt, if_neg hr, ha]
  cases n' with
  | own => exact absurd rfl hn
  | _ => rfl

theorem modifyAt_map {res : List String} {nm : String} {cfg : Option (Conf V)} {attrs map : List (String × Node V)} {x : String}
    {n' : Node V} (hr : x ∉ res) (hx : ¬ (cfg.isSome = true ∧ x = nm)) (ha : AList.get? attrs x = none) (hm : AList.get? map x = some n') (p : List String)
    (f : Node V → Node V) :
    modifyAt res nm (.sect cfg attrs map) (x :: p) f = .sect cfg attrs (AList.set map x (modifyAt sectionReserved x n' p f)) := by
  rw [modifyAt, if_neg hr, ha]
  simp only
  rw [if_neg hx, hm]

theorem modifyAt_const {cfg : Option (Conf V)} {attrs map : List (String × Node V)} {a : Node V} (hown : a ≠ .own) (p : List String) :
    ∀ {res : List String} {nm : String} {n : Node V}, walk res nm n p = .ok (.sect cfg attrs map) →
    (∀ f, modifyAt res nm n p f = modifyAt res nm n p (fun _ => f (.sect cfg attrs map))) ∧
    modifyAt res nm n p (fun _ => .sect cfg attrs map) = n ∧
    walk res nm (modifyAt res nm n p (fun _ => a)) p = .ok a ∧
    (∀ b, modifyAt res nm (modifyAt res nm n p (fun _ => a)) p (fun _ => b) = modifyAt res nm n p (fun _ => b)) := by
  induction p with
  | nil =>
    intro res nm n h
    cases h
    exact ⟨fun _ => rfl, rfl, rfl, fun _ => rfl⟩
  | cons x p ih =>
    intro res nm n h
    rw [walk] at h
    cases hc : child res nm n x with
    | error e => rw [hc] at h; cases h
    | ok n' =>
      rw [hc] at h
      simp only at h
      obtain ⟨c', a', m', rfl⟩ := sect_of_walk h
      have hn : ∃ cfg attrs map, n = .sect cfg attrs map := by
        cases n with
        | sect _ _ _ => exact ⟨_, _, _, rfl⟩
        | conf c => simp only [child] at hc; split at hc <;> cases hc
        | _ => cases hc
      obtain ⟨c1, a1, m1, rfl⟩ := hn
      obtain ⟨i1, i2, i3, i4⟩ := ih h
      have hno : modifyAt sectionReserved x (.sect c' a' m') p (fun _ => a) ≠ .own :=
        modifyAt_ne_own (fun _ _ => hown) _ _ _ _ (by simp)
      obtain ⟨hr, ha | ⟨ha, hx, hm⟩⟩ := child_sect_cases hc
      · have hg := AList.get?_set_at a1 x (modifyAt sectionReserved x (.sect c' a' m') p (fun _ => a))
        refine ⟨fun f => ?_, ?_, ?_, fun b => ?_⟩
        · rw [modifyAt_attr hr ha (by simp), modifyAt_attr hr ha (by simp), i1 f]
        · rw [modifyAt_attr hr ha (by simp), i2, AList.set_same ha]
        · rw [modifyAt_attr hr ha (by simp), walk, child_attr hr hg hno]
          exact i3
        · rw [modifyAt_attr hr ha (by simp), modifyAt_attr hr hg hno, modifyAt_attr hr ha (by simp), i4, AList.set_again]
      · have hg := AList.get?_set_at m1 x (modifyAt sectionReserved x (.sect c' a' m') p (fun _ => a))
        refine ⟨fun f => ?_, ?_, ?_, fun b => ?_⟩
        · rw [modifyAt_map hr hx ha hm, modifyAt_map hr hx ha hm, i1 f]
        · rw [modifyAt_map hr hx ha hm, i2, AList.set_same hm]
        · rw [modifyAt_map hr hx ha hm, walk, child_map hr ha hx hg]
          exact i3
        · rw [modifyAt_map hr hx ha hm, modifyAt_map hr hx ha hg, modifyAt_map hr hx ha hm, i4, AList.set_again]

end Verif.Model.Node

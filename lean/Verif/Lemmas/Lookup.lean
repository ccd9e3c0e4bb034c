import Verif.Lemmas.Reach

/-
Lookups of active configurations, seen through views.
-/

namespace Verif.Model
open Verif.Py
variable {V : Type}

theorem Dict.foldl_update_twice (d : Dict String V) (ds : List (Dict String V)) :
    ds.foldl Dict.update (ds.foldl Dict.update d) = ds.foldl Dict.update d := by
  have hstay : ∀ (es : List (Dict String V)) (e : Dict String V),
      (∀ k ∈ es.flatMap Dict.keys, k ∈ e.keys) → (es.foldl Dict.update e).keys = e.keys := by
    intro es
    induction es with
    | nil => intro e _; rfl
    | cons x es ih =>
      intro e h
      rw [List.foldl_cons]
      have h1 : (e.update x).keys = e.keys :=
        Dict.keys_update_of_subset (fun k hk => h k (by simp [hk]))
      rw [ih _ (by intro k hk; rw [h1]; exact h k (by simp only [List.flatMap_cons, List.mem_append]; exact .inr hk)), h1]
  have hsub : ∀ (es : List (Dict String V)) (e : Dict String V),
      (∀ k ∈ e.keys, k ∈ (es.foldl Dict.update e).keys) ∧
      ∀ k ∈ es.flatMap Dict.keys, k ∈ (es.foldl Dict.update e).keys := by
    intro es
    induction es with
    | nil => intro e; simp
    | cons x es ih =>
      intro e
      rw [List.foldl_cons]
      obtain ⟨h1, h2⟩ := ih (e.update x)
      refine ⟨fun k hk => h1 k ((Dict.mem_keys_update _ _ _).2 (.inl hk)), ?_⟩
      intro k hk
      simp only [List.flatMap_cons, List.mem_append] at hk
      rcases hk with hk | hk
      · exact h1 k ((Dict.mem_keys_update _ _ _).2 (.inr hk))
      · exact h2 k hk
  apply Dict.ext_of_keys_get? (hstay _ _ (hsub ds d).2)
  intro k
  rw [CMM.get?_foldl_update, CMM.get?_foldl_update]
  cases CMM.lastDef k ds <;> simp

namespace CMM

theorem Conf.ext' {c d : Conf V} (h1 : c.values = d.values) (h2 : c.applied = d.applied) (h3 : c.file = d.file) :
    c = d := by
  cases c; cases d; simp_all

/-- The active configuration of an item whose own config is `c`. -/
def active (a : View V) (p : List String) (c : Conf V) : Conf V :=
  if c.values.items.isEmpty then c else overridden a p c

theorem active_file (a : View V) (p : List String) (c : Conf V) : (active a p c).file = c.file := by
  unfold active
  split
  · rfl
  · exact foldl_applyLevel_file _ _

/-- `active` depends only on the sections around the item and the local config. -/
theorem active_congr {a b : View V} {p : List String} (hl : b.localConf = a.localConf)
    (hs : ∀ k, k < p.length → b.slot (p.take k) = a.slot (p.take k)) (c : Conf V) :
    active b p c = active a p c := by
  unfold active overridden
  have : b.levels p = a.levels p := by
    unfold View.levels
    apply List.map_congr_left
    intro k hk
    rw [List.mem_range] at hk
    unfold View.sectCfg
    rw [hs k hk]
  rw [this, hl]

theorem get_of_own {s : CM V} {p : List String} (hp : IsItem s p) {c : Conf V} (hc : s.view.own p = .ok c) :
    (get p s).1 = .ok (some (active s.view p c)) ∧
    (get p s).2.view = s.view.setConf p (active s.view p c) := by
  have hv := vget_item hp.item
  rw [hc] at hv
  simp only at hv
  have h1 : overridden (s.view.setConf p c) p c = overridden s.view p c := by
    unfold overridden
    rw [levels_setConf hp.item (fun k hk => hp.prefix_sect hk)]
    rfl
  rw [h1] at hv
  have href := get_ref hp
  unfold Ref at href
  rw [href] at hv
  unfold active
  split at hv
  · rename_i he; rw [if_pos he]; exact ⟨congrArg Prod.fst hv, congrArg Prod.snd hv⟩
  · rename_i he; rw [if_neg he]; exact ⟨congrArg Prod.fst hv, congrArg Prod.snd hv⟩

theorem get_of_own_error {s : CM V} {p : List String} (hp : IsItem s p) {e : PyErr}
    (hc : s.view.own p = .error e) : (get p s).1 = .error e ∧ (get p s).2.view = s.view := by
  have hv := vget_item hp.item
  rw [hc] at hv
  have href := get_ref hp
  unfold Ref at href
  rw [href] at hv
  exact ⟨congrArg Prod.fst hv, congrArg Prod.snd hv⟩

theorem active_idem {s : CM V} (ho : OwnFiles s.view) {p : List String} (hp : IsItem s p) {c : Conf V}
    (hc : c.file = some (.item p)) : active s.view p (active s.view p c) = active s.view p c := by
  have key : ∀ c : Conf V, c.file = some (.item p) →
      overridden s.view p (overridden s.view p c) = overridden s.view p c := by
    intro c hc
    unfold overridden
    have hl := levels_otherFile ho hp hc
    have hl' := levels_otherFile ho hp
      (c := List.foldl applyLevel c (s.view.levels p ++ [some s.view.localConf]))
      (by rw [foldl_applyLevel_file]; exact hc)
    apply Conf.ext'
    · rw [foldl_applyLevel_values _ _ hl', foldl_applyLevel_values _ _ hl, Dict.foldl_update_twice]
    · rw [foldl_applyLevel_applied _ _ hl', foldl_applyLevel_applied _ _ hl, Dict.foldl_update_twice]
    · rw [foldl_applyLevel_file]
  by_cases h1 : c.values.items.isEmpty = true
  · have : active s.view p c = c := by unfold active; rw [if_pos h1]
    rw [this, this]
  · have h2 : active s.view p c = overridden s.view p c := by unfold active; rw [if_neg h1]
    rw [h2]
    unfold active
    split
    · rfl
    · exact key c hc

end CMM
end Verif.Model

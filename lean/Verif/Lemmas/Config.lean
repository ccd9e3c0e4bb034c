import Verif.Model.Config

/- Helper lemmas about dictionaries and configs. -/

namespace Verif.Py.Dict
variable {K : Type} {V : Type} [DecidableEq K]

theorem set_of_get? {d : Dict K V} {k : K} {v : V} (h : d.get? k = some v) : d.set k v = d := by
  apply ext_items
  have : ∀ (l : List (K × V)), AList.get? l k = some v → AList.set l k v = l := by
    intro l
    induction l with
    | nil => intro h; simp [AList.get?] at h
    | cons e l ih =>
      obtain ⟨a, b⟩ := e
      intro h
      by_cases hak : a = k
      · simp [AList.get?, hak] at h; simp [AList.set, hak, h]
      · simp [AList.get?, hak] at h; simp [AList.set, hak, ih h]
  exact this d.items h

theorem setAll_of_get? {es : List (K × V)} {d : Dict K V} (h : ∀ e ∈ es, d.get? e.1 = some e.2) :
    d.setAll es = d := by
  induction es with
  | nil => rfl
  | cons e es ih =>
    simp only [setAll, List.foldl_cons]
    rw [set_of_get? (h e (by simp))]
    exact ih (fun e he => h e (by simp [he]))

/-- Updating with values that are already there changes nothing, not even the order. -/
theorem update_of_le {d e : Dict K V} (h : ∀ k v, e.get? k = some v → d.get? k = some v) :
    d.update e = d :=
  setAll_of_get? (fun x hx => h x.1 x.2 ((mem_items_iff e x.1 x.2).1 hx))

theorem update_self_twice (d e : Dict K V) : (d.update e).update e = d.update e := by
  apply update_of_le
  intro k v h
  rw [get?_update, h]; rfl

theorem keys_update_of_subset {d e : Dict K V} (h : ∀ k ∈ e.keys, k ∈ d.keys) :
    (d.update e).keys = d.keys := by
  have : ∀ (es : List (K × V)) (d : Dict K V), (∀ k ∈ es.map Prod.fst, k ∈ d.keys) →
      (d.setAll es).keys = d.keys := by
    intro es
    induction es with
    | nil => intro d _; rfl
    | cons e es ih =>
      intro d h
      have hk : (d.set e.1 e.2).keys = d.keys := by
        rw [keys_set, if_pos (h e.1 (by simp))]
      have := ih (d.set e.1 e.2) (fun k hk' => by rw [hk]; exact h k (by simp [hk']))
      simp only [setAll, List.foldl_cons] at this ⊢
      rw [this, hk]
  exact this e.items d h

theorem ext_of_keys_get? {d e : Dict K V} (hk : d.keys = e.keys) (hg : ∀ k, d.get? k = e.get? k) :
    d = e := by
  apply ext_items
  have : ∀ (l m : List (K × V)), l.map Prod.fst = m.map Prod.fst → (m.map Prod.fst).Nodup →
      (∀ k, AList.get? l k = AList.get? m k) → l = m := by
    intro l
    induction l with
    | nil => intro m hk _ _; cases m with
      | nil => rfl
      | cons _ _ => simp at hk
    | cons e l ih =>
      intro m hk hn hg
      cases m with
      | nil => simp at hk
      | cons f m =>
        obtain ⟨a, b⟩ := e
        obtain ⟨a', b'⟩ := f
        simp only [List.map_cons, List.cons.injEq] at hk
        obtain ⟨h1, h2⟩ := hk
        subst h1
        simp only [List.map_cons, List.nodup_cons] at hn
        have hb := hg a
        simp [AList.get?] at hb
        subst hb
        rw [ih m h2 hn.2]
        intro k
        by_cases hak : a = k
        · subst hak
          rw [(AList.get?_eq_none_iff m a).2 hn.1, (AList.get?_eq_none_iff l a).2 (h2 ▸ hn.1)]
        · have := hg k
          simpa [AList.get?, hak] using this
  exact this d.items e.items hk e.nodup hg

theorem _root_.Verif.Py.AList.set_fresh {l : List (K × V)} {k : K} {v : V} (h : k ∉ l.map Prod.fst) :
    AList.set l k v = l ++ [(k, v)] := by
  induction l with
  | nil => rfl
  | cons e l ih =>
    obtain ⟨k', v'⟩ := e
    simp only [List.map_cons, List.mem_cons, not_or] at h
    simp [AList.set, Ne.symm h.1, ih h.2]

theorem items_setAll_fresh (es : List (K × V)) : ∀ (d : Dict K V), (es.map Prod.fst).Nodup →
    (∀ k ∈ es.map Prod.fst, k ∉ d.keys) → (d.setAll es).items = d.items ++ es := by
  induction es with
  | nil => intro d _ _; simp [setAll]
  | cons e es ih =>
    intro d hn hd
    obtain ⟨k, v⟩ := e
    simp only [List.map_cons, List.nodup_cons] at hn
    have hk : k ∉ d.keys := hd k (by simp)
    have hset : (d.set k v).items = d.items ++ [(k, v)] := AList.set_fresh hk
    show ((d.set k v).setAll es).items = _
    rw [ih _ hn.2, hset]
    · simp
    · intro k' hk'
      have : (d.set k v).keys = d.keys ++ [k] := by unfold keys; rw [hset]; simp
      rw [this, List.mem_append, List.mem_singleton, not_or]
      refine ⟨hd k' (by simp only [List.map_cons, List.mem_cons]; exact .inr hk'), ?_⟩
      intro h; subst h; exact hn.1 hk'

@[simp] theorem empty_update (e : Dict K V) : (empty : Dict K V).update e = e := by
  apply ext_items
  unfold update
  rw [items_setAll_fresh _ _ e.nodup (by intro k _; simp [keys, empty])]
  simp [empty]

theorem get?_isSome_of_mem {d : Dict K V} {k : K} (h : k ∈ d.keys) : ∃ v, d.get? k = some v := by
  rw [mem_keys_iff] at h
  exact Option.isSome_iff_exists.1 h

theorem mem_keys_of_get? {d : Dict K V} {k : K} {v : V} (h : d.get? k = some v) : k ∈ d.keys := by
  rw [mem_keys_iff, h]; rfl

end Verif.Py.Dict

namespace Verif.Model.Conf
open Verif.Py
variable {V : Type}

theorem get?_update_values (c : Conf V) (E : Option (Dict String V)) (p : Bool) (F : Dict String V)
    (k : String) : (c.update E p F).values.get? k =
      ((F.get? k).or ((E.bind (·.get? k)).or (c.values.get? k))) := by
  cases E <;> simp [update, Dict.get?_update]

theorem wouldUpdateLoop_iff [BEq V] (c : Conf V) (es : List (String × V)) :
    wouldUpdateLoop c es = true ↔
      ∃ k v w, (k, v) ∈ es ∧ c.values.get? k = some w ∧ (w == v) = false := by
  induction es with
  | nil => simp [wouldUpdateLoop]
  | cons e es ih =>
    obtain ⟨a, b⟩ := e
    simp only [wouldUpdateLoop]
    split
    · rename_i h
      rw [ih]
      constructor
      · rintro ⟨k, v, w, h1, h2, h3⟩; exact ⟨k, v, w, by simp [h1], h2, h3⟩
      · rintro ⟨k, v, w, h1, h2, h3⟩
        rcases List.mem_cons.1 h1 with h1 | h1
        · cases h1; rw [h] at h2; cases h2
        · exact ⟨k, v, w, h1, h2, h3⟩
    · rename_i orig h
      by_cases heq : (orig == b) = true
      · simp only [heq, Bool.not_true, Bool.false_eq_true, if_false, ih]
        constructor
        · rintro ⟨k, v, w, h1, h2, h3⟩; exact ⟨k, v, w, by simp [h1], h2, h3⟩
        · rintro ⟨k, v, w, h1, h2, h3⟩
          rcases List.mem_cons.1 h1 with h1 | h1
          · cases h1; rw [h] at h2; cases h2; rw [heq] at h3; cases h3
          · exact ⟨k, v, w, h1, h2, h3⟩
      · have heq' : (orig == b) = false := by simpa using heq
        simp only [heq', Bool.not_false, if_true, true_iff]
        exact ⟨a, b, orig, by simp, h, heq'⟩

theorem wouldUpdate_iff [BEq V] (c : Conf V) (E : Option (Dict String V)) (F : Dict String V) :
    c.wouldUpdate E F = true ↔
      ∃ k v w, (F.get? k).or (E.bind (·.get? k)) = some v ∧ c.values.get? k = some w ∧
        (w == v) = false := by
  unfold wouldUpdate
  rw [wouldUpdateLoop_iff]
  simp only [Dict.mem_items_iff, Dict.get?_update]
  cases E <;> simp

theorem clash_eq_false_iff (r : List String) (kw : Dict String V) :
    clash r kw = false ↔ ∀ k ∈ r, k ∉ kw.keys := by
  simp only [clash, List.any_eq_false, decide_eq_true_eq]
  exact ⟨fun h k hk hk' => h k hk' hk, fun h k hk hk' => h k hk' hk⟩

end Verif.Model.Conf

/-
Python dictionaries: insertion ordered, keys unique.  Setting an existing key
keeps its position, setting a new key appends it.
-/

namespace Verif.Py

universe u v

/-! ### Association lists -/

namespace AList
variable {K : Type u} {V : Type v} [DecidableEq K]

/-- Value of the first entry with key `k`. -/
def get? : List (K × V) → K → Option V
  | [], _ => none
  | (k', v) :: d, k => if k' = k then some v else get? d k

/-- Overwrite the value of key `k`, or append a new entry. -/
def set : List (K × V) → K → V → List (K × V)
  | [], k, v => [(k, v)]
  | (k', v') :: d, k, v => if k' = k then (k', v) :: d else (k', v') :: set d k v

/-- Remove every entry with key `k`. -/
def del (d : List (K × V)) (k : K) : List (K × V) := d.filter (fun e => decide (e.1 ≠ k))

theorem get?_set (d : List (K × V)) (k : K) (v : V) (k' : K) :
    get? (set d k v) k' = if k = k' then some v else get? d k' := by
  induction d with
  | nil => simp [set, get?]
  | cons e d ih =>
    obtain ⟨a, b⟩ := e
    by_cases hak : a = k
    · subst hak
      simp only [set, if_pos, get?]
      split <;> simp
    · simp only [set, if_neg hak, get?, ih]
      by_cases hk : k = k'
      · subst hk; simp [hak]
      · simp [hk]

theorem keys_set (d : List (K × V)) (k : K) (v : V) :
    (set d k v).map Prod.fst =
      if k ∈ d.map Prod.fst then d.map Prod.fst else d.map Prod.fst ++ [k] := by
  induction d with
  | nil => simp [set]
  | cons e d ih =>
    obtain ⟨a, b⟩ := e
    by_cases hak : a = k
    · subst hak; simp [set]
    · have hka : k ≠ a := fun h => hak h.symm
      simp only [set, if_neg hak, List.map_cons, ih, List.mem_cons, hka, false_or]
      split <;> simp

theorem nodup_set {d : List (K × V)} (h : (d.map Prod.fst).Nodup) (k : K) (v : V) :
    ((set d k v).map Prod.fst).Nodup := by
  rw [keys_set]
  split
  · exact h
  · rename_i hk
    rw [List.nodup_append]
    refine ⟨h, by simp, ?_⟩
    intro a ha b hb
    simp at hb
    subst hb
    exact fun hab => hk (hab ▸ ha)

theorem get?_eq_none_iff (d : List (K × V)) (k : K) : get? d k = none ↔ k ∉ d.map Prod.fst := by
  induction d with
  | nil => simp [get?]
  | cons e d ih =>
    obtain ⟨a, b⟩ := e
    by_cases hak : a = k
    · simp [get?, hak]
    · have hka : k ≠ a := fun h => hak h.symm
      simp [get?, hak, hka, ih]

theorem get?_isSome_iff (d : List (K × V)) (k : K) :
    (get? d k).isSome = true ↔ k ∈ d.map Prod.fst := by
  have := get?_eq_none_iff d k
  cases h : get? d k with
  | none => simp [this.1 h]
  | some v =>
    simp only [Option.isSome_some, true_iff]
    apply Classical.byContradiction
    intro hn
    rw [this.2 hn] at h
    cases h

theorem mem_of_get? {d : List (K × V)} {k : K} {v : V} (h : get? d k = some v) : (k, v) ∈ d := by
  induction d with
  | nil => simp [get?] at h
  | cons e d ih =>
    obtain ⟨a, b⟩ := e
    by_cases hak : a = k
    · simp [get?, hak] at h; simp [hak, h]
    · simp [get?, hak] at h; exact List.mem_cons_of_mem _ (ih h)

theorem get?_of_mem {d : List (K × V)} (hd : (d.map Prod.fst).Nodup) {k : K} {v : V}
    (h : (k, v) ∈ d) : get? d k = some v := by
  induction d with
  | nil => simp at h
  | cons e d ih =>
    obtain ⟨a, b⟩ := e
    simp only [List.map_cons, List.nodup_cons] at hd
    rcases List.mem_cons.1 h with h | h
    · cases h; simp [get?]
    · have : k ∈ d.map Prod.fst := List.mem_map.2 ⟨(k, v), h, rfl⟩
      have hak : a ≠ k := fun hh => hd.1 (hh ▸ this)
      simp [get?, hak, ih hd.2 h]

omit [DecidableEq K] in
theorem nodup_filter {d : List (K × V)} (h : (d.map Prod.fst).Nodup) (p : K × V → Bool) :
    ((d.filter p).map Prod.fst).Nodup :=
  List.Nodup.sublist (List.Sublist.map _ List.filter_sublist) h

end AList

/-- A Python `dict`. -/
structure Dict (K : Type u) (V : Type v) where
  items : List (K × V)
  nodup : (items.map Prod.fst).Nodup

namespace Dict
variable {K : Type u} {V : Type v} [DecidableEq K]

instance [DecidableEq V] : DecidableEq (Dict K V) := fun a b =>
  if h : a.items = b.items then isTrue (by cases a; cases b; simp_all)
  else isFalse (fun hh => h (hh ▸ rfl))

/-- `{}` -/
def empty : Dict K V := ⟨[], by simp⟩

/-- `d.keys()` in insertion order. -/
def keys (d : Dict K V) : List K := d.items.map Prod.fst

/-- `d.values()` in insertion order. -/
def values (d : Dict K V) : List V := d.items.map Prod.snd

/-- `d[k]`; `none` is the `KeyError`. -/
def get? (d : Dict K V) (k : K) : Option V := AList.get? d.items k

/-- `k in d` -/
def contains (d : Dict K V) (k : K) : Bool := (d.get? k).isSome

/-- `d[k] = v` -/
def set (d : Dict K V) (k : K) (v : V) : Dict K V :=
  ⟨AList.set d.items k v, AList.nodup_set d.nodup k v⟩

/-- `del d[k]` (no effect if the key is absent; callers check presence). -/
def del (d : Dict K V) (k : K) : Dict K V := ⟨AList.del d.items k, AList.nodup_filter d.nodup _⟩

/-- `{k: v for k, v in d.items() if p(k)}` -/
def filterKeys (d : Dict K V) (p : K → Bool) : Dict K V :=
  ⟨d.items.filter (fun e => p e.1), AList.nodup_filter d.nodup _⟩

/-- Successive `d[k] = v` for the listed pairs. -/
def setAll (d : Dict K V) (es : List (K × V)) : Dict K V := es.foldl (fun acc e => acc.set e.1 e.2) d

/-- `d.update(e)`, also `{**d, **e}`. -/
def update (d e : Dict K V) : Dict K V := d.setAll e.items

/-- A dict literal. -/
def ofList (es : List (K × V)) : Dict K V := empty.setAll es

/-- Python `==` on dicts: same keys with equal values, order irrelevant. -/
def pyEq [DecidableEq V] (d e : Dict K V) : Bool :=
  d.items.all (fun x => decide (e.get? x.1 = some x.2)) &&
  e.items.all (fun x => decide (d.get? x.1 = some x.2))

omit [DecidableEq K] in
@[ext] theorem ext_items {d e : Dict K V} (h : d.items = e.items) : d = e := by
  cases d; cases e; simp_all

@[simp] theorem get?_empty (k : K) : (empty : Dict K V).get? k = none := rfl

theorem get?_set (d : Dict K V) (k : K) (v : V) (k' : K) :
    (d.set k v).get? k' = if k = k' then some v else d.get? k' := AList.get?_set _ _ _ _

theorem get?_set_self (d : Dict K V) (k : K) (v : V) : (d.set k v).get? k = some v := by
  simp [get?_set]

theorem get?_set_ne (d : Dict K V) {k k' : K} (v : V) (h : k ≠ k') :
    (d.set k v).get? k' = d.get? k' := by
  simp [get?_set, h]

theorem mem_keys_iff (d : Dict K V) (k : K) : k ∈ d.keys ↔ (d.get? k).isSome = true :=
  (AList.get?_isSome_iff d.items k).symm

theorem contains_iff (d : Dict K V) (k : K) : d.contains k = true ↔ k ∈ d.keys :=
  (mem_keys_iff d k).symm

theorem get?_eq_none_iff (d : Dict K V) (k : K) : d.get? k = none ↔ k ∉ d.keys :=
  AList.get?_eq_none_iff d.items k

theorem mem_items_iff (d : Dict K V) (k : K) (v : V) : (k, v) ∈ d.items ↔ d.get? k = some v :=
  ⟨fun h => AList.get?_of_mem d.nodup h, fun h => AList.mem_of_get? h⟩

theorem get?_del (d : Dict K V) (k k' : K) :
    (d.del k).get? k' = if k = k' then none else d.get? k' := by
  by_cases h : k = k'
  · subst h
    rw [if_pos rfl, get?_eq_none_iff]
    simp [keys, del, AList.del]
  · rw [if_neg h]
    cases hd : d.get? k' with
    | none =>
      rw [get?_eq_none_iff] at hd ⊢
      intro hm
      apply hd
      simp only [keys, del, AList.del, List.mem_map, List.mem_filter] at hm ⊢
      obtain ⟨e, ⟨he, _⟩, rfl⟩ := hm
      exact ⟨e, he, rfl⟩
    | some v =>
      rw [← mem_items_iff] at hd ⊢
      simp only [del, AList.del, List.mem_filter]
      exact ⟨hd, by simp; exact fun hh => h hh.symm⟩

theorem get?_filterKeys (d : Dict K V) (p : K → Bool) (k : K) :
    (d.filterKeys p).get? k = if p k then d.get? k else none := by
  by_cases h : p k
  · rw [if_pos h]
    cases hd : d.get? k with
    | none =>
      rw [get?_eq_none_iff] at hd ⊢
      intro hm
      apply hd
      simp only [keys, filterKeys, List.mem_map, List.mem_filter] at hm ⊢
      obtain ⟨e, ⟨he, _⟩, rfl⟩ := hm
      exact ⟨e, he, rfl⟩
    | some v =>
      rw [← mem_items_iff] at hd ⊢
      simp only [filterKeys, List.mem_filter]
      exact ⟨hd, h⟩
  · rw [if_neg h, get?_eq_none_iff]
    intro hm
    simp only [keys, filterKeys, List.mem_map, List.mem_filter] at hm
    obtain ⟨e, ⟨_, hp⟩, rfl⟩ := hm
    exact h hp

omit [DecidableEq K] in
theorem keys_filterKeys (d : Dict K V) (p : K → Bool) : (d.filterKeys p).keys = d.keys.filter p := by
  simp only [keys, filterKeys, List.filter_map]
  rfl

theorem get?_setAll_of_nodup (es : List (K × V)) (h : (es.map Prod.fst).Nodup) (d : Dict K V)
    (k : K) : (d.setAll es).get? k = (AList.get? es k).or (d.get? k) := by
  induction es generalizing d with
  | nil => simp [setAll, AList.get?]
  | cons e es ih =>
    obtain ⟨a, b⟩ := e
    simp only [List.map_cons, List.nodup_cons] at h
    have := ih h.2 (d.set a b)
    simp only [setAll, List.foldl_cons] at this ⊢
    rw [this, get?_set]
    by_cases hak : a = k
    · subst hak
      have hn : AList.get? es a = none := (AList.get?_eq_none_iff es a).2 h.1
      simp [AList.get?, hn]
    · simp [AList.get?, hak]

/-- Lookup after `update`: the update wins, other keys are kept. -/
theorem get?_update (d e : Dict K V) (k : K) :
    (d.update e).get? k = (e.get? k).or (d.get? k) :=
  get?_setAll_of_nodup e.items e.nodup d k

theorem keys_set (d : Dict K V) (k : K) (v : V) :
    (d.set k v).keys = if k ∈ d.keys then d.keys else d.keys ++ [k] := AList.keys_set _ _ _

theorem mem_keys_setAll (es : List (K × V)) (d : Dict K V) (k : K) :
    k ∈ (d.setAll es).keys ↔ k ∈ d.keys ∨ k ∈ es.map Prod.fst := by
  induction es generalizing d with
  | nil => simp [setAll]
  | cons e es ih =>
    have := ih (d.set e.1 e.2)
    simp only [setAll, List.foldl_cons] at this ⊢
    rw [this, keys_set]
    split
    · rename_i h
      simp only [List.map_cons, List.mem_cons]
      grind
    · simp only [List.mem_append, List.map_cons, List.mem_cons, List.not_mem_nil]
      grind

theorem mem_keys_update (d e : Dict K V) (k : K) :
    k ∈ (d.update e).keys ↔ k ∈ d.keys ∨ k ∈ e.keys := mem_keys_setAll _ _ _

/-- `update` keeps the existing keys, in place, as a prefix. -/
theorem keys_prefix_setAll (es : List (K × V)) (d : Dict K V) :
    d.keys <+: (d.setAll es).keys := by
  induction es generalizing d with
  | nil => simp [setAll]
  | cons e es ih =>
    have := ih (d.set e.1 e.2)
    simp only [setAll, List.foldl_cons] at this ⊢
    refine List.IsPrefix.trans ?_ this
    rw [keys_set]
    split <;> simp

theorem keys_prefix_update (d e : Dict K V) : d.keys <+: (d.update e).keys :=
  keys_prefix_setAll _ _

@[simp] theorem update_empty (d : Dict K V) : d.update empty = d := rfl

/-- Python dict equality is agreement on every key. -/
theorem pyEq_iff [DecidableEq V] (d e : Dict K V) : d.pyEq e = true ↔ ∀ k, d.get? k = e.get? k := by
  simp only [pyEq, Bool.and_eq_true, List.all_eq_true, decide_eq_true_eq]
  constructor
  · rintro ⟨h1, h2⟩ k
    cases hd : d.get? k with
    | some v =>
      have := h1 (k, v) ((mem_items_iff d k v).2 hd)
      simp at this; rw [this]
    | none =>
      cases he : e.get? k with
      | none => rfl
      | some w =>
        have := h2 (k, w) ((mem_items_iff e k w).2 he)
        simp at this; rw [hd] at this; cases this
  · intro h
    constructor
    · rintro ⟨k, v⟩ hm
      have := (mem_items_iff d k v).1 hm
      simp; rw [← h, this]
    · rintro ⟨k, v⟩ hm
      have := (mem_items_iff e k v).1 hm
      simp; rw [h, this]

end Dict

end Verif.Py

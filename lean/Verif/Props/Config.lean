import Verif.Lemmas.Config

/-
Property theorems about a single configuration object: C06 - C09.
-/

namespace Verif.Props
open Verif.Py Verif.Model

variable {V : Type}

/-! ## C06 -/

/-- C06: after `update(E, **F)` a key named by the keyword arguments has the keyword
value, a key named only by the dictionary has the dictionary value, every other key is
as before; the existing keys keep their order and position. -/
theorem C06_update_changes_named_keys (c : Conf V) (E : Option (Dict String V)) (persist : Bool)
    (F : Dict String V) :
    (∀ k v, F.get? k = some v → (c.update E persist F).values.get? k = some v) ∧
    (∀ k v, F.get? k = none → (∃ e, E = some e ∧ e.get? k = some v) →
      (c.update E persist F).values.get? k = some v) ∧
    (∀ k, F.get? k = none → (∀ e, E = some e → e.get? k = none) →
      (c.update E persist F).values.get? k = c.values.get? k) ∧
    c.values.keys <+: (c.update E persist F).values.keys := by
  refine ⟨?_, ?_, ?_, ?_⟩
  · intro k v h
    rw [Conf.get?_update_values, h]; rfl
  · rintro k v h ⟨e, rfl, he⟩
    rw [Conf.get?_update_values, h]; simp [he]
  · intro k h he
    rw [Conf.get?_update_values, h]
    cases E with
    | none => simp
    | some e => simp [he e rfl]
  · exact (Dict.keys_prefix_update _ _).trans (Dict.keys_prefix_update _ _)

example : ((Conf.ofDict (Dict.ofList [("a", 1), ("b", 2), ("c", 3)])).update
    (some (Dict.ofList [("b", 5), ("a", 7)])) true (Dict.ofList [("b", 9), ("z", 4)])).values.items
    = [("a", 7), ("b", 9), ("c", 3), ("z", 4)] := by decide

/-! ## C07 -/

/-- The value a key gets from `update(E, **F)`. -/
def Given (E : Option (Dict String V)) (F : Dict String V) (k : String) (v : V) : Prop :=
  F.get? k = some v ∨ (F.get? k = none ∧ ∃ e, E = some e ∧ e.get? k = some v)

theorem given_iff (E : Option (Dict String V)) (F : Dict String V) (k : String) (v : V) :
    Given E F k v ↔ (F.get? k).or (E.bind (·.get? k)) = some v := by
  unfold Given
  cases hF : F.get? k <;> cases E <;> simp

/-- C07: `would_update` is true iff applying the update replaces the value of some
existing key by one that is not equal to it. -/
theorem C07_would_update_iff_visible [BEq V] (c : Conf V) (E : Option (Dict String V))
    (F : Dict String V) :
    c.wouldUpdate E F = true ↔
      ∃ k old new, c.values.get? k = some old ∧ (c.update E true F).values.get? k = some new ∧
        Given E F k new ∧ (old == new) = false := by
  rw [Conf.wouldUpdate_iff]
  constructor
  · rintro ⟨k, v, w, h1, h2, h3⟩
    refine ⟨k, w, v, h2, ?_, (given_iff E F k v).2 h1, h3⟩
    rw [Conf.get?_update_values, ← Option.or_assoc, h1]; rfl
  · rintro ⟨k, old, new, h1, _, h3, h4⟩
    exact ⟨k, new, old, (given_iff E F k new).1 h3, h1, h4⟩

/-- C07: when equality of values is identity, `would_update` is true iff the update
changes the value of some existing key. -/
theorem C07_would_update_iff_changes [DecidableEq V] (c : Conf V) (E : Option (Dict String V))
    (F : Dict String V) (persist : Bool) :
    c.wouldUpdate E F = true ↔
      ∃ k ∈ c.values.keys, (c.update E persist F).values.get? k ≠ c.values.get? k := by
  rw [C07_would_update_iff_visible]
  constructor
  · rintro ⟨k, old, new, h1, h2, _, h4⟩
    refine ⟨k, Dict.mem_keys_of_get? h1, ?_⟩
    have h2' : (c.update E persist F).values.get? k = some new := by
      rw [Conf.get?_update_values] at h2 ⊢; exact h2
    rw [h2', h1]
    intro hh; cases hh; simp at h4
  · rintro ⟨k, hk, hne⟩
    obtain ⟨old, ho⟩ := Dict.get?_isSome_of_mem hk
    rw [Conf.get?_update_values, ← Option.or_assoc] at hne
    cases hg : (F.get? k).or (E.bind (·.get? k)) with
    | none => rw [hg] at hne; simp at hne
    | some new =>
      refine ⟨k, old, new, ho, ?_, (given_iff E F k new).2 hg, ?_⟩
      · rw [Conf.get?_update_values, ← Option.or_assoc, hg]; rfl
      · rw [hg, ho] at hne
        simpa using fun h : old = new => hne (by simp [h])

/-- C07: if `would_update` is false and only existing keys are named, the update leaves
the dictionary exactly as it was, order included. -/
theorem C07_no_update_is_invisible [DecidableEq V] (c : Conf V) (E : Option (Dict String V))
    (F : Dict String V) (persist : Bool) (h : c.wouldUpdate E F = false)
    (hknown : ∀ k v, Given E F k v → k ∈ c.values.keys) :
    (c.update E persist F).values = c.values := by
  have hall : ∀ k v, Given E F k v → c.values.get? k = some v := by
    intro k v hg
    obtain ⟨w, hw⟩ := Dict.get?_isSome_of_mem (hknown k v hg)
    by_cases heq : w = v
    · rw [hw, heq]
    · have : c.wouldUpdate E F = true :=
        (Conf.wouldUpdate_iff c E F).2 ⟨k, v, w, (given_iff E F k v).1 hg, hw, by simpa using heq⟩
      rw [this] at h; cases h
  have key : ∀ e : Dict String V, (∀ k v, e.get? k = some v → F.get? k = none →
      c.values.get? k = some v) → (c.values.update e).update F = c.values := by
    intro e he
    -- every key exists, and after both updates each has its old value
    have hkE : ∀ k ∈ F.keys, k ∈ c.values.keys := by
      intro k hk
      obtain ⟨v, hv⟩ := Dict.get?_isSome_of_mem hk
      exact hknown k v (Or.inl hv)
    have hkeysE : ∀ k ∈ e.keys, k ∈ c.values.keys := by
      intro k hk
      obtain ⟨v, hv⟩ := Dict.get?_isSome_of_mem hk
      cases hF : F.get? k with
      | none => exact Dict.mem_keys_of_get? (he k v hv hF)
      | some w => exact hkE k (Dict.mem_keys_of_get? hF)
    have hkeys : ((c.values.update e).update F).keys = c.values.keys := by
      rw [Dict.keys_update_of_subset, Dict.keys_update_of_subset hkeysE]
      intro k hk
      rw [Dict.keys_update_of_subset hkeysE]
      exact hkE k hk
    have hget : ∀ k, ((c.values.update e).update F).get? k = c.values.get? k := by
      intro k
      rw [Dict.get?_update, Dict.get?_update]
      cases hF : F.get? k with
      | some w => simp [hall k w (Or.inl hF)]
      | none =>
        cases hE : e.get? k with
        | none => simp
        | some w => simp [he k w hE hF]
    exact Dict.ext_of_keys_get? hkeys hget
  cases E with
  | none =>
    exact key Dict.empty (fun k v hh => by simp at hh)
  | some e =>
    exact key e (fun k v hh hF => hall k v (Or.inr ⟨hF, e, rfl, hh⟩))

example :
    let c := Conf.ofDict (Dict.ofList [("a", 1), ("b", 2)])
    c.wouldUpdate (some (Dict.ofList [("a", 1)])) (Dict.ofList [("b", 2)]) = false ∧
    c.wouldUpdate (some (Dict.ofList [("a", 1)])) (Dict.ofList [("b", 3)]) = true ∧
    -- unknown keys are ignored, although the update would add them
    c.wouldUpdate none (Dict.ofList [("z", 3)]) = false := by decide

/-! ## C08 -/

/-- One event in the life of a config object. -/
inductive ConfEvent (V : Type) where
  /-- `update(E, pyfileconf_persist=persist, **F)` -/
  | update (E : Option (Dict String V)) (persist : Bool) (F : Dict String V)
  /-- `refresh()`, when the file currently gives these values -/
  | refresh (file : Dict String V)

/-- The model of a history; a refresh that raises leaves the config as it was. -/
def runHistory (c : Conf V) : List (ConfEvent V) → Conf V
  | [] => c
  | .update E p F :: es => runHistory (c.update E p F) es
  | .refresh file :: es =>
    match c.refresh file with
    | .ok (c', _) => runHistory c' es
    | .error _ => runHistory c es

/-- Specification: the value most recently given to `k` by a persistent update in the
history (`acc` is the value before the history). -/
def lastPersistent (k : String) (acc : Option V) : List (ConfEvent V) → Option V
  | [] => acc
  | .update E true F :: es =>
    lastPersistent k (((F.get? k).or (E.bind (·.get? k))).or acc) es
  | .update _ false _ :: es => lastPersistent k acc es
  | .refresh _ :: es => lastPersistent k acc es

theorem applied_runHistory (es : List (ConfEvent V)) (c : Conf V) (k : String) :
    (runHistory c es).applied.get? k = lastPersistent k (c.applied.get? k) es := by
  induction es generalizing c with
  | nil => rfl
  | cons e es ih =>
    cases e with
    | update E p F =>
      rw [runHistory, ih]
      cases p
      · rfl
      · have h : (c.update E true F).applied.get? k =
            ((F.get? k).or (E.bind (·.get? k))).or (c.applied.get? k) := by
          cases E <;> simp [Conf.update, Dict.get?_update]
        rw [h]; rfl
    | refresh file =>
      simp only [runHistory, Conf.refresh]
      by_cases hc : Conf.clash Conf.updateReserved (file.update c.applied) = true
      · rw [if_pos hc]; simp only; rw [ih]; rfl
      · rw [if_neg hc]; simp only; rw [ih]; rfl

/-- C08: after any history on a freshly loaded config, a refresh succeeds unless a
reserved name is a key, and then every key has its last persistent value if there is
one, else the file's current value if the file defines it, else the value it had. -/
theorem C08_refresh_after_any_history (file0 file : Dict String V) (es : List (ConfEvent V))
    (hres : ∀ k ∈ ["self", "E", "pyfileconf_persist"],
      file.get? k = none ∧ lastPersistent k none es = none) :
    ∃ c' u, (runHistory (Conf.ofDict file0) es).refresh file = .ok (c', u) ∧
      ∀ k, c'.values.get? k =
        (lastPersistent k none es).or
          ((file.get? k).or ((runHistory (Conf.ofDict file0) es).values.get? k)) := by
  have happ : ∀ k, (runHistory (Conf.ofDict file0) es).applied.get? k = lastPersistent k none es :=
    fun k => applied_runHistory es (Conf.ofDict file0) k
  generalize runHistory (Conf.ofDict file0) es = c at happ ⊢
  have hc : Conf.clash Conf.updateReserved (file.update c.applied) = false := by
    rw [Conf.clash_eq_false_iff]
    intro k hk
    rw [← Dict.get?_eq_none_iff, Dict.get?_update, happ, (hres k hk).1, (hres k hk).2]; rfl
  refine ⟨c.update none false (file.update c.applied), file.update c.applied, ?_, ?_⟩
  · simp [Conf.refresh, hc]
  · intro k
    rw [Conf.get?_update_values, Dict.get?_update, happ]
    simp [Option.or_assoc]

/-- C08: refreshing twice in a row with an unchanged file is refreshing once. -/
theorem C08_refresh_idempotent (c : Conf V) (file : Dict String V) (c1 : Conf V) (u1 : Dict String V)
    (h : c.refresh file = .ok (c1, u1)) : c1.refresh file = .ok (c1, u1) := by
  unfold Conf.refresh at h
  by_cases hc : Conf.clash Conf.updateReserved (file.update c.applied) = true
  · simp [hc] at h
  · rw [if_neg hc] at h
    cases h
    have happ : (c.update none false (file.update c.applied)).applied = c.applied := rfl
    unfold Conf.refresh
    dsimp only
    rw [happ, if_neg hc]
    simp [Conf.update, Dict.update_self_twice]

/-- A history with a persistent and a non-persistent update, then a changed file: the
persistent value stays, the non-persistent one is replaced. -/
example :
    let es : List (ConfEvent Nat) :=
      [.update (some (Dict.ofList [("a", 10)])) true Dict.empty,
       .update none false (Dict.ofList [("b", 20), ("x", 5)])]
    (∀ k ∈ ["self", "E", "pyfileconf_persist"],
      (Dict.ofList [("a", 3), ("b", 4)]).get? k = none ∧ lastPersistent k none es = none) ∧
    (((runHistory (Conf.ofDict (Dict.ofList [("a", 1), ("b", 2)])) es).refresh
      (Dict.ofList [("a", 3), ("b", 4)])).toOption.map (fun r => r.1.values.items))
      = some [("a", 10), ("b", 4), ("x", 5)] := by decide

/-! ## C09 -/

/-- C09: the announced dictionary is non-empty iff `refresh` changes the value of an
existing key, and a non-empty announcement is exactly the dictionary `refresh` applies
and returns.  (That announcing does not alter the config is visible in its type: it
returns only the dictionary.) -/
theorem C09_announced_change_is_made [DecidableEq V] (c c' : Conf V) (file u : Dict String V)
    (h : c.refresh file = .ok (c', u)) :
    (c.changeFromRefresh file ≠ Dict.empty ↔
      ∃ k ∈ c.values.keys, c'.values.get? k ≠ c.values.get? k) ∧
    (c.changeFromRefresh file ≠ Dict.empty → c.changeFromRefresh file = u) ∧
    (∀ k, c'.values.get? k = (u.get? k).or (c.values.get? k)) := by
  unfold Conf.refresh at h
  by_cases hc : Conf.clash Conf.updateReserved (file.update c.applied) = true
  · simp [hc] at h
  · rw [if_neg hc] at h
    cases h
    have hw := C07_would_update_iff_changes c (some (file.update c.applied)) Dict.empty false
    have hupd : (c.update (some (file.update c.applied)) false Dict.empty)
        = c.update none false (file.update c.applied) := rfl
    rw [hupd] at hw
    refine ⟨?_, ?_, ?_⟩
    · rw [← hw]
      unfold Conf.changeFromRefresh
      by_cases hwu : c.wouldUpdate (some (file.update c.applied)) Dict.empty = true
      · simp only [hwu, if_true, iff_true]
        intro hemp
        obtain ⟨k, v, w, h1, _, _⟩ := (Conf.wouldUpdate_iff _ _ _).1 hwu
        simp [hemp] at h1
      · simp [hwu]
    · unfold Conf.changeFromRefresh
      dsimp only
      split
      · intro _; rfl
      · intro hh; exact absurd rfl hh
    · intro k
      rw [Conf.get?_update_values]; simp

example :
    let c : Conf Nat := (Conf.ofDict (Dict.ofList [("a", 1), ("b", 2)])).update none true (Dict.ofList [("a", 5)])
    (c.changeFromRefresh (Dict.ofList [("a", 1), ("b", 3)])).items = [("a", 5), ("b", 3)] ∧
    (c.changeFromRefresh (Dict.ofList [("a", 7), ("b", 2)])) = Dict.empty := by decide

/-! ## C57 -/

/-- C57 (partial). Reading a name as an attribute of a config fails exactly for the names that are
not keys, and then with an attribute error.  Full property: for keys the result is the value. -/
theorem C57_attribute_partial (c : Conf V) (x : String) :
    (c.values.get? x = none → c.getattr x = .error .attributeError) ∧
    (c.values.get? x ≠ none → ∃ r, c.getattr x = .ok r) := by
  unfold Conf.getattr
  cases c.values.get? x <;> simp

/-- C57 fails for every key of every config: the result is `None`, not the value. -/
theorem C57_attribute_violated (c : Conf V) (x : String) (v : V) (h : c.values.get? x = some v) :
    c.getattr x = .ok none ∧ c.getattr x ≠ .ok (some v) := by
  unfold Conf.getattr
  rw [h]
  simp

example : (Conf.ofDict (Dict.ofList [("a", 1)])).getattr "a" = .ok none := rfl

end Verif.Props

import Verif.Props.Stale
import Verif.Props.Typo

/-
Property theorems about names followed from a selector while a manager is not loaded: C87.
-/

namespace Verif.Props
open Verif.Py Verif.Model

variable {V : Type}

/-! ### Lemmas -/

theorem contains_known {w : SelWorld V} {s : Selr} {path x : String} {b : Bool} {m : String} {q : List String}
    (hp : (SectionPath.mk path).sections = m :: q) (h : w.contains s (path ++ "." ++ x) = .ok b) :
    ∃ k mgr, AList.get? (w.dictAt s.dict) m = some k ∧ w.managers[k]? = some mgr := by
  have hs : (SectionPath.mk (path ++ "." ++ x)).sections = m :: (q ++ split '.' x) := by
    show split '.' (path ++ "." ++ x) = _
    rw [split_dot_append]
    show (SectionPath.mk path).sections ++ _ = _
    rw [hp]
    rfl
  unfold SelWorld.contains at h
  rw [hs] at h
  unfold SelWorld.collectionFor at h
  simp only at h
  cases hd : AList.get? (w.dictAt s.dict) m with
  | none => rw [hd] at h; cases h
  | some k =>
    cases hm : w.managers[k]? with
    | none =>
      have : (Option.bind (some k) fun k => w.managers[k]?) = none := hm
      rw [hd, this] at h
      cases h
    | some mgr => exact ⟨k, mgr, rfl, hm⟩

/-! ## C87 -/

/-- C87 for a manager that is not loaded (again): whatever was no item when the selector was made is reported as an item that
is not found. -/
theorem C87_not_loaded (w : SelWorld V) (s : Selr) (path x m : String) (q : List String)
    (hp : (SectionPath.mk path).sections = m :: q) (hc : w.contains s (path ++ "." ++ x) = .ok false) (k : Nat)
    (hk : AList.get? w.active m = some k) (hl : (w.managers[k]?).bind ManagerObj.loaded = none) :
    w.readName s path x = .error .itemNotFound := by
  obtain ⟨k', _, hk', _⟩ := contains_known hp hc
  unfold SelWorld.readName
  rw [hc]
  simp only
  rw [hp]
  simp only
  rw [hk]
  simp only
  rw [hl]
  simp only
  unfold SelWorld.notLoadedOrTypo
  rw [hk']
  rfl

/-- The exception that says that a manager is not loaded is never raised, whatever was done with managers and selectors. -/
theorem C87_not_loaded_violated (w : SelWorld V) (s : Selr) (path x : String) :
    w.readName s path x ≠ .error .notLoaded := by
  intro h
  unfold SelWorld.readName at h
  split at h
  · cases h
  · cases h
  · next hc =>
    split at h
    · cases h
    · next m q hp =>
      split at h
      · cases h
      · split at h
        · obtain ⟨k', _, hk', _⟩ := contains_known hp hc
          unfold SelWorld.notLoadedOrTypo at h
          rw [hk'] at h
          cases h
        · cases h

/-- A manager that was loaded, and one of the same name that is not. -/
def remade : SelWorld Nat := SelWorld.start.after
  [.make "m" [], .load 0 (.coll false [("f", .item selCallable)]) (fun _ => .coll true []), .make "m" []]

/-- For a selector made after the load, what was registered is still there; anything else is not found. -/
example : remade.readName ⟨0, [("m", 0)]⟩ "m" "f" = .ok (.view "m.f") ∧
    remade.readName ⟨0, [("m", 0)]⟩ "m" "typo" = .error .itemNotFound := by
  refine ⟨?_, ?_⟩ <;> decide +kernel

end Verif.Props

import Verif.Props.Store
import Verif.Lemmas.Tree

/-
Property theorems about which file configures an item: C53.
-/

namespace Verif.Props
open Verif.Py Verif.Model

variable {V : Type}

/-- C53 (missing: the paths for which it fails, see `C53_named_like_section_violated` and
`C53_reserved_name_violated`, and names shared by a file and a folder): after loading, the
section path of every config file leads to that file, and the item's own configuration is
what that file gives. -/
theorem C53_own_file_partial (fs : Files V) (rootName : String) (s : CM V) (h : CM.load fs rootName = .ok s)
    (p : List String) (hp : fs.tree.HasItem p) (hplain : PlainPath rootName p)
    (hres : NotReserved managerReserved p) :
    ConfigItem s p ∧ ownConfig s p = (fs.read (.item p)).map (Conf.ofFile (.item p)) := by
  have hw : s.walk p = .ok (.file (.item p)) ∧ s.fs = fs ∧ s.rootName = rootName := by
    unfold CM.load at h
    cases hf : fromFiles fs [] fs.tree with
    | error e => rw [hf] at h; cases h
    | ok root =>
      rw [hf] at h
      cases h
      refine ⟨?_, rfl, rfl⟩
      have := fromFiles_item hp managerReserved rootName [] root hf hplain hres
      simpa [CM.walk] using this
  obtain ⟨hw, hfs, hrn⟩ := hw
  refine ⟨⟨?_, by rw [hrn]; exact hplain, .inr ⟨_, hw⟩⟩, ?_⟩
  · intro hnil
    subst hnil
    generalize fs.tree = t at hp
    cases hp
  · unfold ownConfig
    rw [hw, hfs]
    simp only [Files.load]
    cases fs.read (.item p) <;> rfl

example : demoFiles.tree.HasItem ["main", "data", "func"] ∧ PlainPath "defaults" ["main", "data", "func"] ∧
    NotReserved managerReserved ["main", "data", "func"] :=
  ⟨.there (t := .mk true [] [("data", .mk true ["func", "noargs"] [])]) (by simp) (by simp)
    (.there (t := .mk true ["func", "noargs"] []) (by simp) (by simp) (.here (by simp) (by simp))),
    by decide, by decide⟩

/-- `main/section.py`: `a = 1`; `main/main.py`: `a = 2`; `main/items.py`: `a = 3`. -/
def clashFiles : Files Nat where
  read
    | .sect ["main"] => .ok (Dict.ofList [("a", 1)])
    | .item ["main", "main"] => .ok (Dict.ofList [("a", 2)])
    | .item ["main", "items"] => .ok (Dict.ofList [("a", 3)])
    | .item _ => .error .osError
    | .sect _ => .error .osError
  tree := .mk false [] [("main", .mk true ["main", "items"] [])]

theorem clash_hasItem : clashFiles.tree.HasItem ["main", "main"] ∧ clashFiles.tree.HasItem ["main", "items"] :=
  ⟨.there (t := .mk true ["main", "items"] []) (by simp) (by simp) (.here (by simp) (by simp)),
   .there (t := .mk true ["main", "items"] []) (by simp) (by simp) (.here (by simp) (by simp))⟩

/-- C53 fails for an item named like the section that directly contains it, when that section
has a configuration: the item gets the section's values and its own file is never read. -/
theorem C53_named_like_section_violated :
    ∃ (fs : Files Nat) (rootName : String) (s : CM Nat) (p : List String) (c : Conf Nat),
      CM.load fs rootName = .ok s ∧ fs.tree.HasItem p ∧ fs.read (.item p) = .ok (Dict.ofList [("a", 2)]) ∧
      (CMM.get p s).1 = .ok (some c) ∧ c.values.get? "a" = some 1 := by
  refine ⟨clashFiles, "defaults", _, ["main", "main"], _, rfl, clash_hasItem.1, rfl, rfl, ?_⟩
  rfl

/-- C53. A load reads no item's file: every item found is a file still to be read, and it is the
item's own file. -/
theorem C53_read_on_use (fs : Files V) (rootName : String) (s : CM V) (h : CM.load fs rootName = .ok s)
    (p : List String) (hp : PlainPath rootName p) :
    (∀ c, s.walk p ≠ .ok (.conf c)) ∧ (∀ l, s.walk p = .ok (.file l) → l = .item p) ∧
    (∀ c attrs map, s.walk p = .ok (.sect (some c) attrs map) → c.file = some (.sect p)) ∧
    s.localConf.values = Dict.empty ∧ s.localConf.file = none := by
  have hn : s.rootName = rootName := by
    unfold CM.load at h
    cases hf : fromFiles fs [] fs.tree with
    | error e => rw [hf] at h; cases h
    | ok root => rw [hf] at h; cases h; rfl
  have hl : s.localConf.values = Dict.empty := by
    unfold CM.load at h
    cases hf : fromFiles fs [] fs.tree with
    | error e => rw [hf] at h; cases h
    | ok root => rw [hf] at h; cases h; rfl
  have ho := CM.load_ownFiles h
  have hp' : PlainPath s.view.rootName p := by
    show PlainPath s.rootName p
    rw [hn]; exact hp
  refine ⟨fun c hw => ?_, fun l hw => ?_, fun c attrs map hw => ?_, hl, ho.localConf⟩
  · apply CM.load_not_conf h hp c
    unfold CM.walk at hw
    simp only [CM.view, Node.slot, hw, Node.slotOf]
  · refine ho.file p l ?_ hp'
    unfold CM.walk at hw
    simp only [CM.view, Node.slot, hw, Node.slotOf]
  · refine ho.sect p c ?_ hp'
    unfold CM.walk at hw
    simp only [CM.view, Node.slot, hw, Node.slotOf]

example : demo.walk ["main", "data", "func"] = .ok (.file (.item ["main", "data", "func"])) := rfl

/-- C53 fails for an item whose name is an attribute that sections have anyway: it cannot be
looked up. -/
theorem C53_reserved_name_violated :
    ∃ (fs : Files Nat) (rootName : String) (s : CM Nat) (p : List String),
      CM.load fs rootName = .ok s ∧ fs.tree.HasItem p ∧ fs.read (.item p) = .ok (Dict.ofList [("a", 3)]) ∧
      (CMM.get p s).1 = .error .valueError :=
  ⟨clashFiles, "defaults", _, ["main", "items"], rfl, clash_hasItem.2, rfl, rfl⟩

/-- C53 for sections (missing: the paths for which it fails, and files that raise a `ValueError`, see
`C53_section_ignored_violated`): after loading, the config of every section is what its own `section.py` gives; a section without
that file has none. -/
theorem C53_section_partial (fs : Files V) (rootName : String) (s : CM V) (h : CM.load fs rootName = .ok s)
    (p : List String) (b : Bool) (hp : fs.tree.HasFolder p b) (hplain : PlainPath rootName p)
    (hres : NotReserved managerReserved p) (hv : b = true → fs.read (.sect p) ≠ .error .valueError) :
    ∃ cfg attrs map, s.walk p = .ok (.sect cfg attrs map) ∧
      (b = true → ∃ d, fs.read (.sect p) = .ok d ∧ cfg = some (Conf.ofFile (.sect p) d)) ∧ (b = false → cfg = none) := by
  unfold CM.load at h
  cases hf : fromFiles fs [] fs.tree with
  | error e => rw [hf] at h; cases h
  | ok root =>
    rw [hf] at h
    cases h
    obtain ⟨cfg, attrs, map, h1, h2⟩ := fromFiles_folder hp managerReserved rootName [] root hf hplain hres
    refine ⟨cfg, attrs, map, h1, ?_, ?_⟩
    · rintro rfl
      have hv := hv rfl
      unfold sectionConfig Files.load at h2
      rw [if_pos rfl, List.nil_append] at h2
      cases hr : fs.read (.sect p) with
      | ok d => rw [hr] at h2; cases h2; exact ⟨d, rfl, rfl⟩
      | error e =>
        rw [hr] at h2 hv
        cases e <;> first | exact absurd rfl hv | cases h2
    · rintro rfl
      cases h2
      rfl

example : demoFiles.tree.HasFolder ["main", "data"] true :=
  .there (t := .mk true [] [("data", .mk true ["func", "noargs"] [])]) (by simp) (by simp)
    (.there (t := .mk true ["func", "noargs"] []) (by simp) (by simp) .here)

/-- C53: a load fails only because the file of a section fails, with its exception. -/
theorem C53_load_fails (fs : Files V) (rootName : String) (e : PyErr) (h : CM.load fs rootName = .error e) :
    ∃ p, fs.read (.sect p) = .error e ∧ e ≠ .valueError := by
  unfold CM.load at h
  cases hf : fromFiles fs [] fs.tree with
  | ok root => rw [hf] at h; cases h
  | error e' =>
    rw [hf] at h
    cases h
    obtain ⟨q, h1, h2⟩ := fromFiles_error _ _ _ hf
    refine ⟨q, ?_, h2⟩
    rw [List.nil_append] at h1
    unfold Files.load at h1
    cases hr : fs.read (.sect q) with
    | ok d => rw [hr] at h1; cases h1
    | error e' => rw [hr] at h1; cases h1; rfl

example : ∃ e, CM.load (V := Nat) ⟨fun _ => .error .keyError, .mk true [] []⟩ "defaults" = .error e := ⟨_, rfl⟩

/-- C53 fails for a section whose file raises a `ValueError`: the project is loaded without an error, and the section has no
configuration. -/
theorem C53_section_ignored_violated (fs : Files V) (rootName : String) (s : CM V) (h : CM.load fs rootName = .ok s)
    (p : List String) (hp : fs.tree.HasFolder p true) (hplain : PlainPath rootName p)
    (hres : NotReserved managerReserved p) (hv : fs.read (.sect p) = .error .valueError) :
    ∃ attrs map, s.walk p = .ok (.sect none attrs map) := by
  unfold CM.load at h
  cases hf : fromFiles fs [] fs.tree with
  | error e => rw [hf] at h; cases h
  | ok root =>
    rw [hf] at h
    cases h
    obtain ⟨cfg, attrs, map, h1, h2⟩ := fromFiles_folder hp managerReserved rootName [] root hf hplain hres
    unfold sectionConfig Files.load at h2
    rw [if_pos rfl, List.nil_append, hv] at h2
    cases h2
    exact ⟨attrs, map, h1⟩

/-- A project whose only section file raises a `ValueError`. -/
example : ∃ (fs : Files Nat) (s : CM Nat), CM.load fs "defaults" = .ok s ∧ fs.tree.HasFolder ["main"] true ∧
    fs.read (.sect ["main"]) = .error .valueError :=
  ⟨⟨fun _ => .error .valueError, .mk false [] [("main", .mk true [] [])]⟩, _, rfl,
    .there (t := .mk true [] []) (by simp) (by simp) .here, rfl⟩

end Verif.Props

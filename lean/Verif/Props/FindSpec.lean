import Verif.Model.FindSpec

/-
Property theorems about finding the file of a module: C71.
-/

namespace Verif.Props
open Verif.Py Verif.Model

/-! ### Specification -/

/-- The module that `import name` gives after python's description of the import system: a module that is loaded is taken;
otherwise the packages around it are imported, and it is looked for where the package around it says, at the top level in
`sys.path`.  Importing a package is taken not to change where its modules are. -/
inductive Imports (imp : Importer) : List String → Spec → Prop
  | loaded (name : List String) (spec : Spec) : imp.modules name = some (.module (some spec)) → name ≠ [] →
      Imports imp name spec
  | top (last : String) (spec : Spec) : imp.modules [last] = none → imp.finder [last] none = .ok (some spec) →
      Imports imp [last] spec
  | sub (last : String) (before : List String) (parent : Spec) (locations : List String) (spec : Spec) : before ≠ [] →
      imp.modules (last :: before) = none → Imports imp before parent → parent.locations = some locations →
      imp.finder (last :: before) (some locations) = .ok (some spec) → Imports imp (last :: before) spec

/-- All modules around the name that can be found are packages. -/
def InPackages (imp : Importer) (name : List String) : Prop :=
  ∀ before spec, before <:+ name → before ≠ name → Imports imp before spec → spec.locations.isSome = true

/-! ### Lemmas -/

theorem findSpec_loaded (imp : Importer) (last : String) (before : List String) (l : SysEntry)
    (h : imp.modules (last :: before) = some l) : findSpec imp (last :: before) = l.spec := by
  cases before with
  | nil => rw [findSpec]; simp only [h]
  | cons b bs => rw [findSpec]; simp only [h]

theorem findSpec_of_imports (imp : Importer) (name : List String) (spec : Spec) (h : Imports imp name spec) :
    findSpec imp name = .ok (some spec) := by
  induction h with
  | loaded name spec h hn =>
    cases name with
    | nil => exact absurd rfl hn
    | cons last before => rw [findSpec_loaded imp last before _ h]; rfl
  | top last spec h hf => rw [findSpec]; simp only [h]; exact hf
  | sub last before parent locations spec hb h _ hl hf ih =>
    cases before with
    | nil => exact absurd rfl hb
    | cons b bs =>
      rw [findSpec]
      simp only [h, ih, bind, Except.bind, hl]
      exact hf

theorem imports_of_findSpec (imp : Importer) (name : List String) (spec : Spec) (hp : InPackages imp name)
    (h : findSpec imp name = .ok (some spec)) : Imports imp name spec := by
  induction name generalizing spec with
  | nil => rw [findSpec] at h; cases h
  | cons last before ih =>
    cases hm : imp.modules (last :: before) with
    | some l =>
      rw [findSpec_loaded imp last before _ hm] at h
      cases l with
      | forbidden => cases h
      | unset => cases h
      | module s =>
        cases s with
        | none => cases h
        | some s => cases h; exact .loaded _ _ hm (by simp)
    | none =>
      cases before with
      | nil =>
        rw [findSpec] at h
        simp only [hm] at h
        exact .top last spec hm h
      | cons b bs =>
        rw [findSpec] at h
        simp only [hm, bind, Except.bind] at h
        cases hf : findSpec imp (b :: bs) with
        | error e => simp [hf] at h
        | ok r =>
          cases r with
          | none => simp [hf] at h
          | some parent =>
            simp only [hf] at h
            have hpar : Imports imp (b :: bs) parent := by
              refine ih parent (fun p s hps hne his => ?_) hf
              refine hp p s (hps.trans (List.suffix_cons _ _)) (fun he => ?_) his
              have hlen := hps.length_le
              rw [he] at hlen
              simp at hlen
              omega
            have hloc := hp (b :: bs) parent (List.suffix_cons _ _) (by
              intro he
              have := congrArg List.length he
              simp at this) hpar
            obtain ⟨ls, hls⟩ := Option.isSome_iff_exists.1 hloc
            rw [hls] at h
            exact .sub last (b :: bs) parent ls spec (by simp) hm hpar hls h

/-! ### Theorems -/

/-- C71: if the import gives a module with a file, this file is found. -/
theorem C71_found (imp : Importer) (name : List String) (spec : Spec) (h : Imports imp name spec)
    (hl : spec.hasLocation = true) : moduleFile imp name = .ok spec.origin := by
  unfold moduleFile
  simp only [findSpec_of_imports imp name spec h, bind, Except.bind, hl]
  rfl

/-- C71: if a file is found and all modules around it are packages, the import gives the module in this file. -/
theorem C71_sound_partial (imp : Importer) (name : List String) (hp : InPackages imp name) (file : Option String)
    (h : moduleFile imp name = .ok file) : ∃ spec, Imports imp name spec ∧ spec.hasLocation = true ∧ spec.origin = file := by
  unfold moduleFile at h
  simp only [bind, Except.bind] at h
  cases hf : findSpec imp name with
  | error e => simp [hf] at h
  | ok r =>
    cases r with
    | none => simp [hf] at h
    | some spec =>
      simp only [hf] at h
      by_cases hl : spec.hasLocation = true
      · simp only [hl, if_true] at h
        cases h
        exact ⟨spec, imports_of_findSpec imp name spec hp hf, hl, rfl⟩
      · simp [hl] at h

/-- C71: an import that fails, or gives a module without a file, is an error. -/
theorem C71_error_partial (imp : Importer) (name : List String) (hp : InPackages imp name)
    (h : ∀ spec, Imports imp name spec → spec.hasLocation = false) : ∃ e, moduleFile imp name = .error e := by
  cases hm : moduleFile imp name with
  | error e => exact ⟨e, rfl⟩
  | ok file =>
    obtain ⟨spec, h1, h2, _⟩ := C71_sound_partial imp name hp file hm
    rw [h spec h1] at h2
    cases h2

/-- The folder of a package on disk, by the parts of its name, the last one first. -/
inductive PackageAt (disk : String → String → Option DiskEntry) (sysPath : List String) : List String → String → Prop
  | top (x folder : String) : sysPath.find? (fun f => (disk f x).isSome) = some folder → disk folder x = some .package →
      PackageAt disk sysPath [x] (folder ++ "/" ++ x)
  | sub (x : String) (before : List String) (folder : String) : PackageAt disk sysPath before folder →
      disk folder x = some .package → PackageAt disk sysPath (x :: before) (folder ++ "/" ++ x)

theorem findSpec_package (disk : String → String → Option DiskEntry) (sysPath : List String) (name : List String) (folder : String)
    (h : PackageAt disk sysPath name folder) :
    findSpec ⟨fun _ => none, pathFinder disk sysPath⟩ name = .ok (some ⟨some (folder ++ "/__init__.py"), true, some [folder]⟩) := by
  induction h with
  | top x folder hf hd => simp only [findSpec, pathFinder, Option.getD_none, hf, hd]
  | sub x before folder hp hd ih =>
    cases before with
    | nil => cases hp
    | cons b bs =>
      rw [findSpec]
      simp only [ih, bind, Except.bind, pathFinder, Option.getD_some, List.find?_cons, hd, Option.isSome_some]

/-- C71 for modules on disk, none of them loaded: a module in a package, or in the first folder of `sys.path` that has it, is found
in its file there; the file of a package is its `__init__.py`. -/
theorem C71_disk (disk : String → String → Option DiskEntry) (sysPath : List String) (last : String) (before : List String)
    (folder : String) (e : DiskEntry)
    (h : (before = [] ∧ sysPath.find? (fun f => (disk f last).isSome) = some folder) ∨ PackageAt disk sysPath before folder)
    (hd : disk folder last = some e) :
    moduleFile ⟨fun _ => none, pathFinder disk sysPath⟩ (last :: before) =
      .ok (some (match e with
        | .file => folder ++ "/" ++ last ++ ".py"
        | .package => folder ++ "/" ++ last ++ "/__init__.py")) := by
  have key : findSpec ⟨fun _ => none, pathFinder disk sysPath⟩ (last :: before) =
      .ok (some (match e with
        | .file => ⟨some (folder ++ "/" ++ last ++ ".py"), true, none⟩
        | .package => ⟨some (folder ++ "/" ++ last ++ "/__init__.py"), true, some [folder ++ "/" ++ last]⟩)) := by
    rcases h with ⟨rfl, hf⟩ | h
    · cases e <;> simp only [findSpec, pathFinder, Option.getD_none, hf, hd]
    · cases before with
      | nil => cases h
      | cons b bs =>
        rw [findSpec]
        simp only [findSpec_package disk sysPath _ _ h, bind, Except.bind, pathFinder, Option.getD_some, List.find?_cons, hd,
          Option.isSome_some]
        cases e <;> rfl
  unfold moduleFile
  simp only [key, bind, Except.bind]
  cases e <;> rfl

/-- C71: what the import may not load, and what no finder finds, is an `AttributeError` (and not an `ImportError`). -/
theorem C71_missing (imp : Importer) (last : String) (before : List String)
    (h : imp.modules (last :: before) = some .forbidden ∨
      (imp.modules (last :: before) = none ∧ ((before = [] ∧ imp.finder [last] none = .ok none) ∨
        ∃ parent, findSpec imp before = .ok (some parent) ∧ imp.finder (last :: before) parent.locations = .ok none))) :
    moduleFile imp (last :: before) = .error .attributeError := by
  have key : findSpec imp (last :: before) = .ok none := by
    rcases h with h | ⟨h, ⟨rfl, hf⟩ | ⟨parent, hp, hf⟩⟩
    · rw [findSpec_loaded imp last before _ h]; rfl
    · rw [findSpec]; simp only [h, hf]
    · cases before with
      | nil => rw [findSpec] at hp; cases hp
      | cons b bs => rw [findSpec]; simp only [h, hp, bind, Except.bind, hf]
  unfold moduleFile
  simp only [key, bind, Except.bind]

/-- C71 fails in a module that is no package: `import a.b` fails for a module `a`, but for every disk with a module `b` at the top
level this one is found. -/
theorem C71_no_package_violated (disk : String → String → Option DiskEntry) (sysPath : List String) (a b fa fb : String)
    (ha : sysPath.find? (fun folder => (disk folder a).isSome) = some fa) (hda : disk fa a = some .file)
    (hb : sysPath.find? (fun folder => (disk folder b).isSome) = some fb) (hdb : disk fb b = some .file) :
    moduleFile ⟨fun _ => none, pathFinder disk sysPath⟩ [b, a] = .ok (some (fb ++ "/" ++ b ++ ".py")) ∧
    ∀ spec, ¬ Imports ⟨fun _ => none, pathFinder disk sysPath⟩ [b, a] spec := by
  have hpa : pathFinder disk sysPath [a] none = .ok (some ⟨some (fa ++ "/" ++ a ++ ".py"), true, none⟩) := by
    simp only [pathFinder, Option.getD_none, ha, hda]
  constructor
  · have hpb : pathFinder disk sysPath [b, a] none = .ok (some ⟨some (fb ++ "/" ++ b ++ ".py"), true, none⟩) := by
      simp only [pathFinder, Option.getD_none, hb, hdb]
    simp only [moduleFile, findSpec, hpa, hpb, bind, Except.bind]
    rfl
  · intro spec h
    cases h with
    | loaded _ _ h _ => cases h
    | sub _ _ parent locations _ _ _ hpar hl _ =>
      have := findSpec_of_imports _ _ _ hpar
      rw [findSpec] at this
      simp only [hpa] at this
      cases this
      cases hl

/-- C71 fails for what is loaded without a `__spec__`, such as a script that is run: there is no file for it. -/
theorem C71_main_violated (imp : Importer) (name : List String) (hn : name ≠ [])
    (h : imp.modules name = some (.module none) ∨ imp.modules name = some .unset) :
    moduleFile imp name = .error .valueError := by
  cases name with
  | nil => exact absurd rfl hn
  | cons last before =>
    unfold moduleFile
    rcases h with h | h <;> rw [findSpec_loaded imp last before _ h] <;> rfl

/-- A disk with a package `p` that has a module `m`, and nothing loaded. -/
def toyImporter : Importer :=
  ⟨fun _ => none, pathFinder (fun folder name =>
    if folder = "/x" ∧ name = "p" then some .package else if folder = "/x/p" ∧ name = "m" then some .file else none) ["/w", "/x"]⟩

example : PackageAt (fun folder name =>
    if folder = "/x" ∧ name = "p" then some .package else if folder = "/x/p" ∧ name = "m" then some .file else none) ["/w", "/x"]
    ["p"] "/x/p" := .top "p" "/x" (by decide +kernel) (by decide +kernel)

example : toyImporter.modules ["q"] = none ∧ toyImporter.finder ["q"] none = .ok none := by decide +kernel

example : Imports toyImporter ["m", "p"] ⟨some "/x/p/m.py", true, none⟩ ∧ InPackages toyImporter ["m", "p"] := by
  have h1 : toyImporter.finder ["p"] none = .ok (some ⟨some "/x/p/__init__.py", true, some ["/x/p"]⟩) := by decide +kernel
  have h2 : toyImporter.finder ["m", "p"] (some ["/x/p"]) = .ok (some ⟨some "/x/p/m.py", true, none⟩) := by decide +kernel
  have hp : Imports toyImporter ["p"] ⟨some "/x/p/__init__.py", true, some ["/x/p"]⟩ := .top _ _ rfl h1
  refine ⟨.sub _ _ _ _ _ (by simp) rfl hp rfl h2, ?_⟩
  intro before spec hs hne hi
  have : before = ["p"] ∨ before = [] := by
    rcases List.suffix_cons_iff.1 hs with h | h
    · exact absurd h hne
    · rcases List.suffix_cons_iff.1 h with h | h
      · exact .inl h
      · exact .inr (List.suffix_nil.1 h)
  rcases this with rfl | rfl
  · have a := findSpec_of_imports _ _ _ hi
    rw [findSpec_of_imports _ _ _ hp] at a
    cases a
    rfl
  · cases hi with
    | loaded _ _ _ h => exact absurd rfl h

end Verif.Props

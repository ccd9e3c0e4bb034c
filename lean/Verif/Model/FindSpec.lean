import Verif.Model.SectionPath

/-
Model of finding the file of a module without importing it: `pyfileconf/imports/logic/load/ext_importlib.py`.

Simplifications: a dotted name is the list of its parts, the last one first.  Names that begin with a dot are not modelled: reading an
import drops the dots (`pyfileconf/imports/models/statements/obj.py:53-70`, C44).  `importlib._bootstrap._find_spec` is a
parameter; `pathFinder` is what it does for modules on disk.
-/

namespace Verif.Model
open Verif.Py

/-- `ModuleSpec`: where the module is, whether this is a file that can be loaded, and for packages where its modules are. -/
structure Spec where
  origin : Option String
  hasLocation : Bool
  locations : Option (List String)
deriving DecidableEq, Repr

/-- What `sys.modules` has for a name. -/
inductive SysEntry where
  /-- `None`, which forbids to import it -/
  | forbidden
  /-- A module without `__spec__` -/
  | unset
  /-- A module with its `__spec__`, which may be `None` -/
  | module (spec : Option Spec)
deriving DecidableEq, Repr

/-- `sys.modules` and `_find_spec`, both by the parts of the name, the last one first. -/
structure Importer where
  modules : List String → Option SysEntry
  finder : List String → Option (List String) → Except PyErr (Option Spec)

/-- The `__spec__` of what `sys.modules` has (ext_importlib.py:43-53). -/
def SysEntry.spec : SysEntry → Except PyErr (Option Spec)
  | .forbidden => .ok none
  | .unset => .error .valueError
  | .module none => .error .valueError
  | .module (some spec) => .ok (some spec)

/-- `find_spec` (ext_importlib.py:14-53). -/
def findSpec (imp : Importer) : List String → Except PyErr (Option Spec)
  | [] => .ok none
  | [last] =>
    match imp.modules [last] with
    | some loaded => loaded.spec
    | none => imp.finder [last] none
  | last :: b :: bs =>
    match imp.modules (last :: b :: bs) with
    | some loaded => loaded.spec
    | none => do
      match ← findSpec imp (b :: bs) with
      | none => .error .attributeError
      | some parent => imp.finder (last :: b :: bs) parent.locations

/-- `get_filepath_from_module_str` (ext_importlib.py:7-12). -/
def moduleFile (imp : Importer) (name : List String) : Except PyErr (Option String) := do
  match ← findSpec imp name with
  | none => .error .attributeError
  | some spec => if spec.hasLocation then return spec.origin else .error .valueError

/-- What is in a folder under a name: a module, or a package (a folder with `__init__.py`). -/
inductive DiskEntry where
  | file
  | package
deriving DecidableEq, Repr

/-- `PathFinder.find_spec` of `importlib` for a disk on which each folder has the given modules and packages: the first of the
folders, by default those of `sys.path`, that has the last part of the name. -/
def pathFinder (disk : String → String → Option DiskEntry) (sysPath : List String) (name : List String)
    (path : Option (List String)) : Except PyErr (Option Spec) :=
  match name with
  | [] => .ok none
  | last :: _ =>
    match (path.getD sysPath).find? (fun folder => (disk folder last).isSome) with
    | none => .ok none
    | some folder =>
      match disk folder last with
      | none => .ok none
      | some .file => .ok (some ⟨some (folder ++ "/" ++ last ++ ".py"), true, none⟩)
      | some .package =>
        .ok (some ⟨some (folder ++ "/" ++ last ++ "/__init__.py"), true, some [folder ++ "/" ++ last]⟩)

end Verif.Model

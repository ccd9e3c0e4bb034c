import Verif.Model.SectionPath

/-
Model of import statements and their containers (`pyfileconf/imports/models/statements/*.py`,
`pyfileconf/basemodels/container.py`).

Not modelled: comments of import statements (`comment.py`), which no code creates: statements read
from files have none.  Equality of import statements (`EqOnAttrsMixin`) compares the renames by
identity and is therefore never true for two statements of which the subset test of
`ImportStatementContainer.__contains__` is not true as well; it is left out there.
-/

namespace Verif.Model
open Verif.Py

/-- `sep.join(xs)` for a separator of any length. -/
def joinS (sep : String) : List String → String
  | [] => ""
  | [x] => x
  | x :: y :: xs => x ++ sep ++ joinS sep (y :: xs)

/-- An import statement as Python reads it: `ast.Import` and `ast.ImportFrom`, each with its aliases
(name and the name after `as`).  `from_ module level aliases` has no module for `from . import x`. -/
inductive ImportNode where
  | import_ (aliases : List (String × Option String))
  | from_ (module : Option String) (level : Nat) (aliases : List (String × Option String))
deriving DecidableEq, Repr

/-- `RenameStatement` (rename.py:12-32). -/
structure Rename where
  item : String
  newName : String
deriving DecidableEq, Repr

/-- `ModuleImportStatement` (module.py:15-29) if `source` is `none`, else `ObjectImportStatement` of
that module (obj.py:14-29).  `names` are its `modules` or `objs`. -/
structure Imp where
  source : Option String
  names : List String
  renames : List Rename
  preferBeginning : Bool
deriving DecidableEq, Repr

/-- `RenameStatementCollection.from_ast_import` (rename.py:75-85). -/
def renamesOf (aliases : List (String × Option String)) : List Rename :=
  aliases.filterMap (fun a => a.2.map (fun n => ⟨a.1, n⟩))

/-- `ModuleImportStatement.from_ast_import` (module.py:54-67) and
`ObjectImportStatement.from_ast_import_from` (obj.py:53-70).  The level of a relative import is not
looked at. -/
def Imp.ofNode : ImportNode → Except PyErr Imp
  | .import_ aliases => .ok ⟨none, aliases.map Prod.fst, renamesOf aliases, false⟩
  | .from_ none _ _ => .error .importError
  | .from_ (some m) _ aliases => .ok ⟨some m, aliases.map Prod.fst, renamesOf aliases, false⟩

/-- `self.renames[item]` (rename.py:48-49, 63-65): the last rename of the name. -/
def lastRename (renames : List Rename) (name : String) : Option Rename :=
  (renames.filter (fun r => decide (r.item = name))).getLast?

/-- One entry of `_renamed` (importbase.py:25-32): a name, renamed if there is a rename of it. -/
def renamedName (renames : List Rename) (name : String) : String :=
  match lastRename renames name with
  | some r => r.item ++ " as " ++ r.newName
  | none => name

/-- `__str__` (module.py:31-38, obj.py:31-38). -/
def Imp.str (i : Imp) : String :=
  let names := joinS ", " (i.names.map (renamedName i.renames))
  match i.source with
  | none => "import " ++ names
  | some m => "from " ++ m ++ " import " ++ names

/-- The subset test in `ImportStatementContainer.__contains__` (container.py:36-51): statements of
the same sort, from the same module, all names and all renames there. -/
def Imp.covers (i item : Imp) : Bool :=
  decide (i.source = item.source) && item.names.all (fun n => decide (n ∈ i.names)) &&
    item.renames.all (fun r => decide (r ∈ i.renames))

/-- `ImportStatementContainer.__contains__` (container.py:24-55). -/
def hasImport (is : List Imp) (item : Imp) : Bool := is.any (fun i => i.covers item)

/-- `Container.add_if_missing` (basemodels/container.py:40-54). -/
def addImport (is : List Imp) (item : Imp) : List Imp :=
  if hasImport is item then is
  else if item.preferBeginning then item :: is
  else is ++ [item]

/-- `ImportStatementContainer.__str__` (container.py:57-58). -/
def importsStr (is : List Imp) : String := joinS "\n" (is.map Imp.str)

/-- `rename_statement.new_name` of all renames (rename.py:55-57). -/
def newNames (renames : List Rename) : List String := renames.map Rename.newName

/-- `reverse_name_map` (rename.py:67-69): of several renames to the same name, the last. -/
def originalOf (renames : List Rename) (name : String) : String :=
  match (renames.filter (fun r => decide (r.newName = name))).getLast? with
  | some r => r.item
  | none => name

/-- The loop of `get_import_for_module_or_obj_name` (container.py:97-140), which never returns
`None`. -/
def getImport : List Imp → String → Except PyErr Imp
  | [], _ => .error .importError
  | i :: is, name =>
    if name ∈ i.names then .ok ⟨i.source, [name], [], false⟩
    else if name ∈ newNames i.renames then
      .ok ⟨i.source, [originalOf i.renames name], i.renames.filter (fun r => decide (r.newName = name)), false⟩
    else getImport is name

/-- `obj_name_is_imported` (container.py:60-86). -/
def objNameImported (is : List Imp) (name : String) : Bool :=
  let parts := split '.' name
  let module : Option String := if parts.length ≠ 1 then some (join '.' parts.dropLast) else none
  let obj := parts.getLastD name
  is.any (fun i => match i.source with
    | none => match module with
      | none => false
      | some m => decide (m ∈ i.names) || decide (m ∈ newNames i.renames)
    | some _ => decide (obj ∈ i.names) || decide (obj ∈ newNames i.renames))

end Verif.Model

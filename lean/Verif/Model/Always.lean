import Verif.Model.Files

/-
Model of the imports and assignments a specific class asks for: `always_import_strs` and
`always_assign_strs` of its dictionary (`pyfileconf/interfaces.py:15-16`), read by
`pyfileconf/data/models/file.py` and `from_str` of the statements
(`pyfileconf/imports/models/statements/{obj,module}.py`, `pyfileconf/assignments/models/statement.py`).

Simplifications: those of `Files`; the strings are parsed by their lines as files are.
-/

namespace Verif.Model
open Verif.Py

/-- What is given for `always_import_strs` or `always_assign_strs`: nothing, a list, or another sequence
(a tuple). -/
inductive Strs where
  | missing
  | list (xs : List String)
  | tuple (xs : List String)
deriving DecidableEq, Repr

/-- `_extract_single_import_from_container` (io/file/load/parsers/imp.py:50-58). -/
def singleImport (is : List Imp) : Except PyErr (Option Imp) :=
  match is with
  | [] => .ok none
  | [i] => .ok (some i)
  | _ => .error .valueError

/-- `extract_imports_from_ast(ast.parse(import_str))` (imp.py:31-34, obj.py:44, module.py:45). -/
def importsOfStr (lang : Lang) (s : String) : Except PyErr (List Imp) := do
  let m ← lang.parse (readLines s)
  m.imports.mapM Imp.ofNode

/-- `ObjectImportStatement.from_str` (imports/models/statements/obj.py:40-51) with the check of the type
(imp.py:36-41, 60-68): `none` is an `ExtractedIncorrectTypeOfImportException`. -/
def objectImportOfStr (lang : Lang) (s : String) : Except PyErr (Option Imp) := do
  let is ← importsOfStr lang s
  match ← singleImport is with
  | none => throw .importError
  | some i => match i.source with
    | some _ => return some { i with preferBeginning := false }
    | none => return none

/-- `ModuleImportStatement.from_str` (imports/models/statements/module.py:40-52) with the check of the type
(imp.py:43-48, 60-68). -/
def moduleImportOfStr (lang : Lang) (s : String) : Except PyErr Imp := do
  let is ← importsOfStr lang s
  match ← singleImport is with
  | none => throw .importError
  | some i => match i.source with
    | some _ => throw .importError
    | none => return { i with preferBeginning := false }

/-- The body of the loop over the import strings (data/models/file.py:39-43). -/
def importOfStr (lang : Lang) (s : String) : Except PyErr Imp := do
  match ← objectImportOfStr lang s with
  | some i => return i
  | none => moduleImportOfStr lang s

/-- `AssignmentStatement.from_str` (assignments/models/statement.py:132-142) without position, and
`extract_assignment_from_ast` (io/file/load/parsers/assign.py:33-43). -/
def assignOfStr (lang : Lang) (s : String) : Except PyErr Assign := do
  let m ← lang.parse (readLines s)
  let as ← m.assigns.mapM Assign.ofNode
  match as with
  | [] => throw .valueError
  | [a] => return { a with preferBeginning := false, origStr := some s }
  | _ => throw .valueError

/-- The two tests on the strings (data/models/file.py:37-47, 49-53): what is read from them, or `none` if
the attribute of the class is used.  An empty sequence is false, but equal to `[]` only if it is a list. -/
def Strs.read {α : Type} (f : String → Except PyErr α) : Strs → Except PyErr (Option (List α))
  | .missing => .ok none
  | .list xs => (xs.mapM f).map some
  | .tuple [] => .ok none
  | .tuple (x :: xs) => ((x :: xs).mapM f).map some

/-- `SpecificClassConfigFile.__init__` (data/models/file.py:26-53). -/
def classFile (lang : Lang) (imports assigns : Strs) : Except PyErr Template := do
  let is ← imports.read (importOfStr lang)
  let as ← assigns.read (assignOfStr lang)
  return classTemplate is as

/-- `SpecificClassCollection._output_config_file` (data/models/collection.py:55-104) from the strings of the
class.  The config file class is made from them several times, each time with the same result, first in
`SpecificClassConfig.__init__` (data/models/config.py:21-27); nothing is written before. -/
def scaffoldAsked (lang : Lang) (imports assigns : Strs) (name keyAttr nameExpr : String) (defaults : Cfg)
    (content : Option String) : Except PyErr String := do
  let _ ← loadFile lang content
  let t ← classFile lang imports assigns
  scaffoldObject lang t name keyAttr nameExpr defaults content

end Verif.Model

import Verif.Model.Definition

/-
Model of reading a definition file: finding the assignment of `pipeline_dict` or `class_dict`
(`pyfileconf/io/file/load/parsers/assign.py`, `pyfileconf/io/file/load/lazy/pipelineast.py`,
`pyfileconf/io/file/load/lazy/dataast.py`) and making dictionaries and lists of it
(`pyfileconf/io/file/load/parsers/collections.py`, `pyfileconf/io/file/load/lazy/pipeline.py`,
`pyfileconf/io/file/load/lazy/datadict.py`).

Simplifications: the file can be parsed and its imports can be read (`Verif/Model/Imports.lean`).  A key of a dictionary that
is no string has no attribute `s` (from Python 3.8 on this holds for names and `**`, but not for numbers).
-/

namespace Verif.Model
open Verif.Py

variable {V : Type}

/-- An expression of a file.  `dict` has `none` for a key that is no string, or for `**`; `other` is any expression with the
expressions in it, in the order in which they are visited. -/
inductive DExpr where
  | dict (es : List (Option String × DExpr))
  | list (xs : List DExpr)
  | str (s : String)
  | name (id : String)
  | other (parts : List DExpr)

/-- `ast.Assign` and `ast.AnnAssign`; a target that is no name (an attribute, an element, a tuple) is `none`. -/
inductive DAssign where
  | assign (targets : List (Option String)) (value : DExpr)
  | ann (target : Option String) (annotation : DExpr) (value : Option DExpr)

/-- A statement: an assignment, or a statement with statements in it (a function, a class, an `if`, …). -/
inductive DStmt where
  | assign (a : DAssign)
  | block (body : List DStmt)
  | other

mutual
/-- The assignments a visitor finds (assign.py:9-31): also those in functions and classes. -/
def DStmt.assigns : DStmt → List DAssign
  | .assign a => [a]
  | .block body => DStmt.allAssigns body
  | .other => []
/-- The same for statements one after the other. -/
def DStmt.allAssigns : List DStmt → List DAssign
  | [] => []
  | s :: rest => s.assigns ++ DStmt.allAssigns rest
end

/-- `AssignmentStatement.from_ast_assign` (statement.py:59-84): an assignment with several targets is not supported. -/
def DAssign.check : DAssign → Except PyErr Unit
  | .assign [_] _ => .ok ()
  | .assign _ _ => .error .notImplemented
  | .ann _ _ _ => .ok ()

/-- `extract_assignments_from_ast` (assign.py:28-31), as far as it can fail. -/
def checkAll : List DAssign → Except PyErr Unit
  | [] => .ok ()
  | a :: rest => do
    a.check
    checkAll rest

/-- `AssignmentByVarnameExtractor` (assign.py:45-58): whether an assignment is to the name; a target that is no name has no
`id`. -/
def DAssign.isTo (x : String) : DAssign → Except PyErr Bool
  | .assign targets _ => if targets.any Option.isNone then .error .attributeError else .ok (decide (some x ∈ targets))
  | .ann none _ _ => .error .attributeError
  | .ann (some y) _ _ => .ok (decide (y = x))

/-- `extract_assignments_from_ast_by_name` (assign.py:61-64). -/
def assignsTo (x : String) : List DAssign → Except PyErr (List DAssign)
  | [] => .ok []
  | a :: rest => do
    let b ← a.isTo x
    if b then a.check else pure ()
    let others ← assignsTo x rest
    return if b then a :: others else others

/-- `extract_assignment_from_ast_by_name` (assign.py:66-76). -/
def assignTo (x : String) (as : List DAssign) : Except PyErr (Option DAssign) := do
  match ← assignsTo x as with
  | [] => return none
  | [a] => return some a
  | _ => .error .valueError

mutual
/-- `_ast_dict_or_list_to_dict_or_list` and `_convert_to_str_if_ast_str_and_desired` (collections.py:56-62, 90-97); strings are
converted for specific classes. -/
def DExpr.convert (specific : Bool) : DExpr → Except PyErr (Def Leaf)
  | .dict es => do return .dict (← convertEntries specific [] es)
  | .list xs => do return .list (← convertItems specific xs)
  | .str s => .ok (.leaf (if specific then .str s else .other))
  | .name id => .ok (.leaf (.name id))
  | .other _ => .ok (.leaf .other)
/-- `_ast_dict_to_dict` (collections.py:65-76); `acc` is `out_dict`. -/
def convertEntries (specific : Bool) (acc : List (String × Def Leaf)) :
    List (Option String × DExpr) → Except PyErr (List (String × Def Leaf))
  | [] => .ok acc
  | (none, _) :: _ => .error .attributeError
  | (some k, e) :: rest => do
    let d ← e.convert specific
    convertEntries specific (AList.set acc k d) rest
/-- `_ast_list_to_list` (collections.py:79-88). -/
def convertItems (specific : Bool) : List DExpr → Except PyErr (List (Def Leaf))
  | [] => .ok []
  | e :: rest => do
    let d ← e.convert specific
    let ds ← convertItems specific rest
    return d :: ds
end

mutual
/-- `extract_collections_from_ast` (collections.py:9-41): the outermost dictionaries and lists of an expression. -/
def DExpr.collections (specific : Bool) : DExpr → Except PyErr (List (Def Leaf))
  | .dict es => do return [← (DExpr.dict es).convert specific]
  | .list xs => do return [← (DExpr.list xs).convert specific]
  | .str _ => .ok []
  | .name _ => .ok []
  | .other parts => allCollections specific parts
/-- The same for expressions one after the other. -/
def allCollections (specific : Bool) : List DExpr → Except PyErr (List (Def Leaf))
  | [] => .ok []
  | e :: rest => do
    let ds ← e.collections specific
    let others ← allCollections specific rest
    return ds ++ others
end

/-- The expressions of an assignment, in the order in which they are visited. -/
def DAssign.parts : DAssign → List DExpr
  | .assign _ v => [v]
  | .ann _ a v => a :: v.toList

/-- `extract_collection_from_ast` (collections.py:43-52). -/
def DAssign.collection (specific : Bool) (a : DAssign) : Except PyErr (Option (Def Leaf)) := do
  match ← allCollections specific a.parts with
  | [] => return none
  | [d] => return some d
  | _ => .error .valueError

/-- The name that a definition is assigned to (pipelineast.py:16, dataast.py:15). -/
def definitionName (specific : Bool) : String := if specific then "class_dict" else "pipeline_dict"

/-- `PipelineDictLoader.load` (pipeline.py:6-13, 19-30, pipelineast.py:9-18) and `SpecificClassDictLoader.load`
(datadict.py:6-13, 19-28, dataast.py:9-15), with `ImportAssignmentLazyLoader.register` (impassign.py:11-21).  `none` is a file
that does not exist, and the result `none` is `None`.  For a specific class, `None` is visited, or asked for `to_ast`. -/
def readDefinition (specific : Bool) (file : Option (List DStmt)) : Except PyErr (Option (Def Leaf)) := do
  match file with
  | none => if specific then .error .attributeError else return some (.dict [])
  | some stmts =>
    checkAll (DStmt.allAssigns stmts)
    match ← assignTo (definitionName specific) (DStmt.allAssigns stmts) with
    | none => if specific then .error .attributeError else return some (.dict [])
    | some a => a.collection specific

/-- The collection made of it (registrar.py:44-59, collection.py:100-107): `None` and lists have no `items`. -/
def loadDefinition (resolve : Leaf → Except PyErr (String × Callable V)) (specific : Bool) (file : Option (List DStmt)) :
    Except PyErr (Reg V) := do
  match ← readDefinition specific file with
  | some (.dict es) => Reg.fromDefinition resolve specific es
  | _ => .error .attributeError

end Verif.Model

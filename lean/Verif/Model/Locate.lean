import Verif.Model.Args

/-
Model of finding the definition of a function or class (`pyfileconf/io/func/load/args.py`,
`pyfileconf/io/file/load/parsers/funcdef.py`), of finding the module an object is in (`pyfileconf/imports/logic/load/name.py`)
and of the objects that entries of definitions stand for (`pyfileconf/views/object.py`,
`pyfileconf/io/file/load/parsers/extname.py`).

Simplifications: of a module, its statements are modelled, with the statements in them; compound statements (`if`, `for`,
`try`, `with`, …) are not told apart.  The file of a module, or the exception when it is looked for or parsed, is a
parameter.
-/

namespace Verif.Model
open Verif.Py

/-! ### Finding definitions -/

/-- A statement of a module, as far as it is looked at. -/
inductive PyStmt where
  | func (name : String) (args : Arguments) (body : List PyStmt)
  | async (name : String) (body : List PyStmt)
  | cls (name : String) (body : List PyStmt)
  | block (body : List PyStmt)
  | imp (node : ImportNode)
  | assign (node : AssignNode)
  | other

mutual
/-- `FunctionDefinitionOrClassInitByNameExtractor` (funcdef.py:7-18, 26-34, 52-62): the definitions it collects, each with
its name.  It does not go into functions, but into everything else it has no method for, such as `async` functions. -/
def defsIn (x : String) : PyStmt → List (String × Arguments)
  | .func n a _ => if n = x then [(n, a)] else []
  | .async _ body => defsInAll x body
  | .cls n body => if n = x then defsInAll "__init__" body else []
  | .block body => defsInAll x body
  | .imp _ => []
  | .assign _ => []
  | .other => []
/-- The same for statements one after the other. -/
def defsInAll (x : String) : List PyStmt → List (String × Arguments)
  | [] => []
  | s :: rest => defsIn x s ++ defsInAll x rest
end

/-- `extract_function_definition_or_class_init_from_ast_by_name` (funcdef.py:70-79). -/
def findDef (stmts : List PyStmt) (x : String) : Except PyErr (Option (String × Arguments)) :=
  match defsInAll x stmts with
  | [] => .ok none
  | [d] => .ok (some d)
  | _ => .error .valueError

mutual
/-- `ImportExtractor` (parsers/imp.py:16-29): all import statements, also those in functions and classes. -/
def importsIn : PyStmt → List ImportNode
  | .func _ _ body => importsInAll body
  | .async _ body => importsInAll body
  | .cls _ body => importsInAll body
  | .block body => importsInAll body
  | .imp node => [node]
  | .assign _ => []
  | .other => []
/-- The same for statements one after the other. -/
def importsInAll : List PyStmt → List ImportNode
  | [] => []
  | s :: rest => importsIn s ++ importsInAll rest
end

mutual
/-- `AssignmentExtractor` (parsers/assign.py:9-25): all assignments, also those in functions and classes. -/
def assignsIn : PyStmt → List AssignNode
  | .func _ _ body => assignsInAll body
  | .async _ body => assignsInAll body
  | .cls _ body => assignsInAll body
  | .block body => assignsInAll body
  | .imp _ => []
  | .assign node => [node]
  | .other => []
/-- The same for statements one after the other. -/
def assignsInAll : List PyStmt → List AssignNode
  | [] => []
  | s :: rest => assignsIn s ++ assignsInAll rest
end

/-- The file of a module: where `find_spec` finds it (ext_importlib.py), parsed. -/
abbrev ModuleFiles := String → Except PyErr (List PyStmt)

/-- `get_module_filepath_from_import` (args.py:100-117), with the file read and parsed.  Of a module import, the files of all
its modules are looked for. -/
def fileOfImport (files : ModuleFiles) (imp : Imp) : Except PyErr (List PyStmt) :=
  match imp.source with
  | some m => files m
  | none => do
    let all ← imp.names.mapM files
    match all with
    | [] => .error .indexError
    | f :: _ => .ok f

/-- `imp.module` (obj.py:26, module.py:75-80). -/
def moduleOfImport (imp : Imp) : Except PyErr String :=
  match imp.source, imp.names with
  | some m, _ => .ok m
  | none, [] => .error .indexError
  | none, [m] => .ok m
  | none, _ => .error .valueError

/-- A definition that was found: the module, the name (`__init__` for a class), the parameters, and the imports and
assignments of the file. -/
structure FoundDef where
  module : String
  name : String
  args : Arguments
  imports : List Imp
  assigns : List Assign

/-- `extract_function_args_and_arg_imports_from_import` (args.py:35-95) up to the point where the definition was found.
Following imports around in a circle ends with a `RecursionError`.  Relative imports are read without their dots
(`Imp.ofNode`), so that `resolve_name` (args.py:89) is never called.  The module of the import is asked for here, in the
code only after `self` was deleted (args.py:69-77): for an `__init__` without parameters that comes with an import of
several modules this is a `ValueError`, in the code an `IndexError`. -/
def extractDef (files : ModuleFiles) : Nat → String → Imp → Except PyErr FoundDef
  | 0, _, _ => .error .recursion
  | n + 1, name, imp => do
    let stmts ← fileOfImport files imp
    let x := if name ∈ newNames imp.renames then originalOf imp.renames name else name
    let imports ← (importsInAll stmts).mapM Imp.ofNode
    let assigns ← (assignsInAll stmts).mapM Assign.ofNode
    match ← findDef stmts x with
    | some d => do
      let m ← moduleOfImport imp
      return ⟨m, d.1, d.2, imports, assigns⟩
    | none => do
      let next ← getImport imports x
      extractDef files n x next

/-- `FunctionConfigExtractor.extract_config` (io/func/load/config.py:8-20) of an object view (args.py:26-33). -/
def configOfView (files : ModuleFiles) (fuel : Nat) (setList : List String → List String) (builtin : String → Bool)
    (annSrc : Ann → Expr) (name : String) (imp : Imp) : Except PyErr Cfg := do
  let d ← extractDef files fuel name imp
  functionCfg setList builtin annSrc (decide (d.name = "__init__")) d.args d.imports d.assigns d.module

/-! ### Finding the module of an object -/

/-- A loaded module: its name in `sys.modules`, and for every name in `dir(module)` the object, or what `getattr` raises.
Objects are numbered. -/
structure LoadedModule where
  name : String
  attrs : List (String × Except PyErr Nat)

/-- `_obj_in_module` (name.py:102-114). -/
def objInModule (obj : Nat) : List (String × Except PyErr Nat) → Except PyErr Bool
  | [] => .ok false
  | (_, .ok o) :: rest => if o = obj then .ok true else objInModule obj rest
  | (_, .error .attributeError) :: rest => objInModule obj rest
  | (_, .error e) :: _ => .error e

/-- `skip_modules` (skipmodules.py:2-4). -/
def skipModules : List String := ["six.moves"]

/-- `_should_skip_module` (name.py:120-129). -/
def shouldSkip (name : String) : Bool := skipModules.any (fun x => SectionPath.endswith ⟨name⟩ ⟨x⟩)

/-- `get_module_and_name_imported_from` (name.py:15-29), for all of `sys.modules`. -/
def moduleOfObj (obj : Nat) : List LoadedModule → Except PyErr String
  | [] => .error .importError
  | m :: rest =>
    if shouldSkip m.name then moduleOfObj obj rest
    else match objInModule obj m.attrs with
      | .error e => .error e
      | .ok true => .ok m.name
      | .ok false => moduleOfObj obj rest

/-- The import that `create` writes for a function or class with a `__name__` (main.py:443-444, 526-527). -/
def createdImport (modules : List LoadedModule) (obj : Nat) (name : String) : Except PyErr Imp := do
  let m ← moduleOfObj obj modules
  return ⟨some m, [name], [], false⟩

/-! ### Entries of definitions -/

/-- An expression in a definition, as far as it is looked at.  `call` has the positional and the keyword arguments. -/
inductive EntryExpr where
  | name (id : String)
  | attribute (value : EntryExpr) (attr : String)
  | call (f : EntryExpr) (args : List EntryExpr) (kwargs : List (String × EntryExpr))
  | str (s : String)
  | other (parts : List EntryExpr)

mutual
/-- `NameExtractor` (extname.py:5-11): all names, in the order in which they are visited. -/
def exprNames : EntryExpr → List String
  | .name id => [id]
  | .attribute v _ => exprNames v
  | .call f args kwargs => exprNames f ++ exprsNames args ++ kwargsNames kwargs
  | .str _ => []
  | .other parts => exprsNames parts
/-- The same for expressions one after the other. -/
def exprsNames : List EntryExpr → List String
  | [] => []
  | e :: rest => exprNames e ++ exprsNames rest
/-- The same for keyword arguments. -/
def kwargsNames : List (String × EntryExpr) → List String
  | [] => []
  | (_, e) :: rest => exprNames e ++ kwargsNames rest
end

/-- `extract_external_name_from_assign_value` (extname.py:14-45). -/
def externalName (e : EntryExpr) : Except PyErr (Option String) :=
  match exprNames e with
  | [] => .ok none
  | [x] => .ok (some x)
  | _ => .error .valueError

/-- `ObjectView` (views/object.py:15-25): the name of the entry and its import. -/
structure ObjView where
  name : Option String
  imp : Option Imp
deriving DecidableEq, Repr

/-- `ObjectView.from_ast_and_imports` (views/object.py:54-63) with `get_import_for_ast_obj` (container.py:88-95); `_set_name`
(views/object.py:79-85) without `DataPipeline`. -/
def viewOfEntry (imports : List Imp) (e : EntryExpr) : Except PyErr ObjView := do
  match ← externalName e with
  | none => return ⟨none, none⟩
  | some x => do
    let i ← getImport imports x
    return ⟨some x, some i⟩

/-- The modules that can be imported, with their attributes. -/
abbrev Importable := String → Except PyErr (List (String × Nat))

/-- `getattr(module, name)` -/
def moduleAttr (attrs : List (String × Nat)) (x : String) : Except PyErr Nat :=
  match AList.get? attrs x with
  | some o => .ok o
  | none => .error .attributeError

/-- `ObjectView.load` (views/object.py:24-29) with `_execute_import_get_obj_from_result` (91-103).  Without an import there is
no item, and `self._item` is an `AttributeError`. -/
def ObjView.load (importable : Importable) (v : ObjView) : Except PyErr Nat :=
  match v.imp, v.name with
  | some i, some x =>
    match i.source, i.names with
    | some m, y :: _ => do
      let attrs ← importable m
      moduleAttr attrs y
    | none, m :: _ => do
      let attrs ← importable m
      moduleAttr attrs x
    | _, [] => .error .indexError
  | _, _ => .error .attributeError

end Verif.Model

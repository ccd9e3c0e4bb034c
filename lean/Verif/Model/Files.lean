import Verif.Py.Dict
import Verif.Model.Imports

/-
Model of reading and writing config files: `pyfileconf/io/file/load/lazy/*.py`,
`pyfileconf/config/logic/load.py`, `pyfileconf/assignments/models/*.py`,
`pyfileconf/io/file/write/*.py`, `pyfileconf/basemodels/file.py` and `config.py` (`to_file`),
`pyfileconf/pipelines/models/collection.py` and `pyfileconf/data/models/collection.py`
(`_output_config_file`).

Simplifications: an AST of an expression is identified with the source that `astor` prints for it
(the code compares expressions by that source only).  Python's parser and `astor` are parameters
(`Lang`); a text is parsed by its lines, which ignores whether the last line is terminated, as the
parser does.  A file is read in text mode with universal newlines: contents here have `\n` only.
-/

namespace Verif.Model
open Verif.Py

/-- An expression, as the source that `astor` prints for it. -/
abbrev Expr := String

/-- What is assigned to: a name, an attribute, or anything else (subscripts, tuples). -/
inductive Target where
  | name (id : String)
  | attribute (src : String)
  | other (src : String)
deriving DecidableEq, Repr

/-- `ast.Assign` and `ast.AnnAssign`. -/
inductive AssignNode where
  | assign (targets : List Target) (value : Expr)
  | ann (target : Target) (annotation : Expr) (value : Option Expr)
deriving DecidableEq, Repr

/-- What the visitors find in the syntax tree of a file (parsers/imp.py:15-35,
parsers/assign.py:9-25), in the order in which they visit; they visit the bodies of functions,
classes and compound statements too. -/
structure Mod where
  imports : List ImportNode
  assigns : List AssignNode
deriving DecidableEq, Repr

/-- The contents of two pieces of source one after the other. -/
def Mod.append (a b : Mod) : Mod := ⟨a.imports ++ b.imports, a.assigns ++ b.assigns⟩

/-- Python's parser on the lines of a text, and `astor` on an assignment (target, annotation,
value): the lines it prints. -/
structure Lang where
  parse : List String → Except PyErr Mod
  source : Target → Option Expr → Option Expr → List String

/-! ### Assignment statements -/

/-- `AssignmentStatement` (statement.py:12-27).  `origStr` is set for one created by `from_str`
(statement.py:132-142). -/
structure Assign where
  target : Target
  value : Option Expr
  annotation : Option Expr
  preferBeginning : Bool
  origStr : Option String
deriving DecidableEq, Repr

/-- `varname` (statement.py:18): the source of a target that is no name ends in a newline. -/
def Target.varname : Target → String
  | .name id => id
  | .attribute src => src ++ "\n"
  | .other src => src ++ "\n"

/-- `AssignmentStatement.from_ast_assign` (statement.py:59-84). -/
def Assign.ofNode : AssignNode → Except PyErr Assign
  | .assign [] _ => .error .indexError
  | .assign [t] v => .ok ⟨t, some v, none, false, none⟩
  | .assign (_ :: _ :: _) _ => .error .notImplemented
  | .ann t a v => .ok ⟨t, v, some a, false, none⟩

/-- `AssignmentStatement.__str__` (statement.py:28-35). -/
def Assign.str (lang : Lang) (a : Assign) : String :=
  match a.origStr with
  | some s => s
  | none => (lang.source a.target a.annotation a.value).foldl (fun acc l => acc ++ l ++ "\n") ""

/-- `AssignmentStatementContainer.__str__` (assignments/models/container.py:14-15). -/
def assignsStr (lang : Lang) (as : List Assign) : String :=
  as.foldl (fun acc a => acc ++ a.str lang) ""

/-- `contains_varname` (container.py:17-18). -/
def containsVarname (as : List Assign) (x : String) : Bool := as.any (fun a => decide (a.target.varname = x))

/-- `AssignmentStatement.__eq__` (statement.py:38-55).  Simplification: statements without a value (`x: int`) are equal if they have the
same name; in Python this is up to what `astor` makes of a missing value. -/
def Assign.same (a b : Assign) : Bool :=
  decide (a.target.varname = b.target.varname) && decide (a.value = b.value)

/-- `append_if_missing` (basemodels/container.py:56-58). -/
def appendAssign (as : List Assign) (a : Assign) : List Assign :=
  if as.any (fun b => b.same a) then as else as ++ [a]

/-- `to_default_dict_and_annotation_dict` of one statement (statement.py:86-109). -/
def Assign.toDefault (a : Assign) : Except PyErr (List (String × Option Expr) × List (String × Expr)) :=
  match a.target with
  | .name id => .ok ([(id, a.value)], (a.annotation.map (fun e => (id, e))).toList)
  | .attribute _ => match a.annotation with
    | none => .ok ([], [])
    | some _ => .error .attributeError
  | .other _ => .error .notImplemented

/-- `to_default_dict_and_annotation_dict` of a container (container.py:20-28). -/
def defaultsFrom : List Assign → Dict String (Option Expr) → Dict String Expr →
    Except PyErr (Dict String (Option Expr) × Dict String Expr)
  | [], d, ann => .ok (d, ann)
  | a :: as, d, ann => do
    let (x, y) ← a.toDefault
    defaultsFrom as (d.setAll x) (ann.setAll y)

/-! ### Reading a file -/

/-- `f.readlines()` (parsers/base.py:8-12) with `line.strip('\n')` (load.py:28-29) applied to each
line. -/
def readLines (text : String) : List String :=
  let ps := split '\n' text
  if ps.getLast? = some "" then ps.dropLast else ps

/-- `sub in s` for strings. -/
def hasSub (sub : List Char) : List Char → Bool
  | [] => sub.isEmpty
  | c :: cs => sub.isPrefixOf (c :: cs) || hasSub sub cs

/-- The characters that `str.strip()` removes. -/
def pySpace (c : Char) : Bool :=
  let n := c.toNat
  decide ((9 ≤ n ∧ n ≤ 13) ∨ (28 ≤ n ∧ n ≤ 32) ∨ n = 133 ∨ n = 160 ∨ n = 5760 ∨ (8192 ≤ n ∧ n ≤ 8202) ∨
    n = 8232 ∨ n = 8233 ∨ n = 8239 ∨ n = 8287 ∨ n = 12288)

/-- `_is_whitespace_line` (load.py:63-64). -/
def isWhitespaceLine (line : String) : Bool := line.toList.all pySpace

/-- The test of the loop (load.py:33): the line belongs to the import section. -/
def importish (line : String) : Bool := hasSub "import".toList line.toList || isWhitespaceLine line

/-- The loop of `_split_lines_into_import_and_assignment` (load.py:26-41). -/
def splitSections : List String → List String × List String
  | [] => ([], [])
  | l :: ls =>
    if importish l then (l :: (splitSections ls).1, (splitSections ls).2)
    else ([], l :: ls)

/-- A file that was read: `imports`, `assigns` and `assignment_body` of its interface
(lazy/base/impassign.py:12-28, lazy/config.py:11-40). -/
structure Loaded where
  imports : List Imp
  assigns : List Assign
  body : List String

/-- `register` and `_file_body_to_assignment_body` (lazy/base/loader.py:18-23,
lazy/base/impassign.py:12-22, lazy/config.py:28-40).  `none` is a file that does not exist. -/
def readFile (lang : Lang) : Option String → Except PyErr Loaded
  | none => .ok ⟨[], [], []⟩
  | some text => do
    let m ← lang.parse (readLines text)
    let imports ← m.imports.mapM Imp.ofNode
    let assigns ← m.assigns.mapM Assign.ofNode
    return ⟨imports, assigns, (splitSections (readLines text)).2⟩

/-- `ConfigFileLoader.load` (lazy/config.py:11-22): the file with its dictionary. -/
def loadFile (lang : Lang) (content : Option String) : Except PyErr (Loaded × Dict String (Option Expr)) := do
  let f ← readFile lang content
  let (d, _) ← defaultsFrom f.assigns .empty .empty
  return (f, d)

/-! ### Writing a file -/

/-- A config about to be written: the dictionary, the annotations and the imports
(basemodels/config.py:22-51). -/
structure Cfg where
  values : Dict String (Option Expr)
  annotations : Dict String Expr
  imports : List Imp

/-- The class attributes of a config file class (basemodels/file.py:18-25): what is always imported
and always assigned, the latter also depending on the name of the item. -/
structure Template where
  alwaysImports : List Imp
  alwaysAssigns : List Assign
  named : List (String × List Assign)

/-- `_add_always_imports_and_assigns_to_config` (basemodels/file.py:75-104): the config and the
assignments for the beginning. -/
def addAlways (t : Template) (name : String) (cfg : Cfg) : Except PyErr (Cfg × List Assign) := do
  let imports := t.alwaysImports.foldl addImport cfg.imports
  let always := t.alwaysAssigns ++ (AList.get? t.named name).getD []
  let begins := always.filter (fun a => a.preferBeginning)
  let (d, ann) ← defaultsFrom (always.filter (fun a => !a.preferBeginning)) .empty .empty
  let newValues := d.filterKeys (fun k => !cfg.values.contains k)
  let newAnnotations := ann.filterKeys (fun k => !cfg.annotations.contains k)
  return (⟨cfg.values.update newValues, cfg.annotations.update newAnnotations, imports⟩, begins)

/-- `AssignmentStatementContainer.from_dict_of_varnames_and_ast` (container.py:30-57) for the items
of a config. -/
def assignsOf (cfg : Cfg) : List Assign :=
  cfg.values.items.map (fun e => ⟨.name e.1, e.2, cfg.annotations.get? e.1, false, none⟩)

/-- The loop over the new assignments (write/base.py:67-75): to the beginning, to the end. -/
def newAssigns (existing : List Assign) : List Assign → List Assign × List Assign → List Assign × List Assign
  | [], acc => acc
  | a :: as, (b, e) =>
    if containsVarname existing a.target.varname then newAssigns existing as (b, e)
    else if a.preferBeginning then newAssigns existing as (appendAssign b a, e)
    else newAssigns existing as (b, appendAssign e a)

/-- The text that `FileStr._create_str` puts together (write/base.py:44-52). -/
def fileText (lang : Lang) (imports : List Imp) (begins : List Assign) (body : List String) (ends : List Assign) :
    String :=
  joinS "\n" ([importsStr imports ++ "\n", assignsStr lang begins, join '\n' body, assignsStr lang ends].filter
    (fun s => decide (s ≠ "")))

/-- `FileStr._create_str` (write/base.py:28-52) with `_combine_imports_get_new_assignments`
(write/base.py:57-77). -/
def createText (lang : Lang) (f : Loaded) (cfg : Cfg) (begins : List Assign) : String :=
  let imports := cfg.imports.foldl addImport f.imports
  let (b, e) := newAssigns f.assigns (begins ++ assignsOf cfg) ([], [])
  fileText lang imports b f.body e

/-- `ConfigBase.to_file` (basemodels/config.py:76-94) for a config that was not read from a file,
`ConfigFileBase.save` (basemodels/file.py:71-73) and `ConfigFileInterface.save`
(io/file/interfaces/config.py:10-18): the new content of the file.  The file is opened for writing
after the text was put together; if that fails it stays as it was. -/
def toFile (lang : Lang) (t : Template) (name : String) (cfg : Cfg) (content : Option String) : Except PyErr String := do
  let (f, _) ← loadFile lang content
  let (cfg, begins) ← addAlways t name cfg
  return createText lang f cfg begins

/-! ### Scaffolding -/

/-- `from pyfileconf import Selector` (pipelines/models/file.py:16-18, data/models/file.py:17-19). -/
def selectorImport : Imp := ⟨some "pyfileconf", ["Selector"], [], true⟩

/-- `s = Selector()` (pipelines/models/file.py:21-23, data/models/file.py:22-24). -/
def selectorAssign : Assign := ⟨.name "s", some "Selector()", none, true, some "s = Selector()"⟩

/-- `FunctionConfigFile` (pyfileconf/pipelines/models/file.py:10-30). -/
def functionTemplate : Template where
  alwaysImports := [selectorImport]
  alwaysAssigns := [selectorAssign]
  named := [("DataPipeline", [⟨.name "cleanup_kwargs", some "dict()", none, false, some "cleanup_kwargs = dict(\n    \n)"⟩])]

/-- `_should_replace_cleanup_kwargs` and the `pop` (pipelines/models/file.py:36-49).  The source of a
missing value (`cleanup_kwargs: dict` in a file) is not `None`. -/
def dropCleanup (name : String) (cfg : Cfg) : Cfg :=
  if name = "DataPipeline" ∧ cfg.values.get? "cleanup_kwargs" = some (some "None") then
    { cfg with values := cfg.values.del "cleanup_kwargs" }
  else cfg

/-- `PipelineCollection._output_config_file` (pipelines/models/collection.py:43-63): `defaults` is the
config made from the arguments of the function (`item.default_config`), `name` is the name of the
function. -/
def scaffoldFunction (lang : Lang) (name : String) (defaults : Cfg) (content : Option String) : Except PyErr String := do
  let existing ← match content with
    | some _ => do
      let (_, d) ← loadFile lang content
      pure d
    | none => pure .empty
  let item := { defaults with values := defaults.values.update existing }
  toFile lang functionTemplate name (dropCleanup name item) content

/-- `SpecificClassConfigFile.__init__` (data/models/file.py:26-53) for the already parsed strings. -/
def classTemplate (imports : Option (List Imp)) (assigns : Option (List Assign)) : Template where
  alwaysImports := imports.getD [selectorImport]
  alwaysAssigns := assigns.getD [selectorAssign]
  named := []

/-- `SpecificClassCollection._output_config_file` (data/models/collection.py:55-104): `defaults` is made
from the arguments of `__init__`, with the name of the item under the key attribute. -/
def scaffoldObject (lang : Lang) (t : Template) (name keyAttr nameExpr : String) (defaults : Cfg) (content : Option String) :
    Except PyErr String := do
  let existing ← match content with
    | some _ => do
      let (f, _) ← loadFile lang content
      pure f.imports
    | none => pure []
  let item : Cfg := ⟨defaults.values.set keyAttr (some nameExpr), defaults.annotations, existing ++ defaults.imports⟩
  toFile lang t name item content

/-- `_output_section_config_file` (pipelines/models/collection.py:65-76). -/
def scaffoldSection : Option String → String
  | some text => text
  | none => "\n"

end Verif.Model

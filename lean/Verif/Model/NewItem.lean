import Verif.Model.Args
import Verif.Model.LoadConfig
import Verif.Model.Runner

/-
Model of what happens to a function that is new in the definition: its parameters are taken from its source, its config file is
scaffolded, the file is executed when the manager loads, and the function is called with the values.  The parts are modelled in
`Verif/Model/Args.lean`, `Verif/Model/Files.lean`, `Verif/Model/LoadConfig.lean` and `Verif/Model/Runner.lean`; here they are put
together as `PipelineManager._load_pipeline_config_and_runner` does (main.py:545-568).

Classes in the definition and objects of specific classes are here too: of both, the parameters are those of `__init__` without the
first, and of an object the key attribute has its name as its value.

Simplifications: what Python makes of a text is a parameter (`stmts`), as are the parser and printer (`lang`).  The value of an
expression depends on the values of names only: evaluating a default once more, in the config file, gives an equal value.
-/

namespace Verif.Model
open Verif.Py

variable {V : Type}

/-- A function in its source: its name, parameters, and the imports and assignments of its module. -/
structure FunctionSource where
  name : String
  args : Arguments
  imports : List Imp
  assigns : List Assign
  module : String

/-- What the code uses: `list(set(xs))`, the types of Python itself, the source of an annotation, the parser and printer, the
statements of a text, and executing them. -/
structure Tools (V : Type) where
  setList : List String → List String
  builtin : String → Bool
  annSrc : Ann → Expr
  lang : Lang
  stmts : List String → Except PyErr (List (CStmt V))
  py : Python V

/-- The config of a function for which there was no file: scaffolding (pipelines/models/collection.py:43-63 with
views/object.py:31-33, 87-88 and io/func/load/config.py:8-20) and loading (config/models/manager.py:43-44 and config/models/section.py:72-105 with
io/file/load/active/loader.py:9-18). -/
def newConfig (t : Tools V) (f : FunctionSource) : Except PyErr (Dict String V) := do
  let cfg ← functionCfg t.setList t.builtin t.annSrc false f.args f.imports f.assigns f.module
  let text ← scaffoldFunction t.lang f.name cfg none
  let ss ← t.stmts (readLines text)
  loadConfigFile t.py (some ss)

/-- The keyword arguments the function is called with when it is run without any update (runner/models/runner.py:354-362 with
pipelines/models/config.py:24-36). -/
def newArguments (t : Tools V) (f : FunctionSource) (k : Callable V) : Except PyErr (Dict String V) := do
  let d ← newConfig t f
  RM.forFunction (Conf.ofDict d) (.item k)

/-- The config of a class in the definition for which there was no file: as that of a function, with the parameters of its
`__init__` but the first (io/func/load/args.py:66-79). -/
def newClassConfig (t : Tools V) (f : FunctionSource) : Except PyErr (Dict String V) := do
  let cfg ← functionCfg t.setList t.builtin t.annSrc true f.args f.imports f.assigns f.module
  let text ← scaffoldFunction t.lang f.name cfg none
  let ss ← t.stmts (readLines text)
  loadConfigFile t.py (some ss)

/-- The instance of the class that is run or got (runner/models/runner.py:312-327, 364-376).  `inspect.getfullargspec` of a class
gives the parameters of `__init__` with the first (imports/logic/load/func.py:5-28). -/
def newInstance (t : Tools V) (f : FunctionSource) (k : Callable V) (id : Nat) : Except PyErr (Obj V) := do
  let d ← newClassConfig t f
  let kwargs ← RM.forFunction (Conf.ofDict d) (.item k)
  RM.construct id k kwargs

/-- The config of an object of a specific class for which there was no file (data/models/collection.py:55-104), with the lines
that are put into every file as they are if none are given for the class. -/
def newObjectConfig (t : Tools V) (f : FunctionSource) (name keyAttr nameExpr : String) : Except PyErr (Dict String V) := do
  let cfg ← functionCfg t.setList t.builtin t.annSrc true f.args f.imports f.assigns f.module
  let text ← scaffoldObject t.lang (classTemplate none none) name keyAttr nameExpr cfg none
  let ss ← t.stmts (readLines text)
  loadConfigFile t.py (some ss)

/-- The object that is run or got: the one that was made when the manager loaded, updated (runner/models/runner.py:312-327,
364-376, runner/logic/apply.py). -/
def newObject (t : Tools V) (f : FunctionSource) (name keyAttr nameExpr : String) (k : Callable V) (id : Nat) :
    Except PyErr (Obj V) := do
  let d ← newObjectConfig t f name keyAttr nameExpr
  let kwargs ← RM.forFunction (Conf.ofDict d) (.item k)
  RM.construct id k kwargs

end Verif.Model

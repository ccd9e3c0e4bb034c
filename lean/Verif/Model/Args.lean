import Verif.Model.Files

/-
Model of taking the parameters of a function or class from its source: `pyfileconf/io/func/load/config.py`,
`pyfileconf/io/func/load/extractimp.py` and the part of `pyfileconf/io/func/load/args.py` after the definition was found
(66-79).

Simplifications: a default is its source together with the names that occur in it (all `ast.Name` nodes,
parsers/extname.py:5-11); annotations keep the structure the code looks at.  `list(set(xs))` is a parameter: any
order of the distinct elements.  `ast.Index` is only there before Python 3.9; afterwards the index is the node itself.
Strings are `ast.Str` (up to Python 3.11).  The warning if the numbers of names and imports differ is left out.
-/

namespace Verif.Model
open Verif.Py

/-- An annotation as `_extract_str_names_from_ambiguous_annotation` (extractimp.py:77-105) distinguishes them. -/
inductive Ann where
  | name (id : String)
  | elts (items : List Ann)
  | index (value : Ann)
  | subscript (value slice : Ann)
  | attribute (value : Ann) (attr : String)
  | str (s : String)
  | other
deriving Repr

/-- A default: its source and the names in it. -/
structure Default where
  src : Expr
  names : List String
deriving DecidableEq, Repr

/-- `ast.arg`. -/
structure Arg where
  name : String
  annotation : Option Ann
deriving Repr

/-- `ast.arguments` without `*args` and `**kwargs`, which no code looks at.  A keyword-only parameter without default
has `None` in `kw_defaults`. -/
structure Arguments where
  posonly : List Arg
  args : List Arg
  defaults : List Default
  kwonly : List Arg
  kwDefaults : List (Option Default)

/-- `ast.NameConstant(value=None)` (config.py:30). -/
def noneDefault : Default := ⟨"None", []⟩

/-- `_strip_ast_quotes_if_necessary` (config.py:63-68). -/
def Ann.unquote : Ann → Ann
  | .str s => .name s
  | a => a

/-- The loops over the arguments (config.py:33-45). -/
def addArgs : List (Arg × Option Default) → Dict String (Option Default) → Dict String Ann →
    Dict String (Option Default) × Dict String Ann
  | [], d, ann => (d, ann)
  | (a, v) :: rest, d, ann =>
    addArgs rest (d.set a.name v) (match a.annotation with
      | none => ann
      | some t => ann.set a.name t.unquote)

/-- `function_args_as_arg_and_annotation_dict` (config.py:24-46).  `kw_defaults[i]` is there for every keyword-only
parameter Python parses. -/
def argDicts (a : Arguments) : Except PyErr (Dict String (Option Default) × Dict String Ann) :=
  let all := List.replicate (a.args.length - a.defaults.length) noneDefault ++ a.defaults
  if all.length ≠ a.args.length then .error .assertionError
  else if a.kwDefaults.length < a.kwonly.length then .error .indexError
  else
    let (d, ann) := addArgs (a.args.zip (all.map some)) .empty .empty
    .ok (addArgs (a.kwonly.zip a.kwDefaults) d ann)

/-! ### Names -/

mutual
/-- `_extract_str_names_from_ambiguous_annotation` (extractimp.py:77-105) and `_extract_str_names_from_subscript`
(extractimp.py:107-117). -/
def annNames : Ann → Except PyErr (List String)
  | .name id => .ok [id]
  | .elts items => annsNames items
  | .index value => annNames value
  | .subscript value slice => do
    let x ← annNames value
    let y ← annNames slice
    return x ++ y
  | .attribute (.name id) _ => .ok [id]
  | .attribute _ _ => .error .attributeError
  | .str s => .ok [s]
  | .other => .error .notImplemented
/-- `_extract_str_names_from_tuple` (extractimp.py:119-123). -/
def annsNames : List Ann → Except PyErr (List String)
  | [] => .ok []
  | a :: as => do
    let x ← annNames a
    let y ← annsNames as
    return x ++ y
end

/-- `_unique_external_names_from_assignment_dict` (extractimp.py:58-64): a missing default has no fields to visit. -/
def defaultNames : List (String × Option Default) → Except PyErr (List String)
  | [] => .ok []
  | (_, none) :: _ => .error .attributeError
  | (_, some v) :: rest => do
    let y ← defaultNames rest
    return v.names ++ y

/-- `_unique_external_names_from_default_dict_and_annotation_dict` (extractimp.py:45-50) with
`_unique_external_names_from_annotation_dict` (extractimp.py:66-68): only the names in annotations are left out if they
are types of Python itself. -/
def externalNames (setList : List String → List String) (builtin : String → Bool) (d : Dict String (Option Default))
    (ann : Dict String Ann) : Except PyErr (List String) := do
  let x ← defaultNames d.items
  let y ← annsNames ann.values
  return setList (setList x ++ (setList y).filter (fun n => !builtin n))

/-- `extract_import_statements_from_function_args_imports_and_assigns` (extractimp.py:11-43).  `module` is the module
the function is in. -/
def argImports (setList : List String → List String) (builtin : String → Bool) (a : Arguments) (imports : List Imp)
    (assigns : List Assign) (module : String) : Except PyErr (List Imp) := do
  let (d, ann) ← argDicts a
  let names ← externalNames setList builtin d ann
  let assigned := names.filter (fun n => containsVarname assigns n)
  let imported ← names.mapM (getImport imports)
  return assigned.map (fun n => ⟨some module, [n], [], false⟩) ++ imported

/-- Taking `self` away (args.py:69-71). -/
def dropSelf (a : Arguments) : Except PyErr Arguments :=
  match a.args with
  | [] => .error .indexError
  | _ :: rest => .ok { a with args := rest }

/-- `FunctionConfigExtractor.extract_config` (config.py:8-20) for a definition that was found (args.py:66-79): `isInit` is
whether it is called `__init__`, `annSrc` the source `astor` prints for an annotation. -/
def functionCfg (setList : List String → List String) (builtin : String → Bool) (annSrc : Ann → Expr) (isInit : Bool)
    (a : Arguments) (imports : List Imp) (assigns : List Assign) (module : String) : Except PyErr Cfg := do
  let a ← if isInit then dropSelf a else pure a
  let imps ← argImports setList builtin a imports assigns module
  let (d, ann) ← argDicts a
  return ⟨⟨d.items.map (fun e => (e.1, e.2.map Default.src)), by
      rw [List.map_map]; exact d.nodup⟩,
    ⟨ann.items.map (fun e => (e.1, annSrc e.2)), by rw [List.map_map]; exact ann.nodup⟩, imps⟩

end Verif.Model

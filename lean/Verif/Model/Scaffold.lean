import Verif.Model.Project
import Verif.Model.Definition
import Verif.Model.Files

/-
Model of scaffolding a project and of creating an item: `_output_config_files` of collections
(`pyfileconf/pipelines/models/collection.py`, `pyfileconf/data/models/collection.py`), `scaffold_config` and
`scaffold_config_for` (`pyfileconf/basemodels/registrar.py`), `create_registrars` and `create` (`pyfileconf/main.py`).

Simplifications: what the text of the file of an item becomes is a parameter (`Verif/Model/Files.lean` has the two functions
of the code); so are reading a definition, formatting one by `black`, and finding a function or making an object.  None of
them changes files.  Writing a file replaces its content at once.  The `basepath` of a collection is the one of the
collection it is in, with its name (collection.py:103-104, 143-144, registrar.py:82-92).
-/

namespace Verif.Model
open Verif.Py

variable {V R L : Type}

/-! ### Collections -/

/-- What becomes of the content of the file of an item: whether it belongs to a specific class, its name, the item, and the
content so far. -/
abbrev ItemText (V : Type) := Bool → String → Callable V → Option String → Except PyErr String

/-- The content of a file, if `os.path.exists`. -/
def readIfThere (env : FsEnv) (p : String) : FM (Option String) := do
  let fs ← M.get
  if pathExists env fs p then
    match fs (env.resolve p) with
    | some (.file t) => pure (some t)
    | _ => M.raise .osError
  else pure none

/-- `_output_config_file` of an item (pipelines/models/collection.py:49-63, data/models/collection.py:60-104). -/
def outputItem (env : FsEnv) (text : ItemText V) (specific : Bool) (base name : String) (c : Callable V) : FM Unit := do
  let content ← readIfThere env (Path.join2 base (name ++ ".py"))
  let t ← M.liftE (text specific name c content)
  writeFile env (Path.join2 base (name ++ ".py")) t

/-- The folder and the section file of a collection (pipelines/models/collection.py:37-40, 65-76,
data/models/collection.py:51-53); collections of a specific class have no section file. -/
def outputSection (env : FsEnv) (specific : Bool) (base : String) : FM Unit := do
  unlessExists env base (makedirs env base)
  if specific then pure ()
  else unlessExists env (Path.join2 base "section.py") (writeFile env (Path.join2 base "section.py") "\n")

/-- The loop over the items (pipelines/models/collection.py:41, 43-49, data/models/collection.py:54-58). -/
def outputItems (env : FsEnv) (text : ItemText V) (specific : Bool) (base : String) : List (String × Reg V) → FM Unit
  | [] => pure ()
  | (x, .coll b sub) :: rest => do
    outputSection env b (Path.join2 base x)
    outputItems env text b (Path.join2 base x) sub
    outputItems env text specific base rest
  | (x, .item c) :: rest => do
    outputItem env text specific base x c
    outputItems env text specific base rest
  | (_, .other) :: _ => M.raise .valueError

/-- `_output_config_files` (pipelines/models/collection.py:35-41, data/models/collection.py:50-55). -/
def Reg.scaffold (env : FsEnv) (text : ItemText V) (base : String) : Reg V → FM Unit
  | .coll b items => do
    outputSection env b base
    outputItems env text b base items
  | _ => M.raise .attributeError

/-- `scaffold_config_for` (registrar.py:64-68): everything in the collection the item is in. -/
def Reg.scaffoldFor (env : FsEnv) (text : ItemText V) (base : String) (r : Reg V) (p : List String) : FM Unit := do
  let c ← M.liftE (r.walk registrarReserved p.dropLast)
  c.scaffold env text (p.dropLast.foldl Path.join2 base)

/-! ### Loading -/

/-- An entry of `specific_class_config_dicts`, reduced to whether its keys are there. -/
structure ClassConfig where
  name : Option String
  hasClass : Bool

/-- How definitions are read from files and resolved. -/
structure DefLang (V L : Type) where
  read : Bool → Option String → Except PyErr (List (String × Def L))
  resolve : Bool → L → Except PyErr (String × Callable V)

/-- Reading one definition and making its collection (main.py:806-807, 826-837). -/
def readRegistrar (env : FsEnv) (lang : DefLang V L) (specific : Bool) (p : String) : FM (List (String × Def L)) := do
  let content ← readIfThere env p
  M.liftE (lang.read specific content)

/-- The loop over the specific classes (main.py:810-837). -/
def readSpecific (env : FsEnv) (lang : DefLang V L) (folder : String) : List ClassConfig → FM (List (String × Reg V))
  | [] => pure []
  | c :: rest => match c.name with
    | none => M.raise .valueError
    | some name =>
      if c.hasClass = false then M.raise .valueError
      else do
        let es ← readRegistrar env lang true (Path.join2 folder (name ++ "_dict.py"))
        let r ← M.liftE (Reg.fromDefinition (lang.resolve true) true es)
        let others ← readSpecific env lang folder rest
        return (name, r) :: others

/-- `_create_registrars_or_collections_from_dict` (main.py:786-844). -/
def readRegistry (env : FsEnv) (lang : DefLang V L) (folder : String) (classes : List ClassConfig) : FM (Registry V) := do
  let es ← readRegistrar env lang false (Path.join2 folder "pipeline_dict.py")
  let specific ← readSpecific env lang folder classes
  let general ← M.liftE (Reg.fromDefinition (lang.resolve false) false es)
  return ⟨specific, general⟩

/-- `for registrar in registrars: registrar.scaffold_config()` (main.py:761-762). -/
def scaffoldSpecific (env : FsEnv) (text : ItemText V) (base : String) : List (String × Reg V) → FM Unit
  | [] => pure ()
  | (name, r) :: rest => do
    r.scaffold env text (Path.join2 base name)
    scaffoldSpecific env text base rest

/-- `create_registrars` (main.py:747-765). -/
def createRegistrars (env : FsEnv) (lang : DefLang V L) (text : ItemText V) (folder base : String)
    (classes : List ClassConfig) : FM (Registry V) := do
  let r ← readRegistry env lang folder classes
  M.liftE (validateRegistrars r)
  scaffoldSpecific env text base r.specific
  r.general.scaffold env text base
  return r

/-! ### Creating an item -/

/-- Reading, formatting and writing definition files, the object of a specific class with a name, and whether a function or
class can be imported. -/
structure CreateLang (V : Type) where
  lang : Lang
  read : Bool → Option String → Except PyErr (List (String × Def Leaf))
  format : String → Except PyErr String
  newObject : String → String → Except PyErr (Callable V)

/-- A function or class passed to `create`: its `__name__`, the import of it (main.py:444, 527), and the view of it
(main.py:447). -/
structure NewItem (V : Type) where
  name : String
  imp : Except PyErr Imp
  view : Except PyErr (Callable V)

/-- The text of a definition file (io/file/interfaces/pipeline.py:12-19, datadict.py:11-18): of the old file only the
imports are kept. -/
def definitionText (lang : Lang) (old new : List Imp) (assignment : String) : String :=
  fileText lang (new.foldl addImport old) [] [] [⟨.other "", none, none, false, some assignment⟩]

/-- `_create_pipeline_dict_entry` and `_create_specific_class_dict_entry` (main.py:498-543). -/
def createEntry (env : FsEnv) (lang : CreateLang V) (specific : Bool) (file : String) (path : List String) (item : Leaf)
    (imp : Except PyErr (List Imp)) : FM Unit := do
  let content ← readIfThere env file
  let f ← M.liftE (readFile lang.lang content)
  let es ← M.liftE (lang.read specific content)
  let new ← M.liftE imp
  M.liftE (addItem item es path).1
  let s ← M.liftE (if specific then renderSpecific (addItem item es path).2 else renderDefinition (addItem item es path).2)
  let s ← M.liftE (lang.format s)
  writeFile env file (definitionText lang.lang f.imports new s)

/-- What `create` changes: files, the registrars (`none` before the first load), and everything else. -/
structure Created (V R : Type) where
  fs : Fs
  reg : Option (Registry V)
  rest : R

/-- Operations of `create`. -/
abbrev KM (V R α : Type) := M PyErr (Created V R) α

/-- An operation on files. -/
def KM.files {α : Type} (m : FM α) : KM V R α := fun s => ((m s.fs).1, { s with fs := (m s.fs).2 })

/-- `registrar.set(...)`, `registrar.scaffold_config_for(...)` and `self.reset(...)` (main.py:454-456) for the general
registrar or the one of a specific class. -/
def createRegistered (env : FsEnv) (text : ItemText V) (base : String) (reset : List String → KM V R Unit)
    (registrar : Option String) (path : List String) (name : String) (c : Callable V) : KM V R Unit := do
  let s ← M.get
  match s.reg with
  | none => M.raise .valueError
  | some r =>
    M.modify (fun s => { s with reg := some (r.set registrar path (name, .item c)).2 })
    M.liftE (r.set registrar path (name, .item c)).1
    let s ← M.get
    match s.reg with
    | none => M.raise .valueError
    | some r =>
      match registrar with
      | none => KM.files (r.general.scaffoldFor env text base (path ++ [name]))
      | some k => match AList.get? r.specific k with
        | none => M.raise .keyError
        | some g => KM.files (g.scaffoldFor env text (Path.join2 base k) (path ++ [name]))
      reset (registrar.toList ++ path ++ [name])

/-- `create` (main.py:408-457). -/
def createItem (env : FsEnv) (lang : CreateLang V) (text : ItemText V) (folder base : String) (classes : List String)
    (reset : List String → KM V R Unit) (sections : List String) (f : Option (NewItem V)) : KM V R Unit :=
  match sections with
  | [] => M.raise .indexError
  | x :: path =>
    if x ∈ classes then
      match path.getLast? with
      | none => M.raise .valueError
      | some name =>
        if path.length < 2 then M.raise .valueError
        else if f.isSome then M.raise .valueError
        else do
          KM.files (createEntry env lang true (Path.join2 folder (x ++ "_dict.py")) path.dropLast (.str name) (.ok []))
          let s ← M.get
          match s.reg with
          | none => M.raise .valueError
          | some r => match AList.get? r.specific x with
            | none => M.raise .keyError
            | some _ =>
              let c ← M.liftE (lang.newObject x name)
              createRegistered env text base reset (some x) path.dropLast name c
    else
      match f with
      | none => M.raise .valueError
      | some f => do
        KM.files (createEntry env lang false (Path.join2 folder "pipeline_dict.py") sections (.name f.name)
          (f.imp.map (fun i => [i])))
        let c ← M.liftE f.view
        createRegistered env text base reset none sections f.name c

end Verif.Model

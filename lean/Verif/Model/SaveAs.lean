import Verif.Py.Monad
import Verif.Model.Files

/-
Model of saving a config to a path of one's own choice, `ConfigBase.to_file`
(`pyfileconf/basemodels/config.py`), also for configs that were read from a file: the file objects
(`pyfileconf/basemodels/file.py`, `pipelines/models/file.py`, `config/models/file.py`) with their interfaces
(`pyfileconf/io/file/interfaces/*.py`), which have a path of their own.

`Verif/Model/Files.lean` has what is written for the configs made by scaffolding, which were not read from a
file.  Simplifications: folders exist and can be written; the parser and `astor` are parameters as there.
-/

namespace Verif.Model
open Verif.Py

/-- The files, by path. -/
abbrev TextFiles := String → Option String

/-- The file with that path has this content now. -/
def TextFiles.put (fs : TextFiles) (path text : String) : TextFiles :=
  fun q => if q = path then some text else fs q

/-- `ConfigFileBase` (basemodels/file.py:33-51): its `filepath`, and the `filepath` of its `interface` with what
that has read already (lazy/base/loader.py:12-13, lazy/base/impassign.py:22-28).  `active` is an
`ActiveFunctionConfigFile`, whose interface executes the file (config/models/file.py:8-11). -/
structure ConfigFile where
  filepath : String
  interfacePath : String
  loaded : Option Loaded
  active : Bool
  template : Template
  name : String

/-- `config_file_class(filepath, name=...)` (basemodels/file.py:33-51): the interface gets the same path. -/
def ConfigFile.new (active : Bool) (t : Template) (filepath name : String) : ConfigFile :=
  ⟨filepath, filepath, none, active, t, name⟩

/-- A config: what is to be written, its name, and the file it was read from (basemodels/config.py:39-47). -/
structure SavedConfig where
  cfg : Cfg
  name : String
  file : Option ConfigFile

abbrev SM (α : Type) := M PyErr TextFiles α

/-- `ConfigFileBase.load` (basemodels/file.py:53-69), `ConfigFileLoader.load` (lazy/config.py:11-22): the file of
the interface is read.  For an `active` file it is read and then executed (active/loader.py:9-18); executing is
left out. -/
def ConfigFile.load (lang : Lang) (f : ConfigFile) : SM ConfigFile := fun fs =>
  match if f.active then (readFile lang (fs f.interfacePath)).map (fun l => (l, Dict.empty))
        else loadFile lang (fs f.interfacePath) with
  | .ok (l, _) => (.ok { f with loaded := some l }, fs)
  | .error e => (.error e, fs)

/-- `ConfigFileInterface.save` (io/file/interfaces/config.py:10-18): what was read, or else what is read now, is
combined with the config and written to the path of the interface.  The method of an `active` interface takes no
config (io/file/interfaces/activeconfig.py:3-7). -/
def ConfigFile.save (lang : Lang) (f : ConfigFile) (cfg : Cfg) : SM Unit := do
  let (cfg, begins) ← M.liftE (addAlways f.template f.name cfg)
  if f.active then M.raise .typeError
  else
    let fs ← M.get
    let l ← match f.loaded with
      | some l => pure l
      | none => M.liftE ((loadFile lang (fs f.interfacePath)).map Prod.fst)
    M.modify (fun fs => fs.put f.interfacePath (createText lang l cfg begins))

/-- `ConfigBase.to_file` (basemodels/config.py:76-94); `active` and `t` are those of the config's
`config_file_class`.  `FunctionConfigFile.save` is `ConfigFileBase.save` but for items called `DataPipeline`
(pipelines/models/file.py:36-42), which are left out here. -/
def SavedConfig.toFile (lang : Lang) (active : Bool) (t : Template) (c : SavedConfig) (filepath : String) : SM Unit := do
  let output := match c.file with
    | none => ConfigFile.new active t filepath c.name
    | some f => { f with filepath := filepath }
  let fs ← M.get
  let output ← if (fs filepath).isSome then output.load lang else pure output
  output.save lang c.cfg

/-- `from_file(filepath, name=...)` (basemodels/config.py:96-107). -/
def SavedConfig.fromFile (lang : Lang) (t : Template) (filepath name : String) : SM SavedConfig := fun fs =>
  let f := ConfigFile.new false t filepath name
  match readFile lang (fs filepath) with
  | .error e => (.error e, fs)
  | .ok l => match defaultsFrom l.assigns .empty .empty with
    | .error e => (.error e, fs)
    | .ok (d, ann) => (.ok ⟨⟨d, ann, l.imports⟩, name, some { f with loaded := some l }⟩, fs)

end Verif.Model

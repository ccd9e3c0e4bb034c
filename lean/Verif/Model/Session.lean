import Verif.Model.Scaffold
import Verif.Model.Runner

/-
Model of loading a manager as a whole, and of `create` together with the configs: `_load_pipeline_config_and_runner`
(`pyfileconf/main.py`), on top of `Verif/Model/Scaffold.lean` (definitions and files) and `Verif/Model/Runner.lean` (configs and
objects).

Simplifications: what a config file gives is a function of its place and its text (it does not depend on other configs); what
`os.walk` lists is a parameter.
-/

namespace Verif.Model
open Verif.Py

variable {V L : Type}

/-- Where a config file is, below a folder (config/models/manager.py:271-288, section.py:92-103). -/
def FileLoc.place (base : List String) : FileLoc → List String
  | .item p => base ++ p.dropLast ++ [p.getLast?.getD "" ++ ".py"]
  | .sect p => base ++ p ++ ["section.py"]

/-- What executing the text of a config file gives. -/
abbrev EvalText (V : Type) := FileLoc → String → Except PyErr (Dict String V)

/-- `ActiveConfigFileLoader.load` (io/file/load/active/loader.py:9-18) of the file on disk. -/
def readConfig (eval : EvalText V) (base : List String) (fs : Fs) (loc : FileLoc) : Except PyErr (Dict String V) :=
  match fs (loc.place base) with
  | some (.file t) => eval loc t
  | _ => .error .osError

/-- The files on disk as the config manager sees them; `list` is what `os.walk` lists. -/
def configFiles (eval : EvalText V) (list : Fs → DirTree) (base : List String) (fs : Fs) : Files V :=
  ⟨readConfig eval base fs, list fs⟩

/-- A folder starting with `.` or `_` (section.py:83-88). -/
def ignoredFolder (x : String) : Bool := x.startsWith "_" || x.startsWith "."

/-- The tree has the folders and config files of the folder at a path, as `from_files` lists them (section.py:81-103). -/
inductive TreeOf (fs : Fs) : List String → DirTree → Prop where
  | mk {q : List String} {b : Bool} {files : List String} {dirs : List (String × DirTree)}
      (sect : b = true ↔ ∃ t, fs (q ++ ["section.py"]) = some (.file t))
      (items : ∀ x, x ∈ files ↔ x ≠ "section" ∧ ∃ t, fs (q ++ [x ++ ".py"]) = some (.file t))
      (folders : ∀ x, x ∈ dirs.map Prod.fst ↔ ignoredFolder x = false ∧ fs (q ++ [x]) = some .dir)
      (once : (dirs.map Prod.fst).Nodup)
      (below : ∀ x t, (x, t) ∈ dirs → TreeOf fs (q ++ [x]) t) : TreeOf fs q (.mk b files dirs)

/-- `_load_pipeline_config_and_runner` (main.py:545-568): the registrars are made and scaffolded, then the configs are loaded
from the files there are then.  The name of the outermost section is that of its folder (section.py:74-75). -/
def loadProject (env : FsEnv) (lang : DefLang V L) (text : ItemText V) (eval : EvalText V) (list : Fs → DirTree)
    (folder base : String) (classes : List ClassConfig) : FM (RS V) := do
  let r ← createRegistrars env lang text folder base classes
  let fs ← M.get
  let cm ← M.liftE (CM.load (configFiles eval list (env.resolve base) fs) ((env.resolve base).getLast?.getD ""))
  return ⟨cm, r, Dict.empty, 0⟩

/-- `self.reset(full_sp.path_str, allow_create=True)` at the end of `create` (main.py:456, 270-282).  The runner has the
registrars of the manager (main.py:563-567), and reads the files there are now. -/
def resetCreated [BEq V] (eval : EvalText V) (list : Fs → DirTree) (base : List String) (p : List String) :
    KM V (RS V) Unit := fun s =>
  match s.reg with
  | none => (.error .attributeError, s)
  | some r =>
    let now : RS V := { s.rest with reg := r, cm := { s.rest.cm with fs := configFiles eval list base s.fs } }
    ((RM.reset (some p) true now).1, { s with rest := (RM.reset (some p) true now).2 })

end Verif.Model

import Verif.Py.Dict
import Verif.Py.Monad
import Verif.Model.SectionPath

/-
Model of the modules a manager loads (`load`, `reload`, `_wipe_loaded_modules` in `pyfileconf/main.py` and
`pyfileconf/imports/models/tracker.py`), of the registry of managers (`__init__`, `__del__` and
`get_manager_by_section_path_str` in `pyfileconf/main.py`, `active_managers` in `pyfileconf/pmcontext/main.py`), and of
finding the manager of a file (`get_manager_by_filepath`).

Simplifications: of `sys.modules` only the names and their order are modelled.  What loading does otherwise is a tree of
actions.  Managers are numbered in the order they are made.
-/

namespace Verif.Model
open Verif.Py

/-! ### Modules -/

/-- The names in `sys.modules`, and `_loaded_modules` of every manager that has it. -/
structure Mods where
  modules : List String
  loaded : List (Nat × List String)
deriving DecidableEq, Repr

/-- Operations on modules. -/
abbrev LM (α : Type) := M PyErr Mods α

/-- `ImportTracker.imported_modules` (tracker.py:8-11). -/
def importedModules (original now : List String) : List String := now.filter (fun m => decide (m ∉ original))

/-- `[sys.modules.pop(module) for module in modules]` (main.py:571). -/
def popModules : List String → LM Unit
  | [] => pure ()
  | m :: rest => do
    let s ← M.get
    if m ∈ s.modules then
      M.modify (fun s => { s with modules := s.modules.filter (fun x => decide (x ≠ m)) })
      popModules rest
    else M.raise .keyError

/-- `_wipe_loaded_modules` (main.py:570-571).  Before the first load the attribute is not there, and `__getattr__` raises
(main.py:85-93). -/
def wipe (k : Nat) : LM Unit := do
  let s ← M.get
  match AList.get? s.loaded k with
  | none => M.raise .notLoaded
  | some ms => popModules ms

/-- `self._loaded_modules = ms` -/
def setLoaded (k : Nat) (ms : List String) : LM Unit :=
  M.modify (fun s => { s with loaded := AList.set s.loaded k ms })

/-- `load` (main.py:300-317); `except Exception` does not catch an interrupt. -/
def loadManager (k : Nat) (body : LM Unit) : LM Unit := do
  let s ← M.get
  let original := s.modules
  M.tryCatch body (fun e =>
    if e = .interrupt then M.raise e
    else do
      let s ← M.get
      setLoaded k (importedModules original s.modules)
      wipe k
      setLoaded k []
      M.raise e)
  let s ← M.get
  setLoaded k (importedModules original s.modules)

/-- `reload` (main.py:284-298). -/
def reloadManager (k : Nat) (body : LM Unit) : LM Unit := do
  wipe k
  loadManager k body

/-- What happens to modules: imports, removals, exceptions, and loading managers, also while another one is loaded. -/
inductive ModOp where
  | imp (m : String)
  | del (m : String)
  | fail (e : PyErr)
  | attempt (body : List ModOp)
  | load (k : Nat) (body : List ModOp)
  | reload (k : Nat) (body : List ModOp)

mutual
/-- Executing one operation. -/
def ModOp.exec : ModOp → LM Unit
  | .imp m => M.modify (fun s => if m ∈ s.modules then s else { s with modules := s.modules ++ [m] })
  | .del m => M.modify (fun s => { s with modules := s.modules.filter (fun x => decide (x ≠ m)) })
  | .fail e => M.raise e
  | .attempt body => M.tryCatch (ModOp.execs body) (fun _ => pure ())
  | .load k body => loadManager k (ModOp.execs body)
  | .reload k body => reloadManager k (ModOp.execs body)
/-- Executing operations one after the other. -/
def ModOp.execs : List ModOp → LM Unit
  | [] => pure ()
  | o :: rest => do
    o.exec
    ModOp.execs rest
end

/-! ### The registry -/

/-- A registered manager. -/
structure Manager where
  id : Nat
  folder : String
deriving DecidableEq, Repr

/-- `context.active_managers`, and the names of all managers made so far; one whose construction failed before it had a
name has none. -/
structure Registered where
  active : List (String × Manager)
  names : List (Option String)

/-- How far `PipelineManager.__init__` (main.py:59-82) comes: it fails before the name is set (68-73), in
`_validate_options` (80, 592-597), in `_create_project_if_needed` (82), or not. -/
inductive Construction where
  | early
  | invalid
  | unfinished
  | done
deriving DecidableEq, Repr

/-- The history of managers. -/
inductive RegOp where
  | create (name folder : String) (c : Construction)
  | destroy (id : Nat)
  | reset

/-- Creating (main.py:59-82) and destroying (main.py:615-623) managers and resetting the context
(pmcontext/main.py:38-42).  `__del__` of a manager without name raises, which Python ignores. -/
def RegOp.apply (s : Registered) : RegOp → Registered
  | .create name folder c =>
    match c with
    | .early => { s with names := s.names ++ [none] }
    | .invalid => { s with names := s.names ++ [some name] }
    | _ => { active := AList.set s.active name ⟨s.names.length, folder⟩, names := s.names ++ [some name] }
  | .destroy id =>
    match s.names[id]? with
    | some (some name) =>
      match AList.get? s.active name with
      | none => s
      | some m => if m.id = id then { s with active := AList.del s.active name } else s
    | _ => s
  | .reset => { s with active := [] }

/-- The state after a history. -/
def registeredAfter (h : List RegOp) : Registered := h.foldl RegOp.apply ⟨[], []⟩

/-- `get_manager_by_section_path_str` (main.py:478-495). -/
def managerOfPath (s : Registered) (path : String) : Except PyErr Manager :=
  match (SectionPath.mk path).sections with
  | [] => .error .indexError
  | name :: _ => match AList.get? s.active name with
    | some m => .ok m
    | none => .error .noManager

/-- The loop of `get_manager_by_filepath` (main.py:459-476). -/
def managerOfFile (cwd : String) (managers : List Manager) (filepath : String) : Except PyErr Manager :=
  match managers.find? (fun m => startsWith (Path.abspath cwd filepath) (Path.abspath cwd m.folder ++ "/")) with
  | some m => .ok m
  | none => .error .noManager

end Verif.Model

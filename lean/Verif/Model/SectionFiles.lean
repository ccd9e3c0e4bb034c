import Verif.Py.Dict
import Verif.Py.Monad
import Verif.Model.SectionPath

/-
Model of the config files of sections that read attributes of items: they are executed while their manager is loaded
(`load` and `_load_pipeline_config_and_runner` in `pyfileconf/main.py`, `ConfigSection.from_files` in
`pyfileconf/config/models/section.py`), reading goes through `pyfileconf/selector/models/selector.py` and
`pyfileconf/selector/models/itemview.py`, with `pyfileconf/selector/logic/exc/typo.py`.

Simplifications: everything the runners have is one state `σ`, and what reading an attribute of an item of a loaded manager
gives is a parameter, which may change this state.  Making the selector is part of the first use (whether it succeeds is the
same at any time during a load).  The attribute read is not the name of an item.  Section files do not load managers.
-/

namespace Verif.Model
open Verif.Py

variable {V σ : Type}

/-- Exceptions of the code and `ItemNotFoundException` (typo.py:29-30). -/
inductive LoadErr where
  | py (e : PyErr)
  | itemNotFound (path : String)
deriving DecidableEq, Repr

/-- How far a manager is: without registrars, with registrars but without runner, or with both (main.py:77-78, 85-90,
551-567). -/
inductive Status where
  | new
  | defined
  | loaded
deriving DecidableEq, Repr

/-- The active managers, what the runners have, and the recorded dependencies: the dependent first. -/
structure SecS (σ : Type) where
  managers : List (String × Status)
  inner : σ
  records : List (String × String)

/-- Operations. -/
abbrev SecM (σ α : Type) := M LoadErr (SecS σ) α

/-- The file of a section: it reads attributes of items, given by their path, and assigns names or raises. -/
inductive SecProg (V : Type) where
  | done (d : Dict String V)
  | raise (e : PyErr)
  | read (item attr : String) (next : V → SecProg V)

/-- Reading an attribute of an item of a loaded manager. -/
abbrev Answer (σ V : Type) := String → String → M PyErr σ V

namespace SectionFiles

/-- The name of the manager (sectionpath.py:18, 24-25). -/
def managerOf (item : String) : String := ((SectionPath.mk item).sections).headD ""

/-- An operation of the runners. -/
def liftI {α : Type} (m : M PyErr σ α) : SecM σ α := fun s =>
  (match (m s.inner).1 with
    | .ok a => .ok a
    | .error e => .error (.py e), { s with inner := (m s.inner).2 })

/-- `s = Selector()` (selector.py:13-16, 167-186): a manager without registrars has `None` instead. -/
def makeSelector : SecM σ Unit := do
  let s ← M.get
  if s.managers.any (fun m => decide (m.2 = .new)) then M.raise (.py .attributeError) else pure ()

/-- `handle_pipeline_manager_not_loaded_or_typo` (typo.py:9-15). -/
def notLoadedOrTypo {α : Type} (path : String) : SecM σ α := do
  let s ← M.get
  if managerOf path ∈ s.managers.map Prod.fst then M.raise (.itemNotFound path) else M.raise (.py .notLoaded)

/-- Reading `attr` of a view of `item` while the file recorded as `file` is executed: the view looks whether there is an item
(itemview.py:32-36, selector.py:93-99), `_get_real_item` (selector.py:144-155) records the dependency and gets the item from the
runner, which may be missing (main.py:85-93, itemview.py:41-49). -/
def readAttr (answer : Answer σ V) (file item attr : String) : SecM σ V := do
  makeSelector
  let s ← M.get
  match AList.get? s.managers (managerOf item) with
  | none => M.raise (.py .keyError)
  | some st =>
    M.modify (fun s => { s with records := s.records ++ [(file, item)] })
    match st with
    | .loaded => liftI (answer item attr)
    | _ => notLoadedOrTypo (item ++ "." ++ attr)

/-- Executing the file. -/
def runFile (answer : Answer σ V) (file : String) : SecProg V → SecM σ (Dict String V)
  | .done d => pure d
  | .raise e => M.raise (.py e)
  | .read item attr next => do
    let v ← readAttr answer file item attr
    runFile answer file (next v)

/-- The config of a section in `from_files` (section.py:90-96): a `ValueError` is taken for a missing file. -/
def sectionConfig (answer : Answer σ V) (file : String) (p : SecProg V) : SecM σ (Option (Dict String V)) :=
  M.tryCatch (do return some (← runFile answer file p))
    (fun e => if e = .py .valueError then pure none else M.raise e)

/-- `from_files` (section.py:71-109): the files of the sections one after the other, outer before inner. -/
def fromFiles (answer : Answer σ V) : List (String × SecProg V) → SecM σ (List (Option (Dict String V)))
  | [] => pure []
  | (file, p) :: rest => do
    let c ← sectionConfig answer file p
    let cs ← fromFiles answer rest
    return c :: cs

/-- The status of a manager. -/
def setStatus (m : String) (st : Status) : SecM σ Unit :=
  M.modify (fun s => { s with managers := AList.set s.managers m st })

/-- `_load_pipeline_config_and_runner` (main.py:545-568): the registrars first, then the configs, then the runner; until then
the manager has the runner it had before.  `build` is what there is with the new runner. -/
def load (answer : Answer σ V) (build : List (Option (Dict String V)) → σ → σ) (m : String)
    (files : List (String × SecProg V)) : SecM σ Unit := do
  let s ← M.get
  (if AList.get? s.managers m = some .loaded then pure () else setStatus m .defined)
  let cs ← fromFiles answer files
  M.modify (fun s => { s with inner := build cs s.inner })
  setStatus m .loaded

end SectionFiles

end Verif.Model

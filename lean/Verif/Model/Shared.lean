import Verif.Py.Monad
import Verif.Py.Dict
import Verif.Model.SectionPath

/-
Model of config values that are changed in place: what the configs of a manager share with each other and with the
functions that are run (`pyfileconf/config/models/manager.py`, `pyfileconf/basemodels/config.py`,
`pyfileconf/runner/models/runner.py`).  No function of these modules copies a value.

A value is an object with contents; configs have references to objects.  Each execution of a config file makes new
objects.  Simplifications: different variables of a file are different objects, contents have no references to other
objects, there are no dependencies between configs, and a function is called with the values of the active config (see C16 for
the objects the runner keeps).  The loaded tree of configs is a table by path here (see `Verif/Model/Store.lean` for the
tree); `section.py` files were executed when the manager was loaded.
-/

namespace Verif.Model
open Verif.Py

/-- A reference: which execution made the object, and for which name. -/
abbrev Ref := Nat × String

variable {C : Type}

/-- What the files of a manager assign: of items, and of sections (nothing without a `section.py`). -/
structure SharedFiles (C : Type) where
  item : List String → Option (Dict String C)
  sect : List String → Dict String C

/-- The objects, the number of the next execution, the loaded configs of items, those of sections and the local one
(manager.py:23-27). -/
structure Shared (C : Type) where
  heap : Ref → Option C
  next : Nat
  confs : Dict (List String) (Dict String Ref)
  sects : Dict (List String) (Dict String Ref)
  loc : Dict String Ref

/-- Operations on it. -/
abbrev ShM (C α : Type) := M PyErr (Shared C) α

namespace Shared

/-- References for the names of a dictionary. -/
def refsOf (n : Nat) (d : Dict String C) : Dict String Ref :=
  ⟨d.items.map (fun e => (e.1, (n, e.1))), by
    have h := d.nodup
    rw [List.map_map]
    exact h⟩

/-- New objects with the given contents: a config file is executed (config/models/file.py:14-27), or a caller makes values. -/
def make (d : Dict String C) : ShM C (Dict String Ref) := fun w =>
  (.ok (refsOf w.next d),
    { w with heap := fun r => if r.1 = w.next then d.get? r.2 else w.heap r, next := w.next + 1 })

/-- The sections around an item, from the project to the closest (manager.py:129-141). -/
def around (p : List String) : List (List String) := (List.range p.length).map (fun i => p.take i)

/-- `_get_func_or_section_configs` of an item (manager.py:200-230): its config is loaded once. -/
def ownConf (fs : SharedFiles C) (p : List String) : ShM C (Dict String Ref) := do
  let w ← M.get
  match w.confs.get? p with
  | some c => return c
  | none =>
    match fs.item p with
    | none => M.raise .keyError
    | some d => do
      let c ← make d
      M.modify (fun w => { w with confs := w.confs.set p c })
      return c

/-- The config of a section. -/
def sectConf (w : Shared C) (s : List String) : Dict String Ref := (w.sects.get? s).getD Dict.empty

/-- The config updated by those of the sections and by the local config (manager.py:150-156). -/
def inherit (w : Shared C) (p : List String) (c : Dict String Ref) : Dict String Ref :=
  ((around p).foldl (fun c s => c.update (w.sectConf s)) c).update w.loc

/-- `ConfigManager.get` of an item (manager.py:114-158). -/
def get (fs : SharedFiles C) (p : List String) : ShM C (Dict String Ref) := do
  let c ← ownConf fs p
  let w ← M.get
  if c.items.isEmpty then return c
  else do
    M.modify (fun w => { w with confs := w.confs.set p (w.inherit p c) })
    return w.inherit p c

/-- `would_update` (config.py:136-157): contents are compared. -/
def wouldUpdate [BEq C] (w : Shared C) (c kw : Dict String Ref) : Bool :=
  kw.items.any (fun e => match c.get? e.1 with
    | none => false
    | some r => !(w.heap r == w.heap e.2))

/-- `ConfigManager.update` of an item (manager.py:47-66), with objects of the caller. -/
def update [BEq C] (fs : SharedFiles C) (p : List String) (kw : Dict String Ref) : ShM C Unit := do
  let c ← ownConf fs p
  let w ← M.get
  if w.wouldUpdate c kw then M.modify (fun w => { w with confs := w.confs.set p (c.update kw) })
  else return ()

/-- `ConfigManager.reset` of an item (manager.py:95-106, 160-198, 264-288): its file is executed again. -/
def reset [BEq C] (fs : SharedFiles C) (p : List String) : ShM C Unit := do
  match fs.item p with
  | none => M.raise .keyError
  | some d => do
    let v ← make d
    let c ← ownConf fs p
    let w ← M.get
    if w.wouldUpdate c v then M.modify (fun w => { w with confs := w.confs.set p v })
    else return ()

/-- Change an object in place. -/
def change (r : Ref) (f : C → C) (w : Shared C) : Shared C :=
  { w with heap := fun r' => if r' = r then (w.heap r).map f else w.heap r' }

/-- Change the values of the given names in place. -/
def changeAll (c : Dict String Ref) : List (String × (C → C)) → Shared C → Shared C
  | [], w => w
  | (k, f) :: rest, w =>
    match c.get? k with
    | none => changeAll c rest w
    | some r => changeAll c rest (change r f w)

/-- `Runner._run_one_func` (runner.py:185-194): the function is called with the values of the active config, and changes some
of its arguments in place; `body` gives, for the contents of the arguments, the changes. -/
def run (fs : SharedFiles C) (p : List String) (body : (String → Option C) → List (String × (C → C))) : ShM C Unit := do
  let c ← get fs p
  M.modify (fun w => changeAll c (body (fun k => (c.get? k).bind w.heap)) w)

/-- The sections of a manager are loaded (config/models/section.py:71-109). -/
def loadSects (fs : SharedFiles C) : List (List String) → ShM C Unit
  | [] => return ()
  | s :: ss => do
    let c ← make (fs.sect s)
    M.modify (fun w => { w with sects := w.sects.set s c })
    loadSects fs ss

/-- Nothing loaded. -/
def empty : Shared C := ⟨fun _ => none, 0, Dict.empty, Dict.empty, Dict.empty⟩

end Shared
end Verif.Model

import Verif.Model.Store

/-
Model of the comparison of config values, `pyfileconf/basemodels/config.py` (`_values_are_equal`), and of
the functions that depend on it, for values whose comparison does not just give `True` or `False`.

`Verif/Model/Config.lean` and `Verif/Model/Store.lean` take the comparison of two values to be a `Bool`.  In
Python `==` may raise, and may give an object that is neither true nor false: comparing arrays gives an array,
and asking whether an array of several elements is true raises a `ValueError`.
-/

namespace Verif.Model
open Verif.Py

variable {V : Type}

/-- What `a == b` does in Python. -/
inductive EqResult where
  /-- an object that counts as true or as false -/
  | truth (b : Bool)
  /-- it raises -/
  | raises
  /-- an object for which it cannot be said whether it is true: asking raises a `ValueError` -/
  | ambiguous
deriving DecidableEq, Repr

/-- The comparisons of values: which are pandas objects, what their `equals` says, and `==`. -/
structure Compare (V : Type) where
  isPandas : V → Bool
  pandasEquals : V → V → Bool
  eq : V → V → EqResult

namespace Compare

/-- `_values_are_equal` (config.py:177-191) followed by asking whether the result is true, as done by
`not _values_are_equal(...)` (config.py:154).  The warning is left out. -/
def valuesAreEqual (cmp : Compare V) (val1 val2 : V) : Except PyErr Bool :=
  if cmp.isPandas val1 then .ok (cmp.pandasEquals val1 val2)
  else if cmp.isPandas val2 then .ok false
  else match cmp.eq val1 val2 with
    | .truth b => .ok b
    | .raises => .ok false
    | .ambiguous => .error .valueError

/-- The loop of `ConfigBase.would_update` (config.py:150-157). -/
def wouldUpdateLoop (cmp : Compare V) (c : Conf V) : List (String × V) → Except PyErr Bool
  | [] => .ok false
  | (key, value) :: rest =>
    match c.values.get? key with
    | none => wouldUpdateLoop cmp c rest
    | some orig => match cmp.valuesAreEqual orig value with
      | .error e => .error e
      | .ok equal => if !equal then .ok true else wouldUpdateLoop cmp c rest

/-- `ConfigBase.would_update(E, **F)` (config.py:136-157). -/
def wouldUpdate (cmp : Compare V) (c : Conf V) (E : Option (Dict String V)) (F : Dict String V) :
    Except PyErr Bool :=
  let E' := match E with | none => Dict.empty | some e => e
  wouldUpdateLoop cmp c (E'.update F).items

/-- `ConfigBase.change_from_refresh` (config.py:159-174). -/
def changeFromRefresh (cmp : Compare V) (c : Conf V) (file : Dict String V) : Except PyErr (Dict String V) :=
  let finalUpdates := file.update c.applied
  match cmp.wouldUpdate c (some finalUpdates) Dict.empty with
  | .error e => .error e
  | .ok would => .ok (if would then finalUpdates else Dict.empty)

/-- `_determine_and_track_if_config_would_be_updated` (manager.py:327-337). -/
def determineWouldUpdate (cmp : Compare V) (c : Conf V) (d : Option (Dict String V)) (kw : Dict String V) :
    Except PyErr Bool :=
  if Conf.clash CMM.determineReserved kw then .error .typeError
  else
    let d' := match d with | none => Dict.empty | some d => d
    cmp.wouldUpdate c (some (d'.update kw)) Dict.empty

/-- `ConfigManager.update` (manager.py:47-66). -/
def update (cmp : Compare V) (d : Option (Dict String V)) (p : Option (List String)) (persist : Bool)
    (kw : Dict String V) : CMM V (Conf V × Bool) := do
  match ← CMM.getProjectOrLocal p with
  | none => M.raise .notLoaded
  | some c =>
    let would ← M.liftE (cmp.determineWouldUpdate c d kw)
    if would then
      if Conf.clash Conf.updateReserved kw then M.raise .typeError
      else
        CMM.writeBack p (fun c => c.update d persist kw)
        return (c.update d persist kw, true)
    else
      return (c, false)

/-- `ConfigManager.refresh` (manager.py:68-77, 339-343). -/
def refresh (cmp : Compare V) (p : List String) : CMM V (Conf V × Bool × Dict String V) := do
  match ← CMM.getProjectOrLocal (some p) with
  | none => M.raise .notLoaded
  | some c =>
    let announced ← CMM.newConfigFromFile c
    let change ← M.liftE (cmp.changeFromRefresh c announced.values)
    if change.items.isEmpty then
      return (c, false, Dict.empty)
    else
      let new ← CMM.newConfigFromFile c
      match c.refresh new.values with
      | .error e => M.raise e
      | .ok (c', updates) =>
        CMM.writeBack (some p) (fun c => c.update none false updates)
        return (c', true, updates)

/-- `ConfigManager.set` for a path (manager.py:160-198). -/
def set (cmp : Compare V) (p : List String) (value : Node V) (allowCreate : Bool) : CMM V (Node V × Bool) := do
  let current ← M.tryCatch (CMM.getFuncOrSectionConfigs p)
    (fun e => if e = .keyError then pure none else M.raise e)
  match current with
  | none =>
    CMM.setFuncOrSectionConfig p value allowCreate
    return (value, true)
  | some c =>
    match value with
    | .conf v =>
      let would ← M.liftE (cmp.determineWouldUpdate c none v.values)
      if would then
        CMM.setFuncOrSectionConfig p value allowCreate
        return (value, true)
      else return (value, false)
    | _ => M.raise .typeError

/-- `ConfigManager.reset` (manager.py:95-106). -/
def reset (cmp : Compare V) : Option (List String) → Bool → CMM V (Node V × Bool)
  | none, _ => do
    let value := Conf.ofDict Dict.empty
    M.modify (fun s => { s with localConf := value })
    return (.conf value, true)
  | some p, allowCreate => do
    let s ← M.get
    let value ← M.liftE (CMM.getDefault s p allowCreate)
    cmp.set p value allowCreate

end Compare
end Verif.Model

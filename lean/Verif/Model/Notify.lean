import Verif.Model.Runner

/-
Model of how plugins are told about changes of configs: the hooks `pyfileconf_pre_config_changed` and
`pyfileconf_post_config_changed` (`pyfileconf/plugin/hookspecs.py:173-220`), called in `pyfileconf/config/models/manager.py` and
`pyfileconf/runner/models/runner.py`.

The operations are those of `Verif/Model/Store.lean` and `Verif/Model/Runner.lean` with the calls of the hooks written down; that
they do the same otherwise is proved in `Verif/Props/Notify.lean`.

Simplifications: what plugins do when they are told is not modelled; the default implementation of the second hook refreshes
dependent configs, see `Verif/Model/Cascade.lean`.
-/

namespace Verif.Model
open Verif.Py

variable {V α : Type}

/-- A call of one of the hooks: whether it is the one after a change, the arguments, and the state in which it was called.  The
config is an object that changes later, `config` is what it had then. -/
structure Told (V : Type) where
  after : Bool
  path : List String
  config : Dict String V
  updates : Dict String V
  state : RS V

/-- Operations of the runner with the calls of the hooks so far. -/
abbrev NM (V α : Type) := M PyErr (RS V × List (Told V)) α

namespace NM

/-- An operation that calls no hook. -/
def lift (m : RM V α) : NM V α := fun s => ((m s.1).1, ((m s.1).2, s.2))

/-- A call of a hook. -/
def tell (after : Bool) (p : List String) (config updates : Dict String V) : NM V Unit := fun s =>
  (.ok (), (s.1, s.2 ++ [⟨after, p, config, updates, s.1⟩]))

/-- `{**d_, **updates}` where no dictionary counts as an empty one (manager.py:319-322, 330-333). -/
def allUpdates (d : Option (Dict String V)) (kw : Dict String V) : Dict String V :=
  (match d with | none => Dict.empty | some d => d).update kw

/-- `_determine_and_track_if_config_would_be_updated` (manager.py:327-337) with `_track_pre_update` (manager.py:313-316). -/
def determine [BEq V] (c : Conf V) (p : Option (List String)) (d : Option (Dict String V)) (kw : Dict String V) :
    NM V Bool := do
  let would ← lift (M.liftE (CMM.determineWouldUpdate c d kw))
  match would, p with
  | true, some p =>
    tell false p c.values (allUpdates d kw)
    return true
  | _, _ => return would

/-- `ConfigManager.update` (manager.py:47-66). -/
def updateConfig [BEq V] (d : Option (Dict String V)) (p : Option (List String)) (persist : Bool)
    (kw : Dict String V) : NM V (Conf V × Bool) := do
  match ← lift (RM.liftC (CMM.getProjectOrLocal p)) with
  | none => M.raise .notLoaded
  | some c =>
    let would ← determine c p d kw
    if would then
      if Conf.clash Conf.updateReserved kw then M.raise .typeError
      else
        lift (RM.liftC (CMM.writeBack p (fun c => c.update d persist kw)))
        return (c.update d persist kw, true)
    else
      return (c, false)

/-- `ConfigManager.refresh` (manager.py:68-77) with `_determine_and_track_if_config_would_be_refreshed` (manager.py:339-343). -/
def refreshConfig [BEq V] (p : List String) : NM V (Conf V × Bool × Dict String V) := do
  match ← lift (RM.liftC (CMM.getProjectOrLocal (some p))) with
  | none => M.raise .notLoaded
  | some c =>
    let announced ← lift (RM.liftC (CMM.newConfigFromFile c))
    let change := c.changeFromRefresh announced.values
    if change.items.isEmpty then
      return (c, false, Dict.empty)
    else
      tell false p c.values change
      let new ← lift (RM.liftC (CMM.newConfigFromFile c))
      match c.refresh new.values with
      | .error e => M.raise e
      | .ok (c', updates) =>
        lift (RM.liftC (CMM.writeBack (some p) (fun c => c.update none false updates)))
        return (c', true, updates)

/-- `ConfigManager.set` for a path (manager.py:160-198). -/
def setConfig [BEq V] (p : List String) (value : Node V) (allowCreate : Bool) : NM V (Node V × Bool) := do
  let current ← lift (RM.liftC (M.tryCatch (CMM.getFuncOrSectionConfigs p)
    (fun e => if e = .keyError then pure none else M.raise e)))
  match current with
  | none =>
    lift (RM.liftC (CMM.setFuncOrSectionConfig p value allowCreate))
    return (value, true)
  | some c =>
    match value with
    | .conf v =>
      let would ← determine c (some p) none v.values
      if would then
        lift (RM.liftC (CMM.setFuncOrSectionConfig p value allowCreate))
        return (value, true)
      else return (value, false)
    | _ => M.raise .typeError

/-- `ConfigManager.reset` (manager.py:95-106). -/
def resetConfig [BEq V] : Option (List String) → Bool → NM V (Node V × Bool)
  | none, _ => do
    let value := Conf.ofDict Dict.empty
    lift (RM.liftC (M.modify (fun s => { s with localConf := value })))
    return (.conf value, true)
  | some p, allowCreate => do
    let s ← lift (RM.liftC M.get)
    let value ← lift (M.liftE (CMM.getDefault s p allowCreate))
    setConfig p value allowCreate

/-- `track_post_update` (manager.py:318-325). -/
def trackPost (p : List String) (config : Dict String V) (d : Option (Dict String V)) (kw : Dict String V) : NM V Unit :=
  if Conf.clash RM.trackReserved kw then M.raise .typeError
  else tell true p config (allUpdates d kw)

/-- The created object takes over the new config (runner.py:381-383, 391-393, 399-401). -/
def applyToLoaded (p : List String) (config : Dict String V) (d : Option (Dict String V)) (kw : Dict String V) :
    NM V Unit := do
  let s ← lift M.get
  match s.objs.get? p with
  | none => return ()
  | some o =>
    let o' ← lift (M.liftE (RM.applyConfig o config))
    lift (M.modify (fun s => { s with objs := s.objs.set p o' }))
    trackPost p config d kw

/-- `Runner.update` (runner.py:378-383). -/
def update [BEq V] (d : Option (Dict String V)) (p : Option (List String)) (persist : Bool)
    (kw : Dict String V) : NM V Unit := do
  let (c, updated) ← updateConfig d p persist kw
  match updated, p with
  | true, some p => applyToLoaded p c.values d kw
  | _, _ => return ()

/-- `Runner.reset` (runner.py:385-393). -/
def reset [BEq V] (p : Option (List String)) (allowCreate : Bool) : NM V Unit := do
  let (default, updated) ← resetConfig p allowCreate
  match updated, p, default with
  | true, some p, .conf c => applyToLoaded p c.values none c.values
  | _, _, _ => return ()

/-- `Runner.refresh` (runner.py:395-401). -/
def refresh [BEq V] (p : List String) : NM V Unit := do
  let (_, updated, updates) ← refreshConfig p
  let s ← lift M.get
  if updated = true ∧ s.objs.contains p = true then
    let c ← lift (RM.getConfig p)
    applyToLoaded p c.values (some updates) Dict.empty
  else return ()

end NM

/-- A change that is asked for. -/
inductive ChangeOp (V : Type) where
  | update (d : Option (Dict String V)) (p : Option (List String)) (persist : Bool) (kw : Dict String V)
  | reset (p : Option (List String)) (allowCreate : Bool)
  | refresh (p : List String)

/-- The change with the calls of the hooks. -/
def ChangeOp.telling [BEq V] : ChangeOp V → NM V Unit
  | .update d p persist kw => NM.update d p persist kw
  | .reset p allowCreate => NM.reset p allowCreate
  | .refresh p => NM.refresh p

/-- The change as in `Verif/Model/Runner.lean`. -/
def ChangeOp.run [BEq V] : ChangeOp V → RM V Unit
  | .update d p persist kw => RM.update d p persist kw
  | .reset p allowCreate => RM.reset p allowCreate
  | .refresh p => RM.refresh p

/-- What the config manager does for the change. -/
def ChangeOp.config [BEq V] : ChangeOp V → CMM V Unit
  | .update d p persist kw => do let _ ← CMM.update d p persist kw
  | .reset p allowCreate => do let _ ← CMM.reset p allowCreate
  | .refresh p => do let _ ← CMM.refresh p

end Verif.Model

import Verif.Model.Store
import Verif.Model.Registry

/-
Model of `pyfileconf/runner/models/runner.py` (`Runner`) and
`pyfileconf/config/logic/apply.py`, on top of the config manager.

Left out here and modelled in `Verif/Model/Context.lean`: the stack of running items and
the record of dependencies.  Hook implementations other than the default ones are left
out.
-/

namespace Verif.Model
open Verif.Py

variable {V : Type}

/-- A created object: `id` is its identity; it is a `functools.partial` or a configured
object; `kwargs` are the keywords of the `partial`, or the keyword arguments of the last
constructor or update call. -/
structure Obj (V : Type) where
  id : Nat
  isPartial : Bool
  callable : Callable V
  kwargs : Dict String V

/-- State of a `Runner` (runner.py:34-44).  The keys of `_loaded_objects` are section
paths. -/
structure RS (V : Type) where
  cm : CM V
  reg : Registry V
  objs : Dict (List String) (Obj V)
  nextId : Nat

/-- Operations of the runner. -/
abbrev RM (V α : Type) := M PyErr (RS V) α

namespace RM

/-- An operation of the config manager. -/
def liftC {α : Type} (m : CMM V α) : RM V α := fun s => ((m s.cm).1, { s with cm := (m s.cm).2 })

/-- `_get_func_or_collection` (runner.py:335-350). -/
def lookup (p : List String) : RM V (Reg V) := do
  let s ← M.get
  M.liftE (s.reg.lookup p)

/-- `_get_config` (runner.py:329-333). -/
def getConfig (p : List String) : RM V (Conf V) := do
  match ← liftC (CMM.get p) with
  | none => M.raise .notLoaded
  | some c => return c

/-- `FunctionConfig.for_function` (pipelines/models/config.py:24-36).  A collection is not
callable, which is a `TypeError`. -/
def forFunction (c : Conf V) (r : Reg V) : Except PyErr (Dict String V) :=
  match r with
  | .item k => match k.sig.argNames false with
    | .ok names => .ok (c.values.filterKeys (fun x => decide (x ∈ names)))
    | .error e => .error e
  | _ => .error .typeError

/-- `_get_func_and_config` (runner.py:354-362) and `_get_class_and_config`
(runner.py:364-376), which differ only in taking the class of a specific-class object.  (Of a collection
the second takes the class of the collection; creating the collection again is a `TypeError` then.) -/
def funcAndConfig (p : List String) : RM V (Reg V × Dict String V) := do
  let config ← getConfig p
  let func ← lookup p
  let d ← M.liftE (forFunction config func)
  return (func, d)

/-- `apply_config` (apply.py:7-11, with what it calls, 14-35).  A partial takes over the values of the keywords it
already has; an object is initialised or updated again with the accepted arguments. -/
def applyConfig (o : Obj V) (config : Dict String V) : Except PyErr (Obj V) :=
  match o.isPartial with
  | true =>
    .ok { o with kwargs := o.kwargs.setAll (config.items.filter (fun e => o.kwargs.contains e.1)) }
  | false =>
    match o.callable.sig.argNames true with
    | .error e => .error e
    | .ok names =>
      let relevant := config.filterKeys (fun x => decide (x ∈ names))
      match o.callable.upd relevant with
      | .error e => .error e
      | .ok () => .ok { o with kwargs := relevant }

/-- Store a created object (runner.py:308, 323). -/
def store (p : List String) (o : Obj V) : RM V Unit :=
  M.modify (fun s => { s with objs := s.objs.set p o, nextId := s.nextId + 1 })

/-- `obj(**config_dict)` or `apply_config(obj, config_dict)` (runner.py:318-321).  Passing
`self` to a constructor is a `TypeError`. -/
def construct (id : Nat) (k : Callable V) (d : Dict String V) : Except PyErr (Obj V) :=
  match k.kind with
  | .specific => applyConfig ⟨id, false, k, Dict.empty⟩ d
  | _ =>
    if d.contains (k.sig.args.headD "self") then .error .typeError
    else match k.init d with
      | .error e => .error e
      | .ok () => .ok ⟨id, false, k, d⟩

/-- `_get_one_func_with_config` (runner.py:299-310). -/
def getOneFunc (p : List String) : RM V (Obj V) := do
  let s ← M.get
  match s.objs.get? p with
  | some o => return o
  | none =>
    match ← funcAndConfig p with
    | (.item k, d) =>
      let s ← M.get
      let o : Obj V := ⟨s.nextId, true, k, d⟩
      store p o
      return o
    | _ => M.raise .typeError

/-- `_get_one_obj_with_config` (runner.py:312-327). -/
def getOneObj (p : List String) : RM V (Obj V) := do
  let s ← M.get
  match s.objs.get? p with
  | some o => return o
  | none =>
    let _ ← lookup p
    match ← funcAndConfig p with
    | (.item k, d) =>
      let s ← M.get
      let o ← M.liftE (construct s.nextId k d)
      store p o
      return o
    | _ => M.raise .typeError

/-- `func()`, `obj()` or `getattr(obj, execute_attr)()` (runner.py:191, 202, 210-216). -/
def callObj (o : Obj V) : Except PyErr V :=
  if o.isPartial then o.callable.app o.kwargs else o.callable.exec o.kwargs

/-- `_run_one_func` (runner.py:185-194): the active configuration is looked up (for the log
message), then the created object is called. -/
def runOneFunc (p : List String) : RM V V := do
  let _ ← funcAndConfig p
  let o ← getOneFunc p
  M.liftE (callObj o)

/-- `_run_one_class` (runner.py:196-205) and `_run_one_specific_class`
(runner.py:207-219). -/
def runOneObj (p : List String) : RM V V := do
  let _ ← funcAndConfig p
  let o ← getOneObj p
  M.liftE (callObj o)

/-- Names in `**updates` that clash with parameters of `track_post_update`
(manager.py:318). -/
def trackReserved : List String := ["self", "config_", "section_path_str", "d"]

/-- The created object takes over the new configuration, and the change is announced
(runner.py:381-383, 391-393, 399-401).  The announcement refreshes dependent configs, see
`Verif/Model/Cascade.lean`. -/
def applyToLoaded (p : List String) (config : Dict String V) (announced : Dict String V) : RM V Unit := do
  let s ← M.get
  match s.objs.get? p with
  | none => return ()
  | some o =>
    let o' ← M.liftE (applyConfig o config)
    M.modify (fun s => { s with objs := s.objs.set p o' })
    if Conf.clash trackReserved announced then M.raise .typeError else return ()

/-- `Runner.update` (runner.py:378-383). -/
def update [BEq V] (d : Option (Dict String V)) (p : Option (List String)) (persist : Bool)
    (kw : Dict String V) : RM V Unit := do
  let (c, updated) ← liftC (CMM.update d p persist kw)
  match updated, p with
  | true, some p => applyToLoaded p c.values kw
  | _, _ => return ()

/-- `Runner.reset` (runner.py:385-393).  The default is a section when a section is reset;
sections are never among the created objects.  Simplification: a default value under the
key `d` counts as a clash, in Python it is one unless the value is `None` or a mapping. -/
def reset [BEq V] (p : Option (List String)) (allowCreate : Bool) : RM V Unit := do
  let (default, updated) ← liftC (CMM.reset p allowCreate)
  match updated, p, default with
  | true, some p, .conf c => applyToLoaded p c.values c.values
  | _, _, _ => return ()

/-- `Runner.refresh` (runner.py:395-401). -/
def refresh [BEq V] (p : List String) : RM V Unit := do
  let (_, updated, _) ← liftC (CMM.refresh p)
  let s ← M.get
  if updated = true ∧ s.objs.contains p = true then
    let c ← getConfig p
    applyToLoaded p c.values Dict.empty
  else return ()

/-- Results of running: of an item, or of a section in order. -/
inductive RunRes (V : Type) where
  | one (v : V)
  | many (rs : List (RunRes V))

/-- One item inside the section at `p` (runner.py:170-176).  Classes and specific-class
objects are run under the path of the section itself (lines 171 and 173). -/
def runInside (p : List String) (x : String) (k : Callable V) : RM V V :=
  match k.kind with
  | .func => runOneFunc (p ++ [x])
  | _ => runOneObj p

/-- The loop of `_run_section` (runner.py:151-182) over the items of the section at `p`. -/
def runItems (runSection : List String → RM V (RunRes V)) (p : List String) :
    List (String × Reg V) → RM V (List (RunRes V))
  | [] => return []
  | (x, .coll false _) :: rest => do
    let r ← runSection (p ++ [x])
    let rs ← runItems runSection p rest
    return r :: rs
  | (_, .coll true _) :: _ => M.raise .valueError
  | (_, .other) :: _ => M.raise .valueError
  | (x, .item k) :: rest => do
    let v ← runInside p x k
    let rs ← runItems runSection p rest
    return .one v :: rs

/-- `_run_section` (runner.py:151-182).  The first argument bounds the nesting; see
`Verif/Lemmas/Runner.lean` for why the bound is never reached. -/
def runSection : Nat → List String → RM V (RunRes V)
  | 0, _ => M.raise .recursion
  | n + 1, p => do
    match ← lookup p with
    | .coll _ items => return .many (← runItems (runSection n) p items)
    | _ => M.raise .typeError

/-- `Runner._run` of an item (runner.py:140-145). -/
def runItem (p : List String) (k : Callable V) : RM V V :=
  match k.kind with
  | .func => runOneFunc p
  | _ => runOneObj p

/-- `Runner._run` (runner.py:127-149).

Simplification, also in `get`: methods of a collection, which can be looked up in the collection of a specific class
(`other`), are callable, so that the code would take them for functions; here they are a `ValueError` as other attributes
are. -/
def run1 (p : List String) : RM V (RunRes V) := do
  let s ← M.get
  match ← lookup p with
  | .coll false _ => runSection (s.reg.depth + 1) p
  | .item k => return .one (← runItem p k)
  | _ => M.raise .valueError

/-- Results of `get`: an object, the objects of a section, or the subsections of a section by
name. -/
inductive GetRes (V : Type) where
  | obj (o : Obj V)
  | list (os : List (Obj V))
  | dict (rs : List (String × GetRes V))

/-- One item inside the section at `p` (runner.py:286-291). -/
def getInside (p : List String) (x : String) (k : Callable V) : RM V (Obj V) :=
  match k.kind with
  | .specific => getOneObj (p ++ [x])
  | _ => getOneFunc (p ++ [x])

/-- The loop of `_get_section` (runner.py:256-297) for a section without subsections. -/
def getItems (p : List String) : List (String × Reg V) → RM V (List (Obj V))
  | [] => return []
  | (x, .item k) :: rest => do
    let o ← getInside p x k
    let os ← getItems p rest
    return o :: os
  | _ => M.raise .valueError

/-- The loop of `_get_section` (runner.py:256-297) for a section with subsections; `acc` is
the result so far. -/
def getSubs (getSection : List String → RM V (GetRes V)) (p : List String) (acc : List (String × GetRes V)) :
    List (String × Reg V) → RM V (List (String × GetRes V))
  | [] => return acc
  | (x, .coll _ _) :: rest => do
    let r ← getSection (p ++ [x])
    getSubs getSection p (AList.set acc x r) rest
  | _ => M.raise .valueError

/-- `_get_section` (runner.py:241-297).  The first argument bounds the nesting. -/
def getSection : Nat → List String → RM V (GetRes V)
  | 0, _ => M.raise .recursion
  | n + 1, p => do
    match ← lookup p with
    | .coll _ items =>
      if items.any (fun e => e.2.isColl) then return .dict (← getSubs (getSection n) p [] items)
      else return .list (← getItems p items)
    | _ => M.raise .typeError

/-- `Runner.get` of an item (runner.py:226-231). -/
def getItem (p : List String) (k : Callable V) : RM V (Obj V) :=
  match k.kind with
  | .func => getOneFunc p
  | _ => getOneObj p

/-- `Runner.get` (runner.py:221-234). -/
def get (p : List String) : RM V (GetRes V) := do
  let s ← M.get
  match ← lookup p with
  | .coll _ _ => getSection (s.reg.depth + 1) p
  | .item k => return .obj (← getItem p k)
  | .other => M.raise .valueError

end RM

/-- What can happen to a runner between loads: a call, or an edit of the files by someone
else. -/
inductive ROp (V : Type) where
  | get (p : List String)
  | run (p : List String)
  | update (d : Option (Dict String V)) (p : Option (List String)) (persist : Bool) (kw : Dict String V)
  | reset (p : Option (List String)) (allowCreate : Bool)
  | refresh (p : List String)
  | edit (fs : Files V)

/-- The state after an operation, whether it returned or raised. -/
def RS.step [BEq V] (s : RS V) : ROp V → RS V
  | .get p => (RM.get p s).2
  | .run p => (RM.run1 p s).2
  | .update d p persist kw => (RM.update d p persist kw s).2
  | .reset p allowCreate => (RM.reset p allowCreate s).2
  | .refresh p => (RM.refresh p s).2
  | .edit fs => { s with cm := { s.cm with fs } }

/-- A section path has at least one section (C01). -/
def ROp.Valid : ROp V → Prop
  | .get p => p ≠ []
  | .run p => p ≠ []
  | .update _ (some p) _ _ => p ≠ []
  | .reset (some p) _ => p ≠ []
  | .refresh p => p ≠ []
  | _ => True

/-- A runner just after a load (main.py:545-568): nothing created yet. -/
def RS.Fresh (s : RS V) : Prop :=
  s.objs = Dict.empty ∧ s.nextId = 0 ∧ ∃ fs rootName, CM.load fs rootName = .ok s.cm

/-- The states of a runner: those after a load and any history. -/
def RS.Reachable [BEq V] (s : RS V) : Prop :=
  ∃ (s0 : RS V) (ops : List (ROp V)), s0.Fresh ∧ (∀ op ∈ ops, op.Valid) ∧ s = ops.foldl RS.step s0

end Verif.Model

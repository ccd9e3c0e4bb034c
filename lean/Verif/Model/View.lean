import Verif.Model.Main
import Verif.Model.Selector

/-
Model of setting an attribute of an item view, of reading one, and of calling a view (`pyfileconf/selector/models/itemview.py`,
`pyfileconf/selector/models/selector.py`), and of the method that running an object of a specific class calls
(`pyfileconf/runner/models/runner.py`).

Simplifications: the managers are loaded, no plugins are registered, no config file is being loaded, and values are not views.
Views of attributes of a manager are not modelled; views of attributes of items are in `Verif/Model/MethodView.lean`.
-/

namespace Verif.Model
open Verif.Py

variable {V α : Type}

/-- The active managers by name. -/
abbrev VS (V : Type) := List (String × AS V)

/-- Operations on the active managers. -/
abbrev VM (V α : Type) := M PyErr (VS V) α

namespace VM

/-- An operation of the manager with the given name; `missing` is raised if there is none. -/
def on (missing : PyErr) (name : String) (op : AM V α) : VM V α := fun s =>
  match AList.get? s name with
  | none => (.error missing, s)
  | some a => ((op a).1, AList.set s name (op a).2)

end VM

/-- The sections of a view's path below the manager: `SectionPath('.'.join(SectionPath(path)[1:]))` (selector.py:148,
158). -/
def belowManager (rest : List String) : List String := (SectionPath.mk (join '.' rest)).sections

/-- `Selector._get_real_item` (selector.py:144-155) with `get_manager_by_section_path_str` (main.py:479-495). -/
def realItem (path : String) : VM V (AttrRes V) :=
  match (SectionPath.mk path).sections with
  | [] => M.raise .indexError
  | m :: rest => VM.on .noManager m (AM.access (belowManager rest))

/-! ### Setting -/

/-- Attributes that are set on the view itself (itemview.py:76-81). -/
def viewOwnAttrs : List String := ["section_path_str", "selector", "_is_item_view", "_section_path_str"]

/-- `ItemView.__setattr__` (itemview.py:74-86) with `Selector._set_attr_for_item` (selector.py:157-165) and
`PipelineManager.update` (main.py:319-345, 363-395).  Setting an attribute of the view itself does nothing to a manager. -/
def viewSet [BEq V] (path key : String) (value : V) : VM V Unit :=
  if key ∈ viewOwnAttrs then return ()
  else match (SectionPath.mk path).sections with
    | [] => M.raise .indexError
    | m :: rest => VM.on .keyError m
        (AM.liftR (RM.update (some (Dict.ofList [(key, value)])) (some (belowManager rest)) true Dict.empty))

/-! ### Reading -/

/-- What reading an attribute of a view gives: an attribute of the view itself, a view, or an attribute of the item. -/
inductive ViewAttr (V : Type) where
  | own
  | view (path : String)
  | value (v : V)
  | real (r : AttrRes V)

/-- Attributes of a `functools.partial`. -/
def partialAttrs : List String := ["func", "args", "keywords"]

/-- `getattr(actual_item, item)` (itemview.py:60); what the attributes of an object are is the parameter `own`.  A `partial` has
no attributes for its keywords. -/
def Obj.attr (own : Obj V → String → Except PyErr V) (o : Obj V) (x : String) : Except PyErr V :=
  if o.isPartial = true ∧ x ∉ partialAttrs then .error .attributeError else own o x

/-- Attributes of a view itself; names with double underscores are left out. -/
def viewNames : List String := viewReserved

/-- Reading an attribute of a view, `ItemView.__getattr__` (itemview.py:32-72) if the view does not have it itself. -/
def viewGet (sel : Sel V) (own : Obj V → String → Except PyErr V) (path x : String) : VM V (ViewAttr V) :=
  if x ∈ viewNames then return .own
  else match selContains sel (path ++ "." ++ x) with
    | .error e => M.raise e
    | .ok true => return .view (path ++ "." ++ x)
    | .ok false => do
      match ← realItem path with
      | .got (.obj o) => return .value (← M.liftE (o.attr own x))
      | r => match (SectionPath.mk path).sections with
        | [] => M.raise .indexError
        | m :: _ => return .real (← VM.on .noManager m (AM.accessFrom r [x]))

/-! ### Calling -/

/-- A registrar of a specific class: its name, its class and its `execute_attr` (registrar.py:17-27). -/
structure ClassColl where
  name : String
  klass : Nat
  execute : String
deriving DecidableEq, Repr

/-- What is known about classes: that of an object, and which classes are subclasses of which. -/
structure Classes (V : Type) where
  of : Obj V → Nat
  sub : Nat → Nat → Bool

/-- `_specific_class_collection_map` (itemview.py:204-212): over all managers; a later collection of the same class replaces
an earlier one.  Simplification: no two collections of a manager have the same name (C40). -/
def classMap (managers : List (String × List ClassColl)) : List (Nat × ClassColl) :=
  (managers.flatMap Prod.snd).foldl (fun m c => if c.name = "_general" then m else AList.set m c.klass c) []

/-- `_specific_class_registrar_map` (runner.py:43). -/
def registrarMap (colls : List ClassColl) : List (Nat × ClassColl) :=
  colls.foldl (fun m c => AList.set m c.klass c) []

/-- What gets called: a function with its configuration, or a method of an object; or what is returned without a call: an
object, or the runner. -/
inductive Called (V : Type) where
  | func (o : Obj V)
  | method (o : Obj V) (name : String)
  | object (o : Obj V)
  | runner

/-- `ItemView.__call__` (itemview.py:96-155): what is called with the arguments of the call, as they are (line 155).
`managers` are the collections of specific classes of every manager, and `registrars` the names in `_registrar_dict`
(main.py:626-633) of the manager of the view.  Attributes of a manager are not modelled (an `AttributeError`). -/
def viewCall (cls : Classes V) (managers : List (String × List ClassColl)) (path : String) : VM V (Called V) := do
  let actual ← realItem path
  match (SectionPath.mk path).sections with
  | m :: x :: _ =>
    let specific := decide (x ∈ "general" :: ((AList.get? managers m).getD []).map ClassColl.name)
    match actual with
    | .got (.obj o) =>
      if o.isPartial then return .func o
      else if specific && (classMap managers).any (fun e => cls.sub (cls.of o) e.1) then
        match AList.get? (classMap managers) (cls.of o) with
        | none => M.raise .keyError
        | some c => return .method o c.execute
      else return .object o
    | .runner => fun s =>
      match VM.on .noManager m (AM.runnerAttr "__self__") s with
      | (.error .attributeError, s') => (.ok .runner, s')
      | (.error e, s') => (.error e, s')
      | (.ok _, s') => (.error .valueError, s')
    | _ => M.raise .attributeError
  | _ => M.raise .indexError

/-- What `Runner._run` of an item calls (runner.py:127-149, 185-219).  Only used for items: sections, which the code runs item by
item, are a `ValueError` here. -/
def runTarget (cls : Classes V) (colls : List ClassColl) (p : List String) : RM V (Called V) := do
  match ← RM.lookup p with
  | .item k =>
    let _ ← RM.funcAndConfig p
    match k.kind with
    | .func => return .func (← RM.getOneFunc p)
    | .klass => return .method (← RM.getOneObj p) "__call__"
    | .specific =>
      let o ← RM.getOneObj p
      match AList.get? (registrarMap colls) (cls.of o) with
      | none => M.raise .keyError
      | some c => return .method o c.execute
  | _ => M.raise .valueError

end Verif.Model

import Verif.Model.Runner

/-
Model of what happens to the attributes of an object that is made, and later changed by updates of its configuration:
`pyfileconf/config/logic/apply.py:14-35`, `pyfileconf/userbase.py:1-20` and `pyfileconf/runner/models/runner.py:315-320`.  The model
of the runner (`Verif/Model/Runner.lean`) has only the arguments an object was last given.

Simplifications: an object is its attributes (its `__dict__`); an update does not add or remove the method
`_pyfileconf_update_` of the object; `__init__` and `_pyfileconf_update_` change no other object of the manager.
-/

namespace Verif.Model
open Verif.Py

variable {V : Type}

/-- The attributes of an object. -/
abbrev Attrs (V : Type) := String → Option V

namespace Attrs

/-- A new object before `__init__`. -/
def blank : Attrs V := fun _ => none

/-- `obj.x = v` -/
def put (a : Attrs V) (x : String) (v : V) : Attrs V := fun y => if y = x then some v else a y

end Attrs

/-- A call of a method of an object with keyword arguments: it returns or raises, and changes attributes in both cases. -/
abbrev Method (V : Type) := Dict String V → M PyErr (Attrs V) Unit

/-- A class: the parameters of `__init__`, `__init__` itself, and `_pyfileconf_update_` if it has one. -/
structure ObjClass (V : Type) where
  sig : Sig
  init : Method V
  update : Option (Method V)

namespace ObjClass

/-- `klass(**d)` -/
def make (k : ObjClass V) (d : Dict String V) : Except PyErr (Attrs V) :=
  match k.init d Attrs.blank with
  | (.ok (), a) => .ok a
  | (.error e, _) => .error e

/-- `_get_update_func` (apply.py:31-35). -/
def updateFunc (k : ObjClass V) : Method V :=
  match k.update with
  | some m => m
  | none => k.init

/-- `apply_config_to_obj` (apply.py:14-21): only the parameters of `__init__` are passed on. -/
def applyConfig (k : ObjClass V) (config : Dict String V) : M PyErr (Attrs V) Unit := do
  let names ← M.liftE (k.sig.argNames true)
  k.updateFunc (config.filterKeys (fun x => decide (x ∈ names)))

/-- The object of an item, when it is first got (runner.py:315-320): a class makes a new object; the object of a specific class,
which has been made from its name, takes over the configuration. -/
def first (k : ObjClass V) (registered : Option (Attrs V)) (d : Dict String V) : Except PyErr (Attrs V) :=
  match registered with
  | none => k.make d
  | some a =>
    match k.applyConfig d a with
    | (.ok (), a') => .ok a'
    | (.error e, _) => .error e

/-- A class with the base class `PyfileconfBase` (userbase.py:11-20): its update method calls `__init__` of the object. -/
def withBase (sig : Sig) (init : Method V) : ObjClass V := ⟨sig, init, some init⟩

/-- What the model of the runner has of a class: whether making and updating an object raises. -/
def callable (k : ObjClass V) (kind : CKind) (exec : Dict String V → Except PyErr V) : Callable V where
  kind
  sig := k.sig
  app _ := .error .typeError
  init d := match k.make d with
    | .ok _ => .ok ()
    | .error e => .error e
  upd d := match k.make d with
    | .ok _ => .ok ()
    | .error e => .error e
  exec

end ObjClass

/-- What happens to an object: an update of its configuration, or something that other code does with its attributes. -/
inductive ObjEvent (V : Type) where
  | config (d : Dict String V)
  | other (f : Attrs V → Attrs V)

/-- The attributes afterwards. -/
def ObjEvent.step (k : ObjClass V) (a : Attrs V) : ObjEvent V → Attrs V
  | .config d => (k.applyConfig d a).2
  | .other f => f a

/-- The configuration which the object of `p` takes over during an operation of the runner, if the object has been created
(runner.py:378-401). -/
def RS.applied [BEq V] (s : RS V) (p : List String) : ROp V → Option (Dict String V)
  | .update d (some q) persist kw =>
    if q = p then
      match (CMM.update d (some q) persist kw s.cm).1 with
      | .ok (c, true) => some c.values
      | _ => none
    else none
  | .reset (some q) allowCreate =>
    if q = p then
      match (CMM.reset (some q) allowCreate s.cm).1 with
      | .ok (.conf c, true) => some c.values
      | _ => none
    else none
  | .refresh q =>
    if q = p then
      match (CMM.refresh q s.cm).1 with
      | .ok (_, true, _) =>
        match (CMM.get q (CMM.refresh q s.cm).2).1 with
        | .ok (some c) => some c.values
        | _ => none
      | _ => none
    else none
  | _ => none

/-- What happens to a runner and to the object of one item: an operation, or something other code does with the attributes. -/
inductive JointEvent (V : Type) where
  | call (op : ROp V)
  | other (f : Attrs V → Attrs V)

/-- The runner and the attributes of the object of `p` afterwards. -/
def JointEvent.step [BEq V] (k : ObjClass V) (p : List String) (s : RS V × Attrs V) : JointEvent V → RS V × Attrs V
  | .call op => (s.1.step op, match s.1.applied p op with
    | some d => (k.applyConfig d s.2).2
    | none => s.2)
  | .other f => (s.1, f s.2)

end Verif.Model

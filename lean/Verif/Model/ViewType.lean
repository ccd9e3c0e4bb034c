import Verif.Model.View

/-
Model of the type an item view says it has: `Selector.get_type` (`pyfileconf/selector/models/selector.py`), `type` and
`__class__` of views (`pyfileconf/selector/models/itemview.py`), and of the type of what the view stands for.

Simplifications: as in `Verif/Model/Selector.lean`.  Calling a class gives an object of that class, not of a subclass.
Attributes of registered items are not modelled (an `AttributeError`).
-/

namespace Verif.Model
open Verif.Py

variable {V : Type}

/-- Types: of functions, of `functools.partial`, a registered class, of collections, lists, dictionaries and runners; all
others. -/
inductive PyType (V : Type) where
  | function
  | partial_
  | klass (k : Callable V)
  | collection (specific : Bool)
  | list
  | dict
  | runner
  | other

/-- What `get_type` returns: a type, or a manager or a collection instead of a type. -/
inductive TypeOrObject (V : Type) where
  | type (t : PyType V)
  | object

/-- The end of `get_type` (selector.py:131-142); the class of an object of a specific class, or the class an entry of the
general registrar is. -/
def typeOfGot : Got V → PyType V
  | .node (.item k) => match k.kind with
    | .func => .function
    | .klass => .klass k
    | .specific => .klass k
  | .node (.coll specific _) => .collection specific
  | .node .other => .other
  | .callable => .other
  | .data => .other

/-- `Selector.get_type` (selector.py:121-142), also `type` and `__class__` of a view (itemview.py:183-185, 192-194). -/
def viewType (sel : Sel V) (path : String) : Except PyErr (TypeOrObject V) :=
  match selCollection sel (SectionPath.mk path).sections with
  | .error e => .error e
  | .ok none => .ok .object
  | .ok (some (c, rel)) => match (Got.node c).get rel with
    | .error e => .error e
    | .ok g => .ok (.type (typeOfGot g))

/-- The type of what access to an attribute of a manager gives (runner.py:313-333, 46-75). -/
def typeOfReal : AttrRes V → PyType V
  | .own => .other
  | .runner => .runner
  | .got (.obj o) => if o.isPartial then .partial_ else .klass o.callable
  | .got (.list _) => .list
  | .got (.dict _) => .dict

/-- `isinstance(view, T)` for a type that is not a supertype of `ItemView`: whether `__class__` is one of the types that are
subtypes of `T`.  What is not a type is an instance of nothing. -/
def isInstance (sub : PyType V → Bool) : TypeOrObject V → Bool
  | .type t => sub t
  | .object => false

end Verif.Model

import Verif.Model.View

/-
Model of calling an item view whose path goes on below an item: the view of a method or of another attribute of an object
(`pyfileconf/selector/models/itemview.py`, `pyfileconf/selector/models/selector.py`, `pyfileconf/logic/get.py`).  Views of items are
called as in `Verif/Model/View.lean`.

Simplifications: as there, but for the attributes of objects.  An object that is configured has no attribute `__self__` of its own.
Attributes of methods, of values that are not objects of this kind, and of a manager, are not modelled (an `AttributeError`).
-/

namespace Verif.Model
open Verif.Py

variable {V : Type}

/-- What an attribute access gives, with attributes of objects: as in `AttrRes`; a bound method, of an object or (`none`) of anything
else, like the class for a class method; a class; or another value without `__self__`, like a function from a static method, for which
`canSet` says whether attributes can be set. -/
inductive ViewThing (V : Type) where
  | res (r : AttrRes V)
  | bound (owner : Option (Obj V)) (name : String)
  | klass
  | value (canSet : Bool)

/-- `_get_from_nested_obj_by_section_path` (logic/get.py:19-39) without the check for properties; `attr` is `getattr` of objects. -/
def thingFrom (attr : Obj V → String → Except PyErr (ViewThing V)) : ViewThing V → List String → AM V (ViewThing V)
  | t, [] => return t
  | .res .runner, x :: xs => do thingFrom attr (.res (← AM.runnerAttr x)) xs
  | .res (.got (.obj o)), x :: xs => do thingFrom attr (← M.liftE (attr o x)) xs
  | _, _ :: _ => M.raise .attributeError

/-- The same from the manager on. -/
def thing (attr : Obj V → String → Except PyErr (ViewThing V)) : List String → AM V (ViewThing V)
  | [] => M.raise .attributeError
  | x :: xs => do thingFrom attr (.res (← AM.managerAttr x)) xs

/-- `Selector._get_real_item` (selector.py:144-155). -/
def realThing (attr : Obj V → String → Except PyErr (ViewThing V)) (path : String) : VM V (ViewThing V) :=
  match (SectionPath.mk path).sections with
  | [] => M.raise .indexError
  | m :: rest => VM.on .noManager m (thing attr (belowManager rest))

/-- What a call of a view comes to: as for items, or a value is returned without a call. -/
inductive CalledAny (V : Type) where
  | item (c : Called V)
  | value

/-- `ItemView.__call__` (itemview.py:96-155). -/
def viewCallAny (cls : Classes V) (attr : Obj V → String → Except PyErr (ViewThing V)) (managers : List (String × List ClassColl))
    (path : String) : VM V (CalledAny V) := do
  let actual ← realThing attr path
  match (SectionPath.mk path).sections with
  | m :: x :: _ =>
    let specific := decide (x ∈ "general" :: ((AList.get? managers m).getD []).map ClassColl.name)
    let isSpecific := fun o => (classMap managers).any (fun e => cls.sub (cls.of o) e.1)
    match actual with
    | .res (.got (.obj o)) =>
      if o.isPartial then return .item (.func o)
      else if specific && isSpecific o then
        match AList.get? (classMap managers) (cls.of o) with
        | none => M.raise .keyError
        | some c => return .item (.method o c.execute)
      else return .item (.object o)
    | .res .runner => (fun s =>
      match VM.on .noManager m (AM.runnerAttr "__self__") s with
      | (.error .attributeError, s') => (.ok (.item .runner), s')
      | (.error e, s') => (.error e, s')
      | (.ok _, s') => (.error .valueError, s'))
    | .bound (some o) name => if isSpecific o then return .item (.method o name) else M.raise .valueError
    | .bound none _ => M.raise .valueError
    | .klass => M.raise .valueError
    | .value true => return .value
    | .value false => M.raise .attributeError
    | _ => M.raise .attributeError
  | _ => M.raise .indexError

end Verif.Model

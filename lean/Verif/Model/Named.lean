import Verif.Model.Locate
import Verif.Py.Monad

/-
Model of the names of registered items: `ObjectView.name` and `output_name` with what they keep
(`pyfileconf/views/object.py`), `_get_public_name_or_special_name` (`pyfileconf/logic/get.py`), the keyword
arguments of a call (`pyfileconf/io/file/load/parsers/kwargs.py`), and where the names are used
(`pyfileconf/pipelines/models/collection.py`, `pyfileconf/runner/models/runner.py`).

Simplifications: only strings have an `.s` (so have numbers, which are no names).  `_try_getattr_else_call_func` of the
library `py-mixins` gives the attribute, after calling the function if it is missing.
-/

namespace Verif.Model
open Verif.Py

mutual
/-- `KeywordByNameExtractor` (parsers/kwargs.py:3-33): the values of all keyword arguments of the name, in the order in
which they are visited.  It does not go into the values of other keyword arguments. -/
def kwNamed (k : String) : EntryExpr → List EntryExpr
  | .name _ => []
  | .attribute v _ => kwNamed k v
  | .call f args kwargs => kwNamed k f ++ kwNamedAll k args ++ kwNamedIn k kwargs
  | .str _ => []
  | .other parts => kwNamedAll k parts
/-- The same for expressions one after the other. -/
def kwNamedAll (k : String) : List EntryExpr → List EntryExpr
  | [] => []
  | e :: rest => kwNamed k e ++ kwNamedAll k rest
/-- The same for keyword arguments. -/
def kwNamedIn (k : String) : List (String × EntryExpr) → List EntryExpr
  | [] => []
  | (k', e) :: rest => if k' = k then e :: (kwNamed k e ++ kwNamedIn k rest) else kwNamedIn k rest
end

/-- An `ObjectView` (views/object.py:15-25) with what it has kept: `_name` and `_output_name`. -/
structure EntryView where
  expr : EntryExpr
  name : Option (Option String) := none
  outputName : Option String := none

/-- Access to a view. -/
abbrev EV (α : Type) := M PyErr EntryView α

namespace EntryView

/-- `_set_name` (views/object.py:79-85).  Without the keyword argument there is a `KeyError`, and what is no string has no `.s`. -/
def setName : EV Unit := do
  let v ← M.get
  let name ← M.liftE (externalName v.expr)
  if name = some "DataPipeline" then
    match (kwNamed "name" v.expr).getLast? with
    | none => M.raise .keyError
    | some (.str s) => M.modify (fun v => { v with outputName := some s })
    | some _ => M.raise .attributeError
  M.modify (fun v => { v with name := some name })

/-- `name` (views/object.py:43-45). -/
def getName : EV (Option String) := do
  let v ← M.get
  match v.name with
  | some n => return n
  | none => do
    setName
    let v ← M.get
    match v.name with
    | some n => return n
    | none => M.raise .attributeError

/-- `output_name` (views/object.py:47-52). -/
def getOutputName : EV (Option String) := do
  let v ← M.get
  match v.outputName with
  | some s => return some s
  | none => getName

/-- `hasattr`: only an `AttributeError` counts as no. -/
def has (get : EV (Option String)) : EV Bool :=
  M.tryCatch (do let _ ← get; return true) (fun e => if e = .attributeError then return false else M.raise e)

/-- `_get_public_name_or_special_name` of a view (logic/get.py:4-5, 42-62); a view has no `__name__`. -/
def publicName (acceptOutput : Bool) : EV (Option String) := do
  if acceptOutput then
    if ← has getOutputName then
      return ← getOutputName
  if ← has getName then
    return ← getName
  M.raise .valueError

end EntryView

/-- Do something with each view of a section, in order, until one raises. -/
def eachView {α : Type} (act : EV α) : List EntryView → Except PyErr (List α × List EntryView)
  | [] => .ok ([], [])
  | v :: vs => match act v with
    | (.error e, _) => .error e
    | (.ok a, v') => match eachView act vs with
      | .error e => .error e
      | .ok (as, vs') => .ok (a :: as, v' :: vs')

/-- `PipelineCollection(items=...)` for a list of entries (basemodels/collection.py:40-54, pipelines/models/collection.py:12-33):
the names of the name map, and the views.  The map is made twice (collection.py:53, 54 and 81-84), the second time with the names
that are kept. -/
def sectionOfEntries (es : List EntryExpr) : Except PyErr (List (Option String) × List EntryView) :=
  match eachView (EntryView.publicName true) (es.map (fun e => ⟨e, none, none⟩)) with
  | .error e => .error e
  | .ok (_, vs) => eachView (EntryView.publicName true) vs

/-- `name_dict[x]` (pipelines/models/collection.py:12-17, basemodels/collection.py:68-72): the place of the last view of the name. -/
def findView (names : List (Option String)) (x : Option String) : Except PyErr Nat :=
  match names.reverse.findIdx? (fun n => decide (n = x)) with
  | some i => .ok (names.length - 1 - i)
  | none => .error .attributeError

/-- The config file of an item (pipelines/models/collection.py:52-53). -/
def viewFile : EV String := do
  match ← EntryView.getOutputName with
  | some n => return n ++ ".py"
  | none => M.raise .typeError

/-- What a section is called in the section around it (logic/get.py:42-48, basemodels/collection.py:68-72): something in it that
is called `output_name`, by its place, or its own name. -/
def sectionPublicName (name : String) (names : List (Option String)) : Nat ⊕ String :=
  match findView names (some "output_name") with
  | .ok i => .inl i
  | .error _ => .inr name

end Verif.Model

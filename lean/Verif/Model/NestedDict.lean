import Verif.Py.Dict
import Verif.Model.Registry

/-
Model of `to_nested_dict` (`pyfileconf/basemodels/collection.py:170-185`, `pyfileconf/basemodels/registrar.py:99-100`) and of the
lookup in collections by path it is compared with.

Simplification: the name of a collection in the name map is the name it was made with (but see C97 for sections with an item called
`output_name`).  Walking into an item finds nothing.
-/

namespace Verif.Model
open Verif.Py

variable {I : Type}

/-- What is in a collection: an item with the name it has in the name map (its `output_name`, or its attribute `key_attr`:
pipelines/models/collection.py:12-17, data/models/collection.py:26-36) and what its attribute `name` gives; or a collection with its
name. -/
inductive CollEntry (I : Type) where
  | item (key : String) (name : Except PyErr String) (i : I)
  | coll (name : String) (entries : List (CollEntry I))

/-- Nested dictionaries. -/
inductive Nested (I : Type) where
  | item (i : I)
  | dict (entries : List (String × Nested I))

namespace CollEntry

/-- The name in the name map. -/
def key : CollEntry I → String
  | .item k _ _ => k
  | .coll n _ => n

/-- The attribute `name`. -/
def name : CollEntry I → Except PyErr String
  | .item _ n _ => n
  | .coll n _ => .ok n

mutual
/-- What stands for an entry in the nested dictionary. -/
def value : CollEntry I → Except PyErr (Nested I)
  | .item _ _ i => .ok (.item i)
  | .coll _ es => do return .dict (← toNested [] es)
/-- The loop of `to_nested_dict` (collection.py:177-185); the value is made before the name is asked for. -/
def toNested (out : List (String × Nested I)) : List (CollEntry I) → Except PyErr (List (String × Nested I))
  | [] => .ok out
  | e :: es => do
    let v ← value e
    let n ← name e
    toNested (AList.set out n v) es
end

/-- The name map. -/
def nameMap (es : List (CollEntry I)) : List (String × CollEntry I) :=
  es.foldl (fun m e => AList.set m e.key e) []

/-- `Collection.get` (collection.py:56-72); a name that collections have as attribute gives that (`none`). -/
def get : CollEntry I → List String → Except PyErr (Option (CollEntry I))
  | e, [] => .ok (some e)
  | .item _ _ _, _ :: _ => .error .attributeError
  | .coll _ es, x :: p =>
    if x ∈ collectionReserved then .ok none
    else match AList.get? (nameMap es) x with
      | none => .error .attributeError
      | some e => get e p

end CollEntry

/-- Looking up keys in nested dictionaries, one after the other. -/
def Nested.at? : Nested I → List String → Option (Nested I)
  | n, [] => some n
  | .item _, _ :: _ => none
  | .dict es, x :: p => match AList.get? es x with
    | none => none
    | some n => n.at? p

end Verif.Model

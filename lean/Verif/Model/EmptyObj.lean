import Verif.Model.Definition

/-
Model of making the objects of a specific class from the names in its dictionary: `pyfileconf/data/logic/convert.py`,
`pyfileconf/imports/logic/load/klass.py`, `pyfileconf/imports/logic/load/func.py` and
`pyfileconf/data/models/collection.py:26-46`, with Python's rules for a call that has keyword arguments only.

Simplifications: the entries of the dictionary are strings, and strings are not objects of the class (convert.py:10-11).  The
class makes its objects with `__init__` only, and taking an attribute of an object changes nothing.  A name that is not a
string is an error when the object is registered, in the code when its file is written (collection.py:61-62).
-/

namespace Verif.Model
open Verif.Py

variable {V O : Type}

/-- `inspect.getfullargspec` of `__init__`, and how many of `args` can only be passed by position.  `args` are all positional
parameters, with the one for the object itself; `defaults` are those of the last ones. -/
structure InitSig (V : Type) where
  posonly : Nat
  args : List String
  defaults : List V
  kwonly : List String
  kwonlyDefaults : List (String × V)
  varargs : Bool
  varkw : Bool

namespace InitSig

/-- `function_args_as_dict` (func.py:5-28) of a plain function: the default of each parameter, or `None`; keyword-only
parameters only if one of them has a default. -/
def argDict (noneV : V) (s : InitSig V) : Except PyErr (Dict String V) :=
  let all := List.replicate (s.args.length - s.defaults.length) noneV ++ s.defaults
  if all.length ≠ s.args.length then .error .assertionError
  else .ok (Dict.ofList (s.args.zip all ++
    if s.kwonlyDefaults.isEmpty then [] else s.kwonly.map (fun k => (k, (AList.get? s.kwonlyDefaults k).getD noneV))))

/-- `class_function_args_as_dict` (klass.py:6-21): without `self`. -/
def classArgs (noneV : V) (s : InitSig V) : Except PyErr (Dict String V) := do
  let d ← s.argDict noneV
  return d.filterKeys (fun k => decide (k ≠ "self"))

/-- Parameters after the one for the object that can be given by name. -/
def byName (s : InitSig V) : List String := s.args.drop (max 1 s.posonly) ++ s.kwonly

/-- Parameters after the one for the object, with their defaults. -/
def params (s : InitSig V) : List (String × Option V) :=
  (s.args.zip (List.replicate (s.args.length - s.defaults.length) none ++ s.defaults.map some)).drop 1 ++
    s.kwonly.map (fun k => (k, AList.get? s.kwonlyDefaults k))

/-- Each parameter gets what is given for it by name, or its default, or is missing. -/
def bindParams (named : List String) (d : Dict String V) : List (String × Option V) → Except PyErr (List (String × V))
  | [] => .ok []
  | (x, dflt) :: rest =>
    match if x ∈ named then (d.get? x).or dflt else dflt with
    | none => .error .typeError
    | some v => do
      let others ← bindParams named d rest
      return (x, v) :: others

/-- Python's rules for `klass(**d)`: the values of the parameters, and those left for `**kwargs`.  The object itself is the
first positional argument. -/
def bind (s : InitSig V) (d : Dict String V) : Except PyErr (List (String × V) × Dict String V) :=
  if s.args = [] ∧ s.varargs = false then .error .typeError
  else if s.posonly = 0 ∧ (∃ x, s.args.head? = some x ∧ x ∈ d.keys) then .error .typeError
  else if s.varkw = false ∧ d.keys.any (fun k => decide (k ∉ s.byName)) then .error .typeError
  else do
    let bound ← bindParams s.byName d s.params
    return (bound, d.filterKeys (fun k => decide (k ∉ s.byName)))

end InitSig

/-- A class: the parameters of its `__init__`, what `__init__` makes of the values, and the attributes of the objects. -/
structure Klass (V O : Type) where
  sig : InitSig V
  init : List (String × V) → Dict String V → Except PyErr O
  attr : O → String → Except PyErr V

/-- `convert_to_empty_obj_if_necessary` (convert.py:8-20) of an item that is not an object yet. -/
def Klass.makeEmpty (k : Klass V O) (noneV : V) (keyAttr : String) (item : V) : Except PyErr O := do
  let d ← k.sig.classArgs noneV
  let (bound, extra) ← k.sig.bind (d.set keyAttr item)
  k.init bound extra

/-- `_transform_item` (collection.py:36-46) of a name in the dictionary, and the name it gets in `_set_name_map`
(collection.py:26-34).  `item` is what is registered for an object. -/
def Klass.resolve (k : Klass V O) (noneV : V) (ofStr : String → V) (asStr : V → Option String) (keyAttr : String)
    (item : O → Callable V) (entry : String) : Except PyErr (String × Callable V) := do
  let o ← k.makeEmpty noneV keyAttr (ofStr entry)
  match asStr (← k.attr o keyAttr) with
  | some name => return (name, item o)
  | none => .error .typeError

end Verif.Model

import Verif.Py.Monad
import Verif.Model.SectionPath

/-
Model of the attribute `_section_path_str`, which says of an object made by a manager which item it is: it is set when the runner makes
the object (`pyfileconf/runner/models/runner.py`) and when an item view is called (`pyfileconf/selector/models/itemview.py`).

Objects are numbers.  Simplifications: whether configs can be read and objects be made (C16, C91) is a parameter of every operation, as
is whether `_section_path_str` of the object can be set at all (`__slots__`); attributes of an object are changed in any way between
operations.  Views of sections and of names that are not registered (C52, C87) are a `KeyError` here: no object of an item is concerned.
Attributes of bound methods, and classes as attributes, are not modelled.  `_full_getattr` of the runner is empty between operations (C25).
-/

namespace Verif.Model.Tags
open Verif.Py

/-- What is registered under a path: a function, a class, or an object of a specific class. -/
inductive Kind where
  | func
  | klass
  | inst (o : Nat)
deriving DecidableEq, Repr

/-- The value of an attribute: an object, a method bound to an object, or something that has no attributes that can be set. -/
inductive Target where
  | obj (o : Nat)
  | method (self : Nat)
  | other
deriving DecidableEq, Repr

/-- The names of runners, each made by a load of a manager (runner.py:34-44, main.py:545-568), and which objects are instances of a specific class
of any manager (itemview.py:214-216). -/
structure World where
  name : Nat → String
  isSpecific : Nat → Bool

/-- The runner of each active manager, what is registered, the created objects of each runner, the `_section_path_str` of
objects, which objects are a `functools.partial`, the attributes of objects, and the next new object. -/
structure State where
  active : String → Option Nat
  reg : Nat → String → Option Kind
  loaded : Nat → String → Option Nat
  tag : Nat → Option String
  partials : Nat → Bool
  attr : Nat → String → Option Target
  next : Nat

/-- Nothing there. -/
def State.start : State := ⟨fun _ => none, fun _ _ => none, fun _ _ => none, fun _ => none, fun _ => false, fun _ _ => none, 0⟩

abbrev TM (α : Type) := M PyErr State α

/-- `obj._section_path_str = path`. -/
def setTag (canTag : Bool) (o : Nat) (path : String) : TM Unit :=
  if canTag then M.modify (fun s => { s with tag := fun o' => if o' = o then some path else s.tag o' })
  else M.raise .attributeError

/-- `_add_full_section_path_str_to_obj` (runner.py:411-413). -/
def addFull (w : World) (r : Nat) (canTag : Bool) (o : Nat) (p : String) : TM Unit :=
  setTag canTag o (SectionPath.joinSP ⟨w.name r⟩ ⟨p⟩).pathStr

/-- A new object. -/
def fresh (isPartial : Bool) : TM Nat := fun s =>
  (.ok s.next, { s with next := s.next + 1, partials := fun o => if o = s.next then isPartial else s.partials o })

/-- `self._loaded_objects[section_path_str] = obj` (runner.py:308, 323). -/
def keep (r : Nat) (p : String) (o : Nat) : TM Unit :=
  M.modify (fun s => { s with loaded := fun r' p' => if r' = r ∧ p' = p then some o else s.loaded r' p' })

/-- What Python makes of a class: `none` is a new object, `some` an object that was there already (`__new__`). -/
def construct : Option Nat → TM Nat
  | none => fresh false
  | some o => return o

/-- `Runner.get` of an item (runner.py:221-234), or of an item of a section (runner.py:286-291), with `_get_one_func_with_config`
(runner.py:299-310) and `_get_one_obj_with_config` (runner.py:312-327).  A class in a section is taken for a function.  `made` is what
reading the config and making the object come to. -/
def getItem (w : World) (r : Nat) (p : String) (inSection : Bool) (made : Except PyErr (Option Nat)) (canTag : Bool) : TM Nat := do
  let s ← M.get
  match s.reg r p with
  | none => M.raise .keyError
  | some kind => match s.loaded r p with
    | some o => return o
    | none => match made with
      | .error e => M.raise e
      | .ok again =>
        if kind = .func ∨ (kind = .klass ∧ inSection = true) then do
          let o ← fresh true
          addFull w r true o p
          keep r p o
          return o
        else do
          let o ← match kind with
            | .inst o => (return o : TM Nat)
            | _ => construct again
          addFull w r canTag o p
          keep r p o
          return o

/-- The item an attribute access on a runner finds: the shortest path that is not a section (runner.py:46-65), and the rest. -/
def findItem (isItem : String → Bool) (done : List String) : List String → Option (String × List String)
  | [] => none
  | x :: rest =>
    if isItem (join '.' (done ++ [x])) then some (join '.' (done ++ [x]), rest) else findItem isItem (done ++ [x]) rest

/-- `getattr` for one name after the other (logic/get.py:19-39). -/
def walk (attr : Nat → String → Option Target) (t : Target) : List String → Option Target
  | [] => some t
  | x :: rest => match t with
    | .obj o => match attr o x with
      | some t' => walk attr t' rest
      | none => none
    | _ => none

/-- `ItemView.__call__` (itemview.py:96-155) up to the call itself, with `_get_real_item` (selector.py:144-155).  `canTag` says of each object
whether the attribute can be set. -/
def call (w : World) (path : String) (made : Except PyErr (Option Nat)) (canTag : Nat → Bool) (canTagNew : Bool) : TM Unit := do
  let s ← M.get
  match (SectionPath.mk path).sections with
  | [] => M.raise .indexError
  | m :: rest => match s.active m with
    | none => M.raise .noManager
    | some r => match findItem (fun p => (s.reg r p).isSome) [] rest with
      | none => M.raise .keyError
      | some (p, attrs) => do
        let o ← getItem w r p false made canTagNew
        let s ← M.get
        match walk s.attr (.obj o) attrs with
        | none => M.raise .attributeError
        | some (.obj o') => if s.partials o' then return () else setTag (canTag o') o' path
        | some (.method o') =>
          if w.isSpecific o' then
            setTag (canTag o') o' (SectionPath.fromSectionStrList (SectionPath.mk path).sections.dropLast).pathStr
          else M.raise .valueError
        | some .other => M.raise .attributeError

/-- What can happen: a manager is loaded and active from then on, or is deleted (main.py:546-568, 612-624); a function or class, a name in the
dictionary of a specific class (an object is made, data/logic/convert.py:13-20) or an object in it (convert.py:10-11) is registered; an item
is got or run, alone or in a section; a view is called; and anything else changes attributes of objects. -/
inductive Op where
  | load (r : Nat)
  | forget (name : String)
  | register (r : Nat) (p : String) (isClass : Bool)
  | registerName (r : Nat) (p : String)
  | registerObject (r : Nat) (p : String) (o : Nat)
  | get (r : Nat) (p : String) (inSection : Bool) (made : Except PyErr (Option Nat)) (canTag : Bool)
  | call (path : String) (made : Except PyErr (Option Nat)) (canTag : Nat → Bool) (canTagNew : Bool)
  | change (attr : Nat → String → Option Target)

/-- Something is registered under a path. -/
def State.put (s : State) (r : Nat) (p : String) (k : Kind) : State :=
  { s with reg := fun r' p' => if r' = r ∧ p' = p then some k else s.reg r' p' }

/-- The state after an operation, whether it returned or raised. -/
def step (w : World) (s : State) : Op → State
  | .load r => { s with active := fun m => if m = w.name r then some r else s.active m }
  | .forget name => { s with active := fun m => if m = name then none else s.active m }
  | .register r p isClass => s.put r p (if isClass then .klass else .func)
  | .registerName r p => (fresh false s).2.put r p (.inst s.next)
  | .registerObject r p o => s.put r p (.inst o)
  | .get r p inSection made canTag => (getItem w r p inSection made canTag s).2
  | .call path made canTag canTagNew => (call w path made canTag canTagNew s).2
  | .change attr => { s with attr }

end Verif.Model.Tags

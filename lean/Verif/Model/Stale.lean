import Verif.Model.Selector
import Verif.Model.Definition

/-
Model of selectors that are kept while managers are made, loaded, extended and destroyed: what a selector holds
(`pyfileconf/selector/models/selector.py`), and what these operations (`pyfileconf/main.py`, `pyfileconf/pmcontext/main.py`) do
to the objects it holds.  Also the exceptions of `pyfileconf/selector/logic/exc/typo.py` for managers that are not loaded.

A selector holds the dictionary of managers itself, and the collections the managers had when it was made.  A load makes new
collections, `create` changes those that are there in place.

Simplifications: as in `Verif/Model/Selector.lean`.  A load that fails before there are new registrars (main.py:551-557), and a
`create` that fails before it registers anything, change nothing here.  Of `create` only what it does to the collections is
modelled.
-/

namespace Verif.Model
open Verif.Py

variable {V : Type}

/-- A manager: `name`, `specific_class_names` (main.py:71, 73), and which load its registrars are from (main.py:77-78, 551). -/
structure ManagerObj where
  name : String
  classNames : List String
  loaded : Option Nat
deriving DecidableEq, Repr

/-- All managers that were made, the collections of every load as they are now, the dictionaries that were
`context.active_managers` before, and the one that is now. -/
structure SelWorld (V : Type) where
  managers : List ManagerObj
  loads : List (Registry V)
  past : List (List (String × Nat))
  active : List (String × Nat)

namespace SelWorld

/-- Before anything was made. -/
def start : SelWorld V := ⟨[], [], [], []⟩

/-- A dictionary of managers by its number. -/
def dictAt (w : SelWorld V) (i : Nat) : List (String × Nat) :=
  if i = w.past.length then w.active else (w.past[i]?).getD []

end SelWorld

/-- What can happen. -/
inductive SelOp (V : Type) where
  /-- Making a manager (main.py:59-82). -/
  | make (name : String) (classNames : List String)
  /-- `load` or `reload` of a manager (main.py:284-317, 545-557): the collection of the general registrar, and those of the
  specific classes. -/
  | load (k : Nat) (general : Reg V) (specific : String → Reg V)
  /-- `create` (main.py:408-457): one item more in a collection of a manager. -/
  | create (k : Nat) (registrar : Option String) (path : List String) (value : String × Reg V)
  /-- The manager is destroyed (main.py:615-623). -/
  | destroy (k : Nat)
  /-- `context.reset()` (pmcontext/main.py:38-42). -/
  | reset

/-- What happens to managers and collections. -/
def SelOp.apply (w : SelWorld V) : SelOp V → SelWorld V
  | .make name classNames =>
    { w with managers := w.managers ++ [⟨name, classNames, none⟩], active := AList.set w.active name w.managers.length }
  | .load k general specific =>
    match w.managers[k]? with
    | none => w
    | some m =>
      { w with managers := w.managers.set k { m with loaded := some w.loads.length },
               loads := w.loads ++ [⟨m.classNames.map (fun n => (n, specific n)), general⟩] }
  | .create k registrar path value =>
    match (w.managers[k]?).bind ManagerObj.loaded with
    | none => w
    | some n => match w.loads[n]? with
      | none => w
      | some r => { w with loads := w.loads.set n (r.set registrar path value).2 }
  | .destroy k =>
    match w.managers[k]? with
    | none => w
    | some m => if AList.get? w.active m.name = some k then { w with active := AList.del w.active m.name } else w
  | .reset => { w with past := w.past ++ [w.active], active := [] }

namespace SelWorld

/-- The world after some operations. -/
def after (w : SelWorld V) (ops : List (SelOp V)) : SelWorld V := ops.foldl SelOp.apply w

end SelWorld

/-- A selector: which dictionary of managers it has (selector.py:167-169), and of every manager the collections it had when
the selector was made (selector.py:171-187). -/
structure Selr where
  dict : Nat
  structure_ : List (String × Nat)
deriving DecidableEq, Repr

namespace SelWorld

/-- The loop of `_load_structure` (selector.py:176-186).  A manager that is not loaded has no registrar. -/
def loadStructure (w : SelWorld V) : List (String × Nat) → Except PyErr (List (String × Nat))
  | [] => .ok []
  | (name, k) :: rest => match (w.managers[k]?).bind ManagerObj.loaded with
    | none => .error .attributeError
    | some n => match loadStructure w rest with
      | .error e => .error e
      | .ok others => .ok ((name, n) :: others)

/-- `Selector()` (selector.py:13-16). -/
def selector (w : SelWorld V) : Except PyErr Selr :=
  match loadStructure w w.active with
  | .error e => .error e
  | .ok entries => .ok ⟨w.past.length, entries⟩

/-- `self._structure[manager_name][collection_name]` -/
def inStructure (w : SelWorld V) (s : Selr) (m collection : String) : Except PyErr (Reg V) :=
  match (AList.get? s.structure_ m).bind (fun n => w.loads[n]?) with
  | none => .error .keyError
  | some r => match AList.get? (Reg.nameDict (("_general", r.general) :: r.specific)) collection with
    | none => .error .keyError
    | some c => .ok c

/-- `_get_collection_obj_and_relative_section_path_from_structure` (selector.py:94-119). -/
def collectionFor (w : SelWorld V) (s : Selr) (sections : List String) : Except PyErr (Option (Reg V × List String)) :=
  match sections with
  | [] => .error .indexError
  | m :: rest => match (AList.get? (w.dictAt s.dict) m).bind (fun k => w.managers[k]?) with
    | none => .error .keyError
    | some mgr => match rest with
      | [] => .ok none
      | x :: rest' =>
        if x ∈ mgr.classNames then
          match inStructure w s m x, rest' with
          | .error e, _ => .error e
          | .ok _, [] => .ok none
          | .ok c, _ :: _ => .ok (some (c, rest'))
        else match inStructure w s m "_general" with
          | .error e => .error e
          | .ok c => .ok (some (c, x :: rest'))

/-- `Selector.__contains__` (selector.py:18-57). -/
def contains (w : SelWorld V) (s : Selr) (path : String) : Except PyErr Bool :=
  match w.collectionFor s (SectionPath.mk path).sections with
  | .error e => .error e
  | .ok none => .ok true
  | .ok (some (c, rel)) =>
    match (Got.node c).get rel with
    | .error .attributeError => .ok false
    | .error e => .error e
    | .ok g => .ok g.counts

end SelWorld

/-- What following a name can raise: `PipelineManagerNotLoadedException` and `ItemNotFoundException` (typo.py:9-15, 29), or
anything else. -/
inductive NameErr where
  | py (e : PyErr)
  | notLoaded
  | itemNotFound
deriving DecidableEq, Repr

/-- What following a name gives: a view, or an attribute of the real item (see `Verif/Model/View.lean`). -/
inductive NameRes where
  | view (path : String)
  | real
deriving DecidableEq, Repr

namespace SelWorld

/-- `handle_pipeline_manager_not_loaded_or_typo` (typo.py:9-15). -/
def notLoadedOrTypo (w : SelWorld V) (s : Selr) (m : String) : NameErr :=
  if (AList.get? (w.dictAt s.dict) m).isSome then .itemNotFound else .notLoaded

/-- `ItemView.__getattr__` (itemview.py:32-49), with `Selector._get_real_item` (selector.py:143-155) as far as finding the
manager and its runner (main.py:85-90).  What the real item then gives is left out.

Simplification: the name after that of the manager is not an attribute of managers. -/
def readName (w : SelWorld V) (s : Selr) (path x : String) : Except NameErr NameRes :=
  match w.contains s (path ++ "." ++ x) with
  | .error e => .error (.py e)
  | .ok true => .ok (.view (path ++ "." ++ x))
  | .ok false => match (SectionPath.mk path).sections with
    | [] => .error (.py .indexError)
    | m :: _ => match AList.get? w.active m with
      | none => .error (.py .noManager)
      | some k => match (w.managers[k]?).bind ManagerObj.loaded with
        | none => .error (w.notLoadedOrTypo s m)
        | some _ => .ok .real

end SelWorld

end Verif.Model

import Verif.Model.Iterate

/-
Model of the cases of an iterative run and of its defaults (`pyfileconf/iterate.py:58-101, 167-233`) for section paths of every
form: strings, section paths and item views.  `Verif/Model/Iterate.lean` has them for strings.

Simplifications: looking up the item of a view changes nothing here, though it may create the item (C75 has this for views among the
values).  The copy of the item of a view is not a string or section path and has no attribute `split`.
-/

namespace Verif.Model
open Verif.Py

variable {V : Type}

/-- The keys of `combined_dicts` (iterate.py:227).  A string and a section path are never equal (sectionpath.py:109-113); section paths
are equal if their strings are (sectionpath.py:109-116); other objects are told apart by their own `__eq__` and `__hash__`, which the
number stands for. -/
inductive PathKey where
  | str (s : String)
  | path (s : String)
  | obj (n : Nat)
deriving DecidableEq, Repr

/-- `conf["section_path_str"]` as a key (iterate.py:231-232) in the copy of the update with number `i`.  What the copy of the item of a
view, or of anything else, is as a key is the parameter `copied`: no key if the item cannot be got or has no hash. -/
def pathKey (copied : Nat → PathLike → Except PyErr Nat) (i : Nat) : Option PathLike → Except PyErr PathKey
  | none => .error .keyError
  | some (.str s) => .ok (.str s)
  | some (.path sp) => .ok (.path sp.pathStr)
  | some x => (copied i x).map .obj

/-- `conf = deepcopy(config_dict)` (iterate.py:230): the copy of a view is a copy of the item (itemview.py:157-158). -/
def copyPath (u : Upd V) : Upd V :=
  match u.path with
  | some (.view _) => { u with path := some .other }
  | _ => u

/-- `_get_configs_by_section_path_dict` (iterate.py:199-233); `acc` is `combined_dicts` and `i` the number of the next update. -/
def groupByKey (copied : Nat → PathLike → Except PyErr Nat) (i : Nat) (acc : Dict PathKey (List (Upd V))) :
    List (Upd V) → Except PyErr (Dict PathKey (List (Upd V)))
  | [] => .ok acc
  | u :: us =>
    match pathKey copied i u.path with
    | .error e => .error e
    | .ok k => groupByKey copied (i + 1) (acc.set k ((acc.get? k).getD [] ++ [copyPath u])) us

/-- `get_config_product` (iterate.py:167-196). -/
def getConfigProductAny (copied : Nat → PathLike → Except PyErr Nat) (us : List (Upd V)) : Except PyErr (List (List (Upd V))) :=
  match groupByKey copied 0 Dict.empty us with
  | .error e => .error e
  | .ok groups => .ok (product groups.values)

/-- `_get_full_section_path_str` (iterate.py:98-101): without a base the path as it is; else joined (sectionpath.py:89-95), which is only
possible for strings and section paths (sectionpath.py:139-145). -/
def fullPathAny (base : Option String) (x : PathLike) : Except PyErr PathLike :=
  match base with
  | none => .ok x
  | some b =>
    if b = "" then .ok x
    else match x with
      | .str s => .ok (.str (SectionPath.joinSP ⟨b⟩ ⟨s⟩).pathStr)
      | .path sp => .ok (.str (SectionPath.joinSP ⟨b⟩ sp).pathStr)
      | _ => .error .valueError

namespace IRunner

/-- The list comprehension of `get_defaults` (iterate.py:75-77). -/
def fullPathsAny (base : Option String) : List (Upd V) → Except PyErr (List PathLike)
  | [] => .ok []
  | u :: us =>
    match u.path with
    | none => .error .keyError
    | some x => do
      let full ← fullPathAny base x
      let rest ← fullPathsAny base us
      return full :: rest

/-- The loop of `get_defaults` (iterate.py:78-85).  `SectionPath(sp_str)` splits its argument (main.py:489, sectionpath.py:16-18,
119-120), which only works for a string. -/
def defaultsLoopAny (acc : Dict String (Dict String V)) : List PathLike → BM V (Dict String (Dict String V))
  | [] => return acc
  | .str s :: sps => do
    match ← BM.onManager ⟨s⟩ (fun _ => MM.liftR (RM.liftC (CMM.get (BM.relative ⟨s⟩)))) with
    | none => defaultsLoopAny acc sps
    | some c => defaultsLoopAny (acc.set s c.values) sps
  | _ :: _ => M.raise .attributeError

/-- `get_defaults` (iterate.py:68-87). -/
def getDefaultsAny (base : Option String) (cases : List (List (Upd V))) : BM V (Dict String (Dict String V)) :=
  match cases with
  | [] => M.raise .indexError
  | c :: _ => do
    let sps ← M.liftE (fullPathsAny base c)
    defaultsLoopAny Dict.empty sps

/-- `IterativeRunner(…)` (iterate.py:31-66). -/
def newAny (copied : Nat → PathLike → Except PyErr Nat) (h : IterHooks V) (items : PathLike ⊕ List PathLike) (us : List (Upd V))
    (base : Option String) (strip : Bool) : BM V (IRunner V) := do
  let runItems ← M.liftE (SectionPath.listFromAmbiguous items strip base)
  let product ← M.liftE (getConfigProductAny copied us)
  let cases := h.modifyCases (h.moreCases us ++ product)
  let defaults ← getDefaultsAny base cases
  return { runItems, base, strip, cases, defaults }

end IRunner
end Verif.Model

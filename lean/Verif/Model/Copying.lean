import Verif.Model.Iterate

/-
Model of the deep copies that the default cases of an iterative run are made of (`pyfileconf/iterate.py:229-232`), where a
copy of an item view is a copy of the item (`pyfileconf/selector/models/itemview.py:157-158`).  `Verif/Model/Iterate.lean`
leaves the copies out.

Simplifications: the dictionary `d_` is copied before the other values, and section paths are strings.
-/

namespace Verif.Model
open Verif.Py

variable {V : Type}

/-- What copying depends on: which values are item views, and of what path (itemview.py:237-258); the lookup of the item of a
view (`ItemView.item`, itemview.py:195-197, selector.py:144-155), which may create it; and `deepcopy` of values that are not
views. -/
structure Copying (V : Type) where
  viewed : V → Option String
  real : String → BM V V
  copy : V → V

namespace Copying

/-- `deepcopy` of a value; of a view it is that of the item (itemview.py:157-158). -/
def value (c : Copying V) (v : V) : BM V V :=
  match c.viewed v with
  | none => return c.copy v
  | some p => do return c.copy (← c.real p)

/-- `deepcopy` of the entries of a dictionary. -/
def entries (c : Copying V) : List (String × V) → BM V (List (String × V))
  | [] => return []
  | (k, v) :: rest => do
    let v' ← c.value v
    let rest' ← c.entries rest
    return (k, v') :: rest'

/-- `deepcopy` of a dictionary. -/
def dict (c : Copying V) (d : Dict String V) : BM V (Dict String V) := do
  return Dict.ofList (← c.entries d.items)

/-- `conf = deepcopy(config_dict)` (iterate.py:230). -/
def upd (c : Copying V) (u : Upd V) : BM V (Upd V) := do
  match u.d with
  | none => return { u with kw := ← c.dict u.kw }
  | some d =>
    let d' ← c.dict d
    return { u with d := some d', kw := ← c.dict u.kw }

/-- `_get_configs_by_section_path_dict` (iterate.py:199-233); `acc` is `combined_dicts`. -/
def groupByPath (c : Copying V) (acc : Dict String (List (Upd V))) :
    List (Upd V) → BM V (Dict String (List (Upd V)))
  | [] => return acc
  | u :: us => do
    let conf ← c.upd u
    let sp ← M.liftE conf.pathStr
    c.groupByPath (acc.set sp ((acc.get? sp).getD [] ++ [conf])) us

/-- `get_cases` (iterate.py:58-66) with `get_config_product` (iterate.py:167-196); other implementations of the hook get the
updates themselves. -/
def getCases (c : Copying V) (h : IterHooks V) (us : List (Upd V)) : BM V (List (List (Upd V))) := do
  let groups ← c.groupByPath Dict.empty us
  return h.modifyCases (h.moreCases us ++ product groups.values)

/-- `IterativeRunner(…)` (iterate.py:31-56). -/
def new (c : Copying V) (h : IterHooks V) (items : PathLike ⊕ List PathLike) (us : List (Upd V)) (base : Option String)
    (strip : Bool) : BM V (IRunner V) := do
  let runItems ← M.liftE (SectionPath.listFromAmbiguous items strip base)
  let cases ← c.getCases h us
  let defaults ← IRunner.getDefaults base cases
  return { runItems, base, strip, cases, defaults }

end Copying
end Verif.Model

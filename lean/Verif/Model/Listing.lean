import Verif.Model.Selector

/-
Model of what is offered for completion: `__dir__` of collections (`pyfileconf/basemodels/collection.py`), registrars
(`pyfileconf/basemodels/registrar.py`), managers (`pyfileconf/main.py`), selectors and item views (`pyfileconf/selector/models/`).

Simplifications: as in `Verif/Model/Selector.lean`.  What `dir` gives for things that are not one of these is a parameter.
-/

namespace Verif.Model
open Verif.Py

variable {V : Type}

/-- One name more in a sorted list. -/
def insertName (x : String) : List String → List String
  | [] => [x]
  | y :: l => if x ≤ y then x :: y :: l else y :: insertName x l

/-- `dir(obj)`: the list `__dir__` gives, sorted. -/
def pyDir (names : List String) : List String := names.foldr insertName []

/-- `dir` of a collection (collection.py:74-75). -/
def dirCollection (items : List (String × Reg V)) : List String := pyDir ((Reg.nameDict items).map Prod.fst)

/-- `exposed_methods + exposed_attrs` of a registrar (registrar.py:33-40). -/
def registrarExposed : List String := ["scaffold_config", "get", "basepath", "name"]

/-- `dir` of a registrar (registrar.py:32-42). -/
def dirRegistrar (items : List (String × Reg V)) : List String :=
  pyDir (registrarExposed ++ (dirCollection items).filter (fun x => decide (x ∉ registrarExposed)))

/-- `exposed_methods` of a manager (main.py:96-106). -/
def managerExposed : List String :=
  ["run", "run_product", "run_product_gen", "get", "update", "load", "reload", "refresh", "reset"]

/-- `skip_methods` (main.py:110-113). -/
def managerSkips : List String := ["scaffold_config", "basepath"]

/-- `dir` of a manager (main.py:95-123).  Before it is loaded it has no registrars: `_registrars` is there, and is `None`
(main.py:77), over which line 116 cannot iterate.  `_registrars` are those of the specific classes. -/
def dirManager (classNames : List String) : Option (Registry V) → Except PyErr (List String)
  | none => .error .typeError
  | some r =>
    let exposed := managerExposed ++ ("name" :: classNames) ++ r.specific.map Prod.fst
    match r.general with
    | .coll _ items => .ok (pyDir (exposed ++ (dirRegistrar items).filter (fun x => decide (x ∉ exposed ++ managerSkips))))
    | _ => .error .attributeError

/-- `dir` of a selector (selector.py:67-74): the managers that are active. -/
def dirSelector (managers : List String) : List String := pyDir ("get_type" :: managers)

/-- `_get_dir_for_section_path` (selector.py:82-92); `other` is `dir` of anything else. -/
def dirForPath (other : Got V → List String) (sel : Sel V) (path : String) : Except PyErr (List String) :=
  match selCollection sel (SectionPath.mk path).sections with
  | .error e => .error e
  | .ok none => match (SectionPath.mk path).sections with
    | [] => .error .indexError
    | m :: rest => match AList.get? sel m with
      | none => .error .keyError
      | some r => match rest with
        | [] => dirManager (r.specific.map Prod.fst) (some r)
        | x :: _ => match AList.get? (Reg.nameDict (("_general", r.general) :: r.specific)) x with
          | some (.coll _ items) => .ok (dirCollection items)
          | some c => .ok (pyDir (other (.node c)))
          | none => .error .keyError
  | .ok (some (c, rel)) => match (Got.node c).get rel with
    | .error e => .error e
    | .ok (.node (.coll _ items)) => .ok (dirCollection items)
    | .ok g => .ok (pyDir (other g))

/-- `dir` of an item view (itemview.py:88-94). -/
def dirView (other : Got V → List String) (sel : Sel V) (path : String) : Except PyErr (List String) :=
  match dirForPath other sel path with
  | .error e => .error e
  | .ok l => .ok (pyDir (["type", "item"] ++ l))

/-- Attributes of an `ObjectView` (views/object.py:15-85), the object that is registered for a function or a class.  Names that start
with an underscore and those of the mixins (other than `repr_cols`) are left out. -/
def objectViewNames : List String :=
  ["repr_cols", "obj_ast", "import_statement", "section_path_str", "load", "default_config", "item", "module", "name", "output_name",
   "from_ast_and_imports"]

/-- `__dir__` of what is found below a collection: of an `ObjectView` for a function or a class; `dirs` is that of anything else, like
the objects of specific classes as they are before they are configured. -/
def dirThing (dirs : Got V → List String) : Got V → List String
  | .node (.item k) => if k.kind = .specific then dirs (.node (.item k)) else objectViewNames
  | g => dirs g

end Verif.Model

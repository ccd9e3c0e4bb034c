import Verif.Model.Registry
import Verif.Model.SectionPath

/-
Model of the selector and of item views: `pyfileconf/selector/models/selector.py`, `pyfileconf/selector/models/itemview.py`
and `Collection.get` (`pyfileconf/basemodels/collection.py`).

Simplifications: private attributes (starting with an underscore) are not modelled.  What the attribute of a real object is,
or what looking for it raises, is a parameter; such an attribute is not an item view.  The selector is made after the
managers were loaded, and no manager is made or destroyed while it is used.
-/

namespace Verif.Model
open Verif.Py

variable {V : Type}

/-- Attributes of collections that can be called (collection.py:56-175, container.py:27-60). -/
def collectionMethods : List String :=
  ["get", "append", "extend", "name_for_obj", "from_dict", "from_list", "to_nested_dict", "insert", "copy",
   "add_if_missing", "append_if_missing", "insert_if_missing", "_set_name_map", "_output_config_files",
   "_output_config_file", "_output_section_config_file", "_transform_item", "_transform_items"]

/-- What `Collection.get` gives: something registered, an attribute of a collection that is callable (a method, or the class
of a specific collection), or another attribute of a collection. -/
inductive Got (V : Type) where
  | node (r : Reg V)
  | callable
  | data

/-- `getattr` on a collection (collection.py:68-72); as `Reg.attr`, but telling callable attributes from others. -/
def Got.attr : Got V → String → Except PyErr (Got V)
  | .node (.coll specific items), x =>
    if x ∈ collectionReserved then
      .ok (if x ∈ collectionMethods ∨ (x = "klass" ∧ specific = true) then .callable else .data)
    else match AList.get? (Reg.nameDict items) x with
      | some r => .ok (.node r)
      | none => .error .attributeError
  | _, _ => .error .attributeError

/-- `Collection.get` (collection.py:56-66). -/
def Got.get (g : Got V) : List String → Except PyErr (Got V)
  | [] => .ok g
  | x :: p => match g.attr x with
    | .error e => .error e
    | .ok g' => g'.get p

/-- The `isinstance` checks of `__contains__` (selector.py:43-56): a collection, an item, or anything callable. -/
def Got.counts : Got V → Bool
  | .node (.coll _ _) => true
  | .node (.item _) => true
  | .node .other => false
  | .callable => true
  | .data => false

/-- A selector: the collections of every manager (selector.py:171-187). -/
abbrev Sel (V : Type) := List (String × Registry V)

/-- `Selector()` (selector.py:13-16, 167-187); a manager that has not been loaded has no registrar, `none`. -/
def newSelector : List (String × Option (Registry V)) → Except PyErr (Sel V)
  | [] => .ok []
  | (_, none) :: _ => .error .attributeError
  | (name, some r) :: rest => match newSelector rest with
    | .error e => .error e
    | .ok sel => .ok ((name, r) :: sel)

/-- `_get_collection_obj_and_relative_section_path_from_structure` (selector.py:94-119); no relative path for a manager or
a whole collection. -/
def selCollection (sel : Sel V) (sections : List String) : Except PyErr (Option (Reg V × List String)) :=
  match sections with
  | [] => .error .indexError
  | m :: rest => match AList.get? sel m with
    | none => .error .keyError
    | some r =>
      let structure_ := Reg.nameDict (("_general", r.general) :: r.specific)
      match rest with
      | [] => .ok none
      | x :: rest' =>
        if x ∈ r.specific.map Prod.fst then
          match rest' with
          | [] => .ok none
          | _ :: _ => match AList.get? structure_ x with
            | some c => .ok (some (c, rest'))
            | none => .error .keyError
        else match AList.get? structure_ "_general" with
          | some c => .ok (some (c, x :: rest'))
          | none => .error .keyError

/-- `Selector.__contains__` (selector.py:18-57). -/
def selContains (sel : Sel V) (path : String) : Except PyErr Bool :=
  match selCollection sel (SectionPath.mk path).sections with
  | .error e => .error e
  | .ok none => .ok true
  | .ok (some (c, rel)) =>
    match (Got.node c).get rel with
    | .error .attributeError => .ok false
    | .error e => .error e
    | .ok g => .ok g.counts

/-- What walking over a selector comes to: the selector, an item view, or something else. -/
inductive SelView where
  | selector
  | view (path : String)
  | foreign (path : String)
deriving DecidableEq, Repr

/-- Attributes of every selector (selector.py:13-187).  Names with two leading underscores are left out. -/
def selectorReserved : List String :=
  ["get_type", "_managers", "_structure", "_is_selector", "_get_dir_for_section_path",
   "_get_collection_obj_and_relative_section_path_from_structure", "_get_real_item", "_set_attr_for_item",
   "_attach_to_pipeline_manager", "_load_structure"]

/-- Attributes of every item view (itemview.py:17-234).  Names with two leading underscores are left out. -/
def viewReserved : List String :=
  ["section_path_str", "selector", "_is_item_view", "_section_path_str", "type", "item", "from_section_path_str",
   "_add_to_config_dependencies_if_necessary", "_specific_class_collection_map", "_specific_classes"]

/-- What is found, or raised, when an attribute is taken from a real object. -/
abbrev RealAttr := String → Except PyErr Unit

/-- `getattr` on a selector (selector.py:59-61) and on an item view (itemview.py:32-72). -/
def SelView.attr (sel : Sel V) (real : RealAttr) (v : SelView) (x : String) : Except PyErr SelView :=
  match v with
  | .selector => if x ∈ selectorReserved then .ok (.foreign x) else .ok (.view x)
  | .view p =>
    if x ∈ viewReserved then .ok (.foreign (p ++ "." ++ x))
    else match selContains sel (p ++ "." ++ x) with
      | .error e => .error e
      | .ok true => .ok (.view (p ++ "." ++ x))
      | .ok false => match real (p ++ "." ++ x) with
        | .error e => .error e
        | .ok () => .ok (.foreign (p ++ "." ++ x))
  | .foreign p => match real (p ++ "." ++ x) with
    | .error e => .error e
    | .ok () => .ok (.foreign (p ++ "." ++ x))

/-- The loop of `from_section_path_str` (itemview.py:232-233). -/
def SelView.walk (sel : Sel V) (real : RealAttr) (v : SelView) : List String → Except PyErr SelView
  | [] => .ok v
  | x :: p => match v.attr sel real x with
    | .error e => .error e
    | .ok v' => v'.walk sel real p

/-- `ItemView.from_section_path_str` (itemview.py:218-234). -/
def viewOfPath (sel : Sel V) (real : RealAttr) (path : String) : Except PyErr SelView :=
  let sp := SectionPath.mk path
  if sp.sections.length < 2 then .error .valueError else SelView.walk sel real .selector sp.sections

/-- `ItemView.__eq__` (itemview.py:160-170) with an object that has the given `section_path_str`, if any. -/
def viewEq (path : String) (other : Option String) : Bool :=
  match other with
  | none => false
  | some p => path == p

/-- `ItemView.__hash__` (itemview.py:172-173), for the hash function of strings. -/
def viewHash {H : Type} (hash : String → H) (path : String) : H := hash path

end Verif.Model

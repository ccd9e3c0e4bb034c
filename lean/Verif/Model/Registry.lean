import Verif.Model.Config

/-
Model of the collections and registrars: `pyfileconf/basemodels/collection.py`,
`pyfileconf/basemodels/registrar.py`, `pyfileconf/pipelines/models/*.py`,
`pyfileconf/data/models/*.py` and of `function_args_as_dict`
(`pyfileconf/imports/logic/load/func.py`).
-/

namespace Verif.Model
open Verif.Py

variable {V : Type}

/-- `inspect.getfullargspec` of a callable, reduced to the names: positional parameters
(for a class or a method including the first one), keyword-only parameters, and the
keyword-only parameters that have a default. -/
structure Sig where
  args : List String
  kwonly : List String
  kwonlyDefaults : List String
deriving DecidableEq, Repr

/-- The keys of `function_args_as_dict` (func.py:5-28).  The first parameter of a bound
method is dropped; keyword-only parameters are listed only if at least one of them has a
default (`if args.kwonlydefaults`). -/
def Sig.argNames (sig : Sig) (isMethod : Bool) : Except PyErr (List String) :=
  match isMethod, sig.args with
  | true, [] => .error .indexError
  | true, _ :: args => .ok (args ++ kwonlyNames sig)
  | false, args => .ok (args ++ kwonlyNames sig)
where
  /-- func.py:23-26 -/
  kwonlyNames (sig : Sig) : List String :=
    if sig.kwonlyDefaults.isEmpty then [] else sig.kwonly

/-- Kinds of registered items: a function, a class from the pipeline dictionary, or an
object of a specific class. -/
inductive CKind where
  | func
  | klass
  | specific
deriving DecidableEq, Repr

/-- A registered function, class or specific-class object.  `app` is calling the function or
class itself with the given keyword arguments, `init` is the same for a class without looking
at the result, `upd` is `_pyfileconf_update_` if the class has it, otherwise `__init__`
(apply.py:31-35), and `exec` is executing an object configured with the given keyword
arguments (`obj()` or its `execute_attr`, runner.py:203, 212-214).  User code is assumed not
to call back into the manager here (see `Verif/Model/Context.lean` for nested runs). -/
structure Callable (V : Type) where
  kind : CKind
  sig : Sig
  app : Dict String V → Except PyErr V
  init : Dict String V → Except PyErr Unit
  upd : Dict String V → Except PyErr Unit
  exec : Dict String V → Except PyErr V

/-- A collection tree: items and collections with their names
(collection.py:37-54; pipelines/models/collection.py:12-34; data/models/collection.py:26-50).
`specific` tells a `SpecificClassCollection` from a `PipelineCollection`.
Simplification: the name of an item in the name map and in its section path are taken to
be the same, which holds for everything but the built-in `DataPipeline` (views/object.py:79-85) and
sections that contain something called `output_name` (which is then taken for the name of the section,
logic/get.py:42-48). -/
inductive Reg (V : Type) where
  | item (c : Callable V)
  | coll (specific : Bool) (items : List (String × Reg V))
  | other

/-- Attributes of every collection that win over items of the same name
(collection.py:14-175, container.py:5-60).  Names with two leading underscores are left out. -/
def collectionReserved : List String :=
  ["basepath", "imports", "name", "always_import_strs", "always_assign_strs", "key_attr",
   "execute_attr", "klass", "items", "name_dict", "repr_cols", "get", "append", "extend",
   "name_for_obj", "from_dict", "from_list", "to_nested_dict", "insert", "copy",
   "add_if_missing", "append_if_missing", "insert_if_missing", "_items", "_set_name_map", "_output_config_files",
   "_output_config_file", "_output_section_config_file", "_transform_item", "_transform_items"]

/-- Attributes of every registrar (registrar.py:10-100), which a lookup starts from; the
others are looked up in the collection. -/
def registrarReserved : List String :=
  ["collection", "collection_class", "scaffold_config", "scaffold_config_for", "set"] ++ collectionReserved

namespace Reg

/-- Whether it is a collection. -/
def isColl : Reg V → Bool
  | .coll _ _ => true
  | _ => false

mutual
/-- How deep collections are nested. -/
def depth : Reg V → Nat
  | .coll _ items => depthItems items + 1
  | .item _ => 0
  | .other => 0
/-- The depth of the deepest item. -/
def depthItems : List (String × Reg V) → Nat
  | [] => 0
  | (_, r) :: rest => max (depth r) (depthItems rest)
end

/-- The name map of a collection (pipelines/models/collection.py:12-17,
data/models/collection.py:26-36): the last item with a name wins. -/
def nameDict (items : List (String × Reg V)) : List (String × Reg V) :=
  items.foldl (fun (m : List (String × Reg V)) e => AList.set m e.1 e.2) []

/-- `getattr` on a collection (collection.py:68-72).  Attributes of items themselves are not
modelled (an `AttributeError`). -/
def attr (res : List String) (n : Reg V) (x : String) : Except PyErr (Reg V) :=
  match n with
  | .coll _ items =>
    if x ∈ res then .ok .other
    else match AList.get? (nameDict items) x with
      | some n' => .ok n'
      | none => .error .attributeError
  | _ => .error .attributeError

/-- `_get_from_nested_obj_by_section_path` (logic/get.py:8-39). -/
def walk (res : List String) (n : Reg V) : List String → Except PyErr (Reg V)
  | [] => .ok n
  | x :: p => match attr res n x with
    | .error e => .error e
    | .ok n' => walk collectionReserved n' p

end Reg

/-- The registrars of a runner (runner.py:34-44): the specific-class registrars by name, and
the general one. -/
structure Registry (V : Type) where
  specific : List (String × Reg V)
  general : Reg V

/-- `Runner._get_func_or_collection` (runner.py:335-350): the first specific registrar with
the name, otherwise the general registrar.  `PipelineRegistrar.get`
(pipelines/models/registrar.py:12-20) loads what it finds, which fails for anything that is
neither a collection nor an item.

Simplification: the code tests whether the text of the rest of the path is empty, so a path of the name of
a registrar and an empty part (written with a period at the end) denotes the collection of the registrar
there, and an `AttributeError` here. -/
def Registry.lookup (r : Registry V) (p : List String) : Except PyErr (Reg V) :=
  match p with
  | [] => .error .indexError
  | x :: rest =>
    match r.specific.find? (fun e => e.1 = x) with
    | some (_, reg) => match rest with
      | [] => .ok reg
      | _ :: _ => reg.walk registrarReserved rest
    | none => match r.general.walk registrarReserved p with
      | .ok .other => .error .attributeError
      | res => res

/-- A bound for the nesting of sections. -/
def Registry.depth (r : Registry V) : Nat := max r.general.depth (Reg.depthItems r.specific)

end Verif.Model

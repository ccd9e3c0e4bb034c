import Verif.Model.Registry

/-
Model of the nested definitions of items (`pipeline_dict` and `class_dict`): how they become
collections (`pyfileconf/basemodels/collection.py`), how an item is added to them
(`pyfileconf/dictfiles/modify.py`), how they are written and read
(`pyfileconf/dictfiles/modify.py`, `pyfileconf/io/file/load/parsers/collections.py`), how an item is
added to a registrar (`pyfileconf/basemodels/registrar.py`) and how registrars are validated
(`pyfileconf/main.py:734-744`).
-/

namespace Verif.Model
open Verif.Py

variable {V L : Type}

/-- A nested definition: a dictionary, a list, or anything else (an AST node or a string). -/
inductive Def (L : Type) where
  | dict (es : List (String × Def L))
  | list (xs : List (Def L))
  | leaf (a : L)

/-! ### Collections -/

mutual
/-- The items of `Collection.from_dict` (collection.py:100-131), with their names.  Values that are
neither dictionaries nor lists are left out.  `resolve` is what becomes of a leaf
(`_transform_item`, pipelines/models/collection.py:19-33 and data/models/collection.py:36-46, and its
name in `_set_name_map`).  Simplification: of several exceptions, another one may be raised than in Python. -/
def fromDict (resolve : L → Except PyErr (String × Callable V)) (specific : Bool) :
    List (String × Def L) → Except PyErr (List (String × Reg V))
  | [] => .ok []
  | (k, .dict es) :: rest => do
    let items ← fromDict resolve specific es
    let others ← fromDict resolve specific rest
    return (k, .coll specific items) :: others
  | (k, .list xs) :: rest => do
    let items ← fromList resolve specific xs
    let others ← fromDict resolve specific rest
    return (k, .coll specific items) :: others
  | (_, .leaf _) :: rest => fromDict resolve specific rest
/-- The items of `Collection.from_list` (collection.py:133-168).  The entries of a dictionary inside a
list are entries of the list.  A list inside a list cannot be resolved: it is neither an AST node
(`AttributeError`) nor hashable as the name of an object (`TypeError`). -/
def fromList (resolve : L → Except PyErr (String × Callable V)) (specific : Bool) :
    List (Def L) → Except PyErr (List (String × Reg V))
  | [] => .ok []
  | .dict es :: rest => do
    let items ← fromInner resolve specific es
    let others ← fromList resolve specific rest
    return items ++ others
  | .list _ :: _ => .error (if specific then .typeError else .attributeError)
  | .leaf a :: rest => do
    let (name, k) ← resolve a
    let others ← fromList resolve specific rest
    return (name, .item k) :: others
/-- The loop over a dictionary inside a list (collection.py:143-160). -/
def fromInner (resolve : L → Except PyErr (String × Callable V)) (specific : Bool) :
    List (String × Def L) → Except PyErr (List (String × Reg V))
  | [] => .ok []
  | (k, .dict es) :: rest => do
    let items ← fromDict resolve specific es
    let others ← fromInner resolve specific rest
    return (k, .coll specific items) :: others
  | (k, .list xs) :: rest => do
    let items ← fromList resolve specific xs
    let others ← fromInner resolve specific rest
    return (k, .coll specific items) :: others
  | (_, .leaf a) :: rest => do
    let (name, k) ← resolve a
    let others ← fromInner resolve specific rest
    return (name, .item k) :: others
end

/-- `Registrar.from_dict` (registrar.py:44-59): the collection a registrar is made with. -/
def Reg.fromDefinition (resolve : L → Except PyErr (String × Callable V)) (specific : Bool)
    (es : List (String × Def L)) : Except PyErr (Reg V) := do
  return .coll specific (← fromDict resolve specific es)

/-! ### Registering -/

namespace Reg

/-- The object found under a name was changed in place: the last item with the name. -/
def replaceLast (items : List (String × Reg V)) (x : String) (n : Reg V) : List (String × Reg V) :=
  match items with
  | [] => []
  | e :: rest =>
    if e.1 = x ∧ rest.all (fun f => decide (f.1 ≠ x)) then (e.1, n) :: rest
    else e :: replaceLast rest x n

/-- `Registrar.set` (registrar.py:76-97) of an item with its name; the collections are changed in
place.  A missing section is appended to the collection it is missing from; anything but a collection
has no `append`.  Simplification: for names that are attributes of collections (`items`, …) the call
fails here, while in Python it may append to a list that is an attribute; the same for attributes of
objects that are registered. -/
def setAt (res : List String) (specific : Bool) (value : String × Reg V) (n : Reg V) :
    List String → Except PyErr Unit × Reg V
  | [] => match n with
    | .coll b items => (.ok (), .coll b (items ++ [value]))
    | _ => (.error .attributeError, n)
  | x :: p => match n with
    | .coll b items =>
      if x ∈ res then (.error .attributeError, n)
      else match AList.get? (nameDict items) x with
        | some n' =>
          let r := setAt collectionReserved specific value n' p
          (r.1, .coll b (replaceLast items x r.2))
        | none =>
          let r := setAt collectionReserved specific value (.coll specific []) p
          (r.1, .coll b (items ++ [(x, r.2)]))
    | _ => (.error .attributeError, n)

end Reg

/-- `Registrar.set` (registrar.py:76-97) of the general registrar, or of the one of a specific class
(main.py:432-433, 448-454). -/
def Registry.set (r : Registry V) (registrar : Option String) (p : List String) (value : String × Reg V) :
    Except PyErr Unit × Registry V :=
  match registrar with
  | none =>
    let g := r.general.setAt registrarReserved false value p
    (g.1, { r with general := g.2 })
  | some name => match AList.get? r.specific name with
    | none => (.error .keyError, r)
    | some reg =>
      let g := reg.setAt registrarReserved true value p
      (g.1, { r with specific := AList.set r.specific name g.2 })

/-- `dir(general_registrar)` (registrar.py:32-43, collection.py:74-75). -/
def generalNames (items : List (String × Reg V)) : List String :=
  let exposed := ["scaffold_config", "get", "basepath", "name"]
  exposed ++ ((Reg.nameDict items).map Prod.fst).filter (fun x => decide (x ∉ exposed))

/-- `_validate_registrars` (main.py:734-744). -/
def validateRegistrars (r : Registry V) : Except PyErr Unit :=
  match r.general with
  | .coll _ items =>
    if r.specific.any (fun e => decide (e.1 ∈ generalNames items)) then .error .valueError
    else if (r.specific.map Prod.fst).eraseDups.length ≠ (r.specific.map Prod.fst).length then .error .valueError
    else .ok ()
  | _ => .error .typeError

/-! ### Changing the definition -/

/-- `add_item_into_nested_dict_at_section_path` (modify.py:9-53); the definition is changed in place.
Taking an element of a list, of an AST node or of a string by a name is a `TypeError`. -/
def addItem (item : L) (es : List (String × Def L)) : List String → Except PyErr Unit × List (String × Def L)
  | [] => (.ok (), es)
  | [x] => match AList.get? es x with
    | none => (.ok (), AList.set es x (.list [.leaf item]))
    | some (.list xs) => (.ok (), AList.set es x (.list (xs ++ [.leaf item])))
    | some _ => (.error .valueError, es)
  | x :: y :: p => match AList.get? es x with
    | none =>
      let r := addItem item [] (y :: p)
      (r.1, AList.set es x (.dict r.2))
    | some (.dict inner) =>
      let r := addItem item inner (y :: p)
      (r.1, AList.set es x (.dict r.2))
    | some _ => (.error .typeError, es)

/-! ### Writing and reading the definition -/

/-- A leaf of a definition as it is read: a name, a string that was converted
(collections.py:90-97), or another AST node. -/
inductive Leaf where
  | name (id : String)
  | str (s : String)
  | other
deriving DecidableEq, Repr

/-- `for item in value: use_str += item.id + ','` (modify.py:73-74); only a name has an `id`. -/
def renderList : List (Def Leaf) → Except PyErr (List Char)
  | [] => .ok []
  | .leaf (.name id) :: rest => do
    let s ← renderList rest
    return id.toList ++ ',' :: s
  | _ :: _ => .error .attributeError

/-- The loop of `create_dict_assignment_str_from_nested_dict_with_ast_names`
(modify.py:65-82). -/
def renderEntries : List (String × Def Leaf) → Except PyErr (List Char)
  | [] => .ok []
  | (k, .leaf (.name id)) :: rest => do
    let s ← renderEntries rest
    return '"' :: k.toList ++ '"' :: ':' :: ' ' :: id.toList ++ ',' :: s
  | (k, .leaf (.str t)) :: rest => do
    let s ← renderEntries rest
    return '"' :: k.toList ++ '"' :: ':' :: ' ' :: t.toList ++ ',' :: s
  | (_, .leaf .other) :: _ => .error .valueError
  | (k, .list xs) :: rest => do
    let l ← renderList xs
    let s ← renderEntries rest
    return '"' :: k.toList ++ '"' :: ':' :: ' ' :: '[' :: l ++ ']' :: ',' :: s
  | (k, .dict es) :: rest => do
    let d ← renderEntries es
    let s ← renderEntries rest
    return '"' :: k.toList ++ '"' :: ':' :: ' ' :: '{' :: d ++ '}' :: ',' :: s

/-- `create_dict_assignment_str_from_nested_dict_with_ast_names` (modify.py:58-90), without the
formatting by `black`, which is assumed to keep the meaning of the text. -/
def renderDefinition (es : List (String × Def Leaf)) : Except PyErr String := do
  let s ← renderEntries es
  return String.ofList ("pipeline_dict = {".toList ++ s ++ ['}'])

mutual
/-- `_ast_dict_or_list_to_dict_or_list` (collections.py:56-62) and the branches around it; the same
type serves for the AST, where a key may occur several times. -/
def normalize : Def Leaf → Def Leaf
  | .dict es => .dict (normalizeDict [] es)
  | .list xs => .list (normalizeList xs)
  | .leaf a => .leaf a
/-- `_ast_dict_to_dict` (collections.py:65-76); `acc` is `out_dict`. -/
def normalizeDict (acc : List (String × Def Leaf)) : List (String × Def Leaf) → List (String × Def Leaf)
  | [] => acc
  | (k, v) :: rest => normalizeDict (AList.set acc k (normalize v)) rest
/-- `_ast_list_to_list` (collections.py:79-88). -/
def normalizeList : List (Def Leaf) → List (Def Leaf)
  | [] => []
  | x :: rest => normalize x :: normalizeList rest
end

/-! ### Writing the definition of a specific class -/

/-- A character inside the `repr` of a string with the given quotes.  Simplification: of the
characters that are not printable, only those with a short escape are escaped. -/
def reprChar (quote c : Char) : List Char :=
  if c = quote ∨ c = '\\' then ['\\', c]
  else if c = '\n' then ['\\', 'n']
  else if c = '\r' then ['\\', 'r']
  else if c = '\t' then ['\\', 't']
  else [c]

/-- `repr` of a string: double quotes only if it has single quotes and no double quotes. -/
def pyReprStr (s : List Char) : List Char :=
  let quote := if '\'' ∈ s ∧ '"' ∉ s then '"' else '\''
  quote :: s.flatMap (reprChar quote) ++ [quote]

mutual
/-- `str` of a definition (main.py:513).  The `repr` of an AST node is not Python source, so that
formatting raises (`black.InvalidInput`, here a `ValueError`). -/
def reprDef : Def Leaf → Except PyErr (List Char)
  | .leaf (.str s) => .ok (pyReprStr s.toList)
  | .leaf _ => .error .valueError
  | .dict [] => .ok ['{', '}']
  | .dict ((k, v) :: es) => do
    let s ← reprDef v
    let rest ← reprEntries es
    return '{' :: pyReprStr k.toList ++ ':' :: ' ' :: s ++ rest
  | .list [] => .ok ['[', ']']
  | .list (x :: xs) => do
    let s ← reprDef x
    let rest ← reprItems xs
    return '[' :: s ++ rest
/-- The further entries of a dictionary, to its end. -/
def reprEntries : List (String × Def Leaf) → Except PyErr (List Char)
  | [] => .ok ['}']
  | (k, v) :: es => do
    let s ← reprDef v
    let rest ← reprEntries es
    return ',' :: ' ' :: pyReprStr k.toList ++ ':' :: ' ' :: s ++ rest
/-- The further items of a list, to its end. -/
def reprItems : List (Def Leaf) → Except PyErr (List Char)
  | [] => .ok [']']
  | x :: xs => do
    let s ← reprDef x
    let rest ← reprItems xs
    return ',' :: ' ' :: s ++ rest
end

/-- `'class_dict = ' + str(specific_dict)` (main.py:513), without the formatting by `black`. -/
def renderSpecific (es : List (String × Def Leaf)) : Except PyErr String := do
  let s ← reprDef (.dict es)
  return String.ofList ("class_dict = ".toList ++ s)

end Verif.Model

import Verif.Py.Str
import Verif.Py.Path

/-
Model of `pyfileconf/sectionpath/sectionpath.py`.
-/

namespace Verif.Model
open Verif.Py

/-- `SectionPath` (sectionpath.py:13-18).  The attribute `sections` is always
`path_str.split('.')`, so only the string is stored. -/
structure SectionPath where
  pathStr : String
deriving DecidableEq, Repr

namespace SectionPath

/-- `SectionPath.sections` (sectionpath.py:16-18, 119-120). -/
def sections (sp : SectionPath) : List String := split '.' sp.pathStr

/-- `SectionPath.from_section_str_list` (sectionpath.py:36-39, 122-123). -/
def fromSectionStrList (xs : List String) : SectionPath := ⟨join '.' xs⟩

/-- `SectionPath.join` (sectionpath.py:89-95), after conversion of both
arguments to section paths. -/
def joinSP (a b : SectionPath) : SectionPath := fromSectionStrList (a.sections ++ b.sections)

/-- `sp[1:]` as a new path: `SectionPath.from_section_str_list(sp[1:])`, also
written `SectionPath('.'.join(sp[1:]))` at the call sites (sectionpath.py:50). -/
def tail (sp : SectionPath) : SectionPath := fromSectionStrList (sp.sections.drop 1)

/-- Python slice `xs[-n:]` for `n ≥ 1`. -/
def lastN {α : Type} (xs : List α) (n : Nat) : List α := xs.drop (xs.length - n)

/-- The comparison loop of `SectionPath.endswith` (sectionpath.py:104-107): every
element of `match_parts` is compared with the element of `sp` at the same index.
`match_parts` is never longer than `sp`, so `sp[i]` never raises. -/
def partsMatch : List String → List String → Bool
  | [], _ => true
  | _ :: _, [] => false
  | p :: ps, q :: qs => if p ≠ q then false else partsMatch ps qs

/-- `SectionPath.endswith` (sectionpath.py:101-107). -/
def endswith (self sp : SectionPath) : Bool :=
  partsMatch (lastN self.sections sp.sections.length) sp.sections

/-- `SectionPath.__eq__` (sectionpath.py:109-113) between section paths. -/
def eq (a b : SectionPath) : Bool := decide (a.pathStr = b.pathStr)

/-- `SectionPath.__hash__` (sectionpath.py:115-116); `strHash` is Python's hash of
strings. -/
def hash (strHash : String → Int) (a : SectionPath) : Int := strHash a.pathStr

/-- `_section_path_to_relative_filepath` (sectionpath.py:130-131). -/
def toRelativeFilepath (sp : SectionPath) : String := join '/' sp.sections

/-- `SectionPath.to_filepath` (sectionpath.py:97-99). -/
def toFilepath (sp : SectionPath) (basepath : String) : String :=
  Path.join2 basepath sp.toRelativeFilepath

/-- `_strip_py` (sectionpath.py:133-137). -/
def stripPy (s : String) : String :=
  if endsWith s ".py" then String.ofList (s.toList.take (s.toList.length - 3)) else s

/-- Replace the last element of a list (`xs[-1] = f(xs[-1])`). -/
def mapLast (f : String → String) : List String → List String
  | [] => []
  | [x] => [f x]
  | x :: y :: ys => x :: mapLast f (y :: ys)

/-- `_relative_filepath_to_section_path` (sectionpath.py:125-128). -/
def relativeFilepathToSectionPath (filepath : String) : String :=
  join '.' (mapLast stripPy (split '/' filepath))

/-- `SectionPath.from_filepath` (sectionpath.py:30-34); `none` is the `ValueError`
of `os.path.relpath` for an empty path. -/
def fromFilepath (cwd basepath filepath : String) : Option SectionPath :=
  (Path.relpath cwd filepath basepath).map (fun r => ⟨relativeFilepathToSectionPath r⟩)

end SectionPath

/-- The kinds of argument `from_ambiguous` distinguishes (sectionpath.py:41-60):
an item view (by its `section_path_str`), a section path, a string, or anything
else.  An item view is never an instance of `SectionPath` or `str` here
(simplification: a view of an object that is itself a string is not modelled). -/
inductive PathLike where
  | view (sectionPathStr : String)
  | path (sp : SectionPath)
  | str (s : String)
  | other
deriving DecidableEq, Repr

deriving instance DecidableEq for Except

/-- Exceptions raised by the modelled code.  `interrupt` stands for `KeyboardInterrupt`,
`SystemExit` and `BdbQuit`. -/
inductive PyErr where
  | valueError
  | keyError
  | attributeError
  | typeError
  | indexError
  | notLoaded
  | noManager
  | recursion
  | osError
  | interrupt
  | notImplemented
  | syntaxError
  | importError
  | assertionError
  | userError (code : Nat)
deriving DecidableEq, Repr

namespace SectionPath

/-- `SectionPath.from_ambiguous` (sectionpath.py:41-65). -/
def fromAmbiguous (item : PathLike) (strip : Bool) (base : Option String) :
    Except PyErr SectionPath :=
  let result : Option SectionPath := match item with
    | .view s => if strip then some (tail ⟨s⟩) else some ⟨s⟩
    | .path sp => some sp
    | .str s => some ⟨s⟩
    | .other => none
  match result with
  | none => .error .valueError
  | some r => match base with
    | none => .ok r
    | some b => .ok (joinSP ⟨b⟩ r)

/-- The loop of `SectionPath.list_from_ambiguous` (sectionpath.py:80-87). -/
def listFromAmbiguousLoop (strip : Bool) (base : Option String) :
    List PathLike → Except PyErr (List SectionPath)
  | [] => .ok []
  | item :: items => do
    let sp ← fromAmbiguous item strip base
    let rest ← listFromAmbiguousLoop strip base items
    return sp :: rest

/-- `SectionPath.list_from_ambiguous` (sectionpath.py:67-87); a single item
(not list or tuple) is wrapped into a one element list. -/
def listFromAmbiguous (items : PathLike ⊕ List PathLike) (strip : Bool) (base : Option String) :
    Except PyErr (List SectionPath) :=
  match items with
  | .inl item => listFromAmbiguousLoop strip base [item]
  | .inr items => listFromAmbiguousLoop strip base items

end SectionPath

end Verif.Model

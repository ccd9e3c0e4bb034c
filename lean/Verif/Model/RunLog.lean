import Verif.Model.Runner

/-
Model of what is logged around a run (`pyfileconf/runner/models/runner.py:185-219`), with the text of the arguments
(`pyfileconf/config/logic/write.py`, `pyfileconf/assignments/logic/write.py`).  The messages are made whatever the level of the
logger is.

Simplifications: views are of items of the same manager, and looking their items up is `Runner.get` (C25 is about that); the
exceptions of `ItemView.__getattr__` (itemview.py:46-58) are not told from those they replace; no config file is being loaded.
-/

namespace Verif.Model
open Verif.Py

variable {V : Type}

/-- What the log makes of a value: a selector, a view of an item, something with a `__name__`, a string (not of a subclass),
or anything else with its text; or looking for the attributes `_is_selector`, `_is_item_view` or `__name__` raises. -/
inductive Look where
  | selector
  | view (path : List String)
  | named (name : String)
  | str (text : String)
  | other (text : Except PyErr String)
  | raises (e : PyErr)

/-- A runner with the messages logged so far. -/
structure LogS (V : Type) where
  rs : RS V
  log : List String

/-- Operations of a runner that log. -/
abbrev LogM (V α : Type) := M PyErr (LogS V) α

namespace LogM

/-- An operation of the runner. -/
def liftR {α : Type} (m : RM V α) : LogM V α := fun s => ((m s.rs).1, { s with rs := (m s.rs).2 })

/-- `logger.info(message)` -/
def info (message : String) : LogM V Unit := M.modify (fun s => { s with log := s.log ++ [message] })

/-- `_is_selector(value)` for a view (selector.py:191-193, itemview.py:32-66): the view has no such attribute, so the item is
looked up, and an `AttributeError` on the way means that it is no selector. -/
def probeView (p : List String) : RM V Unit := fun s =>
  match RM.get p s with
  | (.ok _, s') => (.ok (), s')
  | (.error .attributeError, s') => (.ok (), s')
  | (.error e, s') => (.error e, s')

/-- `_assignment_output_repr` (assignments/logic/write.py:12-57) without modules, with
`_assignment_output_repr_for_builtins` (60-65), and formatting what it returns (line 9). -/
def outputRepr (manager : String) : Look → RM V String
  | .selector => return "Selector()"
  | .view p => do
    probeView p
    return "s." ++ join '.' (manager :: p)
  | .named n => return n
  | .str t => return "r'" ++ t ++ "'"
  | .other t => M.liftE t
  | .raises e => M.raise e

/-- `_key_value_pair_to_assignment_str` (assignments/logic/write.py:7-9) for the entries of a dictionary
(config/logic/write.py:4). -/
def kwargLines (manager : String) (look : V → Look) : List (String × V) → RM V (List String)
  | [] => return []
  | (k, v) :: rest => do
    let t ← outputRepr manager (look v)
    let ts ← kwargLines manager look rest
    return (k ++ " = " ++ t) :: ts

/-- `dict_as_function_kwarg_str` (config/logic/write.py:3-6). -/
def kwargStr (manager : String) (look : V → Look) (d : Dict String V) : RM V String := do
  let lines ← kwargLines manager look d.items
  return "\n\t" ++ String.intercalate ",\n\t" lines ++ "\n"

/-- What is common to `_run_one_func` (runner.py:185-194), `_run_one_class` (196-205) and `_run_one_specific_class` (207-219):
`what` is the start of the message and `getOne` makes the object.  `text` is `f'{result}'`. -/
def runOne (manager : String) (look : V → Look) (text : V → Except PyErr String) (what : String)
    (getOne : List String → RM V (Obj V)) (p : List String) : LogM V V := do
  let (_, d) ← liftR (RM.funcAndConfig p)
  let o ← liftR (getOne p)
  let args ← liftR (kwargStr manager look d)
  info ("Running " ++ what ++ " " ++ join '.' p ++ "(" ++ args ++ ")")
  let v ← M.liftE (RM.callObj o)
  let t ← M.liftE (text v)
  info ("Result:\n" ++ t ++ "\n")
  return v

section
variable (manager : String) (look : V → Look) (text : V → Except PyErr String)

/-- `_run_one_func` (runner.py:185-194). -/
def runOneFunc (p : List String) : LogM V V := runOne manager look text "function" RM.getOneFunc p

/-- `_run_one_class` (runner.py:196-205) and `_run_one_specific_class` (runner.py:207-219). -/
def runOneObj (p : List String) : LogM V V := runOne manager look text "class" RM.getOneObj p

/-- One item inside the section at `p` (runner.py:170-176), as `RM.runInside`. -/
def runInside (p : List String) (x : String) (k : Callable V) : LogM V V :=
  match k.kind with
  | .func => runOneFunc manager look text (p ++ [x])
  | _ => runOneObj manager look text p

/-- The loop of `_run_section` (runner.py:151-182), as `RM.runItems`. -/
def runItems (runSection : List String → LogM V (RM.RunRes V)) (p : List String) :
    List (String × Reg V) → LogM V (List (RM.RunRes V))
  | [] => return []
  | (x, .coll false _) :: rest => do
    let r ← runSection (p ++ [x])
    let rs ← runItems runSection p rest
    return r :: rs
  | (_, .coll true _) :: _ => M.raise .valueError
  | (_, .other) :: _ => M.raise .valueError
  | (x, .item k) :: rest => do
    let v ← runInside manager look text p x k
    let rs ← runItems runSection p rest
    return .one v :: rs

/-- `_run_section` (runner.py:151-182), as `RM.runSection`. -/
def runSection : Nat → List String → LogM V (RM.RunRes V)
  | 0, _ => M.raise .recursion
  | n + 1, p => do
    match ← liftR (RM.lookup p) with
    | .coll _ items => return .many (← runItems manager look text (runSection n) p items)
    | _ => M.raise .typeError

/-- `Runner._run` of an item (runner.py:140-145). -/
def runItem (p : List String) (k : Callable V) : LogM V V :=
  match k.kind with
  | .func => runOneFunc manager look text p
  | _ => runOneObj manager look text p

/-- `Runner._run` (runner.py:127-149), as `RM.run1`. -/
def run1 (p : List String) : LogM V (RM.RunRes V) := do
  let s ← M.get
  match ← liftR (RM.lookup p) with
  | .coll false _ => runSection manager look text (s.rs.reg.depth + 1) p
  | .item k => return .one (← runItem manager look text p k)
  | _ => M.raise .valueError

end

end LogM

/-! ### Reading a literal -/

/-- Python's rule for the rest of a string literal after `r'`: the text up to the closing quote and what follows it.  A
backslash keeps the next character from ending the literal, and both are part of the text; a line break ends the literal with
an error.  Simplification: carriage returns are not treated as line breaks. -/
def readRaw : List Char → Option (List Char × List Char)
  | [] => none
  | '\'' :: rest => some ([], rest)
  | '\n' :: _ => none
  | ['\\'] => none
  | '\\' :: c :: rest => (readRaw rest).map (fun r => ('\\' :: c :: r.1, r.2))
  | c :: rest => (readRaw rest).map (fun r => (c :: r.1, r.2))

end Verif.Model

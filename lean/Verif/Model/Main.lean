import Verif.Model.Runner

/-
Model of running through a `PipelineManager` (`pyfileconf/main.py:125-263, 573-590, 636-706`,
`pyfileconf/logic/combine.py`), with the plugin hooks around it, and of attribute access on
the manager and the runner (`pyfileconf/main.py:85-93`,
`pyfileconf/runner/models/runner.py:46-65`).
-/

namespace Verif.Model
open Verif.Py

variable {V : Type}

/-- What a user or a plugin can pass to `run`: a path or view, or a list of these. -/
inductive RunArg where
  | single (x : PathLike)
  | list (xs : List PathLike)
deriving DecidableEq, Repr

/-- What the runner is asked to run: a string, or a list (which may contain lists, if a plugin
returned one). -/
inductive RunVal where
  | str (s : String)
  | list (xs : List RunVal)

/-- `_get_section_path_str_from_section_path_str_or_view` (main.py:579-590). -/
def convertOne : PathLike → Except PyErr String
  | .view s => .ok (SectionPath.tail ⟨s⟩).pathStr
  | .str s => .ok s
  | _ => .error .valueError

/-- The list comprehension of `_convert_list_or_single_item_view_or_str_to_strs`
(main.py:575). -/
def convertAll : List PathLike → Except PyErr (List String)
  | [] => .ok []
  | x :: xs => do
    let s ← convertOne x
    let ss ← convertAll xs
    return s :: ss

/-- `_convert_list_or_single_item_view_or_str_to_strs` (main.py:573-577). -/
def convertArg : RunArg → Except PyErr RunVal
  | .single x => do return .str (← convertOne x)
  | .list xs => do return .list ((← convertAll xs).map .str)

/-- `_to_list` (combine.py:22-30); neither `None` nor a tuple gets here. -/
def toList : RunVal → List RunVal
  | .list xs => xs
  | v => [v]

/-- `combine_items_into_list_whether_they_are_lists_or_not` (combine.py:14-19); the second
argument is the list of the hook results. -/
def combineItems (a : RunVal) (b : List RunVal) : List RunVal := toList a ++ b

/-- `combine_…_then_extract_from_list_if_only_one_item` (combine.py:4-11). -/
def combineExtract (a : RunVal) (b : List RunVal) : RunVal :=
  match combineItems a b with
  | [x] => x
  | xs => .list xs

/-- The results of the `pyfileconf_post_run` implementations, given the results of the run. -/
abbrev PostRun (V : Type) := RM.RunRes V → List (RM.RunRes V)

/-- No implementations. -/
def noPost : PostRun V := fun _ => []

/-- The plugins around a run.  `preRun` are the results of the `pyfileconf_pre_run`
implementations (those that are not `None`) and what they make of the argument if they
change it in place; `postRun` are the results of the `pyfileconf_post_run`
implementations. -/
structure RunHooks (V : Type) where
  preRun : RunArg → RunArg × List RunVal
  postRun : PostRun V

/-- No plugins. -/
def RunHooks.none : RunHooks V := ⟨fun a => (a, []), noPost⟩

/-- The settings of a manager that matter for a run (main.py:74-75); the debug function is
assumed to return. -/
structure RunSettings where
  autoPdb : Bool
  forceContinue : Bool

/-- What gets logged about a run: a traceback (main.py:667), a `RunnerException`
(main.py:253), the summary (main.py:703-706) or the message that all went well (main.py:700). -/
inductive LogEntry where
  | traceback (e : PyErr)
  | failed (path : RunVal) (e : PyErr)
  | summary (failures : List (RunVal × PyErr))
  | allWell

/-- The runner and the log. -/
structure MS (V : Type) where
  rs : RS V
  log : List LogEntry

/-- Operations of a manager. -/
abbrev MM (V α : Type) := M PyErr (MS V) α

namespace MM

/-- An operation of the runner. -/
def liftR {α : Type} (m : RM V α) : MM V α := fun s => ((m s.rs).1, { s with rs := (m s.rs).2 })

/-- Log something. -/
def log (e : LogEntry) : MM V Unit := M.modify (fun s => { s with log := s.log ++ [e] })

/-- `Runner._run` of one entry (runner.py:127-149).  A list instead of a string has no
`split` (sectionpath.py:18). -/
def runEntry : RunVal → RM V (RM.RunRes V)
  | .str s => RM.run1 (split '.' s)
  | .list _ => M.raise .attributeError

/-- The list comprehension of `Runner.run` (runner.py:115). -/
def runEntries : List RunVal → RM V (List (RM.RunRes V))
  | [] => return []
  | x :: xs => do
    let r ← runEntry x
    let rs ← runEntries xs
    return r :: rs

/-- `Runner.run` (runner.py:89-125). -/
def runnerRun (post : PostRun V) : RunVal → RM V (RM.RunRes V)
  | .str s => do
    let r ← runEntry (.str s)
    match post r with
    | [] => return r
    | extra => return .many (r :: extra)
  | .list xs => do
    let rs ← runEntries xs
    return .many (rs ++ post (.many rs))

/-- `_try_except_run_func_except_user_interrupts` (main.py:636-673): the exception is a
result, except for a user interrupt, which goes on as `SystemExit` (`quit()`). -/
def tryRun {α : Type} (m : MM V α) (printTraceback : Bool) : MM V (Except PyErr α) := fun s =>
  match m s with
  | (.ok a, s') => (.ok (.ok a), s')
  | (.error .interrupt, s') => (.error .interrupt, s')
  | (.error e, s') => (do
      if printTraceback then log (.traceback e)
      return .error e : MM V (Except PyErr α)) s'

/-- The loop of `_run_with_force_continue` (main.py:235-251); returns the results and the
failures. -/
def forceLoop (post : PostRun V) : List RunVal → MM V (List (RM.RunRes V) × List (RunVal × PyErr))
  | [] => return ([], [])
  | x :: xs => do
    match ← tryRun (liftR (runnerRun post x)) false with
    | .ok r =>
      let (rs, es) ← forceLoop post xs
      return (r :: rs, es)
    | .error e =>
      log (.failed x e)
      let (rs, es) ← forceLoop post xs
      return (rs, (x, e) :: es)

/-- `report_runner_exceptions` (main.py:698-706). -/
def report (es : List (RunVal × PyErr)) : MM V Unit :=
  if es.isEmpty then log .allWell else log (.summary es)

/-- `_run_with_force_continue` (main.py:224-263).  The branch for several results of a single
path (line 258) is there, though it cannot be reached. -/
def forceContinue (post : PostRun V) : RunVal → MM V (RM.RunRes V)
  | .list xs => do
    let (rs, es) ← forceLoop post xs
    report es
    return .many rs
  | x => do
    let (rs, es) ← forceLoop post [x]
    report es
    match rs with
    | [] => return .many []
    | [r] => return r
    | _ => M.raise .valueError

/-- `_run_with_auto_pdb` (main.py:208-222); `none` is `None`. -/
def autoPdb (post : PostRun V) (x : RunVal) : MM V (Option (RM.RunRes V)) := do
  match ← tryRun (liftR (runnerRun post x)) true with
  | .ok r => return some r
  | .error _ => return none

/-- `_run_depending_on_settings` (main.py:199-206). -/
def runWith (st : RunSettings) (post : PostRun V) (x : RunVal) : MM V (Option (RM.RunRes V)) := do
  if st.autoPdb then autoPdb post x
  else if st.forceContinue then return some (← forceContinue post x)
  else return some (← liftR (runnerRun post x))

/-- `PipelineManager.run` (main.py:125-160); where the standard output goes is in
`Verif/Model/Stdout.lean`. -/
def run (st : RunSettings) (h : RunHooks V) (arg : RunArg) : MM V (Option (RM.RunRes V)) := do
  let converted ← M.liftE (convertArg arg)
  let additional := (h.preRun arg).2
  runWith st h.postRun (combineExtract converted additional)

end MM

/-! ### Attribute access -/

/-- A runner with its `_full_getattr` (runner.py:41). -/
structure AS (V : Type) where
  rs : RS V
  full : String

/-- Attributes a runner has itself (runner.py:31-42, 89-410; `ReprMixin`). -/
def runnerAttrs : List String :=
  ["repr_cols", "_config", "_registrars", "_general_registrar", "_manager_name", "_full_getattr",
   "_all_specific_classes", "_specific_class_registrar_map", "_loaded_objects", "run", "_run",
   "_run_section", "_run_one_func", "_run_one_class", "_run_one_specific_class", "get",
   "_get_section", "_get_one_func_with_config", "_get_one_obj_with_config", "_get_config",
   "_get_func_or_collection", "_get_func_and_config", "_get_class_and_config", "update", "reset",
   "refresh", "_is_specific_class", "_add_to_config_dependencies_if_necessary",
   "_add_full_section_path_str_to_obj"]

/-- Attributes a loaded manager has itself (main.py:59-633). -/
def managerAttrs : List String :=
  ["folder", "pipeline_dict_path", "specific_class_config_dicts", "specific_class_names",
   "default_config_path", "name", "auto_pdb", "force_continue", "_registrars",
   "_general_registrar", "run", "run_product", "run_product_gen", "_run_depending_on_settings",
   "_run_with_auto_pdb", "_run_with_force_continue", "get", "reset", "reload", "load",
   "_import_tracker", "_loaded_modules", "update", "update_batch", "_update", "refresh", "create",
   "get_manager_by_filepath", "get_manager_by_section_path_str",
   "_create_specific_class_dict_entry", "_create_pipeline_dict_entry",
   "_load_pipeline_config_and_runner", "config", "runner", "_wipe_loaded_modules",
   "_convert_list_or_single_item_view_or_str_to_strs",
   "_get_section_path_str_from_section_path_str_or_view", "_validate_options",
   "_create_project_if_needed", "_need_to_create_project", "_registrar_dict"]

/-- What an attribute access gives: an attribute of the object itself, the runner again, or what
`get` returns. -/
inductive AttrRes (V : Type) where
  | own
  | runner
  | got (r : RM.GetRes V)

/-- Operations with attribute access. -/
abbrev AM (V α : Type) := M PyErr (AS V) α

namespace AM

/-- An operation of the runner. -/
def liftR {α : Type} (m : RM V α) : AM V α := fun s => ((m s.rs).1, { s with rs := (m s.rs).2 })

/-- Set `_full_getattr`. -/
def setFull (f : String → String) : AM V Unit := M.modify (fun s => { s with full := f s.full })

/-- `Runner.__getattr__` (runner.py:46-65). -/
def missing (x : String) : AM V (AttrRes V) := do
  setFull (fun f => f ++ x)
  let s ← M.get
  match s.rs.reg.lookup (split '.' s.full) with
  | .error .keyError => do
    setFull (fun _ => "")
    M.raise .keyError
  | .error e => M.raise e
  | .ok (.coll _ _) => do
    setFull (fun f => f ++ ".")
    return .runner
  | .ok _ => do
    let full := s.full
    setFull (fun _ => "")
    return .got (← liftR (RM.get (split '.' full)))

/-- `runner.x` -/
def runnerAttr (x : String) : AM V (AttrRes V) :=
  if x ∈ runnerAttrs then return .own else missing x

/-- `pm.x` (main.py:85-93) for a loaded manager. -/
def managerAttr (x : String) : AM V (AttrRes V) :=
  if x ∈ managerAttrs then return .own else runnerAttr x

/-- `runner.x.y.z`: every access is made on what the one before gave.  Attributes of anything
but the runner are not modelled (an `AttributeError`). -/
def accessFrom (r : AttrRes V) : List String → AM V (AttrRes V)
  | [] => return r
  | x :: xs =>
    match r with
    | .runner => do accessFrom (← runnerAttr x) xs
    | _ => M.raise .attributeError

/-- `pm.x.y.z` -/
def access : List String → AM V (AttrRes V)
  | [] => M.raise .attributeError
  | x :: xs => do accessFrom (← managerAttr x) xs

end AM

/-- What can happen to a manager between loads, with attribute accesses. -/
inductive AOp (V : Type) where
  | op (o : ROp V)
  | access (xs : List String)

/-- The state after it, whether it returned or raised. -/
def AS.step [BEq V] (s : AS V) : AOp V → AS V
  | .op o => { s with rs := s.rs.step o }
  | .access xs => (AM.access xs s).2

end Verif.Model

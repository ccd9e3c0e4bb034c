import Verif.Model.Runner

/-
Model of the context (`pyfileconf/pmcontext/*.py`): the stack of what is running and being
loaded, and the record of dependencies; and of the places that use it: running and getting
items (`pyfileconf/runner/models/runner.py`), executing a config file
(`pyfileconf/io/file/load/active/loader.py`), the selector and its item views
(`pyfileconf/selector/models/*.py`) and updates (`pyfileconf/main.py`).

What user code does is a tree of actions (`Act`): code of a function or a config file can run
and get other items, use views of them, make the manager load files, raise, and catch what
it raised.  Section paths are strings with the manager's name in front.
-/

namespace Verif.Model
open Verif.Py

variable {V : Type}

/-- The ways to load a file. -/
inductive LoadKind where
  | execute
  | ast
  | pipelineAst
deriving DecidableEq, Repr

/-- `PyfileconfActions` (pmcontext/actions.py:4-8): `RUN`, or `LOAD_FILE_EXECUTE`,
`LOAD_FILE_AST`, `LOAD_PIPELINE_FILE_AST`. -/
inductive Action where
  | run
  | load (kind : LoadKind)
deriving DecidableEq, Repr

/-- `PyfileconfFrame` (pmcontext/stack.py:10-22). -/
structure Frame where
  path : String
  action : Action
deriving DecidableEq, Repr

/-- The context (pmcontext/main.py:13-36) without the active managers (see
`Verif/Model/Managers.lean`).  A pair `(a, b)` in `deps` says that `b` is in
`config_dependencies[a]`, that is, `b` depends on `a`; the same for `forced`.  `loaded` are the
items with a created object (runner.py:44), which decides whether getting an item does
anything.  `seen` is not part of the code: it is what user code saw when it asked the context
for the currently running item and the file being loaded, with the place where it asked. -/
structure Ctx where
  stack : List Frame
  deps : List (String × String)
  forced : List (String × String)
  loaded : List String
  seen : List (Nat × Option String × Option String)

/-- `PyFileConfContext.reset` (pmcontext/main.py:38-42); created objects stay. -/
def Ctx.reset (c : Ctx) : Ctx := { c with stack := [], deps := [], forced := [] }

/-- `currently_running_section_path_str` (pmcontext/stack.py:68-74, main.py:44-46). -/
def currentlyRunning (stack : List Frame) : Option String :=
  match (stack.filter (fun f => f.action = .run)).getLast? with
  | none => none
  | some f => some f.path

/-- `currently_loading_file_section_path` (pmcontext/stack.py:85-95). -/
def currentlyLoading (stack : List Frame) : Option String :=
  match (stack.filter (fun f => f.action = .load .execute)).getLast? with
  | none => none
  | some f => some f.path

/-- `set.add` -/
def addPair (xs : List (String × String)) (x : String × String) : List (String × String) :=
  if x ∈ xs then xs else xs ++ [x]

/-- `add_config_dependency` (pmcontext/main.py:52-63). -/
def Ctx.addDep (c : Ctx) (dependent dependsOn : String) (force : Bool) : Ctx :=
  if dependent = dependsOn then c
  else
    let c := { c with deps := addPair c.deps (dependsOn, dependent) }
    if force then { c with forced := addPair c.forced (dependsOn, dependent) } else c

/-- Operations on the context. -/
abbrev XM (α : Type) := M PyErr Ctx α

namespace XM

/-- `add_config_dependency_for_currently_running_item_if_exists` (pmcontext/main.py:65-70). -/
def depForRunning (dependsOn : String) (force : Bool) : XM Unit :=
  M.modify (fun c => match currentlyRunning c.stack with
    | none => c
    | some r => c.addDep r dependsOn force)

/-- `if context.file_is_currently_being_loaded: context.add_config_dependency(
context.stack.currently_loading_file_section_path, …)` (selector.py:50-54, 150-153). -/
def depForLoading (dependsOn : String) (force : Bool) : XM Unit :=
  M.modify (fun c => match currentlyLoading c.stack with
    | none => c
    | some f => c.addDep f dependsOn force)

/-- `with StackTracker(…): body` (pmcontext/tracing.py:29-43).  The frame is made first, which
fails if there is no manager for the file (stack.py:30-40); it is taken off whatever the body
does. -/
def tracked (frame : Except PyErr Frame) (body : XM Unit) : XM Unit := fun c =>
  match frame with
  | .error e => (.error e, c)
  | .ok f =>
    match body { c with stack := c.stack ++ [f] } with
    | (r, c') => match c'.stack with
      | [] => (.error .indexError, c')
      | _ :: _ => (r, { c' with stack := c'.stack.dropLast })

end XM

/-- What user code can do.  `run` and `get` take the actions of everything that happens while
they run or create the item. -/
inductive Act where
  /-- The user's code looks at the context, at a numbered place in it. -/
  | look (place : Nat)
  /-- An exception. -/
  | raise (e : PyErr)
  /-- `try: … except: pass` -/
  | attempt (body : List Act)
  /-- `_run_one_func`, `_run_one_class`, `_run_one_specific_class` (runner.py:185-219). -/
  | run (path : String) (body : List Act)
  /-- `_get_one_func_with_config`, `_get_one_obj_with_config` (runner.py:299-327). -/
  | get (path : String) (body : List Act)
  /-- Executing or parsing a file (loader.py:9-18, lazy/*.py); the frame's path is the file's,
  or the lookup of its manager fails. -/
  | load (path : Except PyErr String) (kind : LoadKind) (body : List Act)
  /-- An item is found through the selector (selector.py:50-55). -/
  | select (path : String)
  /-- The real item is looked up through a view (selector.py:144-155); the body is the lookup in
  the manager. -/
  | realItem (path : String) (body : List Act)
  /-- The end of using an attribute of a view or calling it (itemview.py:68-70, 99-102). -/
  | usedView (path : String)

mutual
/-- What an action does. -/
def Act.exec : Act → XM Unit
  | .look n => M.modify (fun c =>
      { c with seen := c.seen ++ [(n, currentlyRunning c.stack, currentlyLoading c.stack)] })
  | .raise e => M.raise e
  | .attempt body => M.tryCatch (Act.execs body) (fun _ => pure ())
  | .run path body => do
    XM.tracked (.ok ⟨path, .run⟩) (Act.execs body)
    XM.depForRunning path true
  | .get path body => do
    let c ← M.get
    if path ∈ c.loaded then return ()
    else
      Act.execs body
      M.modify (fun c => { c with loaded := c.loaded ++ [path] })
      XM.depForRunning path true
  | .load (.error e) _ _ => M.raise e
  | .load (.ok path) kind body => XM.tracked (.ok ⟨path, .load kind⟩) (Act.execs body)
  | .select path => XM.depForLoading path false
  | .realItem path body => do
    XM.depForLoading path true
    Act.execs body
  | .usedView path => XM.depForRunning path true
/-- One after the other. -/
def Act.execs : List Act → XM Unit
  | [] => return ()
  | a :: as => do
    Act.exec a
    Act.execs as
end

/-- What can happen to the context from outside: something is done with a manager, a dependency
is added (`context.add_config_dependency`, also called by `PipelineManager._update`), or
`context.reset()`. -/
inductive CtxOp where
  | act (a : Act)
  | add (dependent dependsOn : String) (force : Bool)
  | reset

/-- One of these operations; an exception leaves the context as it is at that point. -/
def Ctx.step (c : Ctx) : CtxOp → Ctx
  | .act a => (a.exec c).2
  | .add d o f => c.addDep d o f
  | .reset => c.reset

/-- The context of a new process (pmcontext/main.py:82). -/
def Ctx.new : Ctx := ⟨[], [], [], [], []⟩

/-! ### Updates with views -/

/-- The part of `PipelineManager._update` (main.py:378-391) that records dependencies; `viewed`
tells whether a value is an item view and of which item.  The keyword arguments come first
here, so for a key in both the value of the dictionary counts. -/
def Ctx.recordViews (viewed : V → Option String) (c : Ctx) (fullPath : String)
    (d : Option (Dict String V)) (kw : Dict String V) : Ctx :=
  let all := match d with
    | none => kw
    | some d => kw.setAll d.items
  all.items.foldl (fun c e => match viewed e.2 with
    | none => c
    | some v => c.addDep fullPath v false) c

/-- The runner of a manager and the context. -/
structure PS (V : Type) where
  rs : RS V
  ctx : Ctx

/-- Operations on both. -/
abbrev PM (V α : Type) := M PyErr (PS V) α

/-- The parameters of `PipelineManager._update` (main.py:363); a keyword argument of that name, which only a plugin can
add, is a `TypeError`. -/
def updateParams : List String := ["self", "d_", "section_path_str", "pyfileconf_persist"]

/-- `PipelineManager._update` (main.py:363-394) for an item or section of the manager called
`name`; an empty path string records nothing, as does `None`. -/
def PM.update [BEq V] (viewed : V → Option String) (name : String) (d : Option (Dict String V))
    (p : Option (List String)) (persist : Bool) (kw : Dict String V) : PM V Unit := fun s =>
  if Conf.clash updateParams kw then (.error .typeError, s) else
  let ctx := match p with
    | none => s.ctx
    | some p => if join '.' p = "" then s.ctx else s.ctx.recordViews viewed (join '.' (name :: p)) d kw
  ((RM.update d p persist kw s.rs).1, ⟨(RM.update d p persist kw s.rs).2, ctx⟩)

/-- `PipelineManager.update` (main.py:319-345): the dictionaries the `pre_update` plugins return
are merged, and written into both the dictionary and the keyword arguments (main.py:332-339).
The `post_update` plugins are left out. -/
def PM.updateHooked [BEq V] (viewed : V → Option String) (name : String)
    (preUpdate : Option (Dict String V) → Option (List String) → Dict String V → List (Dict String V))
    (d : Option (Dict String V)) (p : Option (List String)) (persist : Bool) (kw : Dict String V) :
    PM V Unit :=
  let new := (preUpdate d p kw).foldl Dict.update Dict.empty
  PM.update viewed name (d.map (fun d => d.update new)) p persist (kw.update new)

end Verif.Model

import Verif.Model.Main

/-
Model of updates of several items at once (`pyfileconf/batch.py`), of iterative runs
(`pyfileconf/iterate.py`, `pyfileconf/main.py:162-197`) and of the default hooks they use
(`pyfileconf/plugin/default_hooks.py:15-65`), over any number of managers.

The deep copies of the updates are in `Verif/Model/Copying.lean`.  The refresh of dependent configs after an update is modelled separately
(`Verif/Model/Cascade.lean`).
-/

namespace Verif.Model
open Verif.Py

variable {V : Type}

/-- A keyword dictionary for an update (main.py:319, 363): the entries `section_path_str`
(`none`: there is no such entry), `d_`, `pyfileconf_persist`, and the others. -/
structure Upd (V : Type) where
  path : Option PathLike
  d : Option (Dict String V) := none
  persist : Option Bool := none
  kw : Dict String V

/-- `==` of dictionaries. -/
def dictEq [BEq V] (a b : Dict String V) : Bool :=
  a.items.length == b.items.length &&
  a.items.all (fun e => match b.get? e.1 with | some w => e.2 == w | none => false)

/-- `==` of two update dictionaries. -/
def Upd.eq [BEq V] (a b : Upd V) : Bool :=
  decide (a.path = b.path) && decide (a.persist = b.persist) && dictEq a.kw b.kw &&
  (match a.d, b.d with
    | none, none => true
    | some x, some y => dictEq x y
    | _, _ => false)

/-- One of the active managers (pmcontext/main.py:21-23). -/
structure Mgr (V : Type) where
  settings : RunSettings
  ms : MS V

/-- The active managers by name. -/
abbrev Mgrs (V : Type) := Dict String (Mgr V)

/-- Operations on the active managers. -/
abbrev BM (V α : Type) := M PyErr (Mgrs V) α

namespace BM

/-- `PipelineManager.get_manager_by_section_path_str(…)` followed by a call of the manager
(main.py:478-495). -/
def onManager {α : Type} (sp : SectionPath) (m : RunSettings → MM V α) : BM V α := fun s =>
  let name := sp.sections.headD ""
  match s.get? name with
  | none => (.error .noManager, s)
  | some g => ((m g.settings g.ms).1, s.set name { g with ms := (m g.settings g.ms).2 })

/-- `SectionPath(".".join(sp[1:])).path_str`, as a path (batch.py:51, 70, iterate.py:83, 145). -/
def relative (sp : SectionPath) : List String := (SectionPath.tail sp).sections

/-- `_update(**update)` of a manager (main.py:363-394), after `section_path_str` was replaced.
A keyword `self` is a `TypeError`; so is a `d_` that came from somewhere else than the caller
(simplification: unless it is `None` or a mapping).  A `pyfileconf_persist` from somewhere else
counts as true (simplification). -/
def updateOn [BEq V] (p : List String) (u : Upd V) : MM V Unit :=
  if u.kw.contains "self" ∨ u.kw.contains "d_" then M.raise .typeError
  else
    let persist := match u.persist with | some b => b | none => true
    let kw := u.kw.filterKeys (fun k => decide (k ∉ ["section_path_str", "pyfileconf_persist"]))
    MM.liftR (RM.update u.d (some p) persist kw)

/-- `update['section_path_str']` as a section path (batch.py:45-49). -/
def sectionPath (base : Option String) (strip : Bool) (u : Upd V) : Except PyErr SectionPath :=
  match u.path with
  | none => .error .keyError
  | some item => SectionPath.fromAmbiguous item strip base

/-- One step of the loop of `BatchUpdater.update` (batch.py:45-53). -/
def update1 [BEq V] (base : Option String) (strip : Bool) (u : Upd V) : BM V Unit := do
  let sp ← M.liftE (sectionPath base strip u)
  onManager sp (fun _ => updateOn (relative sp) u)

/-- The loop of `BatchUpdater.update` (batch.py:44-53). -/
def updates [BEq V] (base : Option String) (strip : Bool) : List (Upd V) → BM V Unit
  | [] => return ()
  | u :: us => do
    update1 base strip u
    updates base strip us

/-- `BatchUpdater.update` (batch.py:33-58).  `pre` are the results of the
`pyfileconf_pre_update_batch` implementations of plugins, one after the other; the default
implementation, which is called last, returns the updates (default_hooks.py:60-64).  The
post-update hook has no default implementation and is left out. -/
def update [BEq V] (base : Option String) (strip : Bool) (pre : List (Upd V) → List (Upd V))
    (us : List (Upd V)) : BM V Unit :=
  updates base strip (pre us ++ us)

/-- `BatchUpdater.reset` (batch.py:60-71); `pm.reset(path)` is modelled for an item or
section (main.py:270-282). -/
def reset [BEq V] (base : Option String) (strip : Bool) : List PathLike → BM V Unit
  | [] => return ()
  | x :: xs => do
    let sp ← M.liftE (SectionPath.fromAmbiguous x strip base)
    onManager sp (fun _ => MM.liftR (RM.reset (some (relative sp)) false))
    reset base strip xs

/-- `PipelineManager.update_batch` (main.py:347-361). -/
def updateBatch [BEq V] (name : String) (pre : List (Upd V) → List (Upd V)) (us : List (Upd V)) :
    BM V Unit :=
  update (some name) true pre us

end BM

/-! ### Cases -/

/-- `conf["section_path_str"]` where a string is expected (iterate.py:75, 92, 231).
Simplification: item views and section paths are not modelled here. -/
def Upd.pathStr (u : Upd V) : Except PyErr String :=
  match u.path with
  | none => .error .keyError
  | some (.str s) => .ok s
  | some _ => .error .typeError

/-- `_get_configs_by_section_path_dict` (iterate.py:199-233); `acc` is `combined_dicts`. -/
def groupByPath (acc : Dict String (List (Upd V))) : List (Upd V) → Except PyErr (Dict String (List (Upd V)))
  | [] => .ok acc
  | u :: us =>
    match u.pathStr with
    | .error e => .error e
    | .ok sp => groupByPath (acc.set sp ((acc.get? sp).getD [] ++ [u])) us

/-- `itertools.product(*xss)`. -/
def product {α : Type} : List (List α) → List (List α)
  | [] => [[]]
  | xs :: xss => xs.flatMap (fun x => (product xss).map (fun rest => x :: rest))

/-- `get_config_product` (iterate.py:167-196). -/
def getConfigProduct (us : List (Upd V)) : Except PyErr (List (List (Upd V))) :=
  match groupByPath Dict.empty us with
  | .error e => .error e
  | .ok groups => .ok (product groups.values)

/-! ### Iterative runs -/

/-- The plugins around an iterative run: the cases that other `pyfileconf_iter_get_cases`
implementations give before those of the default one (iterate.py:60-63), the changes made by
`pyfileconf_iter_modify_cases` (iterate.py:64), the updates added to a batch, and the plugins
of each run. -/
structure IterHooks (V : Type) where
  moreCases : List (Upd V) → List (List (Upd V))
  modifyCases : List (List (Upd V)) → List (List (Upd V))
  preBatch : List (Upd V) → List (Upd V)
  run : RunHooks V

/-- No plugins. -/
def IterHooks.none : IterHooks V := ⟨fun _ => [], id, fun _ => [], RunHooks.none⟩

/-- An `IterativeRunner` after its construction (iterate.py:24-56), without `last_case`. -/
structure IRunner (V : Type) where
  runItems : List SectionPath
  base : Option String
  strip : Bool
  cases : List (List (Upd V))
  defaults : Dict String (Dict String V)

/-- The managers and the attribute `last_case` of the runner (iterate.py:27). -/
structure IState (V : Type) where
  mgrs : Mgrs V
  last : Option (List (Upd V))

/-- Operations of an iterative runner. -/
abbrev IM (V α : Type) := M PyErr (IState V) α

/-- The result of a case: one result per run item, or just the result if there is one run item
(iterate.py:149-152). -/
inductive IRes (V : Type) where
  | single (r : Option (RM.RunRes V))
  | list (rs : List (Option (RM.RunRes V)))

/-- `_get_full_section_path_str` (iterate.py:98-101); an empty base is like none. -/
def fullPath (base : Option String) (s : String) : SectionPath :=
  match base with
  | none => ⟨s⟩
  | some b => if b = "" then ⟨s⟩ else SectionPath.joinSP ⟨b⟩ ⟨s⟩

namespace IRunner

/-- The list comprehension of `get_defaults` (iterate.py:75-77). -/
def fullPaths (base : Option String) : List (Upd V) → Except PyErr (List SectionPath)
  | [] => .ok []
  | u :: us => do
    let s ← u.pathStr
    let rest ← fullPaths base us
    return fullPath base s :: rest

/-- The loop of `get_defaults` (iterate.py:78-85). -/
def defaultsLoop (acc : Dict String (Dict String V)) : List SectionPath → BM V (Dict String (Dict String V))
  | [] => return acc
  | sp :: sps => do
    match ← BM.onManager sp (fun _ => MM.liftR (RM.liftC (CMM.get (BM.relative sp)))) with
    | none => defaultsLoop acc sps
    | some c => defaultsLoop (acc.set sp.pathStr c.values) sps

/-- `get_defaults` (iterate.py:68-87); without cases `self.cases[0]` is an `IndexError`. -/
def getDefaults (base : Option String) (cases : List (List (Upd V))) : BM V (Dict String (Dict String V)) :=
  match cases with
  | [] => M.raise .indexError
  | c :: _ => do
    let sps ← M.liftE (fullPaths base c)
    defaultsLoop Dict.empty sps

/-- `get_cases` (iterate.py:58-66). -/
def getCases (h : IterHooks V) (us : List (Upd V)) : Except PyErr (List (List (Upd V))) :=
  match getConfigProduct us with
  | .error e => .error e
  | .ok cases => .ok (h.modifyCases (h.moreCases us ++ cases))

/-- `IterativeRunner(…)` (iterate.py:31-56). -/
def new (h : IterHooks V) (items : PathLike ⊕ List PathLike) (us : List (Upd V)) (base : Option String)
    (strip : Bool) : BM V (IRunner V) := do
  let runItems ← M.liftE (SectionPath.listFromAmbiguous items strip base)
  let cases ← M.liftE (getCases h us)
  let defaults ← getDefaults base cases
  return { runItems, base, strip, cases, defaults }

/-- `{**defaults, **conf}` (iterate.py:94): entries of the conf win. -/
def fillOne (defaults : Dict String V) (u : Upd V) : Upd V :=
  let given : List String := "section_path_str" ::
    ((if u.d.isSome then ["d_"] else []) ++ (if u.persist.isSome then ["pyfileconf_persist"] else []))
  { u with kw := (defaults.filterKeys (fun k => decide (k ∉ given))).update u.kw }

/-- `_fill_case_with_defaults` (iterate.py:89-96). -/
def fill (r : IRunner V) : List (Upd V) → Except PyErr (List (Upd V))
  | [] => .ok []
  | u :: us => do
    let s ← u.pathStr
    match r.defaults.get? (fullPath r.base s).pathStr with
    | none => .error .keyError
    | some defaults =>
      let rest ← fill r us
      return fillOne defaults u :: rest

/-- The updates that are applied for a case (default_hooks.py:47-51). -/
def changed [BEq V] (last : Option (List (Upd V))) (case : List (Upd V)) : List (Upd V) :=
  match last with
  | none => case
  | some l => case.filter (fun u => !l.any (fun v => u.eq v))

/-- An operation on the managers. -/
def liftB {α : Type} (m : BM V α) : IM V α := fun s => ((m s.mgrs).1, { s with mgrs := (m s.mgrs).2 })

/-- `pyfileconf_iter_update_for_case` (default_hooks.py:32-57). -/
def updateForCase [BEq V] (h : IterHooks V) (r : IRunner V) (case : List (Upd V)) : IM V Unit := do
  let s ← M.get
  liftB (BM.update r.base r.strip h.preBatch (changed s.last case))

/-- The loop of `_run` (iterate.py:141-147). -/
def runEach (h : IterHooks V) : List SectionPath → BM V (List (Option (RM.RunRes V)))
  | [] => return []
  | sp :: sps => do
    let res ← BM.onManager sp (fun st => MM.run st h.run (.single (.str (SectionPath.tail sp).pathStr)))
    let rest ← runEach h sps
    return res :: rest

/-- `_run` (iterate.py:138-152). -/
def runOnce (h : IterHooks V) (r : IRunner V) : BM V (IRes V) := do
  match ← runEach h r.runItems with
  | [x] => return .single x
  | xs => return .list xs

/-- The first two lines of `_run_case` (iterate.py:132-133): the configs are changed. -/
def applyCase [BEq V] (h : IterHooks V) (r : IRunner V) (case : List (Upd V)) : IM V (List (Upd V)) := do
  let filled ← M.liftE (r.fill case)
  updateForCase h r filled
  return filled

/-- `_run_case` (iterate.py:131-136). -/
def runCase [BEq V] (h : IterHooks V) (r : IRunner V) (case : List (Upd V)) : IM V (IRes V) := do
  let filled ← applyCase h r case
  let res ← liftB (runOnce h r)
  M.modify (fun s => { s with last := some filled })
  return res

/-- `run` (iterate.py:103-120).  `shouldRun` is the method of that name, which subclasses
override (iterate.py:154-164); it is assumed to change nothing. -/
def run [BEq V] (h : IterHooks V) (shouldRun : List (Upd V) → Bool) (collect : Bool) (r : IRunner V) :
    List (List (Upd V)) → IM V (List (List (Upd V) × IRes V))
  | [] => return []
  | c :: cs =>
    if !shouldRun c then run h shouldRun collect r cs
    else do
      let res ← runCase h r c
      let rest ← run h shouldRun collect r cs
      return if collect then (c, res) :: rest else rest

/-- `next` of the generator of `run_gen` (iterate.py:122-129): the pair it yields, and the cases
that are left; `none` if it is exhausted. -/
def genNext [BEq V] (h : IterHooks V) (shouldRun : List (Upd V) → Bool) (r : IRunner V) :
    List (List (Upd V)) → IM V (Option ((List (Upd V) × IRes V) × List (List (Upd V))))
  | [] => return none
  | c :: cs =>
    if !shouldRun c then genNext h shouldRun r cs
    else do
      let res ← runCase h r c
      return some ((c, res), cs)

/-- Ask the generator up to `n` times, and collect what it yields. -/
def consume [BEq V] (h : IterHooks V) (shouldRun : List (Upd V) → Bool) (r : IRunner V) :
    Nat → List (List (Upd V)) → IM V (List (List (Upd V) × IRes V))
  | 0, _ => return []
  | n + 1, cs => do
    match ← genNext h shouldRun r cs with
    | none => return []
    | some (x, cs') => do
      let rest ← consume h shouldRun r n cs'
      return x :: rest

/-- `PipelineManager.run_product` (main.py:162-185). -/
def runProduct [BEq V] (h : IterHooks V) (name : String) (items : PathLike ⊕ List PathLike)
    (us : List (Upd V)) (collect : Bool) : BM V (List (List (Upd V) × IRes V)) := do
  let r ← new h items us (some name) true
  fun s =>
    let (res, t) := run h (fun _ => true) collect r r.cases ⟨s, none⟩
    (res, t.mgrs)

end IRunner
end Verif.Model

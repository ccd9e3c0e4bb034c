import Verif.Py.Monad
import Verif.Model.Runner

/-
Model of how a change of one config reaches the configs that depend on it:
`ConfigManager.refresh_dependent_configs` and `_refresh_configs`
(`pyfileconf/config/models/manager.py`), called by the default hook
`pyfileconf_post_config_changed` (`pyfileconf/plugin/default_hooks.py`) from `Runner.update`, `Runner.refresh`
and `Runner.reset` (`pyfileconf/runner/models/runner.py`), together with config files that read
attributes of other items through the selector (`pyfileconf/selector/models/*.py`).

Items of all managers, by full section path.  Simplifications: no configs of sections and no local
config (so an item's object is created with exactly its own config, see C16 for the rest); what
an attribute of an object is depends on the configuration it was last given (which replaces the former
one; a function keeps the values of keys the new one lacks, see C16); every dependent has a
manager (`manager.py:371`).
-/

namespace Verif.Model
open Verif.Py

variable {V : Type}

/-- A config file: it reads attributes of other items, the next ones depending on what the
earlier ones were, and ends with the values it assigns or by an exception. -/
inductive FileProg (V : Type) where
  | done (d : Dict String V)
  | raise (e : PyErr)
  | read (item attr : String) (next : V → FileProg V)

/-- The state: the configs that are loaded, for each created object the configuration it was last
given (runner.py:308, 324, 382, 400), and the forced dependents of each item (pmcontext/main.py:16). -/
structure GS (V : Type) where
  conf : String → Option (Conf V)
  obj : String → Option (Dict String V)
  forced : String → List String

/-- The world: the file of each item; an attribute of an item's object, given the configuration of the
object; and the order in which Python iterates over a set, which may be different in every state. -/
structure World (V : Type) where
  files : String → FileProg V
  attr : String → Dict String V → String → Except PyErr V
  order : GS V → List String → List String

/-- Why an operation stops: an exception, or the model's bound on the number of calls, which the
code does not have. -/
inductive Stop where
  | err (e : PyErr)
  /-- `CannotResolveConfigDependenciesException` (manager.py:92) -/
  | cannotResolve
  | fuel

/-- Operations. -/
abbrev GM (V α : Type) := M Stop (GS V) α

/-- `f` with the value at `x` replaced. -/
def setAt {α : Type} (f : String → α) (x : String) (a : α) : String → α := fun y => if y = x then a else f y

/-- An exception of the modelled code. -/
def GM.ofExcept {α : Type} : Except PyErr α → GM V α
  | .ok a => pure a
  | .error e => M.raise (.err e)

/-- `add_config_dependency(dependent, depends_on, force_update=True)` (pmcontext/main.py:52-63). -/
def GS.addForced (s : GS V) (dependent dependsOn : String) : GS V :=
  if dependent = dependsOn then s
  else if dependent ∈ s.forced dependsOn then s
  else { s with forced := setAt s.forced dependsOn (s.forced dependsOn ++ [dependent]) }

namespace GM

/-- Executing the file of `q` (loader.py:9-18).  Reading an attribute of another item through a view
records the dependency first (selector.py:150-153), then gets the item (selector.py:155,
runner.py:312-327), then the attribute (itemview.py:61). -/
def runFile (w : World V) (get : String → GM V (Dict String V)) (q : String) : FileProg V → GM V (Dict String V)
  | .done d => return d
  | .raise e => M.raise (.err e)
  | .read p a next => do
    M.modify (fun s => s.addForced q p)
    let o ← get p
    match w.attr p o a with
    | .error e => M.raise (.err e)
    | .ok v => runFile w get q (next v)

/-- The config of `q`, loaded from its file on first use (manager.py:200-230). -/
def confOf (run : GM V (Dict String V)) (q : String) : GM V (Conf V) := do
  let s ← M.get
  match s.conf q with
  | some c => return c
  | none =>
    let d ← run
    M.modify (fun s => { s with conf := setAt s.conf q (some (Conf.ofFile (.item []) d)) })
    return Conf.ofFile (.item []) d

/-- The object of `q`, created on first use (runner.py:299-327). -/
def getItem (w : World V) : Nat → String → GM V (Dict String V)
  | 0, _ => M.raise .fuel
  | n + 1, q => do
    let s ← M.get
    match s.obj q with
    | some o => return o
    | none =>
      let c ← confOf (runFile w (getItem w n) q (w.files q)) q
      M.modify (fun s => { s with obj := setAt s.obj q (some c.values) })
      return c.values

/-- Executing the file of `q`. -/
def evalFile (w : World V) (n : Nat) (q : String) : GM V (Dict String V) :=
  runFile w (getItem w n) q (w.files q)

/-- `for sp in section_paths: …` (manager.py:369-372) -/
def each (f : String → GM V Unit) : List String → GM V Unit
  | [] => return ()
  | x :: xs => do
    f x
    each f xs

/-- `update_deps == new_update_deps` (manager.py:89) -/
def sameSet (xs ys : List String) : Bool := xs.all (fun x => decide (x ∈ ys)) && ys.all (fun y => decide (y ∈ xs))

/-- The loop of `refresh_dependent_configs` (manager.py:84-93) with `update_deps = todo` and
`all_updated_deps = done`; `refresh` refreshes one item. -/
def dependentsLoop (w : World V) (refresh : String → GM V Unit) (p : String) :
    Nat → List String → List String → GM V Unit
  | n, todo, done =>
    if todo.isEmpty then pure ()
    else match n with
      | 0 => M.raise .fuel
      | n + 1 => do
        let s ← M.get
        each refresh (w.order s todo)
        let s ← M.get
        let done' := done ++ todo
        let new := (s.forced p).filter (fun x => decide (x ∉ done'))
        if sameSet todo new then M.raise .cannotResolve
        else dependentsLoop w refresh p n new done'

/-- `refresh_dependent_configs` (manager.py:79-93). -/
def refreshDependents (w : World V) (refresh : String → GM V Unit) (n : Nat) (p : String) : GM V Unit := do
  let s ← M.get
  dependentsLoop w refresh p n (s.forced p) []

/-- What `Runner.update` and `Runner.refresh` do after a change of the config of `q` if its object was
created (runner.py:381-383, 398-401): the object gets the configuration, and the hook refreshes the
dependents (default_hooks.py:67-89).  `announced` are the keyword arguments of `track_post_update`
(manager.py:318-325). -/
def applyAndRefresh (w : World V) (refresh : String → GM V Unit) (n : Nat) (q : String)
    (values announced : Dict String V) : GM V Unit := do
  let s ← M.get
  match s.obj q with
  | none => return ()
  | some _ =>
    M.modify (fun s => { s with obj := setAt s.obj q (some values) })
    if Conf.clash RM.trackReserved announced then M.raise (.err .typeError)
    else refreshDependents w refresh n q

/-- `Runner.refresh` (runner.py:395-401) with `ConfigManager.refresh` (manager.py:68-77) and
`ConfigBase.refresh` (config.py:124-134); the file is executed once to see whether anything changes and
once more to refresh. -/
def refresh [BEq V] (w : World V) : Nat → String → GM V Unit
  | 0, _ => M.raise .fuel
  | n + 1, q => do
    let c ← confOf (evalFile w n q) q
    let d ← evalFile w n q
    if (c.changeFromRefresh d).items.isEmpty then return ()
    else
      let d ← evalFile w n q
      match c.refresh d with
      | .error e => M.raise (.err e)
      | .ok (c', _) =>
        M.modify (fun s => { s with conf := setAt s.conf q (some c') })
        applyAndRefresh w (refresh w n) n q c'.values Dict.empty

/-- `Runner.update` (runner.py:378-383) with `ConfigManager.update` (manager.py:47-66). -/
def update [BEq V] (w : World V) (n : Nat) (q : String) (d : Option (Dict String V)) (persist : Bool)
    (kw : Dict String V) : GM V Unit := do
  let c ← confOf (evalFile w n q) q
  let would ← GM.ofExcept (CMM.determineWouldUpdate c d kw)
  if would then
    if Conf.clash Conf.updateReserved kw then M.raise (.err .typeError)
    else
      M.modify (fun s => { s with conf := setAt s.conf q (some (c.update d persist kw)) })
      applyAndRefresh w (refresh w n) n q (c.update d persist kw).values kw
  else return ()

/-- `Runner.reset` (runner.py:385-393) with `ConfigManager.reset` (manager.py:95-106, 280-294) and
`ConfigManager.set` (manager.py:160-198), without creating: the file is executed for the default, and a
`KeyError` while the present config is loaded counts as having none.  The object is given the default. -/
def reset [BEq V] (w : World V) (n : Nat) (q : String) : GM V Unit := do
  let d ← evalFile w n q
  let current ← M.tryCatch (do return some (← confOf (evalFile w n q) q))
    (fun e => match e with
      | .err .keyError => pure none
      | e => M.raise e)
  let would ← match current with
    | none => pure true
    | some c => GM.ofExcept (CMM.determineWouldUpdate c none d)
  if would then
    M.modify (fun s => { s with conf := setAt s.conf q (some (Conf.ofFile (.item []) d)) })
    applyAndRefresh w (refresh w n) n q d d
  else return ()

end GM

/-- What the user does: gets an item (or runs it, which also gets it), updates, refreshes or resets one; or a
dependency is recorded because one item used another while running (`Verif/Model/Context.lean`). -/
inductive GOp (V : Type) where
  | get (q : String)
  | update (q : String) (d : Option (Dict String V)) (persist : Bool) (kw : Dict String V)
  | refresh (q : String)
  | reset (q : String)
  | used (dependent dependsOn : String)

/-- One operation, with a bound on the calls. -/
def GM.op [BEq V] (w : World V) (n : Nat) : GOp V → GM V Unit
  | .get q => do
    let _ ← getItem w n q
    return ()
  | .update q d persist kw => update w n q d persist kw
  | .refresh q => refresh w n q
  | .reset q => reset w n q
  | .used d o => M.modify (fun s => s.addForced d o)

end Verif.Model

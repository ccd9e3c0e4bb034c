import Verif.Model.BatchHooks

/-
Model of which plugins are registered and in which order their implementations of a hook are called: `get_plugin_manager`,
`reset_plugins`, `remove_default_plugins` (`pyfileconf/plugin/manager_utils.py:4-24`), `plm` (`pyfileconf/plugin/manager.py:3`), and
of pluggy 0.13.1 (the version in `Pipfile.lock`) `PluginManager.register`, `unregister`, `load_setuptools_entrypoints` and
`_HookCaller._add_hookimpl`, `_remove_plugin`, which they use.

A plugin is given by its identity; `World` says what each plugin implements.  One hook is modelled at a time.

Simplifications: hook wrappers are left out, an implementation is not marked both `tryfirst` and `trylast`, plugins are equal only to
themselves, no plugin is blocked (`set_blocked` is not used in the code), and the entry points are the same whenever they are loaded.
-/

namespace Verif.Model
open Verif.Py

namespace Plm

/-- How an implementation of a hook is marked. -/
inductive Pos where
  | first
  | plain
  | last
  deriving DecidableEq

/-- The mark of the implementation of the hook that each plugin has, if it has one. -/
abbrev World := Nat → Option Pos

/-- A plugin manager: the plugins by name, and those that implement the hook (`_nonwrappers`, called from the end). -/
structure State where
  named : List (String × Nat)
  impls : List Nat
  deriving DecidableEq

/-- A new `pluggy.PluginManager` with the specifications of the hooks (manager_utils.py:7-8). -/
def State.new : State := ⟨[], []⟩

/-- Whether an implementation comes before all plain ones. -/
def isFirst (w : World) (p : Nat) : Bool := w p == some .first

/-- `_HookCaller._add_hookimpl` (pluggy/hooks.py): a plain one is put before the ones marked `tryfirst` at the end. -/
def addImpl (w : World) (p : Nat) (l : List Nat) : List Nat :=
  match w p with
  | none => l
  | some .last => p :: l
  | some .first => l ++ [p]
  | some .plain => (l.reverse.dropWhile (isFirst w)).reverse ++ p :: (l.reverse.takeWhile (isFirst w)).reverse

/-- `PluginManager.register` (pluggy/manager.py). -/
def register (w : World) (name : String) (p : Nat) : M PyErr State Unit := fun s =>
  if s.named.any (fun x => x.1 == name) || s.named.any (fun x => x.2 == p) then (.error .valueError, s)
  else (.ok (), ⟨s.named ++ [(name, p)], addImpl w p s.impls⟩)

/-- `PluginManager.unregister` with a name (pluggy/manager.py): no error if there is no such plugin. -/
def unregister (name : String) : M PyErr State Unit := fun s =>
  match s.named.find? (fun x => x.1 == name) with
  | none => (.ok (), s)
  | some x => (.ok (), ⟨s.named.filter (fun y => y.1 != name), s.impls.filter (fun q => q != x.2)⟩)

/-- `load_setuptools_entrypoints` (pluggy/manager.py): entry points with the name of a plugin that is there are skipped. -/
def loadEntries (w : World) : List (String × Nat) → M PyErr State Unit
  | [] => return ()
  | e :: es => do
    let s ← M.get
    if s.named.any (fun x => x.1 == e.1) then loadEntries w es
    else do
      register w e.1 e.2
      loadEntries w es

/-- The name of `default_hooks` (manager_utils.py:24). -/
def defaultName : String := "pyfileconf.plugin.default_hooks"

/-- The module `default_hooks`. -/
def defaultHooks : Nat := 0

/-- `get_plugin_manager` (manager_utils.py:4-11). -/
def getPluginManager (w : World) (entries : List (String × Nat)) : Except PyErr State :=
  match (do loadEntries w entries; register w defaultName defaultHooks : M PyErr State Unit) State.new with
  | (.error e, _) => .error e
  | (.ok _, s) => .ok s

/-- `reset_plugins` (manager_utils.py:14-18): `plm` is replaced if a new manager could be made. -/
def reset (w : World) (entries : List (String × Nat)) : M PyErr State Unit := fun s =>
  match getPluginManager w entries with
  | .error e => (.error e, s)
  | .ok s' => (.ok (), s')

/-- `remove_default_plugins` (manager_utils.py:21-24). -/
def removeDefaults : M PyErr State Unit := unregister defaultName

/-- What may be done with the plugins. -/
inductive Op where
  | register (name : String) (p : Nat)
  | unregister (name : String)
  | removeDefaults
  | reset

/-- One operation. -/
def Op.run (w : World) (entries : List (String × Nat)) : Op → M PyErr State Unit
  | .register name p => Plm.register w name p
  | .unregister name => Plm.unregister name
  | .removeDefaults => Plm.removeDefaults
  | .reset => Plm.reset w entries

/-- The state after operations, some of which may have failed. -/
def after (w : World) (entries : List (String × Nat)) (s : State) : List Op → State
  | [] => s
  | o :: os => after w entries ((o.run w entries s).2) os

/-- The plugins whose implementations are called, in the order of the calls. -/
def State.order (s : State) : List Nat := s.impls.reverse

/-- A call of a hook: the results that are not `None`, in the order of the calls. -/
def call {ε σ β : Type} (impl : Nat → M ε σ (Option β)) : List Nat → M ε σ (List β)
  | [] => return []
  | p :: ps => do
    let r ← impl p
    let rest ← call impl ps
    return match r with | some x => x :: rest | none => rest

/-- `pyfileconf_pre_update_batch` and `pyfileconf_post_update_batch` of the plugins that are called (batch.py:40-58). -/
def batchPlugins {U : Type} (impl : Nat → BatchPlugin U) (s : State) : List (BatchPlugin U) := s.order.map impl

/-- `list(itertools.chain(*cases_lol))` (iterate.py:60-63). -/
def cases {V : Type} (impl : Nat → List (Upd V) → M PyErr (Mgrs V) (Option (List (List (Upd V))))) (s : State)
    (us : List (Upd V)) : BM V (List (List (Upd V))) := do
  let lol ← call (fun p => impl p us) s.order
  return lol.flatten

/-- `IterativeRunner(…)` (iterate.py:31-56) if cases are only given by the plugins that are there and not changed. -/
def newRunner {V : Type} (impl : Nat → List (Upd V) → M PyErr (Mgrs V) (Option (List (List (Upd V))))) (s : State)
    (items : PathLike ⊕ List PathLike) (us : List (Upd V)) (base : Option String) (strip : Bool) : BM V (IRunner V) := do
  let runItems ← M.liftE (SectionPath.listFromAmbiguous items strip base)
  let cases ← cases impl s us
  let defaults ← IRunner.getDefaults base cases
  return { runItems, base, strip, cases, defaults }

/-- `track_post_update` calls `pyfileconf_post_config_changed` (config/models/manager.py:320-329); only what the plugins do matters. -/
def changed {σ : Type} (impl : Nat → M PyErr σ (Option Unit)) (s : State) : M PyErr σ Unit := do
  let _ ← call impl s.order
  return ()

end Plm

end Verif.Model

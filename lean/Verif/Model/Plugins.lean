import Verif.Model.Context

/-
Model of the plugins around `PipelineManager.update` (main.py:319-345, plugin/hookspecs.py:95-140).  Dictionaries that callers
pass are objects of their own here: the code writes into them.

Simplifications: plugins are called last registered first, as pluggy does without `tryfirst`, `trylast` and wrappers; plugins get the
path and the two dictionaries, which they may change in place, and do nothing else with the manager.  The default plugins have no
part in these two hooks (plugin/default_hooks.py).
-/

namespace Verif.Model
open Verif.Py

variable {V : Type}

/-- What a call of a plugin leaves in the dictionary (if there was one) and in the keyword arguments, and how it ends. -/
structure HookCall (V α : Type) where
  d : Dict String V
  kw : Dict String V
  result : Except PyErr α

/-- A plugin: `pyfileconf_pre_update`, which may return a dictionary or `None`, and `pyfileconf_post_update`. -/
structure UpdatePlugin (V : Type) where
  pre : Option (List String) → Option (Dict String V) → Dict String V → HookCall V (Option (Dict String V))
  post : Option (List String) → Option (Dict String V) → Dict String V → HookCall V Unit

/-- `hook.pyfileconf_pre_update` (main.py:332-334): results that are `None` are left out; an exception ends it. -/
def callPre (p : Option (List String)) : List (UpdatePlugin V) → Option (Dict String V) → Dict String V →
    Option (Dict String V) × Dict String V × Except PyErr (List (Dict String V))
  | [], d, kw => (d, kw, .ok [])
  | pl :: pls, d, kw =>
    let c := pl.pre p d kw
    match c.result with
    | .error e => (d.map (fun _ => c.d), c.kw, .error e)
    | .ok r =>
      let rest := callPre p pls (d.map (fun _ => c.d)) c.kw
      (rest.1, rest.2.1, rest.2.2.map (fun rs => r.toList ++ rs))

/-- What a `post_update` plugin is called with. -/
structure PostSeen (V : Type) where
  path : Option (List String)
  d : Option (Dict String V)
  kw : Dict String V

/-- `hook.pyfileconf_post_update` (main.py:343-345), with what the plugins are called with. -/
def callPost (p : Option (List String)) : List (UpdatePlugin V) → Option (Dict String V) → Dict String V →
    List (PostSeen V) × Option (Dict String V) × Except PyErr Unit
  | [], d, _ => ([], d, .ok ())
  | pl :: pls, d, kw =>
    let c := pl.post p d kw
    match c.result with
    | .error e => ([⟨p, d, kw⟩], d.map (fun _ => c.d), .error e)
    | .ok () =>
      let rest := callPost p pls (d.map (fun _ => c.d)) c.kw
      (⟨p, d, kw⟩ :: rest.1, rest.2.1, rest.2.2)

/-- The manager with the context, the dictionaries of the callers, and what `post_update` plugins have been called with. -/
structure WithCaller (V : Type) where
  ps : PS V
  dicts : Nat → Dict String V
  seen : List (PostSeen V)

/-- The dictionary is changed in place. -/
def writeDict (dicts : Nat → Dict String V) (ref : Option Nat) (d : Option (Dict String V)) : Nat → Dict String V :=
  match ref, d with
  | some r, some d => fun x => if x = r then d else dicts x
  | _, _ => dicts

/-- `PipelineManager.update` (main.py:319-345) with a dictionary of the caller, or without; `plugins` in the order in which they
were registered. -/
def updateCalled [BEq V] (plugins : List (UpdatePlugin V)) (viewed : V → Option String) (name : String) (ref : Option Nat)
    (p : Option (List String)) (persist : Bool) (kw : Dict String V) (s : WithCaller V) : Except PyErr Unit × WithCaller V :=
  match callPre p plugins.reverse (ref.map s.dicts) kw with
  | (d, _, .error e) => (.error e, { s with dicts := writeDict s.dicts ref d })
  | (d, kw, .ok results) =>
    let new := results.foldl Dict.update Dict.empty
    let d := d.map (fun d => d.update new)
    let kw := kw.update new
    match PM.update viewed name d p persist kw s.ps with
    | (.error e, ps) => (.error e, ⟨ps, writeDict s.dicts ref d, s.seen⟩)
    | (.ok _, ps) =>
      let post := callPost p plugins.reverse d kw
      (post.2.2, ⟨ps, writeDict s.dicts ref post.2.1, s.seen ++ post.1⟩)

end Verif.Model

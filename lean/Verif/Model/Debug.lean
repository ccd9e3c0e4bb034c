import Verif.Model.Main

/-
Model of the debugger of a manager: the option `auto_pdb` (`pyfileconf/main.py`:59-82, 199-222, 592-594, 636-673) and
`pyfileconf/debug.py`.

Simplifications: a debugger is any operation on the manager that returns or raises; `pdb.post_mortem` is a parameter.  The
warning about repeated names (main.py:595-597) is left out.
-/

namespace Verif.Model
open Verif.Py

variable {V : Type}

/-- What is passed as `auto_pdb`: `True` or `False`, a function, or something else that counts as true. -/
inductive AutoPdb (V : Type) where
  | flag (b : Bool)
  | function (debugger : MM V Unit)
  | other

/-- `bool(auto_pdb)` -/
def AutoPdb.truth : AutoPdb V → Bool
  | .flag b => b
  | .function _ => true
  | .other => true

/-- `_validate_options` (main.py:592-594). -/
def validateOptions (auto : AutoPdb V) (force : Bool) : Except PyErr Unit :=
  if auto.truth && force then .error .valueError else .ok ()

namespace Debug

/-- `debug_fn()` (debug.py:26). -/
def call : AutoPdb V → MM V Unit
  | .function d => d
  | _ => M.raise .typeError

/-- `post_mortem` (debug.py:14-26). -/
def postMortem (pdb : MM V Unit) (f : Option (AutoPdb V)) : MM V Unit :=
  match f with
  | none => call (.function pdb)
  | some f => call f

/-- `pdb_post_mortem_or_passed_debug_fn` (debug.py:4-11). -/
def postMortemOr (pdb : MM V Unit) : AutoPdb V → MM V Unit
  | .flag true => postMortem pdb none
  | .flag false => pure ()
  | f => postMortem pdb (some f)

/-- `_try_except_run_func_except_user_interrupts` (main.py:636-673) with the function to call with the exception: what this
one raises is not caught. -/
def tryExcept {α : Type} (m : MM V α) (except : PyErr → MM V Unit) : MM V (Option α) := fun s =>
  match m s with
  | (.ok a, s') => (.ok (some a), s')
  | (.error .interrupt, s') => (.error .interrupt, s')
  | (.error e, s') => (do
      MM.log (.traceback e)
      except e
      return none : MM V (Option α)) s'

/-- `_run_depending_on_settings` (main.py:199-206) with `_run_with_auto_pdb` (main.py:208-222). -/
def runWith (pdb : MM V Unit) (auto : AutoPdb V) (force : Bool) (post : PostRun V) (x : RunVal) :
    MM V (Option (RM.RunRes V)) := do
  if auto.truth then tryExcept (MM.liftR (MM.runnerRun post x)) (fun _ => postMortemOr pdb auto)
  else if force then return some (← MM.forceContinue post x)
  else return some (← MM.liftR (MM.runnerRun post x))

/-- `PipelineManager.run` (main.py:125-160). -/
def run (pdb : MM V Unit) (auto : AutoPdb V) (force : Bool) (h : RunHooks V) (arg : RunArg) :
    MM V (Option (RM.RunRes V)) := do
  let converted ← M.liftE (convertArg arg)
  let additional := (h.preRun arg).2
  runWith pdb auto force h.postRun (combineExtract converted additional)

end Debug

end Verif.Model

import Verif.Py.Monad
import Verif.Model.SectionPath

/-
Model of logging the output of runs: `pyfileconf/logger/bind_stdout.py` and `PipelineManager.run`
(`pyfileconf/main.py`:156-160, 199-263, 636-673).

What user code does is a tree of actions: running further items, setting the option, printing, redirecting the output,
raising, and catching what it raised.
-/

namespace Verif.Model
open Verif.Py

/-- An object `sys.stdout` can be: a `StdoutLogger` (bind_stdout.py:15-27) with its `terminal`, or any other. -/
inductive Out where
  | stream (n : Nat)
  | logger (terminal : Out)
deriving DecidableEq, Repr

/-- `sys.stdout`, `options.log_stdout`, what was written to streams and what was logged. -/
structure OutS where
  out : Out
  log : Bool
  written : List (Nat × String)
  logged : List String

/-- Operations that print. -/
abbrev StdM (α : Type) := M PyErr OutS α

/-- `sys.stdout.write(message)`; `StdoutLogger.write` (bind_stdout.py:19-21). -/
def writeOut (message : String) : StdM Unit := M.modify (fun s =>
  match s.out with
  | .stream n => { s with written := s.written ++ [(n, message)] }
  | .logger _ => if message ≠ "\n" then { s with logged := s.logged ++ [message] } else s)

/-- `with stdout_also_logged(): body` (bind_stdout.py:7-12).  If the body raises, the exception is raised at the `yield`,
and what comes after it is not done. -/
def stdoutAlsoLogged (body : StdM Unit) : StdM Unit := do
  let s ← M.get
  M.modify (fun s => { s with out := .logger s.out })
  body
  M.modify (fun s' => { s' with out := s.out })

/-- How a manager treats exceptions: `auto_pdb` or `force_continue` catch them (main.py:199-206, 662-673). -/
inductive Guard where
  | raises
  | catches
deriving DecidableEq, Repr

/-- `_run_depending_on_settings` (main.py:199-206): an interrupt quits in any case (664-665); other exceptions are caught
or not. -/
def guarded (g : Guard) (body : StdM Unit) : StdM Unit :=
  match g with
  | .raises => body
  | .catches => M.tryCatch body (fun e => if e = .interrupt then M.raise .interrupt else pure ())

/-- What user code does. -/
inductive OutAct where
  | run (g : Guard) (body : List OutAct)
  | setLog (b : Bool)
  | print (message : String)
  | redirect (o : Out)
  | fail (e : PyErr)
  | attempt (body : List OutAct)

mutual
/-- Doing one action; `run` is `PipelineManager.run` (main.py:156-160). -/
def OutAct.exec : OutAct → StdM Unit
  | .run g body => do
    let s ← M.get
    if s.log then stdoutAlsoLogged (guarded g (OutAct.execs body))
    else guarded g (OutAct.execs body)
  | .setLog b => M.modify (fun s => { s with log := b })
  | .print message => writeOut message
  | .redirect o => M.modify (fun s => { s with out := o })
  | .fail e => M.raise e
  | .attempt body => M.tryCatch (OutAct.execs body) (fun _ => pure ())
/-- Doing actions one after the other. -/
def OutAct.execs : List OutAct → StdM Unit
  | [] => pure ()
  | a :: rest => do
    a.exec
    OutAct.execs rest
end

end Verif.Model

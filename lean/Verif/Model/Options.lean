import Verif.Py.Monad
import Verif.Model.SectionPath

/-
Model of the options (`pyfileconf/opts/__init__.py`, `pyfileconf/opts/filelog.py`) and of the file handler of the logger
(`pyfileconf/logger/logger.py`).

Simplifications: log messages of the code itself are left out.  Creating a `TimedRotatingFileHandler` and its folder can
fail; for which settings it does, and how, is a parameter.
-/

namespace Verif.Model
open Verif.Py

/-- `PyfileconfOptions.option_attrs` (opts/__init__.py:27-32), in this order. -/
inductive OptName where
  | logStdout
  | logFolder
  | rolloverFreq
  | numKeep
deriving DecidableEq, Repr

/-- Values of options. -/
inductive OptVal where
  | none
  | bool (b : Bool)
  | str (s : String)
  | int (n : Int)
deriving DecidableEq, Repr

namespace OptName

/-- The attribute of an option (opts/__init__.py:27-32). -/
def attr : OptName → String
  | .logStdout => "log_stdout"
  | .logFolder => "log_folder"
  | .rolloverFreq => "log_file_rollover_freq"
  | .numKeep => "log_file_num_keep"

/-- `option_attrs`. -/
def all : List OptName := [.logStdout, .logFolder, .rolloverFreq, .numKeep]

/-- `DEFAULT_OPTIONS` (opts/__init__.py:38-43, 51). -/
def default : OptName → OptVal
  | .logStdout => .bool false
  | .logFolder => .none
  | .rolloverFreq => .str "D"
  | .numKeep => .int 0

end OptName

/-- A handler of the logger: a `TimedRotatingFileHandler`, or another one. -/
inductive Handler where
  | file (folder freq keep : OptVal)
  | other (n : Nat)
deriving DecidableEq, Repr

namespace Handler

/-- `isinstance(h, TimedRotatingFileHandler)` -/
def isFile : Handler → Bool
  | .file _ _ _ => true
  | .other _ => false

end Handler

/-- The options, which attributes of the manager of the options still are options (opts/__init__.py:151-156), and the
handlers of the logger. -/
structure Opts where
  vals : OptName → OptVal
  isOption : OptName → Bool
  handlers : List Handler

/-- The state when the package was imported (opts/__init__.py:51-52, 236; logger/logger.py:24-27). -/
def Opts.initial : Opts := ⟨OptName.default, fun _ => true, [.other 0]⟩

/-- `setattr(options, name, val)` -/
def Opts.write (s : Opts) (n : OptName) (v : OptVal) : Opts :=
  { s with vals := fun m => if m = n then v else s.vals m }

/-- Whether creating the handler for a folder, a frequency and a number fails, and how. -/
abbrev HandlerFails := OptVal → OptVal → OptVal → Option PyErr

/-- Operations on options. -/
abbrev OM (α : Type) := M PyErr Opts α

/-- `add_file_handler` (logger/logger.py:30-43). -/
def addFileHandler (fails : HandlerFails) : OM Unit := do
  let s ← M.get
  if s.vals .logFolder = .none then M.raise .valueError
  else match fails (s.vals .logFolder) (s.vals .rolloverFreq) (s.vals .numKeep) with
    | some e => M.raise e
    | none => M.modify (fun s => { s with
        handlers := s.handlers ++ [.file (s.vals .logFolder) (s.vals .rolloverFreq) (s.vals .numKeep)] })

/-- `remove_file_handler` (logger/logger.py:46-54). -/
def removeFileHandler : OM Unit := do
  let s ← M.get
  if (s.handlers.filter Handler.isFile).length ≠ 1 then M.raise .valueError
  else M.modify (fun s => { s with handlers := s.handlers.filter (fun h => !h.isFile) })

/-- `PyfileconfOption.value = val` (opts/__init__.py:71-76) with the callback of `log_folder`
(opts/filelog.py:6-10). -/
def setValue (fails : HandlerFails) (n : OptName) (v : OptVal) : OM Unit := do
  let s ← M.get
  M.modify (fun s => s.write n v)
  if n = .logFolder ∧ s.vals n ≠ v then
    if v ≠ .none then addFileHandler fails else removeFileHandler
  else pure ()

/-- `getattr(self, attr)` of the manager of the options, followed by the use of the result as an option. -/
def optionNamed (attr : String) : OM OptName := do
  let s ← M.get
  match OptName.all.find? (fun n => n.attr = attr) with
  | some n => if s.isOption n then pure n else M.raise .attributeError
  | none => M.raise .attributeError

/-- `set_option` (opts/__init__.py:177-188). -/
def setOption (fails : HandlerFails) (attr : String) (v : OptVal) : OM Unit := do
  let n ← optionNamed attr
  setValue fails n v

/-- `set_options` (opts/__init__.py:190-206). -/
def setOptions (fails : HandlerFails) : List (String × OptVal) → OM Unit
  | [] => pure ()
  | (attr, v) :: rest => do
    setOption fails attr v
    setOptions fails rest

/-- `reset_option` (opts/__init__.py:208-217) with `PyfileconfOption.reset` (82-84). -/
def resetOption (fails : HandlerFails) (attr : String) : OM Unit := do
  let n ← optionNamed attr
  setValue fails n n.default

/-- `reset_options` (opts/__init__.py:219-227). -/
def resetOptions (fails : HandlerFails) : List String → OM Unit
  | [] => pure ()
  | attr :: rest => do
    resetOption fails attr
    resetOptions fails rest

/-- `reset` (opts/__init__.py:166-175). -/
def resetAll (fails : HandlerFails) : OM Unit := resetOptions fails (OptName.all.map OptName.attr)

/-- What a program does with options.  `assign` is `options.log_stdout = v`, which the documentation
(opts/__init__.py:105-113) has as a way to set an option; `within` is `with options.set_options(sets): body`; `handler`
adds a handler to the logger; `attempt` catches any exception of its body. -/
inductive OptOp where
  | setOption (attr : String) (v : OptVal)
  | setOptions (sets : List (String × OptVal))
  | resetOption (attr : String)
  | resetOptions (attrs : List String)
  | reset
  | assign (n : OptName)
  | handler (h : Handler)
  | fail (e : PyErr)
  | attempt (body : List OptOp)
  | within (sets : List (String × OptVal)) (body : List OptOp)

/-- `__exit__` (opts/__init__.py:232-233): options are reset whether the body raised or not; an exception of the reset
replaces the one of the body. -/
def exitWith (fails : HandlerFails) (body : OM Unit) : OM Unit := fun s =>
  match body s with
  | (r, s') => match resetAll fails s' with
    | (.ok (), s'') => (r, s'')
    | (.error e, s'') => (.error e, s'')

mutual
/-- Executing one operation. -/
def OptOp.exec (fails : HandlerFails) : OptOp → OM Unit
  | .setOption attr v => Model.setOption fails attr v
  | .setOptions sets => Model.setOptions fails sets
  | .resetOption attr => Model.resetOption fails attr
  | .resetOptions attrs => Model.resetOptions fails attrs
  | .reset => resetAll fails
  | .assign n => M.modify (fun s => { s with isOption := fun m => if m = n then false else s.isOption m })
  | .handler h => M.modify (fun s => { s with handlers := s.handlers ++ [h] })
  | .fail e => M.raise e
  | .attempt body => M.tryCatch (OptOp.execs fails body) (fun _ => pure ())
  | .within sets body => do
    Model.setOptions fails sets
    exitWith fails (OptOp.execs fails body)
/-- Executing operations one after the other. -/
def OptOp.execs (fails : HandlerFails) : List OptOp → OM Unit
  | [] => pure ()
  | o :: rest => do
    o.exec fails
    OptOp.execs fails rest
end

end Verif.Model

import Verif.Py.Str
import Verif.Py.Dict
import Verif.Model.SectionPath

/-
Model of loading a config file by executing it: `pyfileconf/io/file/load/active/loader.py`,
`pyfileconf/io/file/load/active/userdef.py` and the registration before it (`pyfileconf/io/file/load/lazy/base/*.py`,
`pyfileconf/assignments/models/statement.py:53-66`).

Simplifications: a config file is a list of statements; what an expression gives in a namespace, and what it raises, is part of
the statement.  Statements that delete names are not modelled.  The stack of what is being loaded is modelled in
`Verif/Model/Context.lean`.
-/

namespace Verif.Model
open Verif.Py

variable {V : Type}

/-- What is assigned to: a name, several names (`a, b = …`), or an attribute or element. -/
inductive CTarget where
  | name (x : String)
  | tuple (xs : List String)
  | place
deriving DecidableEq, Repr

/-- A statement of a config file.  `α` is what it has for the values of expressions. -/
inductive CStmt (V : Type) where
  /-- `t₁ = t₂ = … = value` -/
  | assign (targets : List CTarget) (value : Dict String V → Except PyErr V)
  /-- `t: annotation = value` -/
  | annotated (target : CTarget) (value : Option (Dict String V → Except PyErr V))
  /-- An import, or the definition of a function or class: the names it binds.  Assignments in the body of a definition, which the
  registration visits as well, are a `block` that is not executed. -/
  | bring (names : List (String × V))
  /-- A compound statement: whether its body is executed, which it is once, and the body. -/
  | block (executed : Dict String V → Except PyErr Bool) (body : List (CStmt V))
  /-- Anything else: whether it raises. -/
  | effect (result : Dict String V → Except PyErr Unit)

mutual
/-- `AssignmentStatement.from_ast_assign` for every assignment of the file (lazy/base/impassign.py:16-17,
parsers/assign.py:15-31, statement.py:58-66): several targets are not implemented. -/
def CStmt.check : CStmt V → Except PyErr Unit
  | .assign [_] _ => .ok ()
  | .assign _ _ => .error .notImplemented
  | .annotated _ _ => .ok ()
  | .bring _ => .ok ()
  | .block _ body => CStmt.checkAll body
  | .effect _ => .ok ()

/-- The same for a list of statements. -/
def CStmt.checkAll : List (CStmt V) → Except PyErr Unit
  | [] => .ok ()
  | s :: ss => do
    CStmt.check s
    CStmt.checkAll ss
end

/-- Assigning a value to a target; `unpack` takes a value apart into so many values. -/
def bindTarget (unpack : V → Nat → Except PyErr (List V)) (t : CTarget) (v : V) (env : Dict String V) :
    Except PyErr (Dict String V) := do
  match t with
  | .name x => return env.set x v
  | .tuple xs =>
    let vs ← unpack v xs.length
    return env.setAll (xs.zip vs)
  | .place => return env

/-- The same for several targets, from the left. -/
def bindTargets (unpack : V → Nat → Except PyErr (List V)) (ts : List CTarget) (v : V) (env : Dict String V) :
    Except PyErr (Dict String V) := do
  match ts with
  | [] => return env
  | t :: ts =>
    let env ← bindTarget unpack t v env
    bindTargets unpack ts v env

mutual
/-- Executing a statement in a namespace. -/
def CStmt.exec (unpack : V → Nat → Except PyErr (List V)) (s : CStmt V) (env : Dict String V) :
    Except PyErr (Dict String V) :=
  match s with
  | .assign ts value => do
    let v ← value env
    bindTargets unpack ts v env
  | .annotated t (some value) => do
    let v ← value env
    bindTarget unpack t v env
  | .annotated _ none => .ok env
  | .bring names => .ok (env.setAll names)
  | .block executed body => do
    if ← executed env then CStmt.execAll unpack body env else .ok env
  | .effect result => do
    result env
    .ok env

/-- Executing a list of statements. -/
def CStmt.execAll (unpack : V → Nat → Except PyErr (List V)) (ss : List (CStmt V)) (env : Dict String V) :
    Except PyErr (Dict String V) :=
  match ss with
  | [] => .ok env
  | s :: ss => do
    let env ← CStmt.exec unpack s env
    CStmt.execAll unpack ss env
end

/-- What python knows of running modules: how values are taken apart, the names a new module has, and which values are
modules. -/
structure Python (V : Type) where
  unpack : V → Nat → Except PyErr (List V)
  init : Dict String V
  isModule : V → Bool

/-- `_get_user_defined_dict_from_module` (userdef.py:24-31): without names that begin with two underscores, and without
modules. -/
def userDefined (py : Python V) (env : Dict String V) : Dict String V :=
  Dict.ofList (env.items.filter (fun e => ! (startsWith e.1 "__" || py.isModule e.2)))

/-- `ActiveConfigFileLoader.load` (active/loader.py:9-18, lazy/base/loader.py:18-22, userdef.py:9-21, 33-51): `none` if there
is no such file, which only the execution finds. -/
def loadConfigFile (py : Python V) (file : Option (List (CStmt V))) : Except PyErr (Dict String V) := do
  match file with
  | none => .error .osError
  | some stmts =>
    CStmt.checkAll stmts
    let env ← CStmt.execAll py.unpack stmts py.init
    return userDefined py env

end Verif.Model

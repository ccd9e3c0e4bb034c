import Verif.Py.Monad
import Verif.Model.SectionPath

/-
Model of creating a project: `create_project`, `_create_project_if_needed` and `_need_to_create_project`
(`pyfileconf/main.py`:599-613, 709-730).

Simplifications: a file system maps the components of absolute paths to folders and files; there are no symbolic links, so
that `..` can be resolved in the path itself, and `//` is `/`.  Creating something can fail for reasons outside of the
model; for which paths it does is a parameter.
-/

namespace Verif.Model
open Verif.Py

/-- What is at a path. -/
inductive Entry where
  | dir
  | file (text : String)
deriving DecidableEq, Repr

/-- A file system: what is at the path with the given components. -/
abbrev Fs := List String → Option Entry

/-- The current folder, and where nothing can be created. -/
structure FsEnv where
  cwd : String
  denied : List String → Bool

/-- Operations on files. -/
abbrev FM (α : Type) := M PyErr Fs α

/-- The components of the absolute path. -/
def FsEnv.resolve (env : FsEnv) (p : String) : List String := Path.normComps (if Path.isAbs p then p else Path.join2 env.cwd p)

/-- Something is put at a path. -/
def Fs.put (fs : Fs) (q : List String) (n : Entry) : Fs := fun r => if r = q then some n else fs r

/-- `os.path.exists` -/
def pathExists (env : FsEnv) (fs : Fs) (p : String) : Bool := decide (p ≠ "") && (fs (env.resolve p)).isSome

/-- `os.makedirs` below a folder. -/
def mkdirs (env : FsEnv) (pre : List String) : List String → FM Unit
  | [] => pure ()
  | x :: xs => do
    let fs ← M.get
    match fs (pre ++ [x]) with
    | some .dir => mkdirs env (pre ++ [x]) xs
    | some (.file _) => M.raise .osError
    | none =>
      if env.denied (pre ++ [x]) then M.raise .osError
      else
        M.modify (fun fs => fs.put (pre ++ [x]) .dir)
        mkdirs env (pre ++ [x]) xs

/-- `os.makedirs(p)` -/
def makedirs (env : FsEnv) (p : String) : FM Unit :=
  if p = "" then M.raise .osError else mkdirs env [] (env.resolve p)

/-- `with open(p, 'w') as f: f.write(text)` -/
def writeFile (env : FsEnv) (p text : String) : FM Unit := do
  let fs ← M.get
  let q := env.resolve p
  if p = "" ∨ fs q.dropLast ≠ some .dir ∨ fs q = some .dir ∨ env.denied q = true then M.raise .osError
  else M.modify (fun fs => fs.put q (.file text))

/-- `if not os.path.exists(p): create` -/
def unlessExists (env : FsEnv) (p : String) (create : FM Unit) : FM Unit := do
  let fs ← M.get
  if pathExists env fs p then pure () else create

/-- The loop over the specific classes (main.py:724-730). -/
def createDicts (env : FsEnv) (path : String) : List String → FM Unit
  | [] => pure ()
  | name :: rest => do
    unlessExists env (Path.join2 path (name ++ "_dict.py"))
      (writeFile env (Path.join2 path (name ++ "_dict.py")) "\nclass_dict = {}\n")
    createDicts env path rest

/-- `create_project` (main.py:709-730). -/
def createProject (env : FsEnv) (path : String) (logs : Option String) (names : List String) : FM Unit := do
  unlessExists env (Path.join2 path "defaults") (makedirs env (Path.join2 path "defaults"))
  match logs with
  | none => pure ()
  | some l => unlessExists env l (makedirs env l)
  unlessExists env (Path.join2 path "pipeline_dict.py")
    (writeFile env (Path.join2 path "pipeline_dict.py") "\npipeline_dict = {}\n")
  createDicts env path names

/-- `_need_to_create_project` (main.py:603-613). -/
def needToCreate (env : FsEnv) (fs : Fs) (folder defaults : String) (logs : Option String) (names : List String) : Bool :=
  !pathExists env fs folder || !pathExists env fs (Path.join2 folder "pipeline_dict.py") ||
    !pathExists env fs (Path.join2 folder defaults) ||
    (match logs with
      | none => false
      | some l => !pathExists env fs l) ||
    names.any (fun name => !pathExists env fs (Path.join2 folder (name ++ "_dict.py")))

/-- `_create_project_if_needed` (main.py:599-601). -/
def createIfNeeded (env : FsEnv) (folder defaults : String) (logs : Option String) (names : List String) : FM Unit := do
  let fs ← M.get
  if needToCreate env fs folder defaults logs names then createProject env folder logs names else pure ()

end Verif.Model

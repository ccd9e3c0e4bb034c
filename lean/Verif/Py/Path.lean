import Verif.Py.Str

/-
The parts of `posixpath` (Python's `os.path` on POSIX) that pyfileconf uses:
`join`, `normpath`, `abspath`, `relpath`.  Transcribed from CPython's
`Lib/posixpath.py`.  `cwd` is the current working directory and is a parameter.
-/

namespace Verif.Py.Path
open Verif.Py

/-- `os.path.isabs` -/
def isAbs (p : String) : Bool := startsWith p "/"

/-- `os.path.join(a, b)` -/
def join2 (a b : String) : String :=
  if isAbs b then b
  else if a = "" ∨ endsWith a "/" = true then a ++ b
  else a ++ "/" ++ b

/-- One iteration of the component loop of `os.path.normpath`; `abs` says whether
the path starts with a slash. -/
def normStep (abs : Bool) (new : List String) (comp : String) : List String :=
  if comp = "" ∨ comp = "." then new
  else if comp ≠ ".." ∨ (abs = false ∧ new = []) ∨ new.getLast? = some ".." then new ++ [comp]
  else new.dropLast

/-- The component list computed by `os.path.normpath`. -/
def normComps (p : String) : List String :=
  (split '/' p).foldl (normStep (isAbs p)) []

/-- `os.path.normpath` -/
def normpath (p : String) : String :=
  if p = "" then "."
  else
    let slashes := if isAbs p then
        (if startsWith p "//" ∧ ¬ startsWith p "///" = true then "//" else "/") else ""
    let r := slashes ++ join '/' (normComps p)
    if r = "" then "." else r

/-- `os.path.abspath` -/
def abspath (cwd p : String) : String :=
  normpath (if isAbs p then p else join2 cwd p)

/-- Length of the common prefix of two lists (`genericpath.commonprefix`). -/
def commonLen : List String → List String → Nat
  | a :: as, b :: bs => if a = b then commonLen as bs + 1 else 0
  | _, _ => 0

/-- `[x for x in p.split('/') if x]` -/
def pieces (p : String) : List String := (split '/' p).filter (fun x => decide (x ≠ ""))

/-- `os.path.relpath(path, start)`; `none` is the `ValueError` for an empty path. -/
def relpath (cwd path start : String) : Option String :=
  if path = "" then none
  else
    let startList := pieces (abspath cwd start)
    let pathList := pieces (abspath cwd path)
    let i := commonLen startList pathList
    let rel := List.replicate (startList.length - i) ".." ++ pathList.drop i
    if rel = [] then some "." else some (join '/' rel)

end Verif.Py.Path

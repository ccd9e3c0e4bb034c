import Verif.Model.Managers
import Verif.Model.Recorded

/-
Model of the section path of a file that is being loaded, as `PyfileconfFrame.from_file_path` finds it from the path of the file
alone (`pyfileconf/pmcontext/stack.py:29-39`).
-/

namespace Verif.Model
open Verif.Py

/-- `PyfileconfFrame.from_file_path` (stack.py:29-39): the manager is the first whose folder the file is in (main.py:459-476), and
the path is that from its config folder (main.py:72) to the file.  `nameOf` are the names of the managers, `defaults` of their config
folders. -/
def framePath (cwd : String) (managers : List Manager) (nameOf : Nat → String) (defaults file : String) : Except PyErr SectionPath :=
  match managerOfFile cwd managers file with
  | .error e => .error e
  | .ok m => match SectionPath.fromFilepath cwd (Path.join2 m.folder defaults) file with
    | none => .error .valueError
    | some sp => .ok (SectionPath.joinSP ⟨nameOf m.id⟩ sp)

end Verif.Model

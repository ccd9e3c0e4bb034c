import Verif.Model.Runner

/-
Model of how a config file that reads other items is refreshed: the section path recorded for it while it is executed
(`pyfileconf/pmcontext/stack.py`, `pyfileconf/selector/models/selector.py`) and the refresh of recorded paths
(`pyfileconf/config/models/manager.py:366-372`).

Simplification: the manager of the file is the one it was loaded for (C48 says when this is so), and the recorded path has
its name in front, from which it is found again (C47).
-/

namespace Verif.Model
open Verif.Py

variable {V : Type}

/-- The path of a config file without its suffix, from the config folder on: `<p>` (manager.py:274-288) or `<p>/section`
(section.py:91-93). -/
def FileLoc.below : FileLoc → List String
  | .item p => p
  | .sect p => p ++ ["section"]

/-- The file itself, below the config folder `base` (sectionpath.py:97-99, manager.py:288; section.py:93, 107, which joins one
folder after the other). -/
def FileLoc.filePath (base : String) (l : FileLoc) : String :=
  (SectionPath.fromSectionStrList l.below).toFilepath base ++ ".py"

/-- `PyfileconfFrame.from_file_path` (stack.py:29-39) for a file of the manager `name`: what a read of another item records
as dependent (selector.py:50-54, 150-153). -/
def recordedPath (cwd base name : String) (l : FileLoc) : Except PyErr SectionPath :=
  match SectionPath.fromFilepath cwd base (l.filePath base) with
  | none => .error .valueError
  | some sp => .ok (SectionPath.joinSP ⟨name⟩ sp)

/-- `_refresh_configs` (manager.py:366-372) for one recorded path of this manager. -/
def refreshRecorded [BEq V] (sp : SectionPath) : RM V Unit := RM.refresh sp.tail.sections

end Verif.Model

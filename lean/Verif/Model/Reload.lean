import Verif.Model.Cascade

/-
Model of what `PipelineManager.reload` (`pyfileconf/main.py`) leaves of a session: the manager gets a new config manager and
a new runner, so its configs and objects are gone and will be read from the files as they are then; the records of dependencies
belong to the context (`pyfileconf/pmcontext/main.py`) and stay, and nothing happens to the configs and objects of other
managers.

Simplifications: as in `Verif/Model/Cascade.lean`.  An item that is not defined (any more) is one whose file raises
`KeyError`: neither the config manager nor the registrars have it (`Verif/Model/Store.lean`).  A `reload` that raises is not
modelled here (see `Verif/Model/Managers.lean` for its modules).
-/

namespace Verif.Model
open Verif.Py

variable {V : Type}

/-- `reload` (main.py:284-317) with `_load_pipeline_config_and_runner` (main.py:545-568), for the managers whose items are
`ours`: new configs (manager.py:23-27) and new objects (runner.py:34-39); `force_update_dependencies` is not
touched (pmcontext/main.py:16). -/
def GS.reload (ours : String → Bool) (s : GS V) : GS V :=
  { s with conf := fun q => if ours q then none else s.conf q,
           obj := fun q => if ours q then none else s.obj q }

/-- What happens in a session: an operation, or a reload after which the project is `w`. -/
inductive REvent (V : Type) where
  | op (o : GOp V)
  | reload (ours : String → Bool) (w : World V)

/-- One event, with a bound on the calls; the world is the one files are read from. -/
def REvent.run [BEq V] (n : Nat) (w : World V) : REvent V → GS V → Except Stop Unit × World V × GS V
  | .op o, s => ((GM.op w n o s).1, w, (GM.op w n o s).2)
  | .reload ours w', s => (.ok (), w', s.reload ours)

end Verif.Model

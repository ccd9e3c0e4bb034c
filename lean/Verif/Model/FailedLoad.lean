import Verif.Model.Session

/-
Model of loads that may fail in a manager that may have been loaded before: `load` and `_load_pipeline_config_and_runner`
(`pyfileconf/main.py`), which assign the registrars, the configs and the runner of the manager one after the other; and of what is
done with the manager then.

Simplifications: as in `Verif/Model/Session.lean`; which modules are forgotten (main.py:296-316) is in `Verif/Model/Managers.lean`.
-/

namespace Verif.Model
open Verif.Py

variable {V L : Type}

/-- A manager: its registrars (`self._registrars`, `self._general_registrar`, main.py:77-78, 552), its runner (main.py:563), and
whether the runner has the registrars of the manager (main.py:565-566), rather than those of an earlier load. -/
structure Managed (V : Type) where
  regs : Option (Registry V)
  runner : Option (RS V)
  shared : Bool

/-- A manager that has not been loaded (main.py:77-78). -/
def Managed.new : Managed V := ⟨none, none, false⟩

/-- `load` (main.py:300-317, 545-568): the registrars are assigned after all were made and scaffolded, the runner after the configs
were loaded.  `self.config` (main.py:560) is used by the runner only. -/
def Managed.load (env : FsEnv) (lang : DefLang V L) (text : ItemText V) (eval : EvalText V) (list : Fs → DirTree)
    (folder base : String) (classes : List ClassConfig) : M PyErr (Fs × Managed V) Unit := fun s =>
  match createRegistrars env lang text folder base classes s.1 with
  | (.error e, fs) => (.error e, fs, s.2)
  | (.ok r, fs) =>
    match CM.load (configFiles eval list (env.resolve base) fs) ((env.resolve base).getLast?.getD "") with
    | .error e => (.error e, fs, { s.2 with regs := some r, shared := false })
    | .ok cm => (.ok (), fs, ⟨some r, some ⟨cm, r, Dict.empty, 0⟩, true⟩)

/-- `get`, `run`, `update`, `refresh`, `reset` and attributes of the manager (main.py:85-93, 123-282): what the runner does, an error
if there is none. -/
def Managed.on {α : Type} (op : RM V α) : M PyErr (Managed V) α := fun m =>
  match m.runner with
  | none => (.error .notLoaded, m)
  | some rs => ((op rs).1, { m with runner := some (op rs).2 })

/-- `self.reset(...)` at the end of `create` (main.py:456, 270-282), in a manager whose runner has registrars of its own. -/
def resetOwn [BEq V] (eval : EvalText V) (list : Fs → DirTree) (base : List String) (p : List String) : KM V (RS V) Unit := fun s =>
  let now : RS V := { s.rest with cm := { s.rest.cm with fs := configFiles eval list base s.fs } }
  ((RM.reset (some p) true now).1, { s with rest := (RM.reset (some p) true now).2 })

/-- The runner after `create`: its registrars are those of the manager, or its own. -/
def withRegs (shared : Bool) (regs : Option (Registry V)) (rs : RS V) : RS V :=
  match shared, regs with
  | true, some r => { rs with reg := r }
  | _, _ => rs

/-- `create` (main.py:408-457) of such a manager; `self.reset` needs the runner (main.py:85-90). -/
def Managed.create [BEq V] (env : FsEnv) (lang : CreateLang V) (text : ItemText V) (eval : EvalText V) (list : Fs → DirTree)
    (folder base : String) (classes : List String) (sections : List String) (f : Option (NewItem V)) :
    M PyErr (Fs × Managed V) Unit := fun s =>
  match s.2.runner with
  | none =>
    let c := createItem env lang text folder base classes (fun _ => M.raise .notLoaded) sections f (⟨s.1, s.2.regs, ()⟩ : Created V Unit)
    (c.1, c.2.fs, { s.2 with regs := c.2.reg })
  | some rs =>
    let c := createItem env lang text folder base classes
      (if s.2.shared then resetCreated eval list (env.resolve base) else resetOwn eval list (env.resolve base)) sections f ⟨s.1, s.2.regs, rs⟩
    (c.1, c.2.fs, { s.2 with regs := c.2.reg, runner := some (withRegs s.2.shared c.2.reg c.2.rest) })

/-! ### Section files that use items -/

/-- What executing the file of a section does and gives, in the manager that is being loaded: an item is used through its runner
(itemview.py:88-93, selector.py:145-157, main.py:85-93; for items that is what `get` gives, C25). -/
abbrev SectionCode (V : Type) := Fs → List String → M PyErr (Managed V) (Dict String V)

/-- The section's own config in `ConfigSection.from_files` (section.py:90-96), see `sectionConfig`. -/
def execSection (code : List String → M PyErr (Managed V) (Dict String V)) (p : List String) (hasSection : Bool) :
    M PyErr (Managed V) (Option (Conf V)) := fun m =>
  if hasSection then
    match code p m with
    | (.ok d, m') => (.ok (some (Conf.ofFile (.sect p) d)), m')
    | (.error .valueError, m') => (.ok none, m')
    | (.error e, m') => (.error e, m')
  else (.ok none, m)

mutual
/-- `ConfigSection.from_files` (section.py:71-109), see `fromFiles`. -/
def execFiles (code : List String → M PyErr (Managed V) (Dict String V)) (p : List String) :
    DirTree → M PyErr (Managed V) (Node V)
  | .mk hasSection files dirs => fun m =>
    match execSection code p hasSection m with
    | (.error e, m) => (.error e, m)
    | (.ok cfg, m) => match execDirs code p dirs m with
      | (.error e, m) => (.error e, m)
      | (.ok sections, m) =>
        let fileNodes : List (String × Node V) := files.map (fun f => (f, Node.file (.item (p ++ [f]))))
        let configs := fileNodes ++ sections
        (.ok (.sect cfg [] (configs.foldl (fun (m : List (String × Node V)) e => AList.set m e.1 e.2) [])), m)
def execDirs (code : List String → M PyErr (Managed V) (Dict String V)) (p : List String) :
    List (String × DirTree) → M PyErr (Managed V) (List (String × Node V))
  | [] => fun m => (.ok [], m)
  | (name, d) :: ds => fun m => match execFiles code (p ++ [name]) d m with
    | (.error e, m) => (.error e, m)
    | (.ok n, m) => match execDirs code p ds m with
      | (.error e, m) => (.error e, m)
      | (.ok ns, m) => (.ok ((name, n) :: ns), m)
end

/-- `load` (main.py:300-317, 545-568) with section files that may use items: the registrars are the new ones, and the runner is that
of the load before, until all are executed. -/
def Managed.loadUsing (env : FsEnv) (lang : DefLang V L) (text : ItemText V) (eval : EvalText V) (code : SectionCode V)
    (list : Fs → DirTree) (folder base : String) (classes : List ClassConfig) : M PyErr (Fs × Managed V) Unit := fun s =>
  match createRegistrars env lang text folder base classes s.1 with
  | (.error e, fs) => (.error e, fs, s.2)
  | (.ok r, fs) =>
    match execFiles (code fs) [] (list fs) { s.2 with regs := some r, shared := false } with
    | (.error e, m) => (.error e, fs, m)
    | (.ok root, _) =>
      let cm : CM V := ⟨configFiles eval list (env.resolve base) fs, (env.resolve base).getLast?.getD "", root, Conf.ofDict Dict.empty⟩
      (.ok (), fs, ⟨some r, some ⟨cm, r, Dict.empty, 0⟩, true⟩)

end Verif.Model

import Verif.Py.Monad
import Verif.Model.Config

/-
Model of `pyfileconf/config/models/manager.py` (`ConfigManager`) and
`pyfileconf/config/models/section.py` (`ConfigSection`), with
`pyfileconf/logic/get.py` and `pyfileconf/logic/set.py`.

Section paths are lists of sections (see C01 for the correspondence with strings).
The values a config file gives do not depend on other configs in this model; the
refresh of dependent configs is modelled separately (`Verif/Model/Cascade.lean`).
-/

namespace Verif.Model
open Verif.Py

variable {V : Type}

/-- The objects found while walking down from a `ConfigManager`.

* `conf`: an `ActiveFunctionConfig`
* `file`: an `ActiveFunctionConfigFile`, not loaded yet
* `sect`: a `ConfigSection` with its own config, its instance attributes set by
  `setattr` (they win over `__getattr__`) and its `config_map`
* `own`: occurs only as an instance attribute; the section's own config object, stored
  only under the section's own name
* `other`: any other object (a method, `None`, ...)

Simplification: after a lookup stores a config that is also in the `config_map` as an
instance attribute, the two are one object in Python and two in the model; the
`config_map` entry is never read again because the attribute wins. -/
inductive Node (V : Type) where
  | conf (c : Conf V)
  | file (loc : FileLoc)
  | sect (cfg : Option (Conf V)) (attrs map : List (String × Node V))
  | own
  | other

/-- Attributes every `ConfigSection` has (section.py:14-109, container.py:5-58); they win
over entries of the `config_map`.  Names with two leading underscores are left out. -/
def sectionReserved : List String :=
  ["config", "items", "name", "append", "extend", "config_map", "update", "from_files",
   "insert", "copy", "add_if_missing", "append_if_missing", "insert_if_missing", "repr_cols",
   "_items", "_config_map", "_set_config_map"]

/-- Attributes of the `ConfigManager`, which is the object a walk starts from
(manager.py:20-348).  Simplification: `section` gives some other object, as the rest of these
names; in Python it gives the section of the project, so that `section.a` is another path of
what `a` leads to.  In the same way `config` at the end of a path gives the config of the section before it, and
`local_config` the local config.  Statements about paths that begin with `section` or `local_config` or end with
`config` say nothing about the code. -/
def managerReserved : List String :=
  ["section", "basepath", "pipeline_manager_name", "local_config", "load", "refresh",
   "refresh_dependent_configs", "reset", "pop", "get", "set", "pipeline_manager",
   "track_post_update", "_track_pre_update", "_get_func_or_section_configs", "_set_func_or_section_config",
   "_set_func_or_config_no_create", "_set_func_or_config_with_create", "_get_default_func_or_section_config",
   "_get_project_config_or_local_config_by_section_path", "_is_function_or_pipeline_path",
   "_determine_and_track_if_config_would_be_updated", "_determine_and_track_if_config_would_be_refreshed"] ++ sectionReserved

namespace Node

/-- `getattr(obj, x)` for the object `n`, which was reached under the name `nm`
(section.py:23-29; config.py:55-59 for a config; no attributes for a file object or for
other objects; simplification: the attributes that every config has, as `keys` or `name`, are missing here, and give
an object that is no config in Python: both are errors for all callers).  A section created from files has the name of its folder, which is the
name it is reached under (section.py:75), and a section created otherwise has no config
(manager.py:254), so comparing with `nm` is comparing with `self.config.name`. -/
def child (res : List String) (nm : String) (n : Node V) (x : String) : Except PyErr (Node V) :=
  match n with
  | .sect cfg attrs map =>
    if x ∈ res then .ok .other
    else match AList.get? attrs x with
      | some .own => match cfg with
        | some c => if x = nm then .ok (.conf c) else .error .keyError
        | none => .error .keyError
      | some n' => .ok n'
      | none =>
        match cfg, AList.get? map x with
        | some c, m => if x = nm then .ok (.conf c) else
          match m with
          | some n' => .ok n'
          | none => .error .keyError
        | none, some n' => .ok n'
        | none, none => .error .keyError
  | .conf c => match c.getattr x with
    | .ok _ => .ok .other
    | .error e => .error e
  | .file _ => .error .attributeError
  | .own => .error .attributeError
  | .other => .error .attributeError

/-- `_get_from_nested_obj_by_section_path` (logic/get.py:8-39, without
`prevent_property_access`). -/
def walk (res : List String) (nm : String) (n : Node V) : List String → Except PyErr (Node V)
  | [] => .ok n
  | x :: p => match child res nm n x with
    | .error e => .error e
    | .ok n' => walk sectionReserved x n' p

/-- Change the object at a path in place.  The object is changed where the walk finds it:
among the instance attributes, as the section's own config, or in the `config_map`.
A path that does not exist changes nothing (callers walk first). -/
def modifyAt (res : List String) (nm : String) (n : Node V) : List String → (Node V → Node V) → Node V
  | [], f => f n
  | x :: p, f => match n with
    | .sect cfg attrs map =>
      if x ∈ res then n
      else match AList.get? attrs x with
        | some .own => if x = nm then ownCase cfg attrs map p f else n
        | some n' => .sect cfg (AList.set attrs x (modifyAt sectionReserved x n' p f)) map
        | none =>
          if cfg.isSome ∧ x = nm then ownCase cfg attrs map p f
          else match AList.get? map x with
            | some n' => .sect cfg attrs (AList.set map x (modifyAt sectionReserved x n' p f))
            | none => n
    | _ => n
where
  /-- The path ends at the section's own config. -/
  ownCase (cfg : Option (Conf V)) (attrs map : List (String × Node V)) (p : List String)
      (f : Node V → Node V) : Node V :=
    match cfg, p with
    | some c, [] => match f (.conf c) with
      | .conf c' => .sect (some c') attrs map
      | _ => .sect cfg attrs map
    | _, _ => .sect cfg attrs map

/-- Apply `g` to a config object, or to the config of a section object. -/
def mapConf (g : Conf V → Conf V) : Node V → Node V
  | .conf c => .conf (g c)
  | .sect (some c) attrs map => .sect (some (g c)) attrs map
  | n => n

/-- `setattr(obj, x, v)` for a section object. -/
def setAttr (n : Node V) (x : String) (v : Node V) : Node V :=
  match n with
  | .sect cfg attrs map => .sect cfg (AList.set attrs x v) map
  | n => n

/-- `ConfigSection.append` (section.py:43-45, 55-62): the last item with a name is the one
in the `config_map`. -/
def append (n : Node V) (x : String) (v : Node V) : Node V :=
  match n with
  | .sect cfg attrs map => .sect cfg attrs (AList.set map x v)
  | n => n

/-- Whether the object is a `ConfigSection`. -/
def isSect : Node V → Bool
  | .sect _ _ _ => true
  | _ => false

end Node

/-- The folders and config files below the defaults folder, by name. -/
inductive DirTree where
  | mk (hasSectionFile : Bool) (files : List String) (dirs : List (String × DirTree))

/-- The file system as seen by the config manager: what loading each file would give now,
and the folder structure. -/
structure Files (V : Type) where
  read : FileLoc → Except PyErr (Dict String V)
  tree : DirTree

/-- `ActiveFunctionConfigFile.load` / `ActiveFunctionConfig.from_file`
(config/models/file.py:14-27, basemodels/config.py:96-107). -/
def Files.load (fs : Files V) (loc : FileLoc) : Except PyErr (Conf V) :=
  match fs.read loc with
  | .ok d => .ok (Conf.ofFile loc d)
  | .error e => .error e

/-- The section's own config in `ConfigSection.from_files` (section.py:90-96).  The `except ValueError` for
a folder without `section.py` also covers the loading of the file, so a `ValueError` while it is loaded
counts as no config. -/
def sectionConfig (fs : Files V) (p : List String) (hasSection : Bool) : Except PyErr (Option (Conf V)) :=
  if hasSection then
    match fs.load (.sect p) with
    | .ok c => .ok (some c)
    | .error .valueError => .ok none
    | .error e => .error e
  else .ok none

mutual
/-- `ConfigSection.from_files` (section.py:71-109) for a folder that exists.  Folders
starting with `.` or `_` are assumed to be left out of the tree already. -/
def fromFiles (fs : Files V) (p : List String) : DirTree → Except PyErr (Node V)
  | .mk hasSection files dirs =>
    match sectionConfig fs p hasSection with
    | .error e => .error e
    | .ok cfg => match fromFilesDirs fs p dirs with
      | .error e => .error e
      | .ok sections =>
        let fileNodes : List (String × Node V) := files.map (fun f => (f, Node.file (.item (p ++ [f]))))
        let configs := fileNodes ++ sections
        .ok (.sect cfg [] (configs.foldl (fun (m : List (String × Node V)) e => AList.set m e.1 e.2) []))
def fromFilesDirs (fs : Files V) (p : List String) :
    List (String × DirTree) → Except PyErr (List (String × Node V))
  | [] => .ok []
  | (name, d) :: ds => match fromFiles fs (p ++ [name]) d with
    | .error e => .error e
    | .ok n => match fromFilesDirs fs p ds with
      | .error e => .error e
      | .ok ns => .ok ((name, n) :: ns)
end

/-- The folder at a path. -/
def DirTree.at? : DirTree → List String → Option DirTree
  | t, [] => some t
  | .mk _ _ dirs, x :: p => match AList.get? dirs x with
    | some t => DirTree.at? t p
    | none => none

/-- State of a loaded `ConfigManager` (manager.py:23-27), with the file system.  `root`
is its `section` together with the attributes set on the manager itself
(`getattr` on the manager falls back to the section, manager.py:29-30).
Not modelled: a manager before `load`, which raises on every call below. -/
structure CM (V : Type) where
  fs : Files V
  rootName : String
  root : Node V
  localConf : Conf V

namespace CM

/-- `ConfigManager(basepath, name)` (manager.py:23-27) followed by `load()` (manager.py:44-45). -/
def load (fs : Files V) (rootName : String) : Except PyErr (CM V) :=
  match fromFiles fs [] fs.tree with
  | .ok root => .ok { fs, rootName, root, localConf := Conf.ofDict Dict.empty }
  | .error e => .error e

/-- Walk from the manager. -/
def walk (s : CM V) (p : List String) : Except PyErr (Node V) :=
  s.root.walk managerReserved s.rootName p

/-- `self.section.config` (manager.py:130). -/
def projectConf (s : CM V) : Option (Conf V) :=
  match s.root with
  | .sect cfg _ _ => cfg
  | _ => none

/-- Change the object at a path in place. -/
def modifyAt (s : CM V) (p : List String) (f : Node V → Node V) : CM V :=
  { s with root := s.root.modifyAt managerReserved s.rootName p f }

end CM

/-- Operations of the config manager. -/
abbrev CMM (V α : Type) := M PyErr (CM V) α

namespace CMM

/-- `_get_config_from_config_or_section` (manager.py:351-363). -/
def configOf (n : Node V) : CMM V (Option (Conf V)) := fun s =>
  match n with
  | .conf c => (.ok (some c), s)
  | .sect cfg _ _ => (.ok cfg, s)
  | .file loc => match s.fs.load loc with
    | .ok c => (.ok (some c), s)
    | .error e => (.error e, s)
  | _ => (.error .valueError, s)

/-- The object stored by `setattr` in `_get_func_or_section_configs` (manager.py:224-228):
a config; when it is the section's own config, found under the section's own name, the
attribute is that same object. -/
def attrValue (parent : Node V) (nm x : String) (c : Conf V) : Node V :=
  match parent with
  | .sect (some _) attrs _ => match AList.get? attrs x with
    | some .own => .own
    | some _ => .conf c
    | none => if x = nm then .own else .conf c
  | _ => .conf c

/-- `_set_in_nested_obj_by_section_path` (logic/set.py:5-11) of a loaded config. -/
def storeLoaded (p : List String) (c : Conf V) : CMM V Unit := fun s =>
  let x := p.getLast?.getD ""
  let nm := p.dropLast.getLast?.getD s.rootName
  (.ok (), s.modifyAt p.dropLast (fun parent => parent.setAttr x (attrValue parent nm x c)))

/-- `_get_func_or_section_configs` (manager.py:200-230). -/
def getFuncOrSectionConfigs (p : List String) : CMM V (Option (Conf V)) := do
  let s ← M.get
  let configOrSection ← M.liftE (s.walk p)
  let conf ← configOf configOrSection
  match configOrSection.isSect, conf with
  | true, conf => return conf
  | false, some c =>
    storeLoaded p c
    return some c
  | false, none => return none  -- not reachable: only a section has no config

/-- `_get_project_config_or_local_config_by_section_path` (manager.py:303-311). -/
def getProjectOrLocal : Option (List String) → CMM V (Option (Conf V))
  | some p => getFuncOrSectionConfigs p
  | none => do
    let s ← M.get
    return some s.localConf

/-- Change in place the config object that a call of `getProjectOrLocal` returned. -/
def writeBack (p : Option (List String)) (g : Conf V → Conf V) : CMM V Unit :=
  M.modify (fun s => match p with
    | some p => s.modifyAt p (Node.mapConf g)
    | none => { s with localConf := g s.localConf })

/-- Names that clash with parameters of `_determine_and_track_if_config_would_be_updated`
in a call that passes the first three arguments by position (manager.py:327-329). -/
def determineReserved : List String := ["self", "config_", "section_path_str", "d_"]

/-- `_determine_and_track_if_config_would_be_updated` (manager.py:327-337).  The
pre-change hook it calls has no default implementation and is left out. -/
def determineWouldUpdate [BEq V] (c : Conf V) (d : Option (Dict String V)) (kw : Dict String V) :
    Except PyErr Bool :=
  if Conf.clash determineReserved kw then .error .typeError
  else
    let d' := match d with | none => Dict.empty | some d => d
    .ok (c.wouldUpdate (some (d'.update kw)) Dict.empty)

/-- `ConfigManager.update` (manager.py:47-66).  `config_obj.update(d_,
pyfileconf_persist=..., **kwargs)` is a `TypeError` if `kwargs` has a reserved name. -/
def update [BEq V] (d : Option (Dict String V)) (p : Option (List String)) (persist : Bool)
    (kw : Dict String V) : CMM V (Conf V × Bool) := do
  match ← getProjectOrLocal p with
  | none => M.raise .notLoaded
  | some c =>
    let would ← M.liftE (determineWouldUpdate c d kw)
    if would then
      if Conf.clash Conf.updateReserved kw then M.raise .typeError
      else
        writeBack p (fun c => c.update d persist kw)
        return (c.update d persist kw, true)
    else
      return (c, false)

/-- What loading the config's file gives now; a config without a file has no `filepath`
(config.py:117-122). -/
def newConfigFromFile (c : Conf V) : CMM V (Conf V) := do
  let s ← M.get
  match c.file with
  | none => M.raise .attributeError
  | some loc => M.liftE (s.fs.load loc)

/-- `ConfigManager.refresh` (manager.py:68-77, 339-343). -/
def refresh [BEq V] (p : List String) : CMM V (Conf V × Bool × Dict String V) := do
  match ← getProjectOrLocal (some p) with
  | none => M.raise .notLoaded
  | some c =>
    let announced ← newConfigFromFile c
    let change := c.changeFromRefresh announced.values
    if change.items.isEmpty then
      return (c, false, Dict.empty)
    else
      let new ← newConfigFromFile c
      match c.refresh new.values with
      | .error e => M.raise e
      | .ok (c', updates) =>
        writeBack (some p) (fun c => c.update none false updates)
        return (c', true, updates)

/-- The configs that override an item's config in `get` (manager.py:129-148): the project
config, then those of the enclosing sections, outermost first, then the section itself if
the path is a section.  `pre` is the part of the path already walked. -/
def sectionConfigsFrom (pre : List String) : List String → CMM V (List (Option (Conf V)))
  | [] => return []
  | [_] => do
    let s ← M.get
    match ← M.liftE (s.walk pre) with
    | .sect _ _ _ => return [← getFuncOrSectionConfigs pre]
    | .conf _ => return []
    | .file _ => return []
    | _ => M.raise .valueError
  | _ :: y :: rest => do
    let c ← getFuncOrSectionConfigs pre
    let cs ← sectionConfigsFrom (pre ++ [y]) (y :: rest)
    return c :: cs

/-- `config.update(section_config)` (manager.py:153, 156).  `None` updates nothing.  When
the section config is the config object itself it is updated with its own current values;
two configs are the same object iff they belong to the same file. -/
def applyLevel (c : Conf V) : Option (Conf V) → Conf V
  | none => c.update none true Dict.empty
  | some l =>
    if l.file.isSome ∧ l.file = c.file then c.update (some c.values) true Dict.empty
    else c.update (some l.values) true Dict.empty

/-- `ConfigManager.get` (manager.py:114-158).  An empty config is not overridden
(`if config:`), and the overridden values are stored in the config itself. -/
def get (p : List String) : CMM V (Option (Conf V)) := do
  let config ← getFuncOrSectionConfigs p
  let s ← M.get
  let project := s.projectConf
  let others ← sectionConfigsFrom (p.take 1) p
  match config with
  | none => return none
  | some c =>
    if c.values.items.isEmpty then return some c
    else
      let s ← M.get
      let levels := (project :: others) ++ [some s.localConf]
      let override := fun c => levels.foldl applyLevel c
      writeBack (some p) override
      return some (override c)

/-- The kind of the object whose default is wanted (manager.py:273-280): a missing one
counts as a config if it is to be created. -/
def defaultKind (s : CM V) (p : List String) (create : Bool) : Except PyErr (Node V) :=
  match s.walk p with
  | .ok n => .ok n
  | .error e => if e = .keyError ∧ create = true then .ok (.conf (Conf.ofDict Dict.empty)) else .error e

/-- `_get_default_func_or_section_config` for a path (manager.py:264-288).  A folder that
does not exist gives an empty section (section.py:77-79). -/
def getDefault (s : CM V) (p : List String) (create : Bool) : Except PyErr (Node V) :=
  match defaultKind s p create with
  | .error e => .error e
  | .ok (.sect _ _ _) => match s.fs.tree.at? p with
    | some t => fromFiles s.fs p t
    | none => .ok (.sect none [] [])
  | .ok (.conf _) => (s.fs.load (.item p)).map Node.conf
  | .ok (.file _) => (s.fs.load (.item p)).map Node.conf
  | .ok _ => .error .valueError

/-- `_set_func_or_config_with_create` (manager.py:246-259): walk down, creating missing
sections, and append the value.  Only a `KeyError` creates a section. -/
def appendWithCreate (res : List String) (nm : String) (n : Node V) (v : Node V) :
    List String → Except PyErr (Node V)
  | [] => .ok n
  | [x] => match n with
    | .sect _ _ _ => .ok (n.append x v)
    | _ => .error .attributeError
  | x :: y :: p => match n.child res nm x with
    | .ok n' => match appendWithCreate sectionReserved x n' v (y :: p) with
      | .error e => .error e
      | .ok n'' => .ok (n.modifyAt res nm [x] (fun _ => n''))
    | .error .keyError => match n with
      | .sect _ _ _ => match appendWithCreate sectionReserved x (.sect none [] []) v (y :: p) with
        | .error e => .error e
        | .ok n'' => .ok (n.append x n'')
      | _ => .error .attributeError
    | .error e => .error e

/-- `_set_func_or_section_config` (manager.py:232-244, 261-262). -/
def setFuncOrSectionConfig (p : List String) (v : Node V) (allowCreate : Bool) : CMM V Unit := fun s =>
  if allowCreate then
    match appendWithCreate managerReserved s.rootName s.root v p with
    | .ok root => (.ok (), { s with root })
    | .error e => (.error e, s)
  else
    match s.walk p.dropLast with
    | .error e => (.error e, s)
    | .ok _ => (.ok (), s.modifyAt p.dropLast (fun parent => parent.setAttr (p.getLast?.getD "") v))

/-- `ConfigManager.set` for a path (manager.py:160-198) with a value that is a config or
a section.  Passing a section as `**value` is an error.  Simplification: a value under the key `d_` counts
as a clash, in Python it is one unless it is `None` or a mapping. -/
def set [BEq V] (p : List String) (value : Node V) (allowCreate : Bool) : CMM V (Node V × Bool) := do
  let current ← M.tryCatch (getFuncOrSectionConfigs p)
    (fun e => if e = .keyError then pure none else M.raise e)
  match current with
  | none =>
    setFuncOrSectionConfig p value allowCreate
    return (value, true)
  | some c =>
    match value with
    | .conf v =>
      let would ← M.liftE (determineWouldUpdate c none v.values)
      if would then
        setFuncOrSectionConfig p value allowCreate
        return (value, true)
      else return (value, false)
    | _ => M.raise .typeError

/-- `ConfigManager.reset` (manager.py:95-106); without a path the local config becomes a
new empty config (manager.py:175-179, 267-269). -/
def reset [BEq V] : Option (List String) → Bool → CMM V (Node V × Bool)
  | none, _ => do
    let value := Conf.ofDict Dict.empty
    M.modify (fun s => { s with localConf := value })
    return (.conf value, true)
  | some p, allowCreate => do
    let s ← M.get
    let value ← M.liftE (getDefault s p allowCreate)
    set p value allowCreate

/-- `ConfigManager.pop` (manager.py:108-112): removes a key from the dictionary, not from
the recorded updates. -/
def pop (key : String) (p : Option (List String)) : CMM V V := do
  match ← getProjectOrLocal p with
  | none => M.raise .notLoaded
  | some c =>
    match c.values.get? key with
    | none => M.raise .keyError
    | some v =>
      writeBack p (fun c => { c with values := c.values.del key })
      return v

end CMM

/-- What can happen to a loaded config manager: a call of one of its methods, or an edit of
the files by someone else. -/
inductive CMOp (V : Type) where
  | update (d : Option (Dict String V)) (p : Option (List String)) (persist : Bool) (kw : Dict String V)
  | refresh (p : List String)
  | get (p : List String)
  | reset (p : Option (List String)) (allowCreate : Bool)
  | pop (key : String) (p : Option (List String))
  | edit (fs : Files V)

/-- The state after an operation, whether it returned or raised. -/
def CM.step [BEq V] (s : CM V) : CMOp V → CM V
  | .update d p persist kw => (CMM.update d p persist kw s).2
  | .refresh p => (CMM.refresh p s).2
  | .get p => (CMM.get p s).2
  | .reset p allowCreate => (CMM.reset p allowCreate s).2
  | .pop key p => (CMM.pop key p s).2
  | .edit fs => { s with fs }

/-- A section path has at least one section (C01). -/
def CMOp.Valid : CMOp V → Prop
  | .update _ (some p) _ _ => p ≠ []
  | .refresh p => p ≠ []
  | .get p => p ≠ []
  | .reset (some p) _ => p ≠ []
  | .pop _ (some p) => p ≠ []
  | _ => True

/-- The states a config manager can be in: those after loading and any history. -/
def CM.Reachable [BEq V] (s : CM V) : Prop :=
  ∃ (fs : Files V) (rootName : String) (s0 : CM V) (ops : List (CMOp V)),
    CM.load fs rootName = .ok s0 ∧ (∀ op ∈ ops, op.Valid) ∧ s = ops.foldl CM.step s0

end Verif.Model

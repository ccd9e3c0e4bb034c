import Verif.Model.Store

/-
The same code as `Verif/Model/Store.lean` (`pyfileconf/config/models/manager.py`, `pyfileconf/config/models/section.py`,
`pyfileconf/logic/get.py`, `pyfileconf/logic/set.py`), with the identity of objects: configs, config files and sections
are objects with an address, attributes and the `config_map` hold addresses, and a change of an object is seen wherever
its address is.  Attributes of the manager and of sections that are configs or sections themselves (`section`,
`local_config`, `config`) can be part of a path here.

The simplifications are those of `Store`, apart from the ones about objects that are in two places, about which configs
are the same object and about the attributes just named.  Objects are never removed.
-/

namespace Verif.Model
open Verif.Py

variable {V : Type}

/-- An object: an `ActiveFunctionConfig`, an `ActiveFunctionConfigFile` or a `ConfigSection` with its name, its attribute
`config`, its other instance attributes and its `config_map` (section.py:17-21, 55-62). -/
inductive HObj (V : Type) where
  | conf (c : Conf V)
  | file (loc : FileLoc)
  | sect (name : String) (cfg : Option Nat) (attrs map : List (String × Nat))

/-- What an attribute can be: the manager itself (where every walk starts), an object, `None`, or something else. -/
inductive HVal where
  | mgr
  | ref (r : Nat)
  | none
  | other
deriving DecidableEq, Repr

/-- A loaded `ConfigManager` (manager.py:23-27), with the objects and the file system. -/
structure HS (V : Type) where
  fs : Files V
  rootName : String
  heap : List (HObj V)
  section_ : Nat
  localConf : Nat
  attrs : List (String × Nat)

/-- Attributes of the `ConfigManager` that are neither configs nor sections (manager.py:20-348). -/
def managerOther : List String :=
  ["basepath", "pipeline_manager_name", "load", "refresh",
   "refresh_dependent_configs", "reset", "pop", "get", "set", "pipeline_manager",
   "track_post_update", "_track_pre_update", "_get_func_or_section_configs", "_set_func_or_section_config",
   "_set_func_or_config_no_create", "_set_func_or_config_with_create", "_get_default_func_or_section_config",
   "_get_project_config_or_local_config_by_section_path", "_is_function_or_pipeline_path",
   "_determine_and_track_if_config_would_be_updated", "_determine_and_track_if_config_would_be_refreshed", "update"]

namespace HS

/-- `getattr(section, x)` for the section with these attributes (section.py:23-29). -/
def sectAttr (name : String) (cfg : Option Nat) (attrs map : List (String × Nat)) (x : String) : Except PyErr HVal :=
  if x = "config" then .ok (match cfg with | some r => .ref r | none => .none)
  else if x ∈ sectionReserved then .ok .other
  else match AList.get? attrs x with
    | some r => .ok (.ref r)
    | none =>
      match cfg, AList.get? map x with
      | some c, m => if x = name then .ok (.ref c) else
        match m with
        | some r => .ok (.ref r)
        | none => .error .keyError
      | none, some r => .ok (.ref r)
      | none, none => .error .keyError

/-- `getattr(obj, x)` for an object (section.py:23-29, config.py:55-59). -/
def objAttr (o : HObj V) (x : String) : Except PyErr HVal :=
  match o with
  | .sect name cfg attrs map => sectAttr name cfg attrs map x
  | .conf c => match c.getattr x with
    | .ok _ => .ok .none
    | .error e => .error e
  | .file _ => .error .attributeError

/-- The object at an address.  (There are no other addresses than those of objects.) -/
def obj (s : HS V) (r : Nat) : Except PyErr (HObj V) :=
  match s.heap[r]? with
  | some o => .ok o
  | none => .error .attributeError

/-- `getattr(v, x)`; the manager passes on what it does not have to its section (manager.py:29-30). -/
def attr (s : HS V) (v : HVal) (x : String) : Except PyErr HVal :=
  match v with
  | .mgr =>
    if x = "section" then .ok (.ref s.section_)
    else if x = "local_config" then .ok (.ref s.localConf)
    else if x ∈ managerOther then .ok .other
    else match AList.get? s.attrs x with
      | some r => .ok (.ref r)
      | none => match s.obj s.section_ with
        | .ok o => objAttr o x
        | .error e => .error e
  | .ref r => match s.obj r with
    | .ok o => objAttr o x
    | .error e => .error e
  | .none => .error .attributeError
  | .other => .error .attributeError

/-- `_get_from_nested_obj_by_section_path` (logic/get.py:8-39). -/
def walk (s : HS V) (v : HVal) : List String → Except PyErr HVal
  | [] => .ok v
  | x :: p => match s.attr v x with
    | .error e => .error e
    | .ok v' => walk s v' p

/-- `setattr(v, x, r)`. -/
def setattr (s : HS V) (v : HVal) (x : String) (r : Nat) : HS V :=
  match v with
  | .mgr =>
    if x = "section" then { s with section_ := r }
    else if x = "local_config" then { s with localConf := r }
    else { s with attrs := AList.set s.attrs x r }
  | .ref k => match s.heap[k]? with
    | some (.sect name cfg attrs map) =>
      if x = "config" then { s with heap := s.heap.set k (.sect name (some r) attrs map) }
      else { s with heap := s.heap.set k (.sect name cfg (AList.set attrs x r) map) }
    | _ => s
  | _ => s

/-- Change the object at an address. -/
def write (s : HS V) (r : Nat) (c : Conf V) : HS V := { s with heap := s.heap.set r (.conf c) }

/-- The object is now at a new address. -/
def alloc (s : HS V) (o : HObj V) : Nat × HS V := (s.heap.length, { s with heap := s.heap ++ [o] })

end HS

mutual
/-- New objects for everything in a tree that was just read from files (section.py:71-109); the section or item itself is
at the given address afterwards. -/
def allocNode (nm : String) (h : List (HObj V)) : Node V → Nat × List (HObj V)
  | .conf c => (h.length, h ++ [.conf c])
  | .file l => (h.length, h ++ [.file l])
  | .sect cfg _ map =>
    let c : Option Nat × List (HObj V) := match cfg with
      | none => (none, h)
      | some c => (some h.length, h ++ [.conf c])
    let m := allocNodes c.2 map
    (m.2.length, m.2 ++ [.sect nm c.1 [] m.1])
  | .own => (h.length, h)
  | .other => (h.length, h)
def allocNodes (h : List (HObj V)) : List (String × Node V) → List (String × Nat) × List (HObj V)
  | [] => ([], h)
  | (x, n) :: rest =>
    let a := allocNode x h n
    let b := allocNodes a.2 rest
    ((x, a.1) :: b.1, b.2)
end

/-- `ConfigManager(basepath, name)` (manager.py:23-27) followed by `load()` (manager.py:44-45). -/
def HS.load (fs : Files V) (rootName : String) : Except PyErr (HS V) :=
  match fromFiles fs [] fs.tree with
  | .ok root =>
    let a := allocNode rootName [.conf (Conf.ofDict Dict.empty)] root
    .ok { fs, rootName, heap := a.2, section_ := a.1, localConf := 0, attrs := [] }
  | .error e => .error e

/-- Operations of the config manager. -/
abbrev HM (V α : Type) := M PyErr (HS V) α

namespace HM

/-- The config at an address. -/
def deref (r : Nat) : HM V (Conf V) := do
  let s ← M.get
  match s.heap[r]? with
  | some (.conf c) => return c
  | _ => M.raise .attributeError

/-- `_set_in_nested_obj_by_section_path` (logic/set.py:5-11). -/
def setAt (p : List String) (r : Nat) : HM V Unit := do
  let s ← M.get
  let parent ← M.liftE (s.walk .mgr p.dropLast)
  M.modify (fun s => s.setattr parent (p.getLast?.getD "") r)

/-- `_get_func_or_section_configs` (manager.py:200-230, 351-363). -/
def getRef (p : List String) : HM V (Option Nat) := do
  let s ← M.get
  match ← M.liftE (s.walk .mgr p) with
  | .ref r =>
    match ← M.liftE (s.obj r) with
    | .conf _ =>
      setAt p r
      return some r
    | .sect _ cfg _ _ => return cfg
    | .file loc =>
      let c ← M.liftE (s.fs.load loc)
      let a := s.alloc (.conf c)
      M.modify (fun _ => a.2)
      setAt p a.1
      return some a.1
  | _ => M.raise .valueError

/-- `_get_project_config_or_local_config_by_section_path` (manager.py:303-311). -/
def getProjectOrLocal : Option (List String) → HM V (Option Nat)
  | some p => getRef p
  | none => do
    let s ← M.get
    return some s.localConf

/-- `ConfigManager.update` (manager.py:47-66). -/
def update [BEq V] (d : Option (Dict String V)) (p : Option (List String)) (persist : Bool) (kw : Dict String V) :
    HM V (Nat × Bool) := do
  match ← getProjectOrLocal p with
  | none => M.raise .notLoaded
  | some r =>
    let c ← deref r
    let would ← M.liftE (CMM.determineWouldUpdate c d kw)
    if would then
      if Conf.clash Conf.updateReserved kw then M.raise .typeError
      else
        M.modify (fun s => s.write r (c.update d persist kw))
        return (r, true)
    else return (r, false)

/-- What loading the config's file gives now (config.py:117-122). -/
def newConfigFromFile (c : Conf V) : HM V (Conf V) := do
  let s ← M.get
  match c.file with
  | none => M.raise .attributeError
  | some loc => M.liftE (s.fs.load loc)

/-- `ConfigManager.refresh` (manager.py:68-77, 339-343). -/
def refresh [BEq V] (p : List String) : HM V (Nat × Bool × Dict String V) := do
  match ← getProjectOrLocal (some p) with
  | none => M.raise .notLoaded
  | some r =>
    let c ← deref r
    let announced ← newConfigFromFile c
    let change := c.changeFromRefresh announced.values
    if change.items.isEmpty then return (r, false, Dict.empty)
    else
      let new ← newConfigFromFile c
      match c.refresh new.values with
      | .error e => M.raise e
      | .ok (c', updates) =>
        M.modify (fun s => s.write r c')
        return (r, true, updates)

/-- The configs that override an item's config in `get`, after that of the project (manager.py:132-148). -/
def sectionRefsFrom (pre : List String) : List String → HM V (List (Option Nat))
  | [] => return []
  | [_] => do
    let s ← M.get
    match ← M.liftE (s.walk .mgr pre) with
    | .ref r =>
      match ← M.liftE (s.obj r) with
      | .sect _ _ _ _ => return [← getRef pre]
      | _ => return []
    | _ => M.raise .valueError
  | _ :: y :: rest => do
    let c ← getRef pre
    let cs ← sectionRefsFrom (pre ++ [y]) (y :: rest)
    return c :: cs

/-- `config.update(section_config)` (manager.py:153, 156), where `None` updates nothing. -/
def override1 (r : Nat) (l : Option Nat) : HM V Unit := do
  let c ← deref r
  match l with
  | none => M.modify (fun s => s.write r (c.update none true Dict.empty))
  | some k =>
    let lc ← deref k
    M.modify (fun s => s.write r (c.update (some lc.values) true Dict.empty))

/-- The list comprehension in `ConfigManager.get` (manager.py:153). -/
def overrideAll (r : Nat) : List (Option Nat) → HM V Unit
  | [] => return ()
  | l :: ls => do
    override1 r l
    overrideAll r ls

/-- The attribute `config` of the section of the project (manager.py:130). -/
def projectRef : HM V (Option Nat) := do
  let s ← M.get
  match s.heap[s.section_]? with
  | some (.sect _ cfg _ _) => return cfg
  | _ => M.raise .attributeError

/-- `ConfigManager.get` (manager.py:114-158). -/
def get (p : List String) : HM V (Option Nat) := do
  let config ← getRef p
  let project ← projectRef
  let others ← sectionRefsFrom (p.take 1) p
  match config with
  | none => return none
  | some r =>
    let c ← deref r
    if c.values.items.isEmpty then return some r
    else
      let s ← M.get
      overrideAll r ((project :: others) ++ [some s.localConf])
      return some r

/-- `_get_default_func_or_section_config` for a path (manager.py:264-288). -/
def getDefault (p : List String) (create : Bool) : HM V Nat := do
  let s ← M.get
  let kind : Except PyErr (Option (HObj V)) := match s.walk .mgr p with
    | .ok (.ref r) => match s.obj r with
      | .ok o => .ok (some o)
      | .error e => .error e
    | .ok _ => .error .valueError
    | .error e => if e = .keyError ∧ create = true then .ok none else .error e
  match ← M.liftE kind with
  | some (.sect _ _ _ _) =>
    let n ← M.liftE (match s.fs.tree.at? p with
      | some t => fromFiles s.fs p t
      | none => .ok (.sect none [] []))
    let a := allocNode (p.getLast?.getD s.rootName) s.heap n
    M.modify (fun s => { s with heap := a.2 })
    return a.1
  | _ =>
    let c ← M.liftE (s.fs.load (.item p))
    let a := s.alloc (.conf c)
    M.modify (fun _ => a.2)
    return a.1

/-- `obj.append(value)` (section.py:43-45, 55-62) for a value with this name; the manager passes it on to its section. -/
def append (v : HVal) (x : String) (r : Nat) : HM V Unit := do
  let s ← M.get
  let k ← M.liftE (match v with
    | .mgr => .ok s.section_
    | .ref k => .ok k
    | _ => .error .attributeError)
  match s.heap[k]? with
  | some (.sect name cfg attrs map) =>
    M.modify (fun s => { s with heap := s.heap.set k (.sect name cfg attrs (AList.set map x r)) })
  | _ => M.raise .attributeError

/-- `_set_func_or_config_with_create` (manager.py:246-259). -/
def setWithCreate (v : HVal) (r : Nat) : List String → HM V Unit
  | [] => return ()
  | [x] => append v x r
  | x :: y :: p => do
    let s ← M.get
    match s.attr v x with
    | .ok v' => setWithCreate v' r (y :: p)
    | .error .keyError =>
      let a := s.alloc (.sect x none [] [])
      M.modify (fun _ => a.2)
      append v x a.1
      let s ← M.get
      let v' ← M.liftE (s.attr v x)
      setWithCreate v' r (y :: p)
    | .error e => M.raise e

/-- `ConfigManager.set` for a path (manager.py:160-198, 232-262). -/
def set [BEq V] (p : List String) (value : Nat) (allowCreate : Bool) : HM V (Nat × Bool) := do
  let put : HM V Unit := if allowCreate then setWithCreate .mgr value p else setAt p value
  let current ← M.tryCatch (getRef p) (fun e => if e = .keyError then pure none else M.raise e)
  match current with
  | none =>
    put
    return (value, true)
  | some r =>
    let c ← deref r
    let s ← M.get
    match s.heap[value]? with
    | some (.conf v) =>
      let would ← M.liftE (CMM.determineWouldUpdate c none v.values)
      if would then
        put
        return (value, true)
      else return (value, false)
    | _ => M.raise .typeError

/-- `ConfigManager.reset` (manager.py:95-106, 175-179, 267-269). -/
def reset [BEq V] : Option (List String) → Bool → HM V (Nat × Bool)
  | none, _ => do
    let s ← M.get
    let a := s.alloc (.conf (Conf.ofDict Dict.empty))
    M.modify (fun _ => { a.2 with localConf := a.1 })
    return (a.1, true)
  | some p, allowCreate => do
    let value ← getDefault p allowCreate
    set p value allowCreate

/-- `ConfigManager.pop` (manager.py:108-112). -/
def pop (key : String) (p : Option (List String)) : HM V V := do
  match ← getProjectOrLocal p with
  | none => M.raise .notLoaded
  | some r =>
    let c ← deref r
    match c.values.get? key with
    | none => M.raise .keyError
    | some v =>
      M.modify (fun s => s.write r { c with values := c.values.del key })
      return v

end HM

/-- The state after an operation, whether it returned or raised. -/
def HS.step [BEq V] (s : HS V) : CMOp V → HS V
  | .update d p persist kw => (HM.update d p persist kw s).2
  | .refresh p => (HM.refresh p s).2
  | .get p => (HM.get p s).2
  | .reset p allowCreate => (HM.reset p allowCreate s).2
  | .pop key p => (HM.pop key p s).2
  | .edit fs => { s with fs }

end Verif.Model

import Verif.Py.Dict
import Verif.Model.SectionPath

/-
Model of `pyfileconf/basemodels/config.py`: the `ConfigBase` dictionary with its
record of persistent updates.

`V` is the type of configuration values; Python's `==` on them is `BEq V`.  The
special treatment of pandas objects and of a raising `==` in `_values_are_equal`
(config.py:177-191) is part of that parameter.

The file a config was loaded from is represented by the dictionary `file` that
loading it now would give; it is an argument because the file (and the values it
computes) may change between calls.
-/

namespace Verif.Model
open Verif.Py

/-- The config files of a manager, by position below its defaults folder:
`<folder>/<p>.py` of an item or `<folder>/<p>/section.py` of a section. -/
inductive FileLoc where
  | item (p : List String)
  | sect (p : List String)
deriving DecidableEq, Repr

/-- `ConfigBase` (config.py:14-48), reduced to the dictionary itself,
`_applied_updates` and `_file` (by its position; `none` for a config that was not
loaded from a file).  Name, annotations and imports do not influence the functions
below. -/
structure Conf (V : Type) where
  values : Dict String V
  applied : Dict String V
  file : Option FileLoc := none

namespace Conf
variable {V : Type}

instance [DecidableEq V] : DecidableEq (Conf V) := fun a b =>
  if h : a.values = b.values ∧ a.applied = b.applied ∧ a.file = b.file then
    isTrue (by cases a; cases b; simp_all)
  else isFalse (fun hh => h (hh ▸ ⟨rfl, rfl, rfl⟩))

/-- `ConfigBase(d)` (config.py:22-48): the given values and no applied updates. -/
def ofDict (d : Dict String V) : Conf V := ⟨d, Dict.empty, none⟩

/-- `ConfigBase.from_file` (config.py:96-107, config/models/file.py:14-27), for a file
that currently gives the values `d`. -/
def ofFile (loc : FileLoc) (d : Dict String V) : Conf V := ⟨d, Dict.empty, some loc⟩

/-- `ConfigBase.update(E, pyfileconf_persist, **F)` (config.py:65-74). -/
def update (c : Conf V) (E : Option (Dict String V)) (persist : Bool) (F : Dict String V) : Conf V :=
  let E' := match E with | none => Dict.empty | some e => e
  let allUpdates := E'.update F
  let applied := if persist then c.applied.update allUpdates else c.applied
  ⟨(c.values.update E').update F, applied, c.file⟩

/-- Names that cannot be passed to `update` inside `**kwargs`, because the signature
`update(self, E=None, pyfileconf_persist=True, **F)` uses them (config.py:65). -/
def updateReserved : List String := ["self", "E", "pyfileconf_persist"]

/-- Whether a `**kwargs` dictionary clashes with parameter names. -/
def clash (reserved : List String) (kw : Dict String V) : Bool :=
  kw.keys.any (fun k => decide (k ∈ reserved))

/-- `ConfigBase.refresh` (config.py:124-134): the new state and the returned updates.
The call `self.update(pyfileconf_persist=False, **all_updates)` is a `TypeError` when a
key is a reserved name.  (Simplification: for the key `E` Python would instead take the
value as the dictionary argument; that is a `TypeError` unless the value is itself a
mapping, and is modelled as one.) -/
def refresh (c : Conf V) (file : Dict String V) : Except PyErr (Conf V × Dict String V) :=
  let allUpdates := file.update c.applied
  if clash updateReserved allUpdates then .error .typeError
  else .ok (c.update none false allUpdates, allUpdates)

/-- The loop of `ConfigBase.would_update` (config.py:150-157). -/
def wouldUpdateLoop [BEq V] (c : Conf V) : List (String × V) → Bool
  | [] => false
  | (key, value) :: rest =>
    match c.values.get? key with
    | none => wouldUpdateLoop c rest
    | some orig => if !(orig == value) then true else wouldUpdateLoop c rest

/-- `ConfigBase.would_update(E, **F)` (config.py:136-157). -/
def wouldUpdate [BEq V] (c : Conf V) (E : Option (Dict String V)) (F : Dict String V) : Bool :=
  let E' := match E with | none => Dict.empty | some e => e
  wouldUpdateLoop c (E'.update F).items

/-- `ConfigBase.change_from_refresh` (config.py:159-174). -/
def changeFromRefresh [BEq V] (c : Conf V) (file : Dict String V) : Dict String V :=
  let finalUpdates := file.update c.applied
  if c.wouldUpdate (some finalUpdates) Dict.empty then finalUpdates else Dict.empty

/-- `ConfigBase.__getattr__` (config.py:55-59), reached when the instance has no such
attribute of its own: the value is looked up but not returned.  `none` is Python's `None`. -/
def getattr (c : Conf V) (attr : String) : Except PyErr (Option V) :=
  match c.values.get? attr with
  | none => .error .attributeError
  | some _ => .ok none

end Conf
end Verif.Model

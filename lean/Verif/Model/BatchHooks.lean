import Verif.Model.Iterate

/-
Model of the plugins around a batch update and of the iterables that are passed to it: `BatchUpdater.update`
(`pyfileconf/batch.py:33-58`), `PipelineManager.update_batch` (`pyfileconf/main.py:347-361`), the default hook
(`pyfileconf/plugin/default_hooks.py:60-64`) and the hooks (`pyfileconf/plugin/hookspecs.py:144-170`).

The updates may be given as a list, which can be read again and again, or as an iterator, which gives each update once: what an
iterator has left is part of the state.

Simplifications: plugins do not use managers, and an iterator gives updates that do not depend on the managers (its items are known
when it is made).  Plugins are called latest first (pluggy), `tryfirst` and `trylast` are left out.
-/

namespace Verif.Model
open Verif.Py

variable {V U σ : Type}

/-- A list, or an iterator by its identity. -/
inductive Iterable (U : Type) where
  | list (xs : List U)
  | iter (id : Nat)

/-- What each iterator has left. -/
abbrev Iters (U : Type) := Nat → List U

/-- What is read by going through an iterable. -/
def Iterable.read : Iterable U → Iters U → List U
  | .list xs, _ => xs
  | .iter i, h => h i

/-- An iterator has only these left. -/
def Iters.leave (h : Iters U) (i : Nat) (xs : List U) : Iters U := fun j => if j = i then xs else h j

/-- If an item was taken from an iterator it has only the next ones left; a list stays as it is. -/
def Iters.taken (h : Iters U) : Option Nat → List U → Iters U
  | some i, xs => h.leave i xs
  | none, _ => h

/-- The state: that of the managers, and the iterators. -/
structure WithIters (U σ : Type) where
  base : σ
  iters : Iters U

/-- Something that uses the managers only. -/
def onBase (m : M PyErr σ Unit) : M PyErr (WithIters U σ) Unit := fun s => ((m s.base).1, { s with base := (m s.base).2 })

/-- A plugin with `pyfileconf_pre_update_batch` and `pyfileconf_post_update_batch`.  An implementation that is not there is one
that returns `None` and changes nothing. -/
structure BatchPlugin (U : Type) where
  pre : Iterable U → Iters U → Option (Iterable U) × Iters U
  post : Iterable U → Iters U → Iters U

/-- `default_hooks`, which returns the updates (default_hooks.py:60-64). -/
def defaultBatch : BatchPlugin U := ⟨fun us h => (some us, h), fun _ h => h⟩

/-- The call of a hook (batch.py:40-42): the results that are not `None`, of the plugins in the order in which they are called. -/
def callBatch : List (BatchPlugin U) → Iterable U → Iters U → List (Iterable U) × Iters U
  | [], _, h => ([], h)
  | p :: ps, us, h =>
    let r := p.pre us h
    let rest := callBatch ps us r.2
    (match r.1 with | some x => x :: rest.1 | none => rest.1, rest.2)

/-- The loop over one iterable: `upd` is what is done with an update, `i` the iterator it is from. -/
def loopOne (upd : U → M PyErr σ Unit) (i : Option Nat) : List U → M PyErr (WithIters U σ) Unit
  | [] => return ()
  | x :: xs => do
    M.modify (fun s => { s with iters := s.iters.taken i xs })
    onBase (upd x)
    loopOne upd i xs

/-- `for update in itertools.chain(*updates_lol)` (batch.py:43-53). -/
def loopChain (upd : U → M PyErr σ Unit) : List (Iterable U) → M PyErr (WithIters U σ) Unit
  | [] => return ()
  | .list xs :: rest => do
    loopOne upd none xs
    loopChain upd rest
  | .iter i :: rest => do
    let s ← M.get
    loopOne upd (some i) (s.iters i)
    loopChain upd rest

/-- `BatchUpdater.update` (batch.py:33-58); `plugins` in the order in which they are called. -/
def batchUpdate (upd : U → M PyErr σ Unit) (plugins : List (BatchPlugin U)) (us : Iterable U) : M PyErr (WithIters U σ) Unit := do
  let s ← M.get
  let r := callBatch plugins us s.iters
  M.modify (fun s => { s with iters := r.2 })
  loopChain upd r.1
  M.modify (fun s => { s with iters := plugins.foldl (fun h p => p.post us h) s.iters })

/-- Plugins in the order in which they are called, if they were registered in this order after the default ones
(manager_utils.py:4-11). -/
def registered (ps : List (BatchPlugin U)) : List (BatchPlugin U) := ps.reverse ++ [defaultBatch]

/-- `PipelineManager.update_batch` (main.py:347-361). -/
def updateBatchWith [BEq V] (name : String) (plugins : List (BatchPlugin (Upd V))) (us : Iterable (Upd V)) :
    M PyErr (WithIters (Upd V) (Mgrs V)) Unit :=
  batchUpdate (BM.update1 (some name) true) plugins us

end Verif.Model

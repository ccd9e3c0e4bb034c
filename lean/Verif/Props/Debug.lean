import Verif.Model.Debug
import Verif.Props.Main

/-
Property theorems about the debugger of a manager: C103, and C55 for lists and plugins.
-/

namespace Verif.Props
open Verif.Py Verif.Model

variable {V : Type}

/-! ## Specification -/

/-- What becomes of a run without debugger if `debugger` is called for its exceptions: results and interrupts stay, any other
exception is logged, then the debugger is called once, on what the run left, and its exceptions are those of the run. -/
inductive DebuggedBy (debugger : MM V Unit) : Except PyErr (Option (RM.RunRes V)) × MS V →
    Except PyErr (Option (RM.RunRes V)) × MS V → Prop where
  | returned (r : Option (RM.RunRes V)) (t : MS V) : DebuggedBy debugger (.ok r, t) (.ok r, t)
  | interrupted (t : MS V) : DebuggedBy debugger (.error .interrupt, t) (.error .interrupt, t)
  | debugged (e : PyErr) (t u : MS V) : e ≠ .interrupt →
    debugger ⟨t.rs, t.log ++ [.traceback e]⟩ = (.ok (), u) → DebuggedBy debugger (.error e, t) (.ok none, u)
  | failed (e e' : PyErr) (t u : MS V) : e ≠ .interrupt →
    debugger ⟨t.rs, t.log ++ [.traceback e]⟩ = (.error e', u) → DebuggedBy debugger (.error e, t) (.error e', u)

/-- The debugger that was asked for: a function, or `pdb`. -/
inductive Asked (pdb : MM V Unit) : AutoPdb V → MM V Unit → Prop where
  | function (d : MM V Unit) : Asked pdb (.function d) d
  | pdb : Asked pdb (.flag true) pdb

/-- The argument consists of strings and views. -/
inductive IsPath : PathLike → Prop where
  | str (s : String) : IsPath (.str s)
  | view (s : String) : IsPath (.view s)

/-- The argument can be run. -/
def Runnable : RunArg → Prop
  | .single x => IsPath x
  | .list xs => ∀ x ∈ xs, IsPath x

/-! ## Lemmas -/

namespace Debugging

theorem convertOne_ok {x : PathLike} (h : IsPath x) : ∃ v, convertOne x = .ok v := by
  cases h <;> exact ⟨_, rfl⟩

theorem convertAll_ok : ∀ {xs : List PathLike}, (∀ x ∈ xs, IsPath x) → ∃ v, convertAll xs = .ok v
  | [], _ => ⟨[], rfl⟩
  | x :: xs, h => by
    obtain ⟨v, hv⟩ := convertOne_ok (h x (List.mem_cons_self ..))
    obtain ⟨vs, hvs⟩ := convertAll_ok (fun y hy => h y (List.mem_cons_of_mem x hy))
    refine ⟨v :: vs, ?_⟩
    rw [convertAll, hv, hvs]
    rfl

theorem convertArg_ok {a : RunArg} (h : Runnable a) : ∃ v, convertArg a = .ok v := by
  cases a with
  | single x =>
    obtain ⟨v, hv⟩ := convertOne_ok h
    refine ⟨.str v, ?_⟩
    rw [convertArg, hv]
    rfl
  | list xs =>
    obtain ⟨v, hv⟩ := convertAll_ok h
    refine ⟨.list (v.map .str), ?_⟩
    rw [convertArg, hv]
    rfl

theorem asked_truth {pdb d : MM V Unit} {auto : AutoPdb V} (h : Asked pdb auto d) : auto.truth = true := by
  cases h <;> rfl

theorem asked_call {pdb d : MM V Unit} {auto : AutoPdb V} (h : Asked pdb auto d) : Debug.postMortemOr pdb auto = d := by
  cases h <;> rfl

theorem runWith_true {pdb : MM V Unit} {auto : AutoPdb V} (h : auto.truth = true) (force : Bool) (post : PostRun V) (x : RunVal) :
    Debug.runWith pdb auto force post x =
      Debug.tryExcept (MM.liftR (MM.runnerRun post x)) (fun _ => Debug.postMortemOr pdb auto) := if_pos h

theorem runWith_false {pdb : MM V Unit} {auto : AutoPdb V} (h : auto.truth = false) (post : PostRun V) (x : RunVal) :
    Debug.runWith pdb auto false post x = MM.runWith plainSettings post x :=
  if_neg (by rw [h]; decide)

/-- An operation and the same with a debugger. -/
theorem tryExcept_debugged (m : MM V (RM.RunRes V)) (d : MM V Unit) (s : MS V) :
    DebuggedBy d ((m >>= fun r => pure (some r)) s) (Debug.tryExcept m (fun _ => d) s) := by
  unfold Debug.tryExcept
  rw [M.bind_run]
  cases hm : m s with
  | mk out t =>
    cases out with
    | ok r => exact .returned _ _
    | error e =>
      by_cases hi : e = .interrupt
      · subst hi
        exact .interrupted _
      · have key : Debug.tryExcept m (fun _ => d) s = match d ⟨t.rs, t.log ++ [.traceback e]⟩ with
            | (.ok (), u) => (.ok none, u)
            | (.error e', u) => (.error e', u) := by
          unfold Debug.tryExcept
          rw [hm]
          cases e <;> first
            | exact absurd rfl hi
            | (dsimp only
               rw [M.bind_ok (show MM.log _ _ = (.ok (), _) from rfl), M.bind_run]
               cases d _ with
               | mk o u => cases o <;> rfl)
        have key' := key
        unfold Debug.tryExcept at key'
        rw [hm] at key'
        rw [key']
        cases hd : d ⟨t.rs, t.log ++ [.traceback e]⟩ with
        | mk o u =>
          cases o with
          | ok _ => exact .debugged e t u hi hd
          | error e' => exact .failed e e' t u hi hd

end Debugging

open Debugging

/-! ## C103 -/

/-- C103: every run of strings, views or lists of these, with any plugins, in any state: with `auto_pdb` it gives what it gives
without, except that the debugger asked for is called once for an exception, after everything else, and the run returns `None`
unless the debugger raises. -/
theorem C103_debugged_partial [BEq V] (pdb d : MM V Unit) (auto : AutoPdb V) (force : Bool) (h : RunHooks V) (a : RunArg) (s : MS V)
    (hd : Asked pdb auto d) (ha : Runnable a) :
    DebuggedBy d (MM.run plainSettings h a s) (Debug.run pdb auto force h a s) := by
  obtain ⟨v, hv⟩ := convertArg_ok ha
  unfold MM.run Debug.run
  rw [hv, M.bind_ok (M.liftE_run _ _), M.bind_ok (M.liftE_run _ _)]
  rw [runWith_true (asked_truth hd), asked_call hd]
  exact tryExcept_debugged _ d s

/-- C103: a run that succeeds does so with any debugger, with the same result and state, and no debugger is called. -/
theorem C103_succeeds [BEq V] (pdb : MM V Unit) (auto : AutoPdb V) (h : RunHooks V) (a : RunArg) (s t : MS V)
    (r : Option (RM.RunRes V)) (hr : MM.run plainSettings h a s = (.ok r, t)) :
    Debug.run pdb auto false h a s = (.ok r, t) := by
  unfold MM.run at hr
  unfold Debug.run
  rw [M.bind_run, M.liftE_run] at hr ⊢
  cases hv : convertArg a with
  | error e => rw [hv] at hr; cases hr
  | ok v =>
    rw [hv] at hr
    dsimp only at hr ⊢
    cases ht : auto.truth with
    | true =>
      rw [runWith_true ht]
      have hx := tryExcept_debugged (MM.liftR (MM.runnerRun h.postRun (combineExtract v (h.preRun a).2)))
        (Debug.postMortemOr pdb auto) s
      have hr' : ((MM.liftR (MM.runnerRun h.postRun (combineExtract v (h.preRun a).2))) >>= fun r => pure (some r)) s = (.ok r, t) :=
        hr
      rw [hr'] at hx
      generalize hg : Debug.tryExcept _ _ s = z at hx ⊢
      cases hx
      rfl
    | false =>
      rw [runWith_false ht]
      exact hr

/-- C103: without `auto_pdb` there is no debugger at all. -/
theorem C103_off [BEq V] (pdb : MM V Unit) (force : Bool) (h : RunHooks V) (a : RunArg) (s : MS V) :
    Debug.run pdb (.flag false) force h a s = MM.run ⟨false, force⟩ h a s := rfl

/-- C103 (and C55, which is about debuggers that return and change nothing): the run with `auto_pdb` of
`Verif/Model/Main.lean`. -/
theorem C103_returning [BEq V] (pdb : MM V Unit) (force : Bool) (h : RunHooks V) (a : RunArg) (s : MS V) :
    Debug.run pdb (.function (pure ())) force h a s = MM.run ⟨true, force⟩ h a s := by
  unfold MM.run Debug.run
  rw [M.bind_run, M.liftE_run, M.bind_run, M.liftE_run]
  cases convertArg a with
  | error e => rfl
  | ok v =>
    dsimp only
    rw [runWith_true rfl, show MM.runWith ⟨true, force⟩ h.postRun (combineExtract v (h.preRun a).2) =
      MM.autoPdb h.postRun (combineExtract v (h.preRun a).2) from rfl]
    unfold Debug.tryExcept MM.autoPdb
    rw [M.bind_run]
    unfold MM.tryRun
    cases hm : MM.liftR (MM.runnerRun h.postRun (combineExtract v (h.preRun a).2)) s with
    | mk out t =>
      cases out with
      | ok r => rfl
      | error e => cases e <;> rfl

/-- C55 for everything that can be run, with any plugins: with `auto_pdb` and a debugger that returns, results and interrupts are
those without, and a run that raises returns `None`. -/
theorem C55_any [BEq V] (h : RunHooks V) (a : RunArg) (s : MS V) (ha : Runnable a) :
    DebuggedBy (pure ()) (MM.run plainSettings h a s) (MM.run debugging h a s) := by
  have := C103_debugged_partial (pure ()) (pure ()) (.function (pure ())) false h a s (.function _) ha
  rw [C103_returning] at this
  exact this

/-- C103: a debugger and `force_continue` together are refused, and nothing else. -/
theorem C103_validated (auto : AutoPdb V) (force : Bool) :
    validateOptions auto force = .error .valueError ↔ (auto ≠ .flag false ∧ force = true) := by
  cases auto with
  | flag b => cases b <;> cases force <;> simp [validateOptions, AutoPdb.truth]
  | function d => cases force <;> simp [validateOptions, AutoPdb.truth]
  | other => cases force <;> simp [validateOptions, AutoPdb.truth]

/-- C103 fails for arguments that are neither strings nor views: the exception is raised, and no debugger is called. -/
theorem C103_argument_violated [BEq V] (pdb : MM V Unit) (auto : AutoPdb V) (force : Bool) (h : RunHooks V) (s : MS V) :
    Debug.run pdb auto force h (.single .other) s = (.error .valueError, s) := rfl

/-- C103 fails for a value of `auto_pdb` such as `1`, which is accepted but is neither `True` nor a function: an exception of
the run is replaced by a `TypeError`. -/
theorem C103_not_callable_violated [BEq V] (pdb : MM V Unit) (h : RunHooks V) (a : RunArg) (s t : MS V) (e : PyErr)
    (ha : Runnable a) (hr : MM.run plainSettings h a s = (.error e, t)) (hi : e ≠ .interrupt) :
    validateOptions (.other : AutoPdb V) false = .ok () ∧
    Debug.run pdb .other false h a s = (.error .typeError, ⟨t.rs, t.log ++ [.traceback e]⟩) := by
  refine ⟨rfl, ?_⟩
  obtain ⟨v, hv⟩ := convertArg_ok ha
  unfold MM.run at hr
  unfold Debug.run
  rw [hv, M.bind_ok (M.liftE_run _ _)] at hr ⊢
  rw [runWith_true rfl]
  have hx := tryExcept_debugged (MM.liftR (MM.runnerRun h.postRun (combineExtract v (h.preRun a).2)))
    (Debug.postMortemOr pdb .other) s
  have hr' : ((MM.liftR (MM.runnerRun h.postRun (combineExtract v (h.preRun a).2))) >>= fun r => pure (some r)) s = (.error e, t) :=
    hr
  rw [hr'] at hx
  generalize hg : Debug.tryExcept _ _ s = z at hx ⊢
  cases hx with
  | interrupted => exact absurd rfl hi
  | debugged _ _ u _ hd => cases hd
  | failed _ e' _ u _ hd => cases hd; rfl

example : Runnable (.list [.str "main.data.func", .view "project.main.data.noargs"]) := by
  intro x hx
  rcases List.mem_cons.1 hx with rfl | hx
  · exact .str _
  · rw [List.mem_singleton] at hx
    subst hx
    exact .view _

/-- A failing and a succeeding run with a debugger that makes a note and one that raises. -/
example : (match Debug.run (M.raise .typeError) (.function (MM.log .allWell)) false .none
      (.list [.str "main.data.func", .str "main.data.noargs"]) (⟨demoRunner demoFailing, []⟩ : MS Nat) with
    | (.ok none, s) => s.log.length
    | _ => 0) = 2 ∧
    (match Debug.run (M.raise .typeError) (.flag true) false .none
      (.single (.str "main.data.func")) (⟨demoRunner demoFailing, []⟩ : MS Nat) with
    | (.error .typeError, s) => s.log.length
    | _ => 0) = 1 ∧
    outcome (Debug.run (M.raise .typeError) (.flag true) false .none (.single (.str "main.data.func")) demoManager) =
      some (false, [230]) := by decide +kernel

end Verif.Props

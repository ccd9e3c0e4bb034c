import Verif.Model.Stdout

/-
Property theorems about logging the output of runs: C51.
-/

namespace Verif.Props
open Verif.Py Verif.Model

/-! ### Specification -/

/-- `o` inside `n` loggers. -/
def wrapped (o : Out) : Nat → Out
  | 0 => o
  | n + 1 => .logger (wrapped o n)

mutual
/-- Code that does not redirect the output itself. -/
def NoRedirect : OutAct → Prop
  | .redirect _ => False
  | .run _ body => NoRedirects body
  | .attempt body => NoRedirects body
  | .setLog _ => True
  | .print _ => True
  | .fail _ => True
def NoRedirects : List OutAct → Prop
  | [] => True
  | a :: as => NoRedirect a ∧ NoRedirects as
end

mutual
/-- Code that catches no exceptions. -/
def NoCatch : OutAct → Prop
  | .redirect _ => True
  | .run g body => g = .raises ∧ NoCatches body
  | .attempt _ => False
  | .setLog _ => True
  | .print _ => True
  | .fail _ => True
def NoCatches : List OutAct → Prop
  | [] => True
  | a :: as => NoCatch a ∧ NoCatches as
end

/-! ### Lemmas -/

theorem stdoutAlsoLogged_run (body : StdM Unit) (s : OutS) :
    stdoutAlsoLogged body s = match body { s with out := .logger s.out } with
      | (.ok (), s') => (.ok (), { s' with out := s.out })
      | (.error e, s') => (.error e, s') := by
  unfold stdoutAlsoLogged
  rw [M.bind_run]
  simp only [M.get_run]
  rw [M.bind_run]
  simp only [M.modify_run]
  rw [M.bind_run]
  cases body { s with out := .logger s.out } with
  | mk r s' => cases r <;> rfl

theorem run_exec (g : Guard) (body : List OutAct) (s : OutS) :
    (OutAct.run g body).exec s = if s.log then stdoutAlsoLogged (guarded g (OutAct.execs body)) s
      else guarded g (OutAct.execs body) s := by
  rw [OutAct.exec, M.bind_run]
  simp only [M.get_run]
  split <;> rfl

theorem prints_logged (msgs : List String) (s : OutS) (o : Out) (h : s.out = .logger o) :
    OutAct.execs (msgs.map .print) s = (.ok (), { s with logged := s.logged ++ msgs.filter (· ≠ "\n") }) := by
  induction msgs generalizing s with
  | nil => simp [OutAct.execs]
  | cons m msgs ih =>
    have h1 : (OutAct.print m).exec s = (.ok (), if m ≠ "\n" then { s with logged := s.logged ++ [m] } else s) := by
      rw [OutAct.exec, writeOut, M.modify_run, h]
    rw [List.map_cons, OutAct.execs]
    by_cases hm : m = "\n"
    · rw [if_neg (by simp [hm])] at h1
      exact (M.bind_ok h1).trans ((ih s h).trans (by simp [hm]))
    · rw [if_pos hm] at h1
      exact (M.bind_ok h1).trans ((ih { s with logged := s.logged ++ [m] } h).trans (by simp [hm]))

theorem prints_written (msgs : List String) (s : OutS) (n : Nat) (h : s.out = .stream n) :
    OutAct.execs (msgs.map .print) s = (.ok (), { s with written := s.written ++ msgs.map (fun m => (n, m)) }) := by
  induction msgs generalizing s with
  | nil => simp [OutAct.execs]
  | cons m msgs ih =>
    have h1 : (OutAct.print m).exec s = (.ok (), { s with written := s.written ++ [(n, m)] }) := by
      rw [OutAct.exec, writeOut, M.modify_run, h]
    rw [List.map_cons, OutAct.execs]
    exact (M.bind_ok h1).trans ((ih { s with written := s.written ++ [(n, m)] } h).trans (by simp))

theorem tryCatch_ok {m : StdM Unit} {h : PyErr → StdM Unit} {s s' : OutS} (hm : m s = (.ok (), s')) :
    M.tryCatch m h s = (.ok (), s') := by
  unfold M.tryCatch
  rw [hm]

/-! ## C51 -/

/-- A logged run logs what it prints, except for line ends alone, and writes nothing; then the output is as before. -/
theorem C51_logged (g : Guard) (msgs : List String) (s : OutS) (hl : s.log = true) :
    (OutAct.run g (msgs.map .print)).exec s = (.ok (), { s with logged := s.logged ++ msgs.filter (· ≠ "\n") }) := by
  have hp := prints_logged msgs { s with out := .logger s.out } s.out rfl
  have hg : guarded g (OutAct.execs (msgs.map .print)) { s with out := .logger s.out } =
      (.ok (), { s with out := .logger s.out, logged := s.logged ++ msgs.filter (· ≠ "\n") }) := by
    cases g with
    | raises => exact hp
    | catches =>
      exact tryCatch_ok hp
  rw [run_exec, if_pos hl, stdoutAlsoLogged_run, hg]

/-- A run that is not logged writes what it prints to the stream there is, line ends included, and logs nothing. -/
theorem C51_written (g : Guard) (msgs : List String) (s : OutS) (n : Nat) (hl : s.log = false) (hn : s.out = .stream n) :
    (OutAct.run g (msgs.map .print)).exec s = (.ok (), { s with written := s.written ++ msgs.map (fun m => (n, m)) }) := by
  have hp := prints_written msgs s n hn
  have hf : ¬ s.log = true := by simp [hl]
  rw [run_exec, if_neg hf]
  cases g with
  | raises => exact hp
  | catches =>
    exact tryCatch_ok hp

example : ((OutAct.run .raises (["a", "\n", "b", "\n"].map .print)).exec ⟨.stream 1, true, [], []⟩).2.logged = ["a", "b"] ∧
    ((OutAct.run .raises (["a", "\n"].map .print)).exec ⟨.stream 1, false, [], []⟩).2.written = [(1, "a"), (1, "\n")] :=
  ⟨rfl, rfl⟩

/-- C51. After a logged run that returns, the output is what it was before, whatever its code and the code it runs do:
raise and catch exceptions, switch the option, or redirect the output. -/
theorem C51_returns (g : Guard) (body : List OutAct) (s s' : OutS) (hl : s.log = true)
    (h : (OutAct.run g body).exec s = (.ok (), s')) : s'.out = s.out := by
  rw [run_exec, if_pos hl, stdoutAlsoLogged_run] at h
  split at h
  · cases h; rfl
  · cases h

/-- C51. If the manager catches exceptions, every logged run restores the output unless it is interrupted. -/
theorem C51_caught (body : List OutAct) (s : OutS) (hl : s.log = true)
    (h : ((OutAct.run .catches body).exec s).1 ≠ .error .interrupt) :
    ((OutAct.run .catches body).exec s).2.out = s.out := by
  have hr : ∃ s', (OutAct.run .catches body).exec s = (.ok (), s') := by
    rw [run_exec, if_pos hl, stdoutAlsoLogged_run] at h ⊢
    unfold guarded M.tryCatch at h ⊢
    simp only at h ⊢
    cases hb : OutAct.execs body { s with out := .logger s.out } with
    | mk r s1 =>
      rw [hb] at h
      cases r with
      | ok u => exact ⟨_, rfl⟩
      | error e =>
        simp only at h ⊢
        by_cases he : e = .interrupt
        · rw [if_pos he] at h
          simp at h
        · rw [if_neg he]
          exact ⟨_, rfl⟩
  obtain ⟨s', hr⟩ := hr
  rw [hr]
  exact C51_returns .catches body s s' hl hr

mutual
theorem noCatch_exec (a : OutAct) (s s' : OutS) (hc : NoCatch a) (hn : NoRedirect a) (h : a.exec s = (.ok (), s')) :
    s'.out = s.out := by
  match a with
  | .run g body =>
    rw [NoCatch] at hc
    rw [NoRedirect] at hn
    rw [run_exec] at h
    split at h
    · next hl =>
      rw [stdoutAlsoLogged_run] at h
      split at h
      · cases h; rfl
      · cases h
    · rw [hc.1] at h
      exact noCatch_execs body s s' hc.2 hn h
  | .setLog b => rw [OutAct.exec] at h; cases h; rfl
  | .print m =>
    rw [OutAct.exec, writeOut, M.modify_run] at h
    cases h
    split
    · rfl
    · split <;> rfl
  | .redirect o => rw [NoRedirect] at hn; exact hn.elim
  | .fail e => rw [OutAct.exec] at h; cases h
  | .attempt body => rw [NoCatch] at hc; exact hc.elim
theorem noCatch_execs (as : List OutAct) (s s' : OutS) (hc : NoCatches as) (hn : NoRedirects as)
    (h : OutAct.execs as s = (.ok (), s')) : s'.out = s.out := by
  match as with
  | [] => rw [OutAct.execs] at h; cases h; rfl
  | a :: as =>
    rw [NoCatches] at hc
    rw [NoRedirects] at hn
    rw [OutAct.execs, M.bind_run] at h
    split at h
    · next s1 he =>
      rw [noCatch_execs as s1 s' hc.2 hn.2 h]
      exact noCatch_exec a s s1 hc.1 hn.1 he
    · cases h
end

/-- C51. Without exceptions, nested runs leave the output as it was, with and without logging and if the option is
switched in between. -/
theorem C51_no_exceptions (as : List OutAct) (s s' : OutS) (hc : NoCatches as) (hn : NoRedirects as)
    (h : OutAct.execs as s = (.ok (), s')) : s'.out = s.out :=
  noCatch_execs as s s' hc hn h

theorem wrapped_wrapped (o : Out) (n m : Nat) : wrapped (wrapped o n) m = wrapped o (n + m) := by
  induction m with
  | zero => rfl
  | succ m ih => rw [wrapped, ih]; rfl

mutual
theorem wraps_exec (a : OutAct) (s : OutS) (hn : NoRedirect a) : ∃ n, (a.exec s).2.out = wrapped s.out n := by
  match a with
  | .run g body =>
    rw [NoRedirect] at hn
    have hg : ∀ s1 : OutS, ∃ n, (guarded g (OutAct.execs body) s1).2.out = wrapped s1.out n := by
      intro s1
      obtain ⟨n, h⟩ := wraps_execs body s1 hn
      refine ⟨n, ?_⟩
      cases g with
      | raises => exact h
      | catches =>
        unfold guarded M.tryCatch
        simp only
        cases hb : OutAct.execs body s1 with
        | mk r s2 =>
          rw [hb] at h
          cases r with
          | ok u => exact h
          | error e =>
            simp only
            split <;> exact h
    rw [run_exec]
    split
    · rw [stdoutAlsoLogged_run]
      split
      · exact ⟨0, rfl⟩
      · next e s' hb =>
        obtain ⟨n, h⟩ := hg { s with out := .logger s.out }
        rw [hb] at h
        exact ⟨1 + n, by rw [← wrapped_wrapped]; exact h⟩
    · exact hg s
  | .setLog b => exact ⟨0, by rw [OutAct.exec]; rfl⟩
  | .print m =>
    refine ⟨0, ?_⟩
    rw [OutAct.exec, writeOut, M.modify_run]
    simp only
    split
    · rfl
    · split <;> rfl
  | .redirect o => rw [NoRedirect] at hn; exact hn.elim
  | .fail e => exact ⟨0, by rw [OutAct.exec]; rfl⟩
  | .attempt body =>
    rw [NoRedirect] at hn
    obtain ⟨n, h⟩ := wraps_execs body s hn
    refine ⟨n, ?_⟩
    rw [OutAct.exec]
    unfold M.tryCatch
    cases hb : OutAct.execs body s with
    | mk r s2 =>
      rw [hb] at h
      cases r <;> exact h
theorem wraps_execs (as : List OutAct) (s : OutS) (hn : NoRedirects as) : ∃ n, (OutAct.execs as s).2.out = wrapped s.out n := by
  match as with
  | [] => exact ⟨0, by rw [OutAct.execs]; rfl⟩
  | a :: as =>
    rw [NoRedirects] at hn
    obtain ⟨n, h⟩ := wraps_exec a s hn.1
    rw [OutAct.execs, M.bind_run]
    cases hb : a.exec s with
    | mk r s1 =>
      rw [hb] at h
      cases r with
      | ok u =>
        obtain ⟨m, h2⟩ := wraps_execs as s1 hn.2
        exact ⟨n + m, by rw [← wrapped_wrapped, ← h]; exact h2⟩
      | error e => exact ⟨n, h⟩
end

/-- C51. Whatever runs do and raise, the output afterwards is the one before inside a number of loggers: it is never
lost. -/
theorem C51_wrapped_partial (as : List OutAct) (s : OutS) (hn : NoRedirects as) :
    ∃ n, (OutAct.execs as s).2.out = wrapped s.out n := wraps_execs as s hn

/-- C51 fails for every logged run that raises: the output is not what it was before. -/
theorem C51_raises_violated (body : List OutAct) (s : OutS) (hl : s.log = true) (hn : NoRedirects body) (e : PyErr)
    (h : ((OutAct.run .raises body).exec s).1 = .error e) :
    ∃ n, ((OutAct.run .raises body).exec s).2.out = wrapped s.out (n + 1) := by
  rw [run_exec, if_pos hl, stdoutAlsoLogged_run] at h ⊢
  obtain ⟨n, hw⟩ := wraps_execs body { s with out := .logger s.out } hn
  unfold guarded at h ⊢
  simp only at h ⊢
  cases hb : OutAct.execs body { s with out := .logger s.out } with
  | mk r s1 =>
    rw [hb] at h hw
    cases r with
    | ok u => simp at h
    | error e' => exact ⟨n, by rw [Nat.add_comm, ← wrapped_wrapped]; exact hw⟩

/-- Being inside loggers is different from not being inside. -/
theorem wrapped_ne (o : Out) (n : Nat) : wrapped o (n + 1) ≠ o := by
  have hs : ∀ m, sizeOf (wrapped o m) = sizeOf o + m := by
    intro m
    induction m with
    | zero => rfl
    | succ m ih =>
      rw [wrapped]
      simp [ih]
      omega
  intro h
  have := hs (n + 1)
  rw [h] at this
  omega

/-- Runs that raise, each caught by the code around it. -/
def failingRuns : Nat → List OutAct
  | 0 => []
  | n + 1 => .attempt [.run .raises [.fail .valueError]] :: failingRuns n

/-- C51 fails more with every run that raises: after `n` of them the output is inside `n` loggers. -/
theorem C51_nests_violated (n : Nat) (s : OutS) (hl : s.log = true) :
    ∃ s', OutAct.execs (failingRuns n) s = (.ok (), s') ∧ s'.out = wrapped s.out n := by
  have key : ∀ (n : Nat) (s : OutS), s.log = true → OutAct.execs (failingRuns n) s = (.ok (), { s with out := wrapped s.out n }) := by
    intro n
    induction n with
    | zero => intro s _; rw [failingRuns, OutAct.execs]; rfl
    | succ n ih =>
      intro s hl
      have h1 : (OutAct.attempt [.run .raises [.fail .valueError]]).exec s = (.ok (), { s with out := .logger s.out }) := by
        rw [OutAct.exec]
        unfold M.tryCatch
        rw [OutAct.execs, M.bind_run, run_exec, if_pos hl, stdoutAlsoLogged_run]
        rfl
      rw [failingRuns, OutAct.execs]
      refine (M.bind_ok h1).trans ((ih { s with out := .logger s.out } hl).trans ?_)
      rw [Nat.add_comm, ← wrapped_wrapped]
      rfl
  exact ⟨_, key n s hl, rfl⟩

/-- After a logged run that raised, what is printed outside of runs is no longer written but logged. -/
example : ((OutAct.execs [.attempt [.run .raises [.fail .valueError]], .print "x"] ⟨.stream 1, true, [], []⟩).2.written,
    (OutAct.execs [.attempt [.run .raises [.fail .valueError]], .print "x"] ⟨.stream 1, true, [], []⟩).2.logged) =
    (([], ["x"]) : List (Nat × String) × List String) := by
  rfl

/-- Nested runs that return, one of them without logging. -/
example : ∃ s', OutAct.execs [.run .raises [.print "a", .run .raises [.print "b", .setLog false], .run .raises [.print "c"]],
    .print "d"] ⟨.stream 1, true, [], []⟩ = (.ok (), s') ∧ s'.out = .stream 1 ∧ s'.logged = ["a", "b", "c"] ∧
    s'.written = [(1, "d")] := by
  refine ⟨_, rfl, rfl, rfl, rfl⟩

end Verif.Props

import Verif.Model.Options

/-
Property theorems about options and the log file handler: C49, C50.
-/

namespace Verif.Props
open Verif.Py Verif.Model

/-! ### Specification -/

/-- The folders that file handlers write to, in order. -/
def fileFolders (s : Opts) : List OptVal :=
  s.handlers.filterMap (fun h => match h with
    | .file f _ _ => some f
    | .other _ => none)

/-- The file handlers are those the option asks for: none without folder, one for a folder. -/
def Matching (s : Opts) : Prop :=
  fileFolders s = if s.vals .logFolder = .none then [] else [s.vals .logFolder]

mutual
/-- A program that sets the folder to one folder or to `None` only, uses the options as options, and adds no file
handlers itself. -/
def OneFolder (F : OptVal) : OptOp → Prop
  | .setOption attr v => attr = "log_folder" → v = .none ∨ v = F
  | .setOptions sets => ∀ p ∈ sets, p.1 = "log_folder" → p.2 = .none ∨ p.2 = F
  | .assign _ => False
  | .handler h => h.isFile = false
  | .attempt body => OneFolders F body
  | .within sets body => (∀ p ∈ sets, p.1 = "log_folder" → p.2 = .none ∨ p.2 = F) ∧ OneFolders F body
  | .resetOption _ => True
  | .resetOptions _ => True
  | .reset => True
  | .fail _ => True
def OneFolders (F : OptVal) : List OptOp → Prop
  | [] => True
  | o :: os => OneFolder F o ∧ OneFolders F os
end

/-! ### Lemmas -/

theorem fileFolders_length (s : Opts) : (fileFolders s).length = (s.handlers.filter Handler.isFile).length := by
  unfold fileFolders
  induction s.handlers with
  | nil => rfl
  | cons h t ih =>
    cases h with
    | file =>
      rw [List.filter_cons_of_pos rfl, List.length_cons, ← ih]
      rfl
    | other =>
      rw [List.filter_cons_of_neg (by simp [Handler.isFile]), ← ih]
      rfl

theorem addFileHandler_run (fails : HandlerFails) (s : Opts) (h : s.vals .logFolder ≠ .none) :
    addFileHandler fails s = match fails (s.vals .logFolder) (s.vals .rolloverFreq) (s.vals .numKeep) with
      | some e => (.error e, s)
      | none => (.ok (), { s with
          handlers := s.handlers ++ [.file (s.vals .logFolder) (s.vals .rolloverFreq) (s.vals .numKeep)] }) := by
  unfold addFileHandler
  rw [M.bind_run]
  simp only [M.get_run, if_neg h]
  cases fails (s.vals .logFolder) (s.vals .rolloverFreq) (s.vals .numKeep) <;> rfl

theorem removeFileHandler_run (s : Opts) :
    removeFileHandler s = if (fileFolders s).length ≠ 1 then (.error .valueError, s)
      else (.ok (), { s with handlers := s.handlers.filter (fun h => !h.isFile) }) := by
  unfold removeFileHandler
  rw [M.bind_run]
  simp only [M.get_run, fileFolders_length]
  split <;> rfl

theorem setValue_run (fails : HandlerFails) (n : OptName) (v : OptVal) (s : Opts) :
    setValue fails n v s =
      if n = .logFolder ∧ s.vals n ≠ v then
        if v ≠ .none then addFileHandler fails (s.write n v) else removeFileHandler (s.write n v)
      else (.ok (), s.write n v) := by
  unfold setValue
  rw [M.bind_run]
  simp only [M.get_run]
  rw [M.bind_run]
  simp only [M.modify_run]
  split
  · split <;> rfl
  · rfl

@[simp] theorem write_vals (s : Opts) (n m : OptName) (v : OptVal) :
    (s.write n v).vals m = if m = n then v else s.vals m := rfl

@[simp] theorem write_fileFolders (s : Opts) (n : OptName) (v : OptVal) : fileFolders (s.write n v) = fileFolders s := rfl

@[simp] theorem write_isOption (s : Opts) (n : OptName) (v : OptVal) : (s.write n v).isOption = s.isOption := rfl

/-- Setting a value changes the value and possibly the handlers. -/
theorem setValue_frame (fails : HandlerFails) (n : OptName) (v : OptVal) (s : Opts) :
    (setValue fails n v s).2.vals = (s.write n v).vals ∧ (setValue fails n v s).2.isOption = s.isOption := by
  rw [setValue_run]
  split
  · next h =>
    obtain ⟨rfl, _⟩ := h
    split
    · next hv =>
      rw [addFileHandler_run _ _ (by simpa using hv)]
      split <;> exact ⟨rfl, rfl⟩
    · rw [removeFileHandler_run]
      split <;> exact ⟨rfl, rfl⟩
  · exact ⟨rfl, rfl⟩

theorem optionNamed_run (attr : String) (s : Opts) :
    optionNamed attr s = match OptName.all.find? (fun n => n.attr = attr) with
      | some n => if s.isOption n then (.ok n, s) else (.error .attributeError, s)
      | none => (.error .attributeError, s) := by
  unfold optionNamed
  rw [M.bind_run]
  simp only [M.get_run]
  cases OptName.all.find? (fun n => n.attr = attr) with
  | none => rfl
  | some n => cases h : s.isOption n <;> simp [h]

theorem find_attr (n : OptName) : OptName.all.find? (fun m => m.attr = n.attr) = some n := by
  cases n <;> decide

theorem attr_of_find {attr : String} {n : OptName} (h : OptName.all.find? (fun m => m.attr = attr) = some n) :
    n.attr = attr := by
  have := List.find?_some h
  simpa using this

theorem attr_inj {n m : OptName} (h : n.attr = m.attr) : n = m := by
  cases n <;> cases m <;> first | rfl | (exact absurd h (by decide))

/-- Using an option by its name: it is an option, or nothing happens. -/
theorem withOption_cases (attr : String) (f : OptName → OM Unit) (s : Opts) :
    (∃ n, n.attr = attr ∧ s.isOption n = true ∧ (optionNamed attr >>= f) s = f n s) ∨
      (optionNamed attr >>= f) s = (.error .attributeError, s) := by
  rw [M.bind_run, optionNamed_run]
  split
  · next h =>
    split at h
    · next n hn =>
      split at h
      · next hi => cases h; exact .inl ⟨_, attr_of_find hn, hi, rfl⟩
      · cases h
    · cases h
  · next h =>
    split at h
    · split at h
      · cases h
      · cases h; exact .inr rfl
    · cases h; exact .inr rfl

theorem setOption_cases (fails : HandlerFails) (attr : String) (v : OptVal) (s : Opts) :
    (∃ n, n.attr = attr ∧ s.isOption n = true ∧ setOption fails attr v s = setValue fails n v s) ∨
      setOption fails attr v s = (.error .attributeError, s) :=
  withOption_cases attr (fun n => setValue fails n v) s

theorem resetOption_cases (fails : HandlerFails) (attr : String) (s : Opts) :
    (∃ n, n.attr = attr ∧ s.isOption n = true ∧ resetOption fails attr s = setValue fails n n.default s) ∨
      resetOption fails attr s = (.error .attributeError, s) :=
  withOption_cases attr (fun n => setValue fails n n.default) s

theorem resetOption_attr (fails : HandlerFails) (n : OptName) (s : Opts) :
    resetOption fails n.attr s = if s.isOption n then setValue fails n n.default s else (.error .attributeError, s) := by
  unfold resetOption
  rw [M.bind_run, optionNamed_run, find_attr]
  cases h : s.isOption n <;> simp [h]

/-! ## C49 -/

/-- The names of the options in Python (opts/__init__.py:27-32). -/
def pythonName : OptName → String
  | .logStdout => "log_stdout"
  | .logFolder => "log_folder"
  | .rolloverFreq => "log_file_rollover_freq"
  | .numKeep => "log_file_num_keep"

/-- C49. Each option is set and reset by its name; other names are an `AttributeError` and change nothing. -/
theorem C49_names (fails : HandlerFails) (v : OptVal) (s : Opts) :
    (∀ n, s.isOption n = true → setOption fails (pythonName n) v s = setValue fails n v s ∧
      resetOption fails (pythonName n) s = setValue fails n n.default s) ∧
    ∀ x, (∀ n, x ≠ pythonName n) → setOption fails x v s = (.error .attributeError, s) ∧
      resetOption fails x s = (.error .attributeError, s) := by
  have hname : ∀ n, OptName.attr n = pythonName n := by intro n; cases n <;> rfl
  constructor
  · intro n hn
    rw [← hname]
    refine ⟨?_, by rw [resetOption_attr, if_pos hn]⟩
    unfold setOption
    rw [M.bind_run, optionNamed_run, find_attr]
    simp [hn]
  · intro x hx
    constructor
    · rcases setOption_cases fails x v s with ⟨n, hn, -⟩ | h
      · exact absurd (hn.symm.trans (hname n)) (hx n)
      · exact h
    · rcases resetOption_cases fails x s with ⟨n, hn, -⟩ | h
      · exact absurd (hn.symm.trans (hname n)) (hx n)
      · exact h

/-- C49. Setting an option changes no other option, whether it raises or not. -/
theorem C49_set_only (fails : HandlerFails) (attr : String) (v : OptVal) (s : Opts) (m : OptName) (hm : m.attr ≠ attr) :
    (setOption fails attr v s).2.vals m = s.vals m := by
  rcases setOption_cases fails attr v s with ⟨n, hn, _, he⟩ | he
  · rw [he, (setValue_frame fails n v s).1, write_vals, if_neg]
    rintro rfl
    exact hm hn
  · rw [he]

/-- C49. A set option has the value. -/
theorem C49_set_value (fails : HandlerFails) (attr : String) (v : OptVal) (s s' : Opts)
    (h : setOption fails attr v s = (.ok (), s')) : ∃ n, n.attr = attr ∧ s'.vals n = v := by
  rcases setOption_cases fails attr v s with ⟨n, hn, _, he⟩ | he
  · refine ⟨n, hn, ?_⟩
    have := (setValue_frame fails n v s).1
    rw [← he, h] at this
    show s'.vals n = v
    rw [this, write_vals, if_pos rfl]
  · rw [he] at h; cases h

/-- Resetting one after the other. -/
theorem reset_step (fails : HandlerFails) (n : OptName) (rest : List String) (s : Opts) :
    resetOptions fails (n.attr :: rest) s =
      if s.isOption n then
        match setValue fails n n.default s with
        | (.ok _, s') => resetOptions fails rest s'
        | (.error e, s') => (.error e, s')
      else (.error .attributeError, s) := by
  rw [resetOptions, M.bind_run, resetOption_attr]
  by_cases h : s.isOption n = true
  · rw [if_pos h, if_pos h]
    cases setValue fails n n.default s with
    | mk r s' => cases r <;> rfl
  · rw [if_neg h, if_neg h]

theorem setValue_plain (fails : HandlerFails) {n : OptName} (hn : n ≠ .logFolder) (v : OptVal) (s : Opts) :
    setValue fails n v s = (.ok (), s.write n v) := by
  rw [setValue_run, if_neg (fun h => hn h.1)]

/-- Resetting the folder. -/
theorem setValue_folder_none (fails : HandlerFails) (s : Opts) :
    setValue fails .logFolder .none s =
      if s.vals .logFolder = .none then (.ok (), s.write .logFolder .none)
      else if (fileFolders s).length ≠ 1 then (.error .valueError, s.write .logFolder .none)
      else (.ok (), { s.write .logFolder .none with handlers := s.handlers.filter (fun h => !h.isFile) }) := by
  rw [setValue_run]
  by_cases h : s.vals .logFolder = .none
  · rw [if_neg (by simp [h]), if_pos h]
  · rw [if_pos ⟨rfl, h⟩, if_neg (by simp), if_neg h, removeFileHandler_run]
    rfl

/-- Exactly what resetting does. -/
theorem resetAll_run (fails : HandlerFails) (s : Opts) (ho : ∀ n, s.isOption n = true) :
    ((s.vals .logFolder = .none ∨ (fileFolders s).length = 1) ∧ ∃ s', resetAll fails s = (.ok (), s') ∧
        s'.vals = OptName.default ∧ s'.isOption = s.isOption ∧
        s'.handlers = if s.vals .logFolder = .none then s.handlers else s.handlers.filter (fun h => !h.isFile)) ∨
      (¬ (s.vals .logFolder = .none ∨ (fileFolders s).length = 1) ∧
        resetAll fails s = (.error .valueError, (s.write .logStdout (.bool false)).write .logFolder .none)) := by
  unfold resetAll OptName.all
  simp only [List.map_cons, List.map_nil]
  rw [reset_step, if_pos (ho _), setValue_plain fails (by decide)]
  simp only
  rw [reset_step, if_pos (by exact ho _)]
  simp only [OptName.default]
  rw [setValue_folder_none]
  have e1 : (s.write .logStdout (.bool false)).vals .logFolder = s.vals .logFolder := by simp
  rw [e1]
  by_cases h : s.vals .logFolder = .none
  · left
    refine ⟨.inl h, ?_⟩
    rw [if_pos h]
    simp only
    rw [reset_step, if_pos (by exact ho _), setValue_plain fails (by decide)]
    simp only
    rw [reset_step, if_pos (by exact ho _), setValue_plain fails (by decide)]
    simp only
    refine ⟨_, rfl, ?_, rfl, ?_⟩
    · funext n
      cases n <;> rfl
    · rw [if_pos h]; rfl
  · rw [if_neg h]
    by_cases hl : (fileFolders s).length = 1
    · left
      refine ⟨.inr hl, ?_⟩
      rw [if_neg (by simpa using hl)]
      simp only
      rw [reset_step, if_pos (by exact ho _), setValue_plain fails (by decide)]
      simp only
      rw [reset_step, if_pos (by exact ho _), setValue_plain fails (by decide)]
      simp only
      refine ⟨_, rfl, ?_, rfl, ?_⟩
      · funext n
        cases n <;> rfl
      · rw [if_neg h]; rfl
    · right
      refine ⟨fun hh => hh.elim h hl, ?_⟩
      rw [if_pos (by simpa using hl)]

theorem resetAll_isOption (fails : HandlerFails) {s s' : Opts} (h : resetAll fails s = (.ok (), s')) :
    ∀ n, s.isOption n = true := by
  unfold resetAll OptName.all at h
  simp only [List.map_cons, List.map_nil] at h
  intro n
  rw [reset_step] at h
  split at h
  · next h1 =>
    rw [setValue_plain fails (by decide)] at h
    simp only at h
    rw [reset_step] at h
    split at h
    · next h2 =>
      have hf := (setValue_frame fails .logFolder OptName.logFolder.default (s.write .logStdout OptName.logStdout.default)).2
      split at h
      · next he =>
        rw [he] at hf
        rw [reset_step] at h
        split at h
        · next h3 =>
          rw [setValue_plain fails (by decide)] at h
          simp only at h
          rw [reset_step] at h
          split at h
          · next h4 =>
            simp only [write_isOption] at hf h1 h2 h3 h4
            rw [hf] at h3 h4
            cases n <;> assumption
          · cases h
        · cases h
      · cases h
    · cases h
  · cases h

/-- C49. Resetting succeeds exactly if the options were not overwritten and there is the one handler to remove; every
option then has its default. -/
theorem C49_reset (fails : HandlerFails) (s : Opts) :
    (∃ s', resetAll fails s = (.ok (), s')) ↔
      (∀ n, s.isOption n = true) ∧ (s.vals .logFolder = .none ∨ (fileFolders s).length = 1) := by
  constructor
  · rintro ⟨s', h⟩
    have ho := resetAll_isOption fails h
    refine ⟨ho, ?_⟩
    rcases resetAll_run fails s ho with ⟨h1, _⟩ | ⟨_, h2⟩
    · exact h1
    · rw [h2] at h; cases h
  · rintro ⟨ho, h1⟩
    rcases resetAll_run fails s ho with ⟨_, s', h2, _⟩ | ⟨h2, _⟩
    · exact ⟨s', h2⟩
    · exact absurd h1 h2

/-- C49. After a reset every option has its default value. -/
theorem C49_reset_default (fails : HandlerFails) (s s' : Opts) (h : resetAll fails s = (.ok (), s')) (n : OptName) :
    s'.vals n = n.default := by
  rcases resetAll_run fails s (resetAll_isOption fails h) with ⟨_, s'', h2, hv, _⟩ | ⟨_, h2⟩
  · rw [h2] at h; cases h; rw [hv]
  · rw [h2] at h; cases h

/-- C49. After leaving the context manager every option has its default value. -/
theorem C49_exit_default (fails : HandlerFails) (sets : List (String × OptVal)) (body : List OptOp) (s s' : Opts)
    (h : (OptOp.within sets body).exec fails s = (.ok (), s')) (n : OptName) : s'.vals n = n.default := by
  rw [OptOp.exec, M.bind_run] at h
  split at h
  · unfold exitWith at h
    split at h
    next r s2 hb =>
    split at h
    · next s3 hr =>
      cases h
      exact C49_reset_default fails _ _ hr n
    · cases h
  · cases h

/-- C49 fails for the context manager unless the options were the defaults when it was entered: it does not restore
them. -/
theorem C49_restores_iff_violated (fails : HandlerFails) (sets : List (String × OptVal)) (body : List OptOp) (s s' : Opts)
    (h : (OptOp.within sets body).exec fails s = (.ok (), s')) :
    (∀ n, s'.vals n = s.vals n) ↔ ∀ n, s.vals n = n.default := by
  have := C49_exit_default fails sets body s s' h
  constructor
  · intro he n
    rw [← he n, this n]
  · intro hd n
    rw [this n, hd n]

/-- Setting `log_stdout`, then a context manager for `log_file_num_keep`: `log_stdout` is off afterwards. -/
example : ∃ s', OptOp.execs (fun _ _ _ => none) [.setOption "log_stdout" (.bool true),
    .within [("log_file_num_keep", .int 3)] []] Opts.initial = (.ok (), s') ∧ s'.vals .logStdout = .bool false :=
  ⟨_, rfl, rfl⟩

/-- C49 fails if the folder is set and the handlers do not match: the options that come later keep their values. -/
theorem C49_reset_stops_violated (fails : HandlerFails) (s : Opts) (ho : ∀ n, s.isOption n = true)
    (hf : s.vals .logFolder ≠ .none) (hl : (fileFolders s).length ≠ 1) :
    ∃ s', resetAll fails s = (.error .valueError, s') ∧ s'.vals .rolloverFreq = s.vals .rolloverFreq ∧
      s'.vals .numKeep = s.vals .numKeep ∧ fileFolders s' = fileFolders s := by
  rcases resetAll_run fails s ho with ⟨h | h, _⟩ | ⟨_, h2⟩
  · exact absurd h hf
  · exact absurd h hl
  · exact ⟨_, h2, rfl, rfl, rfl⟩

/-- C49 fails for the documented `options.log_stdout = True`: the option keeps its value, and the reset raises. -/
theorem C49_assign_violated (fails : HandlerFails) (n : OptName) (s : Opts) :
    ∃ s', (OptOp.assign n).exec fails s = (.ok (), s') ∧ s'.vals = s.vals ∧ ¬ ∃ s'', resetAll fails s' = (.ok (), s'') := by
  refine ⟨{ s with isOption := fun m => if m = n then false else s.isOption m }, by rw [OptOp.exec]; rfl, rfl, ?_⟩
  rw [C49_reset]
  rintro ⟨h, _⟩
  have := h n
  simp at this

/-! ## C50 -/

theorem matching_setValue (fails : HandlerFails) (s : Opts) (n : OptName) (v : OptVal) (hm : Matching s)
    (hf : ∀ a b c, fails a b c = none)
    (hv : n = .logFolder → v = .none ∨ s.vals .logFolder = .none ∨ v = s.vals .logFolder) :
    ∃ s', setValue fails n v s = (.ok (), s') ∧ Matching s' := by
  by_cases hn : n = .logFolder
  · subst hn
    rw [setValue_run]
    by_cases he : s.vals .logFolder = v
    · rw [if_neg (by simp [he])]
      refine ⟨_, rfl, ?_⟩
      unfold Matching at hm ⊢
      rw [write_fileFolders, hm]
      simp [he]
    · rw [if_pos ⟨rfl, he⟩]
      by_cases hvn : v = .none
      · subst hvn
        rw [if_neg (by simp), removeFileHandler_run, write_fileFolders]
        unfold Matching at hm
        rw [if_neg he] at hm
        rw [hm, if_neg (by simp)]
        refine ⟨_, rfl, ?_⟩
        unfold Matching fileFolders
        simp only [write_vals, if_true]
        rw [List.filterMap_filter]
        rw [List.filterMap_eq_nil_iff]
        intro h _
        cases h <;> simp [Handler.isFile]
      · rw [if_pos hvn, addFileHandler_run _ _ (by simpa using hvn), hf]
        refine ⟨_, rfl, ?_⟩
        have h0 : s.vals .logFolder = .none := by
          rcases hv rfl with h | h | h
          · exact absurd h hvn
          · exact h
          · exact absurd h.symm he
        unfold Matching at hm ⊢
        rw [if_pos h0] at hm
        unfold fileFolders at hm ⊢
        have e : (s.write .logFolder v).handlers = s.handlers := rfl
        simp only [e, List.filterMap_append]
        rw [hm]
        simp [hvn]
  · rw [setValue_plain fails hn]
    refine ⟨_, rfl, ?_⟩
    unfold Matching at hm ⊢
    rw [write_fileFolders, hm]
    have : ¬ OptName.logFolder = n := fun h => hn h.symm
    simp [this]

/-- C50. Setting the folder keeps the handlers right if there was no folder before, or the option is set to the same
folder or to `None`. -/
theorem C50_set_partial (fails : HandlerFails) (s : Opts) (v : OptVal) (hm : Matching s) (ho : s.isOption .logFolder = true)
    (hf : ∀ a b c, fails a b c = none) (hv : v = .none ∨ s.vals .logFolder = .none ∨ v = s.vals .logFolder) :
    ∃ s', setOption fails "log_folder" v s = (.ok (), s') ∧ Matching s' ∧ s'.vals .logFolder = v := by
  obtain ⟨s', h, hm'⟩ := matching_setValue fails s .logFolder v hm hf (fun _ => hv)
  have he : setOption fails "log_folder" v s = setValue fails .logFolder v s := by
    unfold setOption
    rw [M.bind_run, optionNamed_run]
    have : OptName.all.find? (fun n => n.attr = "log_folder") = some .logFolder := by decide
    rw [this]
    simp [ho]
  refine ⟨s', he.trans h, hm', ?_⟩
  have := (setValue_frame fails .logFolder v s).1
  rw [h] at this
  show s'.vals _ = v
  rw [this]
  simp

/-- What holds throughout a program with one folder. -/
structure Good (F : OptVal) (s : Opts) : Prop where
  matching : Matching s
  folder : s.vals .logFolder = .none ∨ s.vals .logFolder = F
  options : ∀ n, s.isOption n = true

theorem good_setValue {fails : HandlerFails} {F : OptVal} {s : Opts} {n : OptName} {v : OptVal} (hg : Good F s)
    (hf : ∀ a b c, fails a b c = none) (hv : n = .logFolder → v = .none ∨ v = F) :
    ∃ s', setValue fails n v s = (.ok (), s') ∧ Good F s' := by
  obtain ⟨s', h, hm⟩ := matching_setValue fails s n v hg.matching hf (by
    intro hn
    rcases hv hn with h | h
    · exact .inl h
    · rcases hg.folder with h' | h'
      · exact .inr (.inl h')
      · exact .inr (.inr (h.trans h'.symm)))
  obtain ⟨f1, f2⟩ := setValue_frame fails n v s
  rw [h] at f1 f2
  refine ⟨s', h, hm, ?_, fun m => by rw [show s'.isOption = s.isOption from f2]; exact hg.options m⟩
  rw [show s'.vals = (s.write n v).vals from f1, write_vals]
  split
  · next hn => exact hv hn.symm
  · exact hg.folder

theorem good_setOption {fails : HandlerFails} {F : OptVal} {s : Opts} {attr : String} {v : OptVal} (hg : Good F s)
    (hf : ∀ a b c, fails a b c = none) (hv : attr = "log_folder" → v = .none ∨ v = F) :
    Good F (setOption fails attr v s).2 := by
  rcases setOption_cases fails attr v s with ⟨n, hn, _, he⟩ | he
  · obtain ⟨s', h, hg'⟩ := good_setValue (n := n) (v := v) hg hf (fun h => hv (by rw [← hn, h]; rfl))
    rw [he, h]; exact hg'
  · rw [he]; exact hg

theorem good_setOptions {fails : HandlerFails} {F : OptVal} (hf : ∀ a b c, fails a b c = none)
    (sets : List (String × OptVal)) {s : Opts} (hg : Good F s)
    (hv : ∀ p ∈ sets, p.1 = "log_folder" → p.2 = .none ∨ p.2 = F) : Good F (setOptions fails sets s).2 := by
  induction sets generalizing s with
  | nil => exact hg
  | cons p rest ih =>
    obtain ⟨attr, v⟩ := p
    rw [setOptions, M.bind_run]
    have := good_setOption (attr := attr) (v := v) hg hf (hv (attr, v) List.mem_cons_self)
    split
    · next he => rw [he] at this; exact ih this (fun q hq => hv q (List.mem_cons_of_mem _ hq))
    · next he => rw [he] at this; exact this

theorem good_resetOption {fails : HandlerFails} {F : OptVal} {s : Opts} {attr : String} (hg : Good F s)
    (hf : ∀ a b c, fails a b c = none) : Good F (resetOption fails attr s).2 := by
  rcases resetOption_cases fails attr s with ⟨n, hn, _, he⟩ | he
  · obtain ⟨s', h, hg'⟩ := good_setValue (n := n) (v := n.default) hg hf (fun h => by subst h; exact .inl rfl)
    rw [he, h]; exact hg'
  · rw [he]; exact hg

theorem good_resetOptions {fails : HandlerFails} {F : OptVal} (hf : ∀ a b c, fails a b c = none) (attrs : List String)
    {s : Opts} (hg : Good F s) : Good F (resetOptions fails attrs s).2 := by
  induction attrs generalizing s with
  | nil => exact hg
  | cons attr rest ih =>
    rw [resetOptions, M.bind_run]
    have := good_resetOption (attr := attr) hg hf
    split
    · next he => rw [he] at this; exact ih this
    · next he => rw [he] at this; exact this

mutual
theorem good_exec {fails : HandlerFails} {F : OptVal} (hf : ∀ a b c, fails a b c = none) (o : OptOp) (ho : OneFolder F o)
    (s : Opts) (hg : Good F s) : Good F (o.exec fails s).2 := by
  match o with
  | .setOption attr v =>
    rw [OneFolder] at ho; rw [OptOp.exec]; exact good_setOption hg hf ho
  | .setOptions sets =>
    rw [OneFolder] at ho; rw [OptOp.exec]; exact good_setOptions hf sets hg ho
  | .resetOption attr => rw [OptOp.exec]; exact good_resetOption hg hf
  | .resetOptions attrs => rw [OptOp.exec]; exact good_resetOptions hf attrs hg
  | .reset => rw [OptOp.exec]; exact good_resetOptions hf _ hg
  | .assign n => rw [OneFolder] at ho; exact ho.elim
  | .handler h =>
    rw [OneFolder] at ho
    rw [OptOp.exec]
    refine ⟨?_, hg.folder, hg.options⟩
    have := hg.matching
    unfold Matching fileFolders at this ⊢
    simp only [M.modify_run, List.filterMap_append]
    rw [this]
    cases h with
    | file => simp [Handler.isFile] at ho
    | other => exact List.append_nil _
  | .fail e => rw [OptOp.exec]; exact hg
  | .attempt body =>
    rw [OneFolder] at ho
    rw [OptOp.exec]
    have := good_execs hf body ho s hg
    unfold M.tryCatch
    split
    · next he => rw [he] at this; exact this
    · next he => rw [he] at this; exact this
  | .within sets body =>
    rw [OneFolder] at ho
    rw [OptOp.exec, M.bind_run]
    have h1 := good_setOptions hf sets hg ho.1
    split
    · next s1 he =>
      rw [he] at h1
      have h2 := good_execs hf body ho.2 s1 h1
      unfold exitWith
      split
      next r s2 hb =>
      rw [hb] at h2
      have h3 : Good F (resetAll fails s2).2 := good_resetOptions hf _ h2
      split
      · next hr => rw [hr] at h3; exact h3
      · next hr => rw [hr] at h3; exact h3
    · next he => rw [he] at h1; exact h1
theorem good_execs {fails : HandlerFails} {F : OptVal} (hf : ∀ a b c, fails a b c = none) (os : List OptOp)
    (ho : OneFolders F os) (s : Opts) (hg : Good F s) : Good F (OptOp.execs fails os s).2 := by
  match os with
  | [] => rw [OptOp.execs]; exact hg
  | o :: os =>
    rw [OneFolders] at ho
    rw [OptOp.execs, M.bind_run]
    have h1 := good_exec hf o ho.1 s hg
    split
    · next s1 he => rw [he] at h1; exact good_execs hf os ho.2 s1 h1
    · next he => rw [he] at h1; exact h1
end

/-- C50. In every program that uses one folder, with context managers and exceptions nested in any way, there is a file
handler exactly when the folder is set, it writes to that folder, and resetting does not fail. -/
theorem C50_one_folder_partial (fails : HandlerFails) (hf : ∀ a b c, fails a b c = none) (F : OptVal) (os : List OptOp)
    (ho : OneFolders F os) :
    Matching (OptOp.execs fails os Opts.initial).2 ∧ ∃ s', resetAll fails (OptOp.execs fails os Opts.initial).2 = (.ok (), s') := by
  have hg : Good F (OptOp.execs fails os Opts.initial).2 :=
    good_execs hf os ho Opts.initial ⟨rfl, .inl rfl, fun _ => rfl⟩
  refine ⟨hg.matching, (C49_reset _ _).2 ⟨hg.options, ?_⟩⟩
  by_cases h : (OptOp.execs fails os Opts.initial).2.vals .logFolder = .none
  · exact .inl h
  · right
    have := hg.matching
    unfold Matching at this
    rw [if_neg h] at this
    rw [this]
    rfl

/-- A program with everything in it. -/
example : OneFolders (.str "logs") [.setOption "log_folder" (.str "logs"),
    .attempt [.within [("log_stdout", .bool true), ("log_folder", .str "logs")] [.reset, .fail .valueError]],
    .handler (.other 1), .setOptions [("log_folder", .none)], .resetOption "nothing"] := by
  simp [OneFolders, OneFolder, Handler.isFile]

/-- The state after a folder was set. -/
def withFolder (s : Opts) (v : OptVal) : Opts :=
  { s.write .logFolder v with handlers := s.handlers ++ [.file v (s.vals .rolloverFreq) (s.vals .numKeep)] }

theorem setOption_folder {fails : HandlerFails} (hf : ∀ a b c, fails a b c = none) (s : Opts) (v : OptVal)
    (ho : s.isOption .logFolder = true) (hv : v ≠ .none) (hne : s.vals .logFolder ≠ v) :
    setOption fails "log_folder" v s = (.ok (), withFolder s v) := by
  unfold setOption
  rw [M.bind_run, optionNamed_run]
  have : OptName.all.find? (fun n => n.attr = "log_folder") = some .logFolder := by decide
  rw [this]
  simp only [ho, if_true]
  rw [setValue_run, if_pos ⟨rfl, hne⟩, if_pos hv, addFileHandler_run _ _ (by simpa using hv), hf]
  rfl

/-- C50 fails if the folder is set to another one while it is set: there are two handlers and the reset raises. -/
theorem C50_twice_violated (fails : HandlerFails) (hf : ∀ a b c, fails a b c = none) (a b : OptVal) (ha : a ≠ .none)
    (hb : b ≠ .none) (hab : a ≠ b) :
    ∃ s', OptOp.execs fails [.setOption "log_folder" a, .setOption "log_folder" b] Opts.initial = (.ok (), s') ∧
      fileFolders s' = [a, b] ∧ ∃ s'', resetAll fails s' = (.error .valueError, s'') := by
  have e1 := setOption_folder hf Opts.initial a rfl ha (fun h => ha h.symm)
  have e2 := setOption_folder hf (withFolder Opts.initial a) b rfl hb (by simpa [withFolder] using hab)
  refine ⟨withFolder (withFolder Opts.initial a) b, ?_, rfl, ?_⟩
  · rw [OptOp.execs, OptOp.exec, M.bind_ok e1, OptOp.execs, OptOp.exec, M.bind_ok e2, OptOp.execs]
    rfl
  · obtain ⟨s', h, _⟩ := C49_reset_stops_violated fails (withFolder (withFolder Opts.initial a) b) (fun _ => rfl)
      (by simpa [withFolder] using hb) (show (2 : Nat) ≠ 1 by decide)
    exact ⟨s', h⟩

/-- The number of file handlers is kept from two on. -/
theorem atLeastTwo_setValue (fails : HandlerFails) (n : OptName) (v : OptVal) (s : Opts) (h : 2 ≤ (fileFolders s).length) :
    2 ≤ (fileFolders (setValue fails n v s).2).length := by
  rw [setValue_run]
  split
  · next hn =>
    obtain ⟨rfl, _⟩ := hn
    split
    · next hv =>
      rw [addFileHandler_run _ _ (by simpa using hv)]
      split
      · exact h
      · have : fileFolders { s.write .logFolder v with handlers := (s.write .logFolder v).handlers ++
            [.file ((s.write .logFolder v).vals .logFolder) ((s.write .logFolder v).vals .rolloverFreq)
              ((s.write .logFolder v).vals .numKeep)] } = fileFolders s ++ [(s.write .logFolder v).vals .logFolder] := by
          unfold fileFolders
          rw [List.filterMap_append]
          rfl
        rw [this]
        simp
        omega
    · rw [removeFileHandler_run, if_pos (by rw [write_fileFolders]; omega)]
      exact h
  · exact h

theorem atLeastTwo_bind {α β : Type} {m : OM α} {f : α → OM β}
    (hm : ∀ s, 2 ≤ (fileFolders s).length → 2 ≤ (fileFolders (m s).2).length)
    (hf : ∀ a s, 2 ≤ (fileFolders s).length → 2 ≤ (fileFolders (f a s).2).length) (s : Opts)
    (h : 2 ≤ (fileFolders s).length) : 2 ≤ (fileFolders ((m >>= f) s).2).length := by
  rw [M.bind_run]
  have := hm s h
  split
  · next he => rw [he] at this; exact hf _ _ this
  · next he => rw [he] at this; exact this

theorem atLeastTwo_named (attr : String) (s : Opts) (h : 2 ≤ (fileFolders s).length) :
    2 ≤ (fileFolders (optionNamed attr s).2).length := by
  rw [optionNamed_run]
  split
  · split <;> exact h
  · exact h

theorem atLeastTwo_sets (fails : HandlerFails) (sets : List (String × OptVal)) (s : Opts) (h : 2 ≤ (fileFolders s).length) :
    2 ≤ (fileFolders (setOptions fails sets s).2).length := by
  induction sets generalizing s with
  | nil => exact h
  | cons p rest ih =>
    obtain ⟨attr, v⟩ := p
    rw [setOptions]
    exact atLeastTwo_bind (fun s h => atLeastTwo_bind (atLeastTwo_named attr) (fun n => atLeastTwo_setValue fails n v) s h)
      (fun _ => ih) s h

theorem atLeastTwo_resets (fails : HandlerFails) (attrs : List String) (s : Opts) (h : 2 ≤ (fileFolders s).length) :
    2 ≤ (fileFolders (resetOptions fails attrs s).2).length := by
  induction attrs generalizing s with
  | nil => exact h
  | cons attr rest ih =>
    rw [resetOptions]
    exact atLeastTwo_bind (fun s h => atLeastTwo_bind (atLeastTwo_named attr)
      (fun n => atLeastTwo_setValue fails n n.default) s h) (fun _ => ih) s h

mutual
theorem atLeastTwo_exec (fails : HandlerFails) (o : OptOp) (s : Opts) (h : 2 ≤ (fileFolders s).length) :
    2 ≤ (fileFolders (o.exec fails s).2).length := by
  match o with
  | .setOption attr v =>
    rw [OptOp.exec]
    exact atLeastTwo_bind (atLeastTwo_named attr) (fun n => atLeastTwo_setValue fails n v) s h
  | .setOptions sets => rw [OptOp.exec]; exact atLeastTwo_sets fails sets s h
  | .resetOption attr =>
    rw [OptOp.exec]
    exact atLeastTwo_bind (atLeastTwo_named attr) (fun n => atLeastTwo_setValue fails n n.default) s h
  | .resetOptions attrs => rw [OptOp.exec]; exact atLeastTwo_resets fails attrs s h
  | .reset => rw [OptOp.exec]; exact atLeastTwo_resets fails _ s h
  | .assign n => rw [OptOp.exec]; exact h
  | .handler hd =>
    rw [OptOp.exec]
    unfold fileFolders at h ⊢
    simp only [M.modify_run, List.filterMap_append, List.length_append]
    omega
  | .fail e => rw [OptOp.exec]; exact h
  | .attempt body =>
    rw [OptOp.exec]
    have := atLeastTwo_execs fails body s h
    unfold M.tryCatch
    split
    · next he => rw [he] at this; exact this
    · next he => rw [he] at this; exact this
  | .within sets body =>
    rw [OptOp.exec]
    refine atLeastTwo_bind (atLeastTwo_sets fails sets) (fun _ s h => ?_) s h
    have h2 := atLeastTwo_execs fails body s h
    unfold exitWith
    split
    next r s2 hb =>
    rw [hb] at h2
    have h3 : 2 ≤ (fileFolders (resetAll fails s2).2).length := atLeastTwo_resets fails _ s2 h2
    split
    · next hr => rw [hr] at h3; exact h3
    · next hr => rw [hr] at h3; exact h3
theorem atLeastTwo_execs (fails : HandlerFails) (os : List OptOp) (s : Opts) (h : 2 ≤ (fileFolders s).length) :
    2 ≤ (fileFolders (OptOp.execs fails os s).2).length := by
  match os with
  | [] => rw [OptOp.execs]; exact h
  | o :: os =>
    rw [OptOp.execs]
    exact atLeastTwo_bind (atLeastTwo_exec fails o) (fun _ => atLeastTwo_execs fails os) s h
end

/-- C50 fails for good once there are two handlers: nothing a program does with options removes one, and every reset
while a folder is set raises. -/
theorem C50_stuck_violated (fails : HandlerFails) (s : Opts) (h : 2 ≤ (fileFolders s).length) (os : List OptOp) :
    ¬ Matching (OptOp.execs fails os s).2 ∧
      ((OptOp.execs fails os s).2.vals .logFolder ≠ .none → ¬ ∃ s', resetAll fails (OptOp.execs fails os s).2 = (.ok (), s')) := by
  have h2 := atLeastTwo_execs fails os s h
  constructor
  · intro hm
    unfold Matching at hm
    rw [hm] at h2
    split at h2 <;> simp at h2
  · intro hne hr
    rcases ((C49_reset _ _).1 hr).2 with h3 | h3
    · exact hne h3
    · omega

/-- C50 fails if the handler cannot be created: the option is set without a handler, and the reset raises. -/
theorem C50_uncreated_violated (fails : HandlerFails) (s : Opts) (v : OptVal) (e : PyErr) (hv : v ≠ .none)
    (hs : s.vals .logFolder = .none) (hm : Matching s) (ho : ∀ n, s.isOption n = true)
    (hf : fails v (s.vals .rolloverFreq) (s.vals .numKeep) = some e) :
    ∃ s', setOption fails "log_folder" v s = (.error e, s') ∧ s'.vals .logFolder = v ∧ fileFolders s' = [] ∧
      ¬ ∃ s'', resetAll fails s' = (.ok (), s'') := by
  have he : setOption fails "log_folder" v s = (.error e, s.write .logFolder v) := by
    unfold setOption
    rw [M.bind_run, optionNamed_run]
    have : OptName.all.find? (fun n => n.attr = "log_folder") = some .logFolder := by decide
    rw [this]
    simp only [ho, if_true]
    rw [setValue_run, if_pos ⟨rfl, by rw [hs]; exact fun h => hv h.symm⟩, if_pos hv,
      addFileHandler_run _ _ (by simpa using hv)]
    simp [hf]
  have hff : fileFolders (s.write .logFolder v) = [] := by
    unfold Matching at hm
    rw [if_pos hs] at hm
    exact hm
  refine ⟨_, he, by simp, hff, ?_⟩
  intro hr
  rcases ((C49_reset _ _).1 hr).2 with h3 | h3
  · simp [hv] at h3
  · rw [hff] at h3; simp at h3

/-- C50 fails for the other settings of the handler if they are set after the folder. -/
theorem C50_settings_violated : ∃ s s' : Opts,
    OptOp.execs (fun _ _ _ => none) [.setOptions [("log_folder", .str "logs"), ("log_file_num_keep", .int 3)]] Opts.initial =
      (.ok (), s) ∧
    OptOp.execs (fun _ _ _ => none) [.setOptions [("log_file_num_keep", .int 3), ("log_folder", .str "logs")]] Opts.initial =
      (.ok (), s') ∧
    s.vals .numKeep = .int 3 ∧ s'.vals .numKeep = .int 3 ∧
    s.handlers = [.other 0, .file (.str "logs") (.str "D") (.int 0)] ∧
    s'.handlers = [.other 0, .file (.str "logs") (.str "D") (.int 3)] :=
  ⟨_, _, rfl, rfl, rfl, rfl, rfl, rfl⟩

/-- C50. A file handler can be added iff a log folder is set and the handler can be made; nothing changes otherwise. -/
theorem C50_add_handler (fails : HandlerFails) (s : Opts) :
    ((∃ s', addFileHandler fails s = (.ok (), s')) ↔
      s.vals .logFolder ≠ .none ∧ fails (s.vals .logFolder) (s.vals .rolloverFreq) (s.vals .numKeep) = none) ∧
    (∀ s', addFileHandler fails s = (.ok (), s') → s'.vals = s.vals ∧ fileFolders s' = fileFolders s ++ [s.vals .logFolder]) ∧
    (∀ e s', addFileHandler fails s = (.error e, s') → s' = s) ∧
    (s.vals .logFolder = .none → addFileHandler fails s = (.error .valueError, s)) := by
  unfold addFileHandler
  rw [M.bind_run, M.get_run]
  simp only
  by_cases hn : s.vals .logFolder = .none
  · rw [if_pos hn]
    refine ⟨⟨fun ⟨_, h⟩ => by (cases h), fun h => absurd hn h.1⟩, fun _ h => by (cases h), fun _ _ h => by (cases h; rfl),
      fun _ => rfl⟩
  · rw [if_neg hn]
    cases hf : fails (s.vals .logFolder) (s.vals .rolloverFreq) (s.vals .numKeep) with
    | some e =>
      refine ⟨⟨fun ⟨_, h⟩ => by (cases h), fun h => by simp at h⟩, fun _ h => by (cases h), fun _ _ h => by (cases h; rfl),
        fun h => absurd h hn⟩
    | none =>
      refine ⟨⟨fun _ => ⟨hn, rfl⟩, fun _ => ⟨_, rfl⟩⟩, ?_, fun _ _ h => by (cases h), fun h => absurd h hn⟩
      intro s' h
      cases h
      refine ⟨rfl, ?_⟩
      simp [fileFolders]

end Verif.Props

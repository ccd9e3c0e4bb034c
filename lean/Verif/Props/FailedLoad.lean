import Verif.Model.FailedLoad
import Verif.Props.Session
import Verif.Props.Selector

/-
Property theorems about loads that fail: C94.
-/

namespace Verif.Props
open Verif.Py Verif.Model

variable {V L : Type}

/-! ### Specification -/

/-- The definitions in the files can be read, and their names do not clash. -/
def GoodDefinitions (env : FsEnv) (lang : DefLang V L) (folder : String) (classes : List ClassConfig) (fs : Fs) : Prop :=
  ∃ r, ReadsAll env lang folder classes fs r ∧ NamesDiffer r

/-- Every operation of the runner gives the same in both managers, and leaves the same runner. -/
def WorkAlike (m m' : Managed V) : Prop :=
  ∀ (α : Type) (op : RM V α), (Managed.on op m).1 = (Managed.on op m').1 ∧ (Managed.on op m).2.runner = (Managed.on op m').2.runner

/-- The runner has the registrars of the manager. -/
def Managed.Whole (m : Managed V) : Prop := m.shared = true ∧ ∃ rs, m.runner = some rs ∧ m.regs = some rs.reg

/-- A manager none of whose loads succeeded: whatever was on disk at any time, and whatever was tried to create meanwhile. -/
inductive NeverLoaded [BEq V] : Managed V → Prop where
  | new : NeverLoaded Managed.new
  | failed {L : Type} {env : FsEnv} {lang : DefLang V L} {text : ItemText V} {eval : EvalText V} {list : Fs → DirTree}
      {folder base : String} {classes : List ClassConfig} {fs fs' : Fs} {m m' : Managed V} {e : PyErr} (before : NeverLoaded m)
      (load : Managed.load env lang text eval list folder base classes (fs, m) = (.error e, fs', m')) : NeverLoaded m'
  | create {env : FsEnv} {lang : CreateLang V} {text : ItemText V} {eval : EvalText V} {list : Fs → DirTree}
      {folder base : String} {classes sections : List String} {f : Option (NewItem V)} {fs fs' : Fs} {m m' : Managed V}
      {res : Except PyErr Unit} (before : NeverLoaded m)
      (create : Managed.create env lang text eval list folder base classes sections f (fs, m) = (res, fs', m')) : NeverLoaded m'

/-- A manager that was loaded, after any history of calls, of items created, of edits on disk and of loads; the loads that failed did
so for the definitions. -/
inductive LoadedWell [BEq V] : Managed V → Prop where
  | loaded {L : Type} {env : FsEnv} {lang : DefLang V L} {text : ItemText V} {eval : EvalText V} {list : Fs → DirTree}
      {folder base : String} {classes : List ClassConfig} {fs fs' : Fs} {m m' : Managed V}
      (load : Managed.load env lang text eval list folder base classes (fs, m) = (.ok (), fs', m')) : LoadedWell m'
  | failed {L : Type} {env : FsEnv} {lang : DefLang V L} {text : ItemText V} {eval : EvalText V} {list : Fs → DirTree}
      {folder base : String} {classes : List ClassConfig} {fs : Fs} {m : Managed V} {s : Fs × Managed V} {e : PyErr} (before : LoadedWell m)
      (wrong : ¬ GoodDefinitions env lang folder classes fs)
      (load : Managed.load env lang text eval list folder base classes (fs, m) = (.error e, s)) : LoadedWell s.2
  | create {env : FsEnv} {lang : CreateLang V} {text : ItemText V} {eval : EvalText V} {list : Fs → DirTree}
      {folder base : String} {classes sections : List String} {f : Option (NewItem V)} {fs fs' : Fs} {m m' : Managed V}
      {res : Except PyErr Unit} (before : LoadedWell m)
      (create : Managed.create env lang text eval list folder base classes sections f (fs, m) = (res, fs', m')) : LoadedWell m'
  | op {m : Managed V} {o : ROp V} (before : LoadedWell m) (valid : o.Valid) :
      LoadedWell (Managed.on (fun rs => (.ok (), rs.step o)) m).2

/-! ### Theorems -/

/-- What a load comes to. -/
theorem mgrLoad_run (env : FsEnv) (lang : DefLang V L) (text : ItemText V) (eval : EvalText V) (list : Fs → DirTree)
    (folder base : String) (classes : List ClassConfig) (fs : Fs) (m : Managed V) :
    (∃ e fs', createRegistrars env lang text folder base classes fs = (.error e, fs') ∧
      Managed.load env lang text eval list folder base classes (fs, m) = (.error e, fs', m)) ∨
    (∃ r fs', createRegistrars env lang text folder base classes fs = (.ok r, fs') ∧
      ((∃ e, CM.load (configFiles eval list (env.resolve base) fs') ((env.resolve base).getLast?.getD "") = .error e ∧
        Managed.load env lang text eval list folder base classes (fs, m) = (.error e, fs', { m with regs := some r, shared := false })) ∨
       (∃ cm, CM.load (configFiles eval list (env.resolve base) fs') ((env.resolve base).getLast?.getD "") = .ok cm ∧
        Managed.load env lang text eval list folder base classes (fs, m) =
          (.ok (), fs', ⟨some r, some ⟨cm, r, Dict.empty, 0⟩, true⟩)))) := by
  unfold Managed.load
  simp only
  rcases hc : createRegistrars env lang text folder base classes fs with ⟨_ | r, fs'⟩
  · exact .inl ⟨_, _, rfl, rfl⟩
  · refine .inr ⟨_, _, rfl, ?_⟩
    simp only
    cases hl : CM.load (configFiles eval list (env.resolve base) fs') ((env.resolve base).getLast?.getD "") with
    | error e => exact .inl ⟨_, rfl, rfl⟩
    | ok cm => exact .inr ⟨_, rfl, rfl⟩

/-- C94: if the definitions are wrong, a load fails, and neither the manager nor any file is changed. -/
theorem C94_definitions (env : FsEnv) (lang : DefLang V L) (text : ItemText V) (eval : EvalText V) (list : Fs → DirTree)
    (folder base : String) (classes : List ClassConfig) (fs : Fs) (m : Managed V) (h : ¬ GoodDefinitions env lang folder classes fs) :
    ∃ e, Managed.load env lang text eval list folder base classes (fs, m) = (.error e, fs, m) := by
  obtain ⟨e, he⟩ := C65_rejected env lang text folder base classes fs h
  refine ⟨e, ?_⟩
  unfold Managed.load
  rw [he]

/-- C94: a manager works after a load that failed as it did before. -/
theorem C94_works (env : FsEnv) (lang : DefLang V L) (text : ItemText V) (eval : EvalText V) (list : Fs → DirTree)
    (folder base : String) (classes : List ClassConfig) (fs fs' : Fs) (m m' : Managed V) (e : PyErr)
    (h : Managed.load env lang text eval list folder base classes (fs, m) = (.error e, fs', m')) : WorkAlike m m' := by
  have hr : m'.runner = m.runner := by
    rcases mgrLoad_run env lang text eval list folder base classes fs m with ⟨_, _, _, h2⟩ | ⟨_, _, _, ⟨_, _, h2⟩ | ⟨_, _, h2⟩⟩ <;>
      rw [h2] at h <;> cases h <;> rfl
  intro α op
  unfold Managed.on
  rw [hr]
  cases m.runner with
  | none => exact ⟨rfl, hr.symm⟩
  | some rs => exact ⟨rfl, rfl⟩

/-- C94: however often a manager was loaded before, and whether that worked or not, a load gives what it gives for a new manager: the
same error or none, the same files, and if there is none, the same manager, whose runner is that of the loaded project. -/
theorem C94_again (env : FsEnv) (lang : DefLang V L) (text : ItemText V) (eval : EvalText V) (list : Fs → DirTree)
    (folder base : String) (classes : List ClassConfig) (fs : Fs) (m : Managed V) :
    (Managed.load env lang text eval list folder base classes (fs, m)).1 =
      (Managed.load env lang text eval list folder base classes (fs, Managed.new)).1 ∧
    (Managed.load env lang text eval list folder base classes (fs, m)).2.1 =
      (Managed.load env lang text eval list folder base classes (fs, Managed.new)).2.1 ∧
    ∀ fs' m', Managed.load env lang text eval list folder base classes (fs, m) = (.ok (), fs', m') →
      Managed.load env lang text eval list folder base classes (fs, Managed.new) = (.ok (), fs', m') ∧ Managed.Whole m' ∧
      ∃ rs, m'.runner = some rs ∧ loadProject env lang text eval list folder base classes fs = (.ok rs, fs') := by
  rcases mgrLoad_run env lang text eval list folder base classes fs m with ⟨_, _, h1, h2⟩ | ⟨r, _, h1, ⟨_, h3, h2⟩ | ⟨cm, h3, h2⟩⟩ <;>
    rcases mgrLoad_run env lang text eval list folder base classes fs Managed.new with
      ⟨_, _, g1, g2⟩ | ⟨_, _, g1, ⟨_, g3, g2⟩ | ⟨_, g3, g2⟩⟩ <;>
    rw [h1] at g1 <;> cases g1 <;> (try rw [h3] at g3) <;> (try cases g3) <;> rw [h2, g2]
  · exact ⟨rfl, rfl, fun _ _ h => by cases h⟩
  · exact ⟨rfl, rfl, fun _ _ h => by cases h⟩
  · refine ⟨rfl, rfl, fun _ _ h => ?_⟩
    cases h
    refine ⟨rfl, ⟨rfl, _, rfl, rfl⟩, _, rfl, ?_⟩
    unfold loadProject
    rw [M.bind_ok h1, M.bind_ok (M.get_run _), M.bind_run, M.liftE_run, h3]
    rfl

/-- C94: a manager none of whose loads succeeded says that it is not loaded, whatever is done with it. -/
theorem C94_first [BEq V] (m : Managed V) (h : NeverLoaded m) (α : Type) (op : RM V α) : Managed.on op m = (.error .notLoaded, m) := by
  have : m.runner = none := by
    induction h with
    | new => rfl
    | @failed _ env lang text eval list folder base classes fs _ m _ _ _ h ih =>
      rcases mgrLoad_run env lang text eval list folder base classes fs m with
        ⟨_, _, _, h3⟩ | ⟨_, _, _, ⟨_, _, h3⟩ | ⟨_, _, h3⟩⟩ <;> rw [h3] at h <;> cases h <;> exact ih
    | create _ h ih =>
      unfold Managed.create at h
      simp only [ih] at h
      cases h
      rfl
  unfold Managed.on
  rw [this]

/-- C94: such a manager has no runner, and no registrars that it shares with one. -/
theorem C94_unloaded [BEq V] (m : Managed V) (h : NeverLoaded m) : m.runner = none ∧ m.shared = false := by
  induction h with
  | new => exact ⟨rfl, rfl⟩
  | @failed _ env lang text eval list folder base classes fs _ m _ _ _ h ih =>
    rcases mgrLoad_run env lang text eval list folder base classes fs m with
      ⟨_, _, _, h3⟩ | ⟨_, _, _, ⟨_, _, h3⟩ | ⟨_, _, h3⟩⟩ <;> rw [h3] at h <;> cases h
    · exact ih
    · exact ⟨ih.1, rfl⟩
  | create _ h ih =>
    unfold Managed.create at h
    simp only [ih.1] at h
    cases h
    exact ⟨rfl, ih.2⟩

/-- C94: what `create` resets at its end in a manager whose runner has registrars of its own is what `reset` of the runner resets, and
raises, with the files as they are now, creating the config if there is none. -/
theorem C94_reset [BEq V] (eval : EvalText V) (list : Fs → DirTree) (base p : List String) (fs : Fs) (reg : Option (Registry V))
    (rs rs' : RS V) (res : Except PyErr Unit)
    (h : RM.reset (some p) true { rs with cm := { rs.cm with fs := configFiles eval list base fs } } = (res, rs')) :
    resetOwn eval list base p ⟨fs, reg, rs⟩ = (res, ⟨fs, reg, rs'⟩) := by
  unfold resetOwn
  simp only [h]

/-- What is registered by `create` is registered before anything is reset. -/
theorem createItem_reg {R : Type} (env : FsEnv) (lang : CreateLang V) (text : ItemText V) (folder base : String)
    (classes : List String) (reset : List String → KM V R Unit) (sections : List String) (f : Option (NewItem V))
    (s : Created V R) :
    ((createItem env lang text folder base classes reset sections f s).2.rest = s.rest ∧
      ((∃ r, s.reg = some r) → ∃ r, (createItem env lang text folder base classes reset sections f s).2.reg = some r)) ∨
      ∃ p s', p ≠ [] ∧ s'.rest = s.rest ∧ (∃ r, s'.reg = some r) ∧ createItem env lang text folder base classes reset sections f s = reset p s' := by
  have h := createItem_run env lang text folder base classes reset sections f s
  cases hq : requested lang folder classes sections f with
  | none =>
    rw [hq] at h
    obtain ⟨e, h⟩ := h
    rw [h]
    exact .inl ⟨rfl, id⟩
  | some q =>
    rw [hq] at h
    rcases h with ⟨⟨e, h⟩, _⟩ | ⟨fs', _, ⟨⟨e, h⟩, _⟩ | ⟨r, c, ⟨hr, _⟩, h⟩⟩
    · rw [h]; exact .inl ⟨rfl, id⟩
    · rw [h]; exact .inl ⟨rfl, id⟩
    · rw [h, createRegistered_run]
      simp only [hr]
      cases (r.set q.registrar q.path (q.name, .item c)).1 with
      | error e => exact .inl ⟨rfl, fun _ => ⟨_, rfl⟩⟩
      | ok u =>
        simp only
        cases registrarAt (r.set q.registrar q.path (q.name, .item c)).2 base q.registrar with
        | none => exact .inl ⟨rfl, fun _ => ⟨_, rfl⟩⟩
        | some gb =>
          obtain ⟨g, base'⟩ := gb
          simp only
          rcases g.scaffoldFor env text base' (q.path ++ [q.name]) fs' with ⟨_ | _, fs2⟩
          · exact .inl ⟨rfl, fun _ => ⟨_, rfl⟩⟩
          · exact .inr ⟨q.registrar.toList ++ q.path ++ [q.name],
              { s with reg := some (r.set q.registrar q.path (q.name, .item c)).2, fs := fs2 }, by simp, rfl, ⟨_, rfl⟩, rfl⟩

/-- C94: the runner of a manager that was loaded has the registrars of the manager, whatever happened since, if the loads that
failed did so for the definitions. -/
theorem C94_whole [BEq V] (m : Managed V) (h : LoadedWell m) : Managed.Whole m := by
  induction h with
  | @loaded _ env lang text eval list folder base classes fs fs' m m' h =>
    exact ((C94_again env lang text eval list folder base classes fs m).2.2 fs' m' h).2.1
  | @failed _ env lang text eval list folder base classes fs m s e _ hw h ih =>
    obtain ⟨e', h'⟩ := C94_definitions env lang text eval list folder base classes fs m hw
    rw [h'] at h
    cases h
    exact ih
  | @create env lang text eval list folder base classes sections f fs fs' m m' res _ h ih =>
    obtain ⟨hs, rs, h1, h2⟩ := ih
    unfold Managed.create at h
    simp only [h1, hs, if_true] at h
    cases h
    have hsome : ∃ r, (createItem env lang text folder base classes (resetCreated eval list (env.resolve base)) sections f
        ⟨fs, m.regs, rs⟩).2.reg = some r := by
      rcases createItem_reg env lang text folder base classes (resetCreated eval list (env.resolve base)) sections f ⟨fs, m.regs, rs⟩ with
        ⟨_, h⟩ | ⟨q, s', _, _, ⟨r, h1⟩, h3⟩
      · exact h ⟨_, h2⟩
      · refine ⟨r, ?_⟩
        rw [h3]
        unfold resetCreated
        simp only [h1]
    obtain ⟨r, hr⟩ := hsome
    refine ⟨rfl, _, rfl, ?_⟩
    simp only [hr, withRegs]
  | @op m o _ hv ih =>
    obtain ⟨hs, rs, h1, h2⟩ := ih
    unfold Managed.on
    simp only [h1]
    exact ⟨hs, _, rfl, h2.trans (by rw [(RS.step_evolves rs hv).reg])⟩

/-- C94 fails for the files of sections: after a load that failed for one of them, the manager lists, and selectors have, what the
files define now, but the runner still has what the manager was loaded with; if it was not loaded at all, it says so. -/
theorem C94_mixed_violated (env : FsEnv) (lang : DefLang V L) (text : ItemText V) (eval : EvalText V) (list : Fs → DirTree)
    (folder base : String) (classes : List ClassConfig) (fs fs' : Fs) (m : Managed V) (r : Registry V)
    (hc : createRegistrars env lang text folder base classes fs = (.ok r, fs')) (e : PyErr)
    (he : CM.load (configFiles eval list (env.resolve base) fs') ((env.resolve base).getLast?.getD "") = .error e) (name : String) :
    ∃ m', Managed.load env lang text eval list folder base classes (fs, m) = (.error e, fs', m') ∧
      newSelector [(name, m'.regs)] = .ok [(name, r)] ∧
      (m.runner = none → ∀ p, (Managed.on (RM.get p) m').1 = .error .notLoaded) ∧
      ∀ rs, m.runner = some rs → ∀ p e', rs.reg.lookup p = .error e' → (Managed.on (RM.get p) m').1 = .error e' := by
  rcases mgrLoad_run env lang text eval list folder base classes fs m with ⟨_, _, h1, h2⟩ | ⟨r, _, h1, ⟨_, h3, h2⟩ | ⟨cm, h3, h2⟩⟩ <;>
    rw [hc] at h1 <;> cases h1 <;> (try rw [he] at h3) <;> (try cases h3)
  refine ⟨_, h2, rfl, ?_, ?_⟩
  · intro h p
    simp [Managed.on, h]
  · intro rs h p e' hp
    simp only [Managed.on, h]
    unfold RM.get
    rw [M.bind_ok (M.get_run rs), M.bind_error (e := e') (s' := rs) (by rw [RM.lookup_run, hp])]

/-- C94 fails for items created after that: whatever `create` does, the runner does not have the item. -/
theorem C94_created_violated [BEq V] (env : FsEnv) (lang : CreateLang V) (text : ItemText V) (eval : EvalText V) (list : Fs → DirTree)
    (folder base : String) (classes sections : List String) (f : Option (NewItem V)) (fs fs' : Fs) (m m' : Managed V) (rs : RS V)
    (res : Except PyErr Unit) (hs : m.shared = false) (hr : m.runner = some rs)
    (h : Managed.create env lang text eval list folder base classes sections f (fs, m) = (res, fs', m')) :
    ∀ p e, rs.reg.lookup p = .error e → (Managed.on (RM.get p) m').1 = .error e := by
  intro p e hp
  have : ∃ rs', m'.runner = some rs' ∧ rs'.reg = rs.reg := by
    unfold Managed.create at h
    simp only [hr, hs] at h
    cases h
    refine ⟨_, rfl, ?_⟩
    simp only [withRegs]
    rcases createItem_reg env lang text folder base classes (resetOwn eval list (env.resolve base)) sections f ⟨fs, m.regs, rs⟩ with
      ⟨h, _⟩ | ⟨q, s', h1, h2, _, h3⟩
    · exact congrArg RS.reg h
    · have h4 : s'.rest = rs := h2
      simp only [Bool.false_eq_true, if_false]
      rw [h3, ← h4]
      exact (RM.evo_reset (p := some q) (by simpa using h1) true _).reg
  obtain ⟨rs', h1, h2⟩ := this
  simp only [Managed.on, h1]
  unfold RM.get
  rw [M.bind_ok (M.get_run rs'), M.bind_error (e := e) (s' := rs') (by rw [RM.lookup_run, h2, hp])]

/-! ### Section files that use items -/

mutual
theorem execFiles_plain (eval : EvalText V) (list : Fs → DirTree) (base : List String) (fs : Fs)
    (code : List String → M PyErr (Managed V) (Dict String V))
    (hc : ∀ q m, code q m = (readConfig eval base fs (.sect q), m)) :
    ∀ (t : DirTree) (p : List String) (m : Managed V), execFiles code p t m = (fromFiles (configFiles eval list base fs) p t, m)
  | .mk hasSection files dirs, p, m => by
    have hs : execSection code p hasSection m = (sectionConfig (configFiles eval list base fs) p hasSection, m) := by
      unfold execSection sectionConfig Files.load
      rw [hc]
      show _ = (if hasSection = true then _ else _, m)
      cases hasSection with
      | false => rfl
      | true =>
        simp only [if_true, configFiles]
        cases readConfig eval base fs (.sect p) with
        | ok d => rfl
        | error e => cases e <;> rfl
    rw [execFiles, fromFiles]
    simp only [hs]
    cases sectionConfig (configFiles eval list base fs) p hasSection with
    | error e => rfl
    | ok cfg =>
      simp only
      rw [execDirs_plain eval list base fs code hc dirs p m]
      cases fromFilesDirs (configFiles eval list base fs) p dirs with
      | error e => rfl
      | ok ns => rfl
theorem execDirs_plain (eval : EvalText V) (list : Fs → DirTree) (base : List String) (fs : Fs)
    (code : List String → M PyErr (Managed V) (Dict String V))
    (hc : ∀ q m, code q m = (readConfig eval base fs (.sect q), m)) :
    ∀ (ds : List (String × DirTree)) (p : List String) (m : Managed V),
      execDirs code p ds m = (fromFilesDirs (configFiles eval list base fs) p ds, m)
  | [], p, m => by rw [execDirs, fromFilesDirs]
  | (name, d) :: ds, p, m => by
    rw [execDirs, fromFilesDirs]
    simp only [execFiles_plain eval list base fs code hc d (p ++ [name]) m]
    cases fromFiles (configFiles eval list base fs) (p ++ [name]) d with
    | error e => rfl
    | ok n =>
      simp only
      rw [execDirs_plain eval list base fs code hc ds p m]
      cases fromFilesDirs (configFiles eval list base fs) p ds with
      | error e => rfl
      | ok ns => rfl
end

/-- Section files that use no items are read as `Managed.load` reads them, so everything above holds for them. -/
theorem C94_plain (env : FsEnv) (lang : DefLang V L) (text : ItemText V) (eval : EvalText V) (code : SectionCode V)
    (list : Fs → DirTree) (folder base : String) (classes : List ClassConfig)
    (hc : ∀ fs q m, code fs q m = (readConfig eval (env.resolve base) fs (.sect q), m)) (s : Fs × Managed V) :
    Managed.loadUsing env lang text eval code list folder base classes s =
      Managed.load env lang text eval list folder base classes s := by
  unfold Managed.loadUsing Managed.load
  rcases createRegistrars env lang text folder base classes s.1 with ⟨_ | r, fs⟩
  · rfl
  · simp only
    rw [execFiles_plain eval list (env.resolve base) fs (code fs) (hc fs)]
    unfold CM.load
    rw [show (configFiles eval list (env.resolve base) fs).tree = list fs from rfl]
    cases fromFiles (configFiles eval list (env.resolve base) fs) [] (list fs) with
    | error e => rfl
    | ok n => rfl

/-- The code of a section file gets the item first. -/
def GetsFirst (code : SectionCode V) (fs : Fs) (p : List String) : Prop :=
  ∃ k : RM.GetRes V → M PyErr (Managed V) (Dict String V), code fs [] = Managed.on (RM.get p) >>= k

/-- C94 fails for section files that use items of their manager: the first load raises, that is, there is no loading it at all. -/
theorem C94_section_violated (env : FsEnv) (lang : DefLang V L) (text : ItemText V) (eval : EvalText V) (code : SectionCode V)
    (list : Fs → DirTree) (folder base : String) (classes : List ClassConfig) (fs fs' : Fs) (r : Registry V)
    (hc : createRegistrars env lang text folder base classes fs = (.ok r, fs')) (files : List String) (dirs : List (String × DirTree))
    (hl : list fs' = .mk true files dirs) (p : List String) (hg : GetsFirst code fs' p) :
    Managed.loadUsing env lang text eval code list folder base classes (fs, Managed.new) =
      (.error .notLoaded, fs', ⟨some r, none, false⟩) := by
  obtain ⟨k, hk⟩ := hg
  unfold Managed.loadUsing
  rw [hc]
  simp only
  rw [hl, execFiles]
  simp only [execSection, if_true, hk]
  rfl

/-- C90 fails for them: after a reload such a section is configured with what the item was before, whatever its file and the
definitions say now. -/
theorem C90_section_violated (env : FsEnv) (lang : DefLang V L) (text : ItemText V) (eval : EvalText V) (code : SectionCode V)
    (list : Fs → DirTree) (folder base : String) (classes : List ClassConfig) (fs fs' : Fs) (m m' : Managed V) (rs rs1 : RS V)
    (hr : m.runner = some rs) (h : Managed.loadUsing env lang text eval code list folder base classes (fs, m) = (.ok (), fs', m'))
    (files : List String) (dirs : List (String × DirTree)) (hl : list fs' = .mk true files dirs) (p : List String)
    (f : RM.GetRes V → Dict String V) (hg : code fs' [] = Managed.on (RM.get p) >>= fun x => pure (f x)) (x : RM.GetRes V)
    (hx : RM.get p rs = (.ok x, rs1)) :
    ∃ rs', m'.runner = some rs' ∧ ∃ attrs map, rs'.cm.root = .sect (some (Conf.ofFile (.sect []) (f x))) attrs map := by
  unfold Managed.loadUsing at h
  simp only at h
  rcases hc : createRegistrars env lang text folder base classes fs with ⟨_ | r, fs1⟩
  · rw [hc] at h; cases h
  · rw [hc] at h
    simp only at h
    obtain ⟨res, m1, he⟩ : ∃ res m1, execFiles (code fs1) [] (list fs1) { m with regs := some r, shared := false } = (res, m1) :=
      ⟨_, _, rfl⟩
    rw [he] at h
    cases res with
    | error e => cases h
    | ok root =>
      cases h
      refine ⟨_, rfl, ?_⟩
      rw [hl, execFiles] at he
      simp only [execSection, if_true, hg] at he
      have hon : (Managed.on (RM.get p) >>= fun x => (pure (f x) : M PyErr (Managed V) (Dict String V)))
          { m with regs := some r, shared := false } =
          (.ok (f x), { regs := some r, shared := false, runner := some rs1 }) := by
        rw [M.bind_run]
        unfold Managed.on
        simp only [hr, hx]
        rfl
      simp only [hon] at he
      obtain ⟨res, m2, hd⟩ : ∃ res m2, execDirs (code fs') [] dirs { regs := some r, shared := false, runner := some rs1 } = (res, m2) :=
        ⟨_, _, rfl⟩
      rw [hd] at he
      cases res with
      | error e => cases he
      | ok ns =>
        simp only at he
        cases he
        exact ⟨_, _, rfl⟩

/-! ### Examples -/

/-- The file of the outermost section cannot be executed. -/
def brokenEval : EvalText Unit := fun _ _ => .error .importError

theorem broken_error (fs : Fs) : ∃ e, CM.load (configFiles brokenEval (fun _ => .mk true [] []) (freeEnv.resolve "d") fs)
    ((freeEnv.resolve "d").getLast?.getD "") = .error e := by
  have : readConfig brokenEval (freeEnv.resolve "d") fs (.sect []) = .error .importError ∨
      readConfig brokenEval (freeEnv.resolve "d") fs (.sect []) = .error .osError := by
    unfold readConfig
    split
    · exact .inl rfl
    · exact .inr rfl
  unfold CM.load
  rw [show (configFiles brokenEval (fun _ => .mk true [] []) (freeEnv.resolve "d") fs).tree = .mk true [] [] from rfl, fromFiles]
  rcases this with this | this <;>
    simp [sectionConfig, Files.load, show (configFiles brokenEval (fun _ => DirTree.mk true [] []) (freeEnv.resolve "d") fs).read (.sect []) = _ from this]

/-- An instance of `C94_mixed_violated`: a manager without items is loaded again, after items were defined, with a section file that
is wrong; the item is in the selector and cannot be got. -/
example : ∃ e fs' m', Managed.load freeEnv toyDefs keepText brokenEval (fun _ => .mk true [] []) "p" "d" [⟨some "c", true⟩]
      (toyDefFs "f" "x", ⟨some createBlank, some (createRest Dict.empty), true⟩) = (.error e, fs', m') ∧
    newSelector [("m", m'.regs)] = .ok [("m", toyRegistry "f" "x")] ∧ selContains [("m", toyRegistry "f" "x")] "m.s.f" = .ok true ∧
    (Managed.on (RM.get ["s", "f"]) m').1 = .error .attributeError := by
  obtain ⟨e, he⟩ := broken_error (createRegistrars freeEnv toyDefs keepText "p" "d" [⟨some "c", true⟩] (toyDefFs "f" "x")).2
  obtain ⟨m', h1, h2, _, h3⟩ := C94_mixed_violated freeEnv toyDefs keepText brokenEval (fun _ => .mk true [] []) "p" "d"
    [⟨some "c", true⟩] (toyDefFs "f" "x") _ ⟨some createBlank, some (createRest Dict.empty), true⟩ _ toy_load e he "m"
  refine ⟨e, _, m', h1, h2, ?_, h3 _ rfl ["s", "f"] .attributeError ?_⟩
  · rcases C52_contains_partial [("m", toyRegistry "f" "x")] "m" ["s", "f"] (toyRegistry "f" "x") rfl (by decide +kernel)
      (by decide +kernel) "m.s.f" (by decide +kernel) with h | ⟨_, h⟩
    · exact h.1
    · exact absurd (by
        unfold HasItem
        simp only
        rw [if_neg (by decide +kernel)]
        exact .child _ _ _ _ _ rfl (.child _ _ _ _ _ rfl (.item _))) h
  · have : ("s" ∈ registrarReserved) = False := by simp [registrarReserved, collectionReserved]
    simp [createRest, createBlank, Registry.lookup, Reg.walk, Reg.attr, this, Reg.nameDict, AList.get?]

/-- The hypotheses of `C94_works`, `C94_first` and `C94_definitions`. -/
example : (∃ e s, Managed.load freeEnv toyDefs keepText brokenEval (fun _ => .mk true [] []) "p" "d" [⟨some "c", true⟩]
      (toyDefFs "f" "x", (Managed.new : Managed Unit)) = (.error e, s) ∧ s.2.regs = some (toyRegistry "f" "x") ∧ NeverLoaded s.2) ∧
    ¬ GoodDefinitions freeEnv (⟨fun _ _ => .error .valueError, fun _ _ => .error .valueError⟩ : DefLang Unit String) "p" [] Fs.blank := by
  obtain ⟨e, he⟩ := broken_error (createRegistrars freeEnv toyDefs keepText "p" "d" [⟨some "c", true⟩] (toyDefFs "f" "x")).2
  obtain ⟨m', h1, h2, _⟩ := C94_mixed_violated freeEnv toyDefs keepText brokenEval (fun _ => .mk true [] []) "p" "d"
    [⟨some "c", true⟩] (toyDefFs "f" "x") _ Managed.new _ toy_load e he "m"
  refine ⟨⟨e, _, h1, ?_, .failed .new h1⟩, ?_⟩
  · cases h : m'.regs with
    | none => rw [h] at h2; cases h2
    | some r => rw [h] at h2; cases h2; rfl
  · rintro ⟨r, ⟨⟨_, _, h, _⟩, _⟩, _⟩
    cases h

/-- The hypothesis of `C94_whole`. -/
example : ∃ m : Managed Unit, LoadedWell m := by
  have : ∃ fs' m', Managed.load freeEnv toyDefs keepText emptyEval (fun _ => .mk false [] []) "p" "d" [⟨some "c", true⟩]
      (toyDefFs "f" "x", (Managed.new : Managed Unit)) = (.ok (), fs', m') := by
    unfold Managed.load
    rw [toy_load]
    simp only [CM.load, configFiles, fromFiles, fromFilesDirs]
    exact ⟨_, _, rfl⟩
  obtain ⟨_, m', h⟩ := this
  exact ⟨m', .loaded h⟩

/-- A manager whose last load failed after another one had succeeded. -/
def mixedMgr : Managed Unit := ⟨some createBlank, some (createRest Dict.empty), false⟩

/-- An instance of `C94_created_violated`: `create` succeeds, the item is registered, and cannot be got. -/
example : ∃ fs' m', Managed.create freeEnv createToy keepText emptyEval (fun _ => .mk false [] []) "p" "d" [] ["s"] (some createNew)
      (createFs, mixedMgr) = (.ok (), fs', m') ∧
    m'.regs = some ⟨[], .coll false [("s", .coll false createdItems)]⟩ ∧
    (Managed.on (RM.get ["s", "f"]) m').1 = .error .attributeError := by
  have h := createItem_run freeEnv createToy keepText "p" "d" [] (resetOwn emptyEval (fun _ => .mk false [] []) (freeEnv.resolve "d"))
    ["s"] (some createNew) (createWhole Dict.empty)
  rw [create_requested] at h
  rcases h with ⟨_, hn⟩ | ⟨fs', h1, ⟨_, hn⟩ | ⟨r, c, h2, h3⟩⟩
  · exact absurd ⟨_, create_added⟩ hn
  · exact absurd ⟨createBlank, scaffoldItem, rfl, rfl, by intro k hk; cases hk⟩ hn
  · obtain ⟨h4, h5, _⟩ := h2
    cases h4
    cases h5
    rw [createRegistered_run, ← EntryAdded.unique create_added h1] at h3
    simp only [createWhole, createRequest, create_set, registrarAt, scaffoldFor_run, create_walk] at h3
    have h6 : (Reg.scaffold freeEnv keepText "d/s" (.coll false createdItems) createFs1).1 = .ok () := by
      simp only [createdItems, Reg.scaffold, outputItems]
      decide +kernel
    have h7 : (Reg.scaffold freeEnv keepText "d/s" (.coll false createdItems) createFs1).2 ["d", "s", "f.py"] = some (.file "# f") := by
      simp only [createdItems, Reg.scaffold, outputItems]
      decide +kernel
    have hb : List.foldl Path.join2 "d" ["s"] = "d/s" := by decide +kernel
    have hd : freeEnv.resolve "d" = ["d"] := by decide +kernel
    rw [hb] at h3
    cases hs : Reg.scaffold freeEnv keepText "d/s" (.coll false createdItems) createFs1 with
    | mk res fs2 =>
      rw [hs] at h6 h7 h3
      cases res with
      | error e => cases h6
      | ok u =>
        simp only [hd] at h3
        replace h7 : fs2 ["d", "s", "f.py"] = some (.file "# f") := h7
        have hread : readConfig emptyEval ["d"] fs2 (.item ["s", "f"]) = .ok Dict.empty := by
          unfold readConfig
          rw [show (FileLoc.item ["s", "f"]).place ["d"] = ["d", "s", "f.py"] by decide +kernel, h7]
          rfl
        obtain ⟨g1, _⟩ := C78_new_partial { (createRest Dict.empty).cm with fs := configFiles emptyEval (fun _ => .mk false [] []) ["d"] fs2 }
          ⟨⟨fun _ => .error .osError, .mk false [] []⟩, "d", _, [.edit (configFiles emptyEval (fun _ => .mk false [] []) ["d"] fs2)], rfl,
            by simp [CMOp.Valid], rfl⟩ [] "s" ["f"] _ _ _ rfl rfl (by decide) Dict.empty hread
        have g2 : (RM.reset (some ["s", "f"]) true (V := Unit) { createRest Dict.empty with
            cm := { (createRest Dict.empty).cm with fs := configFiles emptyEval (fun _ => .mk false [] []) ["d"] fs2 } }).1 = .ok () := by
          unfold RM.reset
          rw [M.bind_run]
          have hl : RM.liftC (CMM.reset (some ["s", "f"]) true) { createRest Dict.empty with
                cm := { (createRest Dict.empty).cm with fs := configFiles emptyEval (fun _ => .mk false [] []) ["d"] fs2 } } =
              (.ok (.conf (Conf.ofFile (.item ["s", "f"]) Dict.empty), true), ⟨(CMM.reset (some ["s", "f"]) true
                { (createRest Dict.empty).cm with fs := configFiles emptyEval (fun _ => .mk false [] []) ["d"] fs2 }).2,
                createBlank, Dict.empty, 0⟩) := Prod.ext g1 rfl
          rw [hl]
          simp only
          unfold RM.applyToLoaded
          rw [M.bind_ok (M.get_run _)]
          rfl
        have g3 : Managed.create freeEnv createToy keepText emptyEval (fun _ => .mk false [] []) "p" "d" [] ["s"] (some createNew)
            (createFs, mixedMgr) = (.ok (), (Managed.create freeEnv createToy keepText emptyEval (fun _ => .mk false [] []) "p" "d" [] ["s"]
              (some createNew) (createFs, mixedMgr)).2) := by
          refine Prod.ext ?_ rfl
          unfold Managed.create
          simp only [mixedMgr, Bool.false_eq_true, if_false, hd]
          rw [h3]
          exact g2
        refine ⟨_, _, g3, ?_, ?_⟩
        · simp only [mixedMgr, Bool.false_eq_true, if_false, hd]
          rw [h3]
          rfl
        · refine C94_created_violated freeEnv createToy keepText emptyEval _ "p" "d" [] ["s"] (some createNew) _ _ _ _ _ _ rfl rfl g3
            ["s", "f"] .attributeError ?_
          have : ("s" ∈ registrarReserved) = False := by simp [registrarReserved, collectionReserved]
          simp [createRest, createBlank, Registry.lookup, Reg.walk, Reg.attr, this, Reg.nameDict, AList.get?]

/-- A section file that uses an item of its manager. -/
def usingCode : SectionCode Unit := fun _ _ => Managed.on (RM.get ["s", "f"]) >>= fun x => pure (match x with
  | .obj o => Dict.ofList (o.callable.sig.args.map (fun a => (a, ())))
  | _ => Dict.empty)

/-- An instance of `C94_section_violated`. -/
example : Managed.loadUsing freeEnv toyDefs keepText emptyEval usingCode (fun _ => .mk true [] []) "p" "d" [⟨some "c", true⟩]
    (toyDefFs "f" "x", Managed.new) = (.error .notLoaded,
      (createRegistrars freeEnv toyDefs keepText "p" "d" [⟨some "c", true⟩] (toyDefFs "f" "x")).2, ⟨some (toyRegistry "f" "x"), none, false⟩) :=
  C94_section_violated freeEnv toyDefs keepText emptyEval usingCode _ "p" "d" _ _ _ _ toy_load [] [] rfl ["s", "f"] ⟨_, rfl⟩

/-- A manager that was loaded when the function had another parameter. -/
def oldRunner : RS Unit := ⟨(createRest Dict.empty).cm, toyRegistry "f" "x", Dict.ofList [(["s", "f"], staleObj)], 1⟩

theorem oldRunner_get : RM.get ["s", "f"] oldRunner = (.ok (.obj staleObj), oldRunner) := by
  have hl : oldRunner.reg.lookup ["s", "f"] = .ok (.item scaffoldItem) := by
    have h2 : ("s" ∈ registrarReserved) = False := by simp [registrarReserved, collectionReserved]
    have h3 : ("f" ∈ collectionReserved) = False := by simp [collectionReserved]
    simp [oldRunner, toyRegistry, Registry.lookup, Reg.walk, Reg.attr, h2, h3, Reg.nameDict, AList.get?, AList.set]
  unfold RM.get
  rw [M.bind_ok (M.get_run _), M.bind_ok (show RM.lookup ["s", "f"] oldRunner = (.ok (.item scaffoldItem), oldRunner) by
    rw [RM.lookup_run, hl])]
  rfl

/-- An instance of `C90_section_violated`: the section has the parameter of the function from before as a key, which the function does
not have any more. -/
example : ∃ fs' m' rs', Managed.loadUsing freeEnv toyDefs keepText emptyEval usingCode (fun _ => .mk true [] []) "p" "d" [⟨some "c", true⟩]
      (toyDefFs "f" "x", ⟨some (toyRegistry "f" "x"), some oldRunner, true⟩) = (.ok (), fs', m') ∧
    m'.runner = some rs' ∧ rs'.reg = toyRegistry "f" "x" ∧ scaffoldItem.sig.args = [] ∧
    ∃ attrs map, rs'.cm.root = .sect (some (Conf.ofFile (.sect []) (Dict.ofList [("a", ())]))) attrs map := by
  have h : ∃ fs' m', Managed.loadUsing freeEnv toyDefs keepText emptyEval usingCode (fun _ => .mk true [] []) "p" "d" [⟨some "c", true⟩]
      (toyDefFs "f" "x", ⟨some (toyRegistry "f" "x"), some oldRunner, true⟩) = (.ok (), fs', m') ∧
      ∀ rs', m'.runner = some rs' → rs'.reg = toyRegistry "f" "x" := by
    unfold Managed.loadUsing
    rw [toy_load]
    simp only
    rw [execFiles]
    simp only [execSection, if_true, usingCode]
    rw [M.bind_run]
    simp only [Managed.on, oldRunner_get, pure, execDirs]
    exact ⟨_, _, rfl, fun _ h => by cases h; rfl⟩
  obtain ⟨fs', m', h1, h2⟩ := h
  obtain ⟨rs', h3, h4⟩ := C90_section_violated freeEnv toyDefs keepText emptyEval usingCode _ "p" "d" _ _ _ _ _ _ _ rfl h1 [] [] rfl
    ["s", "f"] _ rfl _ oldRunner_get
  exact ⟨fs', m', rs', h1, h3, h2 _ h3, rfl, h4⟩

end Verif.Props

import Verif.Model.Project
import Verif.Lemmas.SectionPath

/-
Property theorems about creating a project: C45.
-/

namespace Verif.Props
open Verif.Py Verif.Model

/-! ### Specification -/

/-- Everything is in a folder. -/
structure Fs.Closed (fs : Fs) : Prop where
  root : fs [] = some .dir
  parent : ∀ q x, fs (q ++ [x]) ≠ none → fs q = some .dir

/-- The paths a project needs. -/
def requiredPaths (path : String) (logs : Option String) (names : List String) : List String :=
  Path.join2 path "defaults" :: logs.toList ++
    Path.join2 path "pipeline_dict.py" :: names.map (fun name => Path.join2 path (name ++ "_dict.py"))

/-- What may be created: the folders above and including the two folders, and the files with nothing in them. -/
def Creatable (env : FsEnv) (path : String) (logs : Option String) (names : List String) (q : List String) : Entry → Prop
  | .dir => q <+: env.resolve (Path.join2 path "defaults") ∨ ∃ l, logs = some l ∧ q <+: env.resolve l
  | .file text =>
    (q = env.resolve (Path.join2 path "pipeline_dict.py") ∧ text = "\npipeline_dict = {}\n") ∨
    ∃ name ∈ names, q = env.resolve (Path.join2 path (name ++ "_dict.py")) ∧ text = "\nclass_dict = {}\n"

/-! ### Lemmas -/

/-- A path that is needed, and how it is created. -/
abbrev CreateStep := String × FM Unit

/-- Creating one path after the other. -/
def runSteps (env : FsEnv) : List CreateStep → FM Unit
  | [] => pure ()
  | st :: rest => do
    unlessExists env st.1 st.2
    runSteps env rest

def dictStep (env : FsEnv) (path name : String) : CreateStep :=
  (Path.join2 path (name ++ "_dict.py"), writeFile env (Path.join2 path (name ++ "_dict.py")) "\nclass_dict = {}\n")

def folderStep (env : FsEnv) (p : String) : CreateStep := (p, makedirs env p)

def projectSteps (env : FsEnv) (path : String) (logs : Option String) (names : List String) : List CreateStep :=
  folderStep env (Path.join2 path "defaults") :: logs.toList.map (folderStep env) ++
    (Path.join2 path "pipeline_dict.py", writeFile env (Path.join2 path "pipeline_dict.py") "\npipeline_dict = {}\n") ::
      names.map (dictStep env path)

theorem projectSteps_paths (env : FsEnv) (path : String) (logs : Option String) (names : List String) :
    (projectSteps env path logs names).map Prod.fst = requiredPaths path logs names := by
  cases logs <;> simp [projectSteps, requiredPaths, folderStep, dictStep, Function.comp_def]

theorem createDicts_steps (env : FsEnv) (path : String) (names : List String) :
    createDicts env path names = runSteps env (names.map (dictStep env path)) := by
  induction names with
  | nil => rfl
  | cons n ns ih => rw [createDicts, List.map_cons, runSteps, ih]; rfl

theorem createProject_steps (env : FsEnv) (path : String) (logs : Option String) (names : List String) :
    createProject env path logs names = runSteps env (projectSteps env path logs names) := by
  unfold createProject projectSteps
  rw [createDicts_steps]
  cases logs with
  | none => rfl
  | some l => rfl

theorem unlessExists_run (env : FsEnv) (p : String) (c : FM Unit) (fs : Fs) :
    unlessExists env p c fs = if pathExists env fs p then (.ok (), fs) else c fs := by
  unfold unlessExists
  rw [M.bind_run]
  simp only [M.get_run]
  split <;> rfl

theorem runSteps_cons (env : FsEnv) (st : CreateStep) (rest : List CreateStep) (fs : Fs) :
    runSteps env (st :: rest) fs = match unlessExists env st.1 st.2 fs with
      | (.ok _, fs') => runSteps env rest fs'
      | (.error e, fs') => (.error e, fs') := by
  rw [runSteps, M.bind_run]
  cases unlessExists env st.1 st.2 fs with
  | mk r s => cases r <;> rfl

/-- What is there stays, what is new is allowed, and everything stays in a folder. -/
structure Adds (allowed : List String → Entry → Prop) (fs fs' : Fs) : Prop where
  kept : ∀ q n, fs q = some n → fs' q = some n
  new : ∀ q n, fs' q = some n → fs q = some n ∨ allowed q n
  closed : Fs.Closed fs → Fs.Closed fs'

theorem Adds.refl (allowed) (fs : Fs) : Adds allowed fs fs := ⟨fun _ _ h => h, fun _ _ h => Or.inl h, fun h => h⟩

theorem Adds.trans {allowed} {a b c : Fs} (h1 : Adds allowed a b) (h2 : Adds allowed b c) : Adds allowed a c :=
  ⟨fun q n h => h2.kept q n (h1.kept q n h),
   fun q n h => (h2.new q n h).elim (h1.new q n) Or.inr,
   fun h => h2.closed (h1.closed h)⟩

theorem Adds.exists {allowed} {env : FsEnv} {a b : Fs} (h : Adds allowed a b) {p : String} (hp : pathExists env a p = true) :
    pathExists env b p = true := by
  unfold pathExists at *
  rw [Bool.and_eq_true] at *
  refine ⟨hp.1, ?_⟩
  obtain ⟨n, hn⟩ := Option.isSome_iff_exists.1 hp.2
  rw [h.kept _ n hn]
  rfl

theorem put_adds {allowed} {fs : Fs} {q : List String} {n : Entry} (hq : fs q = none) (ha : allowed q n)
    (hp : ∀ r x, q = r ++ [x] → Fs.Closed fs → fs r = some .dir) : Adds allowed fs (fs.put q n) := by
  refine ⟨?_, ?_, ?_⟩
  · intro r m hr
    unfold Fs.put
    rw [if_neg]
    · exact hr
    · rintro rfl
      rw [hq] at hr
      cases hr
  · intro r m hr
    unfold Fs.put at hr
    split at hr
    · next h =>
      cases hr
      exact Or.inr (h ▸ ha)
    · exact Or.inl hr
  · intro hc
    have keep : ∀ r, fs r = some .dir → fs.put q n r = some .dir := by
      intro r hr
      unfold Fs.put
      rw [if_neg]
      · exact hr
      · rintro rfl
        rw [hq] at hr
        cases hr
    refine ⟨keep _ hc.root, ?_⟩
    intro r x h
    unfold Fs.put at h
    split at h
    · next hqr => exact keep _ (hp r x hqr.symm hc)
    · exact keep _ (hc.parent r x h)

theorem mkdirs_nil (env : FsEnv) (pre : List String) (fs : Fs) : mkdirs env pre [] fs = (.ok (), fs) := rfl

theorem mkdirs_cons (env : FsEnv) (pre : List String) (x : String) (xs : List String) (fs : Fs) :
    mkdirs env pre (x :: xs) fs = match fs (pre ++ [x]) with
      | some .dir => mkdirs env (pre ++ [x]) xs fs
      | some (.file _) => (.error .osError, fs)
      | none => if env.denied (pre ++ [x]) then (.error .osError, fs)
        else mkdirs env (pre ++ [x]) xs (fs.put (pre ++ [x]) .dir) := by
  rw [mkdirs, M.bind_run]
  simp only [M.get_run]
  cases fs (pre ++ [x]) with
  | none =>
    simp only
    split
    · rfl
    · rw [M.bind_run]; rfl
  | some n => cases n <;> rfl

theorem append_singleton_inj {q r : List String} {x y : String} (h : q ++ [x] = r ++ [y]) : q = r := by
  simpa using (List.append_inj' h rfl).1

theorem mkdirs_adds {allowed} (env : FsEnv) (pre xs : List String) (fs : Fs) (hpre : Fs.Closed fs → fs pre = some .dir)
    (ha : ∀ ys, ys <+: xs → ys ≠ [] → allowed (pre ++ ys) .dir) : Adds allowed fs (mkdirs env pre xs fs).2 := by
  induction xs generalizing pre fs with
  | nil => exact Adds.refl _ _
  | cons x xs ih =>
    have hsub : ∀ ys, ys <+: xs → ys ≠ [] → allowed ((pre ++ [x]) ++ ys) .dir := by
      intro ys hys _
      have := ha (x :: ys) (by simpa [List.cons_prefix_cons] using hys) (by simp)
      simpa using this
    rw [mkdirs_cons]
    cases hq : fs (pre ++ [x]) with
    | none =>
      simp only
      split
      · exact Adds.refl _ _
      · have h1 : Adds allowed fs (fs.put (pre ++ [x]) .dir) :=
          put_adds hq (ha [x] (by simp [List.cons_prefix_cons]) (by simp))
            (fun r y h hc => append_singleton_inj h ▸ hpre hc)
        exact h1.trans (ih (pre ++ [x]) _ (fun _ => by simp [Fs.put]) hsub)
    | some n =>
      cases n with
      | dir => exact ih (pre ++ [x]) fs (fun _ => hq) hsub
      | file t => exact Adds.refl _ _

/-- What `mkdirs` gives. -/
theorem mkdirs_ok (env : FsEnv) (pre xs : List String) (fs : Fs) (hpre : fs pre = some .dir)
    (h : (mkdirs env pre xs fs).1 = .ok ()) : (mkdirs env pre xs fs).2 (pre ++ xs) = some .dir := by
  induction xs generalizing pre fs with
  | nil => simpa [mkdirs_nil] using hpre
  | cons x xs ih =>
    rw [mkdirs_cons] at h ⊢
    have e : pre ++ x :: xs = (pre ++ [x]) ++ xs := by simp
    rw [e]
    cases hq : fs (pre ++ [x]) with
    | none =>
      rw [hq] at h
      simp only at h ⊢
      split at h
      · cases h
      · next hd =>
        rw [if_neg hd]
        exact ih _ _ (by simp [Fs.put]) h
    | some n =>
      rw [hq] at h
      cases n with
      | dir => exact ih _ _ hq h
      | file t => cases h

/-- `mkdirs` succeeds iff no file is in the way. -/
theorem mkdirs_ok_iff (env : FsEnv) (hd : ∀ q, env.denied q = false) (pre xs : List String) (fs : Fs) (hc : Fs.Closed fs)
    (hpre : fs pre = some .dir) :
    (mkdirs env pre xs fs).1 = .ok () ↔ ∀ ys, ys <+: xs → ∀ t, fs (pre ++ ys) ≠ some (.file t) := by
  induction xs generalizing pre fs with
  | nil =>
    simp only [mkdirs_nil, List.prefix_nil, true_iff]
    rintro ys rfl t
    simp [hpre]
  | cons x xs ih =>
    have hsplit : (∀ ys, ys <+: x :: xs → ∀ t, fs (pre ++ ys) ≠ some (.file t)) ↔
        ∀ ys, ys <+: xs → ∀ t, fs ((pre ++ [x]) ++ ys) ≠ some (.file t) := by
      constructor
      · intro h ys hys t
        have := h (x :: ys) (by simpa [List.cons_prefix_cons] using hys) t
        simpa using this
      · intro h ys hys t
        cases ys with
        | nil => simp [hpre]
        | cons y ys =>
          rw [List.cons_prefix_cons] at hys
          have := h ys hys.2 t
          simpa [hys.1] using this
    rw [mkdirs_cons, hsplit]
    cases hq : fs (pre ++ [x]) with
    | none =>
      simp only [hd, Bool.false_eq_true, if_false]
      have hadds : Adds (fun _ _ => True) fs (fs.put (pre ++ [x]) .dir) :=
        put_adds hq trivial (fun r y h _ => append_singleton_inj h ▸ hpre)
      rw [ih (pre ++ [x]) _ (hadds.closed hc) (by simp [Fs.put])]
      -- below the new folder there is nothing
      have hnone : ∀ ys, fs ((pre ++ [x]) ++ ys) = none := by
        intro ys
        have : ∀ zs : List String, fs ((pre ++ [x]) ++ zs.reverse) = none := by
          intro zs
          induction zs with
          | nil => simpa using hq
          | cons z zs ihz =>
            rw [List.reverse_cons, ← List.append_assoc]
            apply Classical.byContradiction
            intro hne
            have := hc.parent _ _ hne
            rw [ihz] at this
            cases this
        have := this ys.reverse
        simpa using this
      constructor
      · intro _ ys _ t
        rw [hnone]
        simp
      · intro _ ys _ t
        unfold Fs.put
        split
        · simp
        · rw [hnone]
          simp
    | some n =>
      cases n with
      | dir =>
        simp only
        exact ih (pre ++ [x]) fs hc hq
      | file t =>
        simp only [reduceCtorEq, false_iff]
        intro h
        exact h [] (by simp) t (by simpa using hq)

theorem makedirs_run (env : FsEnv) (p : String) (fs : Fs) :
    makedirs env p fs = if p = "" then (.error .osError, fs) else mkdirs env [] (env.resolve p) fs := by
  unfold makedirs
  split <;> rfl

theorem writeFile_run (env : FsEnv) (p text : String) (fs : Fs) :
    writeFile env p text fs =
      if p = "" ∨ fs (env.resolve p).dropLast ≠ some .dir ∨ fs (env.resolve p) = some .dir ∨ env.denied (env.resolve p) = true then
        (.error .osError, fs)
      else (.ok (), fs.put (env.resolve p) (.file text)) := by
  unfold writeFile
  rw [M.bind_run]
  simp only [M.get_run]
  split <;> rfl

/-- A step that creates its path, and nothing but what is allowed. -/
structure StepOK (env : FsEnv) (allowed : List String → Entry → Prop) (st : CreateStep) : Prop where
  adds : ∀ fs, pathExists env fs st.1 = false → Adds allowed fs (st.2 fs).2
  gives : ∀ fs, fs [] = some .dir → (st.2 fs).1 = .ok () → pathExists env (st.2 fs).2 st.1 = true

theorem resolve_none {env : FsEnv} {fs : Fs} {p : String} (hp : p ≠ "") (h : pathExists env fs p = false) :
    fs (env.resolve p) = none := by
  unfold pathExists at h
  simp only [hp, ne_eq, not_false_eq_true, decide_true, Bool.true_and] at h
  cases hh : fs (env.resolve p) with
  | none => rfl
  | some n => rw [hh] at h; cases h

theorem folderStep_ok (env : FsEnv) (allowed) (p : String) (ha : ∀ q, q <+: env.resolve p → allowed q .dir) :
    StepOK env allowed (folderStep env p) := by
  constructor
  · intro fs _
    show Adds allowed fs (makedirs env p fs).2
    rw [makedirs_run]
    split
    · exact Adds.refl _ _
    · exact mkdirs_adds env [] _ fs (fun h => h.root) (fun ys hys _ => ha _ (by simpa using hys))
  · intro fs hr h
    have h : (makedirs env p fs).1 = .ok () := h
    show pathExists env (makedirs env p fs).2 p = true
    rw [makedirs_run] at h ⊢
    split at h
    · cases h
    · next hp =>
      rw [if_neg hp]
      have := mkdirs_ok env [] _ fs hr h
      unfold pathExists
      rw [List.nil_append] at this
      simp [hp, this]

theorem writeStep_ok (env : FsEnv) (allowed) (p text : String) (ha : allowed (env.resolve p) (.file text)) :
    StepOK env allowed (p, writeFile env p text) := by
  constructor
  · intro fs hne
    show Adds allowed fs (writeFile env p text fs).2
    rw [writeFile_run]
    split
    · exact Adds.refl _ _
    · next h =>
      simp only [not_or] at h
      refine put_adds (resolve_none h.1 hne) ha ?_
      intro r x hq _
      have := h.2.1
      rw [hq] at this
      simpa using this
  · intro fs _ h
    have h : (writeFile env p text fs).1 = .ok () := h
    show pathExists env (writeFile env p text fs).2 p = true
    rw [writeFile_run] at h ⊢
    split at h
    · cases h
    · next hc =>
      rw [if_neg hc]
      simp only [not_or] at hc
      unfold pathExists
      simp [hc.1, Fs.put]

theorem projectSteps_ok (env : FsEnv) (path : String) (logs : Option String) (names : List String) :
    ∀ st ∈ projectSteps env path logs names, StepOK env (Creatable env path logs names) st := by
  intro st hst
  unfold projectSteps at hst
  simp only [List.cons_append, List.mem_cons, List.mem_append, List.mem_map, Option.mem_toList] at hst
  rcases hst with rfl | ⟨l, hl, rfl⟩ | rfl | ⟨name, hn, rfl⟩
  · exact folderStep_ok _ _ _ (fun q hq => Or.inl hq)
  · exact folderStep_ok _ _ _ (fun q hq => Or.inr ⟨l, by simpa using hl, hq⟩)
  · exact writeStep_ok _ _ _ _ (Or.inl ⟨rfl, rfl⟩)
  · exact writeStep_ok _ _ _ _ (Or.inr ⟨name, hn, rfl, rfl⟩)

theorem unlessExists_adds {env : FsEnv} {allowed} {st : CreateStep} (h : StepOK env allowed st) (fs : Fs) :
    Adds allowed fs (unlessExists env st.1 st.2 fs).2 := by
  rw [unlessExists_run]
  split
  · exact Adds.refl _ _
  · next hne => exact h.adds fs (by simpa using hne)

theorem runSteps_adds {env : FsEnv} {allowed} (steps : List CreateStep) (h : ∀ st ∈ steps, StepOK env allowed st) (fs : Fs) :
    Adds allowed fs (runSteps env steps fs).2 := by
  induction steps generalizing fs with
  | nil => exact Adds.refl _ _
  | cons st rest ih =>
    have h1 := unlessExists_adds (h st (by simp)) fs
    rw [runSteps_cons]
    cases hh : unlessExists env st.1 st.2 fs with
    | mk r fs' =>
      rw [hh] at h1
      cases r with
      | ok a => exact h1.trans (ih (fun st hst => h st (by simp [hst])) fs')
      | error e => exact h1

theorem runSteps_gives {env : FsEnv} {allowed} (steps : List CreateStep) (h : ∀ st ∈ steps, StepOK env allowed st) (fs : Fs)
    (hroot : fs [] = some .dir) (hok : (runSteps env steps fs).1 = .ok ()) :
    ∀ st ∈ steps, pathExists env (runSteps env steps fs).2 st.1 = true := by
  induction steps generalizing fs with
  | nil => simp
  | cons st rest ih =>
    have h1 := unlessExists_adds (h st (by simp)) fs
    rw [runSteps_cons] at hok ⊢
    have he : (unlessExists env st.1 st.2 fs).1 = .ok () → pathExists env (unlessExists env st.1 st.2 fs).2 st.1 = true := by
      rw [unlessExists_run]
      split
      · next hx => exact fun _ => hx
      · exact (h st (by simp)).gives fs hroot
    cases hh : unlessExists env st.1 st.2 fs with
    | mk r fs' =>
      rw [hh] at h1 hok he
      cases r with
      | ok a =>
        simp only at hok ⊢
        intro st' hst'
        rcases List.mem_cons.1 hst' with rfl | hst'
        · exact (runSteps_adds rest (fun st hst => h st (by simp [hst])) fs').exists (he rfl)
        · exact ih (fun st hst => h st (by simp [hst])) fs' (h1.kept _ _ hroot) hok st' hst'
      | error e => cases hok

theorem runSteps_idle {env : FsEnv} (steps : List CreateStep) (fs : Fs) (h : ∀ st ∈ steps, pathExists env fs st.1 = true) :
    runSteps env steps fs = (.ok (), fs) := by
  induction steps with
  | nil => rfl
  | cons st rest ih =>
    rw [runSteps_cons, unlessExists_run, if_pos (h st (by simp))]
    exact ih (fun st hst => h st (by simp [hst]))

theorem createIfNeeded_run (env : FsEnv) (folder defaults : String) (logs : Option String) (names : List String) (fs : Fs) :
    createIfNeeded env folder defaults logs names fs =
      if needToCreate env fs folder defaults logs names then createProject env folder logs names fs else (.ok (), fs) := by
  unfold createIfNeeded
  rw [M.bind_run]
  simp only [M.get_run]
  split <;> rfl

theorem resolve_join2 {env : FsEnv} (hcwd : Path.isAbs env.cwd = true) (path : String) {x : String} (hx : Path.Plain x) :
    env.resolve (Path.join2 path x) = env.resolve path ++ [x] := by
  have := Path.normComps_full_join2 hcwd path (ws := [x]) (by simp) (by simpa using hx)
  have hj : join '/' [x] = x := by simp [join, joinL]
  rw [hj] at this
  exact this

theorem join2_ne (path : String) {x : String} (hx : x ≠ "") : Path.join2 path x ≠ "" := by
  unfold Path.join2
  intro h
  split at h
  · exact hx h
  · split at h
    · have := congrArg String.toList h
      simp only [String.toList_append, String.toList_empty, List.append_eq_nil_iff] at this
      exact hx (by rw [← String.toList_inj, this.2]; rfl)
    · have := congrArg String.toList h
      simp only [String.toList_append, String.toList_empty, List.append_eq_nil_iff] at this
      exact hx (by rw [← String.toList_inj, this.2]; rfl)

/-! ## C45 -/

/-- Creating a project keeps everything that is there, with its content, whether it succeeds or fails anywhere. -/
theorem C45_kept (env : FsEnv) (folder defaults : String) (logs : Option String) (names : List String) (fs : Fs)
    (q : List String) (n : Entry) (h : fs q = some n) :
    (createProject env folder logs names fs).2 q = some n ∧ (createIfNeeded env folder defaults logs names fs).2 q = some n := by
  have h1 : (createProject env folder logs names fs).2 q = some n := by
    rw [createProject_steps]
    exact (runSteps_adds _ (projectSteps_ok env folder logs names) fs).kept q n h
  refine ⟨h1, ?_⟩
  rw [createIfNeeded_run]
  split
  · exact h1
  · exact h

/-- Nothing else is created, and files are created with nothing in them. -/
theorem C45_only (env : FsEnv) (folder : String) (logs : Option String) (names : List String) (fs : Fs)
    (q : List String) (n : Entry) (h : (createProject env folder logs names fs).2 q = some n) :
    fs q = some n ∨ Creatable env folder logs names q n := by
  rw [createProject_steps] at h
  exact (runSteps_adds _ (projectSteps_ok env folder logs names) fs).new q n h

/-- If it succeeds, everything a project needs is there. -/
theorem C45_created (env : FsEnv) (folder : String) (logs : Option String) (names : List String) (fs : Fs)
    (hroot : fs [] = some .dir) (hok : (createProject env folder logs names fs).1 = .ok ()) :
    ∀ p ∈ requiredPaths folder logs names, pathExists env (createProject env folder logs names fs).2 p = true := by
  intro p hp
  rw [← projectSteps_paths env, List.mem_map] at hp
  obtain ⟨st, hst, rfl⟩ := hp
  rw [createProject_steps] at hok ⊢
  exact runSteps_gives _ (projectSteps_ok env folder logs names) fs hroot hok st hst

/-- Doing it again changes nothing. -/
theorem C45_again (env : FsEnv) (folder : String) (logs : Option String) (names : List String) (fs fs' : Fs)
    (hroot : fs [] = some .dir) (hok : createProject env folder logs names fs = (.ok (), fs')) :
    createProject env folder logs names fs' = (.ok (), fs') := by
  have h := C45_created env folder logs names fs hroot (by rw [hok])
  rw [hok] at h
  rw [createProject_steps]
  apply runSteps_idle
  intro st hst
  apply h
  rw [← projectSteps_paths env]
  exact List.mem_map_of_mem hst

/-- With the default name of the folder, and a folder that is given, nothing is needed after a success. -/
theorem C45_needed_partial (env : FsEnv) (hcwd : Path.isAbs env.cwd = true) (folder : String) (hf : folder ≠ "")
    (logs : Option String) (names : List String) (fs fs' : Fs) (hc : Fs.Closed fs)
    (hok : createIfNeeded env folder "defaults" logs names fs = (.ok (), fs')) :
    needToCreate env fs' folder "defaults" logs names = false := by
  rw [createIfNeeded_run] at hok
  split at hok
  · have h := C45_created env folder logs names fs hc.root (by rw [hok])
    rw [hok] at h
    simp only at h
    have hcl : Fs.Closed fs' := by
      have := (runSteps_adds _ (projectSteps_ok env folder logs names) fs).closed hc
      rw [← createProject_steps, hok] at this
      exact this
    have hd := h (Path.join2 folder "defaults") (by simp [requiredPaths])
    have hfolder : pathExists env fs' folder = true := by
      unfold pathExists at hd ⊢
      rw [resolve_join2 hcwd folder (by refine ⟨by decide, by decide, by decide, by decide +kernel⟩)] at hd
      rw [Bool.and_eq_true] at hd ⊢
      refine ⟨by simp [hf], ?_⟩
      rw [hcl.parent _ "defaults" (by intro hn; rw [hn] at hd; exact absurd hd.2 (by simp))]
      rfl
    unfold needToCreate
    rw [hfolder, hd, h (Path.join2 folder "pipeline_dict.py") (by simp [requiredPaths])]
    simp only [Bool.not_true, Bool.false_or, Bool.or_eq_false_iff, List.any_eq_false, Bool.not_eq_true,
      Bool.not_eq_false']
    constructor
    · cases logs with
      | none => rfl
      | some l => simp [h l (by simp [requiredPaths])]
    · intro name hn
      exact h _ (by simp only [requiredPaths, List.cons_append, List.mem_cons, List.mem_append, List.mem_map]; exact Or.inr (Or.inr (Or.inr ⟨name, hn, rfl⟩)))
  · next hn =>
    cases hok
    simpa using hn

theorem Fs.Closed.below {fs : Fs} (hc : Fs.Closed fs) (q : List String) {r : List String} (hr : r ≠ [])
    (h : fs (q ++ r) ≠ none) : fs q = some .dir := by
  induction r generalizing q with
  | nil => exact absurd rfl hr
  | cons x r ih =>
    cases r with
    | nil => exact hc.parent q x h
    | cons y r =>
      have := ih (q ++ [x]) (by simp) (by simpa using h)
      exact hc.parent q x (by rw [this]; simp)

/-- No file is in the way of the path. -/
def FreeWay (env : FsEnv) (fs : Fs) (p : String) : Prop :=
  p ≠ "" ∧ ∀ q r, env.resolve p = q ++ r → r ≠ [] → ∀ t, fs q ≠ some (.file t)

theorem folder_succeeds (env : FsEnv) (hd : ∀ q, env.denied q = false) (p : String) (fs : Fs) (hc : Fs.Closed fs) :
    (unlessExists env p (makedirs env p) fs).1 = .ok () ↔ FreeWay env fs p := by
  unfold FreeWay
  rw [unlessExists_run]
  by_cases hp : p = ""
  · subst hp
    have h1 : pathExists env fs "" = false := by simp [pathExists]
    rw [h1, makedirs_run]
    simp
  · by_cases he : pathExists env fs p = true
    · rw [if_pos he]
      simp only [true_iff]
      refine ⟨hp, ?_⟩
      intro q r hqr hr t
      unfold pathExists at he
      rw [Bool.and_eq_true, hqr] at he
      rw [hc.below q hr (by intro hn; rw [hn] at he; exact absurd he.2 (by simp))]
      simp
    · rw [if_neg he, makedirs_run, if_neg hp, mkdirs_ok_iff env hd [] _ fs hc hc.root]
      have hn := resolve_none hp (by simpa using he)
      constructor
      · intro h
        refine ⟨hp, fun q r hqr _ t => ?_⟩
        have := h q ⟨r, hqr.symm⟩ t
        simpa using this
      · rintro ⟨_, h⟩ ys ⟨r, hr⟩ t
        rw [List.nil_append]
        cases r with
        | nil =>
          rw [List.append_nil] at hr
          rw [hr, hn]
          simp
        | cons x r => exact h ys (x :: r) hr.symm (by simp) t

theorem files_succeed (env : FsEnv) (hd : ∀ q, env.denied q = false) (dir : List String) (steps : List CreateStep)
    (h : ∀ st ∈ steps, ∃ x text, st.1 ≠ "" ∧ env.resolve st.1 = dir ++ [x] ∧ st.2 = writeFile env st.1 text) (fs : Fs)
    (hdir : fs dir = some .dir) : (runSteps env steps fs).1 = .ok () := by
  induction steps generalizing fs with
  | nil => rfl
  | cons st rest ih =>
    have hrest := fun st hst => h st (List.mem_cons_of_mem _ hst)
    rw [runSteps_cons, unlessExists_run]
    by_cases he : pathExists env fs st.1 = true
    · rw [if_pos he]
      exact ih hrest fs hdir
    · obtain ⟨x, text, hne, hx, hst⟩ := h st (by simp)
      have hn := resolve_none hne (by simpa using he)
      rw [if_neg he, hst, writeFile_run, if_neg]
      · refine ih hrest _ ?_
        unfold Fs.put
        rw [if_neg]
        · exact hdir
        · rw [hx]
          intro hh
          have := congrArg List.length hh
          simp at this
      · rw [hx] at hn
        simp [hne, hx, hdir, hn, hd]

theorem plain_dict (name : String) (h : hasChar '/' name = false) : Path.Plain (name ++ "_dict.py") := by
  have key : ∀ s : String, s.toList.length < 8 → name ++ "_dict.py" ≠ s := by
    rintro s hs rfl
    rw [String.toList_append, List.length_append] at hs
    have : "_dict.py".toList.length = 8 := by decide
    omega
  refine ⟨key _ (by decide), key _ (by decide), key _ (by decide), ?_⟩
  rw [hasChar_append, h]
  decide +kernel

/-- If nothing is denied, it succeeds iff no file is in the way of the two folders. -/
theorem C45_succeeds_iff (env : FsEnv) (hcwd : Path.isAbs env.cwd = true) (hd : ∀ q, env.denied q = false) (folder : String)
    (logs : Option String) (names : List String) (hnames : ∀ n ∈ names, hasChar '/' n = false) (fs : Fs) (hc : Fs.Closed fs) :
    (createProject env folder logs names fs).1 = .ok () ↔
      FreeWay env fs (Path.join2 folder "defaults") ∧ ∀ l, logs = some l → FreeWay env fs l := by
  have pd : Path.Plain "defaults" := ⟨by decide, by decide, by decide, by decide +kernel⟩
  have pp : Path.Plain "pipeline_dict.py" := ⟨by decide, by decide, by decide, by decide +kernel⟩
  -- the files can be written once the folder is there
  have hfiles : ∀ fs : Fs, fs (env.resolve folder) = some .dir → (runSteps env
      ((Path.join2 folder "pipeline_dict.py", writeFile env (Path.join2 folder "pipeline_dict.py") "\npipeline_dict = {}\n") ::
        names.map (dictStep env folder)) fs).1 = .ok () := by
    intro fs hfs
    refine files_succeed env hd (env.resolve folder) _ ?_ fs hfs
    intro st hst
    rcases List.mem_cons.1 hst with rfl | hst
    · exact ⟨_, _, join2_ne _ pp.1, resolve_join2 hcwd folder pp, rfl⟩
    · obtain ⟨n, hn, rfl⟩ := List.mem_map.1 hst
      have pn := plain_dict n (hnames n hn)
      exact ⟨_, _, join2_ne _ pn.1, resolve_join2 hcwd folder pn, rfl⟩
  have hdir : ∀ fs : Fs, Fs.Closed fs → pathExists env fs (Path.join2 folder "defaults") = true →
      fs (env.resolve folder) = some .dir := by
    intro fs hc he
    unfold pathExists at he
    rw [Bool.and_eq_true, resolve_join2 hcwd folder pd] at he
    exact hc.parent _ "defaults" (by intro hn; rw [hn] at he; exact absurd he.2 (by simp))
  have h1 := folder_succeeds env hd (Path.join2 folder "defaults") fs hc
  have hok1 : StepOK env (fun _ n => n = .dir) (folderStep env (Path.join2 folder "defaults")) :=
    folderStep_ok _ _ _ (fun _ _ => rfl)
  have ha1 := unlessExists_adds hok1 fs
  rw [createProject_steps]
  unfold projectSteps
  rw [List.cons_append, runSteps_cons]
  have hg1 : (unlessExists env (Path.join2 folder "defaults") (makedirs env (Path.join2 folder "defaults")) fs).1 = .ok () →
      pathExists env (unlessExists env (Path.join2 folder "defaults") (makedirs env (Path.join2 folder "defaults")) fs).2
        (Path.join2 folder "defaults") = true := by
    rw [unlessExists_run]
    split
    · next hx => exact fun _ => hx
    · exact hok1.gives fs hc.root
  simp only [folderStep] at ha1 ⊢
  cases hh : unlessExists env (Path.join2 folder "defaults") (makedirs env (Path.join2 folder "defaults")) fs with
  | mk r fs1 =>
    rw [hh] at h1 ha1 hg1
    cases r with
    | error e =>
      simp only [reduceCtorEq, false_iff] at h1 ⊢
      exact fun h => h1 h.1
    | ok a =>
      have h1' := h1.1 rfl
      have he1 := hg1 rfl
      simp only
      cases logs with
      | none =>
        simp only [Option.toList_none, List.map_nil, List.nil_append]
        rw [hfiles fs1 (hdir fs1 (ha1.closed hc) he1)]
        simp [h1']
      | some l =>
        simp only [Option.toList_some, List.map_cons, List.map_nil, List.cons_append, List.nil_append]
        rw [runSteps_cons]
        have h2 := folder_succeeds env hd l fs1 (ha1.closed hc)
        have hfree : FreeWay env fs1 l ↔ FreeWay env fs l := by
          unfold FreeWay
          constructor
          · rintro ⟨hp, h⟩
            exact ⟨hp, fun q r hq hr t hf => h q r hq hr t (ha1.kept _ _ hf)⟩
          · rintro ⟨hp, h⟩
            refine ⟨hp, fun q r hq hr t hf => ?_⟩
            rcases ha1.new _ _ hf with hf | hf
            · exact h q r hq hr t hf
            · cases hf
        have ha2 := unlessExists_adds (folderStep_ok env (fun _ n => n = .dir) l (fun _ _ => rfl)) fs1
        simp only [folderStep] at ha2 ⊢
        cases hh2 : unlessExists env l (makedirs env l) fs1 with
        | mk r2 fs2 =>
          rw [hh2] at h2 ha2
          cases r2 with
          | error e =>
            simp only [reduceCtorEq, false_iff] at h2 ⊢
            exact fun h => h2 (hfree.2 (h.2 l rfl))
          | ok b =>
            simp only
            rw [hfiles fs2 (hdir fs2 (ha2.closed (ha1.closed hc)) (ha2.exists he1))]
            simp only [true_iff]
            refine ⟨h1', fun l' hl' => ?_⟩
            cases hl'
            exact hfree.1 (h2.1 rfl)

/-- A file system with nothing in it. -/
def Fs.blank : Fs := fun q => if q = [] then some .dir else none

def freeEnv : FsEnv := ⟨"/", fun _ => false⟩

theorem blank_closed : Fs.Closed Fs.blank := ⟨rfl, fun q x h => by simp [Fs.blank] at h⟩

example : (createIfNeeded freeEnv "proj" "defaults" none ["cls"] Fs.blank).1 = .ok () ∧
    (createIfNeeded freeEnv "proj" "defaults" none ["cls"] Fs.blank).2 ["proj", "cls_dict.py"] =
      some (.file "\nclass_dict = {}\n") := by constructor <;> decide +kernel

/-- The name of the default folder is not used: with another name the folder is never created, and always needed. -/
theorem C45_custom_violated (env : FsEnv) (hcwd : Path.isAbs env.cwd = true) (folder d : String) (hd : Path.Plain d)
    (names : List String) (hne : d ≠ "defaults" ∧ d ≠ "pipeline_dict.py" ∧ ∀ n ∈ names, hasChar '/' n = false ∧ d ≠ n ++ "_dict.py")
    (fs : Fs) (h : fs (env.resolve folder ++ [d]) = none) :
    needToCreate env (createIfNeeded env folder d none names fs).2 folder d none names = true := by
  have pd : Path.Plain "defaults" := ⟨by decide, by decide, by decide, by decide +kernel⟩
  have pp : Path.Plain "pipeline_dict.py" := ⟨by decide, by decide, by decide, by decide +kernel⟩
  have hnone : (createIfNeeded env folder d none names fs).2 (env.resolve folder ++ [d]) = none := by
    rw [createIfNeeded_run]
    split
    · cases hh : (createProject env folder none names fs).2 (env.resolve folder ++ [d]) with
      | none => rfl
      | some n =>
        exfalso
        rcases C45_only env folder none names fs _ n hh with h' | h'
        · rw [h] at h'
          cases h'
        · have last : ∀ x, env.resolve folder ++ [d] = env.resolve folder ++ [x] → d = x := by
            intro x hx
            simpa using hx
          cases n with
          | dir =>
            rcases h' with h' | ⟨l, hl, _⟩
            · rw [resolve_join2 hcwd folder pd] at h'
              have := List.IsPrefix.eq_of_length h' (by simp)
              exact hne.1 (last _ this)
            · cases hl
          | file t =>
            rcases h' with ⟨hq, _⟩ | ⟨m, hm, hq, _⟩
            · rw [resolve_join2 hcwd folder pp] at hq
              exact hne.2.1 (last _ hq)
            · rw [resolve_join2 hcwd folder (plain_dict m (hne.2.2 m hm).1)] at hq
              exact (hne.2.2 m hm).2 (last _ hq)
    · exact h
  have : pathExists env (createIfNeeded env folder d none names fs).2 (Path.join2 folder d) = false := by
    unfold pathExists
    rw [resolve_join2 hcwd folder hd, hnone]
    simp
  unfold needToCreate
  rw [this]
  simp

example : Path.Plain "config" := ⟨by decide, by decide, by decide, by decide +kernel⟩

/-- A project in the current folder, given as the empty string, is created in it but always needed. -/
theorem C45_empty_violated (env : FsEnv) (d : String) (logs : Option String) (names : List String) (fs : Fs) :
    needToCreate env (createIfNeeded env "" d logs names fs).2 "" d logs names = true := by
  simp [needToCreate, pathExists]

/-- A file where a folder is needed counts as the folder. -/
theorem C45_file_violated :
    (createIfNeeded freeEnv "proj" "defaults" none []
      ((Fs.blank.put ["proj"] .dir).put ["proj", "defaults"] (.file ""))).1 = .ok () ∧
    (createIfNeeded freeEnv "proj" "defaults" none []
      ((Fs.blank.put ["proj"] .dir).put ["proj", "defaults"] (.file ""))).2 ["proj", "defaults"] = some (.file "") := by
  constructor <;> decide +kernel

end Verif.Props

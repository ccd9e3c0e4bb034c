import Verif.Props.Scaffold
import Verif.Props.Definition
import Verif.Props.FilesToy

/-
Property theorems about loading definitions and creating items: C65, C66.
-/

namespace Verif.Props
open Verif.Py Verif.Model

variable {V L : Type}

/-! ## C65 -/

/-! ### Specification -/

/-- The definition in a file can be read, and gives the collection. -/
def ReadsFrom (env : FsEnv) (lang : DefLang V L) (fs : Fs) (specific : Bool) (file : String) (r : Reg V) : Prop :=
  fs (env.resolve file) ≠ some .dir ∧ ∃ es, lang.read specific (contentAt fs (env.resolve file)) = .ok es ∧
    Reg.fromDefinition (lang.resolve specific) specific es = .ok r

/-- The definitions of the classes can be read, and give these collections. -/
inductive ReadsClasses (env : FsEnv) (lang : DefLang V L) (folder : String) (fs : Fs) : List ClassConfig → List (String × Reg V) → Prop
  | nil : ReadsClasses env lang folder fs [] []
  | cons {c : ClassConfig} {classes : List ClassConfig} {name : String} {r : Reg V} {rs : List (String × Reg V)}
      (hn : c.name = some name) (hc : c.hasClass = true)
      (hr : ReadsFrom env lang fs true (Path.join2 folder (name ++ "_dict.py")) r)
      (hrs : ReadsClasses env lang folder fs classes rs) : ReadsClasses env lang folder fs (c :: classes) ((name, r) :: rs)

/-- All definitions can be read, and give this registry. -/
structure ReadsAll (env : FsEnv) (lang : DefLang V L) (folder : String) (classes : List ClassConfig) (fs : Fs) (r : Registry V) : Prop where
  general : ReadsFrom env lang fs false (Path.join2 folder "pipeline_dict.py") r.general
  specific : ReadsClasses env lang folder fs classes r.specific

/-- The names of the classes differ, and none is a name in the general definition. -/
def NamesDiffer (r : Registry V) : Prop :=
  (r.specific.map Prod.fst).Nodup ∧ ∀ b items, r.general = .coll b items → ∀ c ∈ r.specific.map Prod.fst, c ∉ items.map Prod.fst

/-! ### Lemmas -/

/-- The operation does not change files. -/
def Silent {α : Type} (m : FM α) : Prop := ∀ fs, (m fs).2 = fs

namespace Silent

theorem pure {α : Type} (a : α) : Silent (Pure.pure a : FM α) := fun _ => rfl

theorem raise {α : Type} (e : PyErr) : Silent (M.raise e : FM α) := fun _ => rfl

theorem liftE {α : Type} (r : Except PyErr α) : Silent (M.liftE r : FM α) := fun _ => by rw [M.liftE_run]

theorem bind {α β : Type} {m : FM α} {f : α → FM β} (hm : Silent m) (hf : ∀ a, Silent (f a)) : Silent (m >>= f) := by
  intro fs
  rw [M.bind_run]
  have := hm fs
  cases h : m fs with
  | mk r s =>
    rw [h] at this
    cases r with
    | ok a =>
      simp only
      rw [hf a s]
      exact this
    | error e => exact this

end Silent

theorem join2_py_ne (folder x : String) : Path.join2 folder (x ++ "_dict.py") ≠ "" := by
  refine join2_ne folder ?_
  intro h
  have := congrArg (fun s : String => s.toList.length) h
  rw [String.toList_append, List.length_append] at this
  have h8 : "_dict.py".toList.length = 8 := by decide
  have h0 : "".toList.length = 0 := by decide
  omega

theorem readIfThere_silent (env : FsEnv) (p : String) : Silent (readIfThere env p) := by
  intro fs
  unfold readIfThere
  rw [M.bind_run]
  simp only [M.get_run]
  split
  · cases fs (env.resolve p) with
    | none => rfl
    | some n => cases n <;> rfl
  · rfl

theorem readRegistrar_run (env : FsEnv) (lang : DefLang V L) (b : Bool) (p : String) (hp : p ≠ "") (fs : Fs) :
    readRegistrar env lang b p fs =
      (if fs (env.resolve p) = some .dir then .error .osError else lang.read b (contentAt fs (env.resolve p)), fs) := by
  unfold readRegistrar
  rw [M.bind_run, readIfThere_run env p hp]
  split
  · next h =>
    split at h
    · cases h
    · next hd =>
      cases h
      rw [if_neg hd, M.liftE_run]
  · next h =>
    split at h
    · next hd =>
      cases h
      rw [if_pos hd]
    · cases h

theorem readSpecific_silent (env : FsEnv) (lang : DefLang V L) (folder : String) (classes : List ClassConfig) :
    Silent (readSpecific env lang folder classes) := by
  induction classes with
  | nil => exact Silent.pure _
  | cons c rest ih =>
    unfold readSpecific
    cases c.name with
    | none => exact Silent.raise _
    | some name =>
      simp only
      split
      · exact Silent.raise _
      · refine Silent.bind ?_ fun es => Silent.bind (Silent.liftE _) fun r => Silent.bind ih fun _ => Silent.pure _
        exact Silent.bind (readIfThere_silent _ _) fun _ => Silent.liftE _

theorem readRegistry_silent (env : FsEnv) (lang : DefLang V L) (folder : String) (classes : List ClassConfig) :
    Silent (readRegistry env lang folder classes) := by
  unfold readRegistry
  refine Silent.bind ?_ fun es => Silent.bind (readSpecific_silent _ _ _ _) fun _ => Silent.bind (Silent.liftE _) fun _ => Silent.pure _
  exact Silent.bind (readIfThere_silent _ _) fun _ => Silent.liftE _

theorem ok_bind {α β : Type} (m : FM α) (f : α → FM β) (fs : Fs) (hm : Silent m) (b : β) :
    ((m >>= f) fs).1 = .ok b ↔ ∃ a, (m fs).1 = .ok a ∧ (f a fs).1 = .ok b := by
  rw [M.bind_run]
  have := hm fs
  cases h : m fs with
  | mk r s =>
    rw [h] at this
    have this : s = fs := this
    subst this
    cases r with
    | ok a =>
      simp
    | error e => simp

theorem readsFrom_iff (env : FsEnv) (lang : DefLang V L) (fs : Fs) (b : Bool) (p : String) (hp : p ≠ "") (r : Reg V) :
    ReadsFrom env lang fs b p r ↔ ∃ es, (readRegistrar env lang b p fs).1 = .ok es ∧
      Reg.fromDefinition (lang.resolve b) b es = .ok r := by
  unfold ReadsFrom
  rw [readRegistrar_run env lang b p hp fs]
  by_cases hd : fs (env.resolve p) = some .dir
  · simp [hd]
  · simp [hd]

theorem readSpecific_iff (env : FsEnv) (lang : DefLang V L) (folder : String) (classes : List ClassConfig) (fs : Fs)
    (rs : List (String × Reg V)) :
    (readSpecific env lang folder classes fs).1 = .ok rs ↔ ReadsClasses env lang folder fs classes rs := by
  induction classes generalizing rs with
  | nil =>
    constructor
    · intro h
      cases h
      exact .nil
    · intro h
      cases h
      rfl
  | cons c rest ih =>
    have hsil : ∀ p, Silent (readRegistrar env lang true p : FM (List (String × Def L))) := fun p =>
      Silent.bind (readIfThere_silent _ _) fun _ => Silent.liftE _
    unfold readSpecific
    cases hn : c.name with
    | none =>
      constructor
      · intro h
        cases h
      · intro h
        cases h with
        | cons h1 => rw [hn] at h1; cases h1
    | some name =>
      simp only
      by_cases hc : c.hasClass = false
      · rw [if_pos hc]
        constructor
        · intro h
          cases h
        · intro h
          cases h with
          | cons h1 h2 => rw [hc] at h2; cases h2
      · rw [if_neg hc, ok_bind _ _ _ (hsil _)]
        constructor
        · rintro ⟨es, h1, h2⟩
          rw [ok_bind _ _ _ (Silent.liftE _)] at h2
          obtain ⟨r, h2, h3⟩ := h2
          rw [M.liftE_run] at h2
          rw [ok_bind _ _ _ (readSpecific_silent _ _ _ _)] at h3
          obtain ⟨rs', h3, h4⟩ := h3
          cases h4
          refine .cons hn (by simpa using hc) ?_ ((ih rs').1 h3)
          exact (readsFrom_iff env lang fs true _ (join2_py_ne folder name) r).2 ⟨es, h1, h2⟩
        · intro h
          cases h with
          | @cons _ _ name' r rs' h1 h2 h3 h4 =>
            rw [hn] at h1
            cases h1
            obtain ⟨es, h5, h6⟩ := (readsFrom_iff env lang fs true _ (join2_py_ne folder name) r).1 h3
            refine ⟨es, h5, ?_⟩
            rw [ok_bind _ _ _ (Silent.liftE _)]
            refine ⟨r, by rw [M.liftE_run]; exact h6, ?_⟩
            rw [ok_bind _ _ _ (readSpecific_silent _ _ _ _)]
            exact ⟨rs', (ih rs').2 h4, rfl⟩

theorem readRegistry_iff (env : FsEnv) (lang : DefLang V L) (folder : String) (classes : List ClassConfig) (fs : Fs)
    (r : Registry V) : (readRegistry env lang folder classes fs).1 = .ok r ↔ ReadsAll env lang folder classes fs r := by
  have hp : Path.join2 folder "pipeline_dict.py" ≠ "" := join2_ne folder (by decide)
  have hsil : Silent (readRegistrar env lang false (Path.join2 folder "pipeline_dict.py") : FM (List (String × Def L))) :=
    Silent.bind (readIfThere_silent _ _) fun _ => Silent.liftE _
  unfold readRegistry
  rw [ok_bind _ _ _ hsil]
  constructor
  · rintro ⟨es, h1, h2⟩
    rw [ok_bind _ _ _ (readSpecific_silent _ _ _ _)] at h2
    obtain ⟨rs, h2, h3⟩ := h2
    rw [ok_bind _ _ _ (Silent.liftE _)] at h3
    obtain ⟨g, h3, h4⟩ := h3
    rw [M.liftE_run] at h3
    cases h4
    exact ⟨(readsFrom_iff env lang fs false _ hp g).2 ⟨es, h1, h3⟩, (readSpecific_iff env lang folder classes fs rs).1 h2⟩
  · rintro ⟨h1, h2⟩
    obtain ⟨es, h3, h4⟩ := (readsFrom_iff env lang fs false _ hp r.general).1 h1
    refine ⟨es, h3, ?_⟩
    rw [ok_bind _ _ _ (readSpecific_silent _ _ _ _)]
    refine ⟨r.specific, (readSpecific_iff env lang folder classes fs r.specific).2 h2, ?_⟩
    rw [ok_bind _ _ _ (Silent.liftE _)]
    exact ⟨r.general, by rw [M.liftE_run]; exact h4, rfl⟩

theorem fromDefinition_coll {resolve : L → Except PyErr (String × Callable V)} {b : Bool} {es : List (String × Def L)} {r : Reg V}
    (h : Reg.fromDefinition resolve b es = .ok r) : ∃ items, r = .coll b items := by
  unfold Reg.fromDefinition at h
  cases hd : fromDict resolve b es with
  | error e => rw [hd] at h; cases h
  | ok items => rw [hd] at h; cases h; exact ⟨items, rfl⟩

theorem readsClasses_coll {env : FsEnv} {lang : DefLang V L} {folder : String} {fs : Fs} {classes : List ClassConfig}
    {rs : List (String × Reg V)} (h : ReadsClasses env lang folder fs classes rs) : ∀ e ∈ rs, ∃ items, e.2 = .coll true items := by
  induction h with
  | nil => intro e he; cases he
  | cons hn hc hr _ ih =>
    obtain ⟨_, es, _, h⟩ := hr
    intro e he
    rcases List.mem_cons.1 he with rfl | he
    · exact fromDefinition_coll h
    · exact ih e he

theorem ReadsAll.coll {env : FsEnv} {lang : DefLang V L} {folder : String} {classes : List ClassConfig} {fs : Fs} {r : Registry V}
    (h : ReadsAll env lang folder classes fs r) : ∃ items, r.general = .coll false items := by
  obtain ⟨_, es, _, h⟩ := h.general
  exact fromDefinition_coll h

theorem createRegistrars_run (env : FsEnv) (lang : DefLang V L) (text : ItemText V) (folder base : String)
    (classes : List ClassConfig) (fs : Fs) :
    createRegistrars env lang text folder base classes fs =
      match (readRegistry env lang folder classes fs).1 with
      | .error e => (.error e, fs)
      | .ok r => match validateRegistrars r with
        | .error e => (.error e, fs)
        | .ok _ => match scaffoldSpecific env text base r.specific fs with
          | (.error e, fs1) => (.error e, fs1)
          | (.ok _, fs1) => match r.general.scaffold env text base fs1 with
            | (.error e, fs2) => (.error e, fs2)
            | (.ok _, fs2) => (.ok r, fs2) := by
  unfold createRegistrars
  rw [M.bind_run]
  have := readRegistry_silent env lang folder classes fs
  cases h : readRegistry env lang folder classes fs with
  | mk res s =>
    rw [h] at this
    have this : s = fs := this
    subst this
    cases res with
    | error e => rfl
    | ok r =>
      simp only
      rw [M.bind_run, M.liftE_run]
      cases validateRegistrars r with
      | error e => rfl
      | ok u =>
        simp only
        rw [M.bind_run]
        cases scaffoldSpecific env text base r.specific s with
        | mk res1 s1 =>
          cases res1 with
          | error e => rfl
          | ok u =>
            simp only
            rw [M.bind_run]
            cases r.general.scaffold env text base s1 with
            | mk res2 s2 => cases res2 <;> rfl

/-! ### Theorems -/

/-- If the definitions cannot be read and resolved, or their names clash, loading fails and no file is changed. -/
theorem C65_rejected (env : FsEnv) (lang : DefLang V L) (text : ItemText V) (folder base : String)
    (classes : List ClassConfig) (fs : Fs) (h : ¬ ∃ r, ReadsAll env lang folder classes fs r ∧ NamesDiffer r) :
    ∃ e, createRegistrars env lang text folder base classes fs = (.error e, fs) := by
  rw [createRegistrars_run]
  cases hr : (readRegistry env lang folder classes fs).1 with
  | error e => exact ⟨e, rfl⟩
  | ok r =>
    have hr := (readRegistry_iff env lang folder classes fs r).1 hr
    simp only
    cases hv : validateRegistrars r with
    | error e => exact ⟨e, rfl⟩
    | ok u =>
      refine absurd ⟨r, hr, ?_⟩ h
      obtain ⟨items, hg⟩ := hr.coll
      obtain ⟨h1, h2⟩ := C40_names r false items hg hv
      refine ⟨h1, ?_⟩
      intro b items' hg'
      rw [hg] at hg'
      cases hg'
      exact h2

/-- So a class without name or class, or a definition that cannot be read or resolved, is rejected like this. -/
theorem C65_incomplete (env : FsEnv) (lang : DefLang V L) (text : ItemText V) (folder base : String)
    (classes : List ClassConfig) (fs : Fs)
    (h : (∃ c ∈ classes, c.name = none ∨ c.hasClass = false ∨
        ∃ name, c.name = some name ∧ ∀ r, ¬ ReadsFrom env lang fs true (Path.join2 folder (name ++ "_dict.py")) r) ∨
      ∀ r, ¬ ReadsFrom env lang fs false (Path.join2 folder "pipeline_dict.py") r) :
    ∃ e, createRegistrars env lang text folder base classes fs = (.error e, fs) := by
  refine C65_rejected env lang text folder base classes fs ?_
  rintro ⟨r, hr, _⟩
  rcases h with ⟨c, hc, h⟩ | h
  · have : ∀ (classes : List ClassConfig) (rs : List (String × Reg V)), ReadsClasses env lang folder fs classes rs → c ∈ classes → False := by
      intro classes rs hrs
      induction hrs with
      | nil => intro hc; cases hc
      | cons hn hc' hr' _ ih =>
        intro hc
        rcases List.mem_cons.1 hc with e | hc
        · subst e
          rcases h with h | h | ⟨name, h, h'⟩
          · rw [hn] at h; cases h
          · rw [hc'] at h; cases h
          · rw [hn] at h
            cases h
            exact h' _ hr'
        · exact ih hc
    exact this _ _ hr.specific hc
  · exact h _ hr.general

/-- If loading changes a file, all definitions were read and resolved, and the names are distinct. -/
theorem C65_changed (env : FsEnv) (lang : DefLang V L) (text : ItemText V) (folder base : String)
    (classes : List ClassConfig) (fs : Fs) (h : (createRegistrars env lang text folder base classes fs).2 ≠ fs) :
    ∃ r, ReadsAll env lang folder classes fs r ∧ NamesDiffer r := by
  refine Classical.byContradiction fun hn => ?_
  obtain ⟨e, he⟩ := C65_rejected env lang text folder base classes fs hn
  exact h (by rw [he])

/-! ### What is scaffolded -/

theorem itemFiles_append (b : Bool) (q : List String) (l l' : List (String × Reg V)) :
    itemFiles b q (l ++ l') = itemFiles b q l ++ itemFiles b q l' := by
  match l with
  | [] => rw [itemFiles]; rfl
  | (x, .coll b' sub) :: rest =>
    rw [List.cons_append, itemFiles, itemFiles, itemFiles_append b q rest l', List.append_assoc]
  | (x, .item c) :: rest =>
    rw [List.cons_append, itemFiles, itemFiles, itemFiles_append b q rest l', List.cons_append]
  | (x, .other) :: rest =>
    rw [List.cons_append, itemFiles, itemFiles, itemFiles_append b q rest l']

theorem sectionFolders_append (q : List String) (l l' : List (String × Reg V)) :
    sectionFolders q (l ++ l') = sectionFolders q l ++ sectionFolders q l' := by
  match l with
  | [] => rw [sectionFolders]; rfl
  | (x, .coll b' sub) :: rest =>
    rw [List.cons_append, sectionFolders, sectionFolders, sectionFolders_append q rest l', List.cons_append, List.append_assoc]
  | (x, .item c) :: rest =>
    rw [List.cons_append, sectionFolders, sectionFolders, sectionFolders_append q rest l']
  | (x, .other) :: rest =>
    rw [List.cons_append, sectionFolders, sectionFolders, sectionFolders_append q rest l']

theorem plainTree_append (l l' : List (String × Reg V)) : PlainTree (l ++ l') ↔ PlainTree l ∧ PlainTree l' := by
  match l with
  | [] => rw [List.nil_append, PlainTree]; simp
  | (x, .coll b' sub) :: rest =>
    rw [List.cons_append, PlainTree, PlainTree, plainTree_append rest l']
    simp only [and_assoc]
  | (x, .item c) :: rest =>
    rw [List.cons_append, PlainTree, PlainTree, plainTree_append rest l']
    simp only [and_assoc]
  | (x, .other) :: rest =>
    rw [List.cons_append, PlainTree, PlainTree, plainTree_append rest l']

theorem scaffoldSpecific_eq (env : FsEnv) (text : ItemText V) (b : Bool) (base : String) (l : List (String × Reg V))
    (hl : ∀ e ∈ l, ∃ items, e.2 = .coll true items) (fs : Fs) :
    scaffoldSpecific env text base l fs = outputItems env text b base l fs := by
  induction l generalizing fs with
  | nil => rw [outputItems]; rfl
  | cons e rest ih =>
    obtain ⟨x, r⟩ := e
    obtain ⟨items, hr⟩ := hl (x, r) List.mem_cons_self
    have hr : r = .coll true items := hr
    subst hr
    have ih' := fun fs => ih (fun e he => hl e (List.mem_cons_of_mem _ he)) fs
    rw [outputItems, scaffoldSpecific, seq_run, seq_run, Reg.scaffold, seq_run]
    cases (outputSection env true (Path.join2 base x) fs).1 with
    | error e => rfl
    | ok u =>
      simp only
      rw [seq_run]
      cases (outputItems env text true (Path.join2 base x) items (outputSection env true (Path.join2 base x) fs).2).1 with
      | error e => rfl
      | ok u =>
        simp only
        rw [ih']

/-- Where everything registered is put. -/
def Registry.entries (r : Registry V) : List (String × Reg V) :=
  r.specific ++ match r.general with
    | .coll _ items => items
    | _ => []

section
variable {env : FsEnv} (hcwd : Path.isAbs env.cwd = true)
include hcwd

theorem load_wrote (text : ItemText V) (base : String) (l items : List (String × Reg V))
    (hl : ∀ e ∈ l, ∃ items, e.2 = .coll true items) (hp : PlainTree (l ++ items)) (fs : Fs) :
    Wrote (fun p => ∃ i ∈ itemFiles false (env.resolve base) (l ++ items), i.path = p)
      (fun p c => ∃ f ∈ allFolders false (env.resolve base) (l ++ items), f.path = p ∧ f.specific = c) fs
      ((do scaffoldSpecific env text base l; (Reg.coll false items).scaffold env text base : FM Unit) fs).2 := by
  rw [plainTree_append] at hp
  refine seq_state (Wrote _ _) (fun _ _ _ => Wrote.trans) _ _ fs ?_ ?_
  · rw [scaffoldSpecific_eq env text false base l hl]
    refine outputItems_wrote hcwd text _ _ l false base hp.1 ?_ ?_ fs
    · intro i hi
      exact ⟨i, by rw [itemFiles_append]; exact List.mem_append_left _ hi, rfl⟩
    · intro f hf
      exact ⟨f, List.mem_cons_of_mem _ (by rw [sectionFolders_append]; exact List.mem_append_left _ hf), rfl, rfl⟩
  · intro s
    refine (scaffold_wrote hcwd text base false items hp.2 s).mono ?_ ?_
    · rintro p ⟨i, hi, e⟩
      exact ⟨i, by rw [itemFiles_append]; exact List.mem_append_right _ hi, e⟩
    · rintro p c ⟨f, hf, e⟩
      rcases List.mem_cons.1 hf with h | h
      · subst h
        exact ⟨⟨_, _, _⟩, List.mem_cons_self, e⟩
      · exact ⟨f, List.mem_cons_of_mem _ (by rw [sectionFolders_append]; exact List.mem_append_right _ h), e⟩

theorem load_outcome (text : ItemText V) (base : String) (l items : List (String × Reg V))
    (hl : ∀ e ∈ l, ∃ items, e.2 = .coll true items) (hp : PlainTree (l ++ items)) (hg : OwnNames false (l ++ items)) (fs : Fs)
    (hroot : fs [] = some .dir) :
    Outcome text (itemFiles false (env.resolve base) (l ++ items)) (allFolders false (env.resolve base) (l ++ items)) fs
      ((do scaffoldSpecific env text base l; (Reg.coll false items).scaffold env text base : FM Unit) fs).2
      (((do scaffoldSpecific env text base l; (Reg.coll false items).scaffold env text base : FM Unit) fs).1 = .ok ()) := by
  have hd := distinct_files (l ++ items) false (env.resolve base) hp hg
  have hp' := hp
  rw [plainTree_append] at hp
  have hfold := fun f hf => allFolders_path (l ++ items) false (env.resolve base) hp' f hf
  have hnodup := hd.nodup
  have hsec := hd.sections
  rw [itemFiles_append] at hnodup hsec ⊢
  rw [List.map_append] at hnodup
  have hinl : ∀ f ∈ sectionFolders (env.resolve base) l, f ∈ allFolders false (env.resolve base) (l ++ items) := fun f hf =>
    List.mem_cons_of_mem _ (by rw [sectionFolders_append]; exact List.mem_append_left _ hf)
  have hinr : ∀ f ∈ sectionFolders (env.resolve base) items, f ∈ allFolders false (env.resolve base) (l ++ items) := fun f hf =>
    List.mem_cons_of_mem _ (by rw [sectionFolders_append]; exact List.mem_append_right _ hf)
  have hD2 : DistinctFiles (itemFiles false (env.resolve base) items) (allFolders false (env.resolve base) items) := by
    refine ⟨(List.nodup_append.1 hnodup).2.1, ?_⟩
    intro i hi f hf hb
    rcases List.mem_cons.1 hf with h | h
    · subst h
      exact hsec i (List.mem_append_right _ hi) ⟨env.resolve base, false, (l ++ items).isEmpty⟩ List.mem_cons_self hb
    · exact hsec i (List.mem_append_right _ hi) f (hinr f h) hb
  have W1 := outputItems_wrote hcwd text (fun p => ∃ i ∈ itemFiles false (env.resolve base) l, i.path = p)
    (fun p c => ∃ f ∈ sectionFolders (env.resolve base) l, f.path = p ∧ f.specific = c) l false base hp.1
    (fun i hi => ⟨i, hi, rfl⟩) (fun f hf => ⟨f, hf, rfl, rfl⟩) fs
  have O1 := outputItems_outcome hcwd text l false base hp.1
    ⟨(List.nodup_append.1 hnodup).1, fun i hi f hf => hsec i (List.mem_append_left _ hi) f (hinl f hf)⟩ fs hroot
  rw [seq_run, scaffoldSpecific_eq env text false base l hl]
  generalize outputItems env text false base l fs = r1 at W1 O1 ⊢
  have W2 := scaffold_wrote hcwd text base false items hp.2 r1.2
  have O2 := scaffold_outcome hcwd text base false items hp.2 hD2 r1.2 (W1.dirs _ hroot)
  have S1 : ∀ i ∈ itemFiles false (env.resolve base) items, r1.2 i.path = fs i.path := by
    intro i hi
    refine W1.same ?_ ?_ ?_
    · rintro ⟨j, hj, e⟩
      exact (List.nodup_append.1 hnodup).2.2 _ (List.mem_map_of_mem hj) _ (List.mem_map_of_mem hi) e
    · rintro p c ⟨f, hf, rfl, rfl⟩
      obtain ⟨r, y, e⟩ := itemFiles_path _ _ _ i hi
      obtain ⟨r', e', hr'⟩ := hfold f (hinl f hf)
      rw [e, e']
      exact file_not_above hr'
    · rintro p ⟨f, hf, rfl, hb⟩
      exact hsec i (List.mem_append_right _ hi) f (hinl f hf) hb
  cases hr1 : r1.1 with
  | error e =>
    simp only
    refine ⟨?_, fun h => (by cases h), fun h => (by cases h)⟩
    intro i hi
    rcases List.mem_append.1 hi with h | h
    · exact O1.each i h
    · exact .inl (S1 i h)
  | ok u =>
    simp only
    have hok1 : r1.1 = .ok () := hr1
    generalize (Reg.coll false items).scaffold env text base r1.2 = r2 at W2 O2 ⊢
    have S2 : ∀ i ∈ itemFiles false (env.resolve base) l, r2.2 i.path = r1.2 i.path := by
      intro i hi
      refine W2.same ?_ ?_ ?_
      · rintro ⟨j, hj, e⟩
        exact (List.nodup_append.1 hnodup).2.2 _ (List.mem_map_of_mem hi) _ (List.mem_map_of_mem hj) e.symm
      · rintro p c ⟨f, hf, rfl, rfl⟩
        obtain ⟨r, y, e⟩ := itemFiles_path _ _ _ i hi
        obtain ⟨r', e', hr'⟩ := allFolders_path items false _ hp.2 f hf
        rw [e, e']
        exact file_not_above hr'
      · rintro p ⟨f, hf, rfl, hb⟩
        rcases List.mem_cons.1 hf with h | h
        · subst h
          exact hsec i (List.mem_append_left _ hi) ⟨env.resolve base, false, (l ++ items).isEmpty⟩ List.mem_cons_self hb
        · exact hsec i (List.mem_append_left _ hi) f (hinr f h) hb
    refine ⟨?_, ?_, ?_⟩
    · intro i hi
      rcases List.mem_append.1 hi with h | h
      · exact .inr ((O1.all hok1 i h).congr rfl (S2 i h).symm)
      · rcases O2.each i h with h' | h'
        · exact .inl (h'.trans (S1 i h))
        · exact .inr (h'.congr (S1 i h) rfl)
    · intro ok i hi
      rcases List.mem_append.1 hi with h | h
      · exact (O1.all hok1 i h).congr rfl (S2 i h).symm
      · exact (O2.all ok i h).congr (S1 i h) rfl
    · intro ok f hf
      rcases List.mem_cons.1 hf with h | h
      · subst h
        exact O2.folders ok ⟨env.resolve base, false, items.isEmpty⟩ List.mem_cons_self
      · rw [sectionFolders_append] at h
        rcases List.mem_append.1 h with h | h
        · obtain ⟨t1, t2⟩ := O1.folders hok1 f h
          exact ⟨W2.stays _ t1, fun hb => W2.stays _ (t2 hb)⟩
        · exact O2.folders ok f (List.mem_cons_of_mem _ h)

end

/-- Loading reads the definitions, then scaffolds; nothing else happens to files. -/
theorem createRegistrars_seq (env : FsEnv) (lang : DefLang V L) (text : ItemText V) (folder base : String)
    (classes : List ClassConfig) (fs : Fs) (r : Registry V) (items : List (String × Reg V)) (hg : r.general = .coll false items)
    (hr : (readRegistry env lang folder classes fs).1 = .ok r) (hv : validateRegistrars r = .ok ()) :
    (createRegistrars env lang text folder base classes fs).2 =
      ((do scaffoldSpecific env text base r.specific; (Reg.coll false items).scaffold env text base : FM Unit) fs).2 ∧
    ((∃ r', (createRegistrars env lang text folder base classes fs).1 = .ok r') ↔
      ((do scaffoldSpecific env text base r.specific; (Reg.coll false items).scaffold env text base : FM Unit) fs).1 = .ok ()) ∧
    ∀ r', (createRegistrars env lang text folder base classes fs).1 = .ok r' → r' = r := by
  rw [createRegistrars_run, hr]
  simp only
  rw [hv, seq_run, hg]
  simp only
  cases scaffoldSpecific env text base r.specific fs with
  | mk res1 s1 =>
    cases res1 with
    | error e => simp
    | ok u =>
      simp only
      cases (Reg.coll false items).scaffold env text base s1 with
      | mk res2 s2 =>
        cases res2 with
        | error e => simp
        | ok u => simp

/-- If loading succeeds, what it returns are the definitions, and every item has its file, with the text made for it from what
was there before. -/
theorem C65_loaded (env : FsEnv) (hcwd : Path.isAbs env.cwd = true) (lang : DefLang V L) (text : ItemText V)
    (folder base : String) (classes : List ClassConfig) (fs : Fs) (hroot : fs [] = some .dir) (r : Registry V) (fs' : Fs)
    (h : createRegistrars env lang text folder base classes fs = (.ok r, fs')) :
    ReadsAll env lang folder classes fs r ∧ NamesDiffer r ∧
    (PlainTree (Registry.entries r) → OwnNames false (Registry.entries r) →
      ∀ i ∈ itemFiles false (env.resolve base) (Registry.entries r), ∃ t,
        text i.specific i.name i.item (contentAt fs i.path) = .ok t ∧ fs' i.path = some (.file t)) := by
  have h' := h
  rw [createRegistrars_run] at h'
  cases hr : (readRegistry env lang folder classes fs).1 with
  | error e => rw [hr] at h'; cases h'
  | ok r' =>
    rw [hr] at h'
    simp only at h'
    cases hv : validateRegistrars r' with
    | error e => rw [hv] at h'; cases h'
    | ok u =>
      have hrr := (readRegistry_iff env lang folder classes fs r').1 hr
      obtain ⟨items, hg⟩ := hrr.coll
      obtain ⟨h1, h2, h3⟩ := createRegistrars_seq env lang text folder base classes fs r' items hg hr hv
      rw [h] at h1 h2 h3
      have := h3 r rfl
      subst this
      refine ⟨hrr, ?_, ?_⟩
      · obtain ⟨h1, h2⟩ := C40_names r false items hg hv
        refine ⟨h1, ?_⟩
        intro b items' hg'
        rw [hg] at hg'
        cases hg'
        exact h2
      · intro hp hgn
        have he : Registry.entries r = r.specific ++ items := by
          unfold Registry.entries
          rw [hg]
        rw [he] at hp hgn ⊢
        have O := load_outcome hcwd text base r.specific items (readsClasses_coll hrr.specific) hp hgn fs hroot
        rw [← h1] at O
        exact O.all (h2.1 ⟨r, rfl⟩)

/-- Whatever happens, loading changes nothing but files of items that are defined; what it adds are folders of sections,
section files, and files of items. -/
theorem C65_frame (env : FsEnv) (hcwd : Path.isAbs env.cwd = true) (lang : DefLang V L) (text : ItemText V)
    (folder base : String) (classes : List ClassConfig) (fs : Fs) (r : Registry V)
    (hr : ReadsAll env lang folder classes fs r) (hp : PlainTree (Registry.entries r)) (p : List String) (fs' : Fs)
    (hfs : (createRegistrars env lang text folder base classes fs).2 = fs') :
    ((∀ i ∈ itemFiles false (env.resolve base) (Registry.entries r), i.path ≠ p) → fs p ≠ none → fs' p = fs p) ∧
    (fs p = some .dir → fs' p = some .dir) ∧
    (fs p = none → fs' p = none ∨
      (fs' p = some .dir ∧ ∃ f ∈ allFolders false (env.resolve base) (Registry.entries r), p <+: f.path) ∨
      (fs' p = some (.file "\n") ∧ ∃ f ∈ allFolders false (env.resolve base) (Registry.entries r), f.specific = false ∧ p = f.file) ∨
      ∃ i ∈ itemFiles false (env.resolve base) (Registry.entries r), i.path = p ∧ ∃ t, fs' p = some (.file t)) := by
  have hr' := (readRegistry_iff env lang folder classes fs r).2 hr
  obtain ⟨items, hg⟩ := hr.coll
  have he : Registry.entries r = r.specific ++ items := by
    unfold Registry.entries
    rw [hg]
  rw [he] at hp ⊢
  have W : Wrote (fun p => ∃ i ∈ itemFiles false (env.resolve base) (r.specific ++ items), i.path = p)
      (fun p c => ∃ f ∈ allFolders false (env.resolve base) (r.specific ++ items), f.path = p ∧ f.specific = c) fs fs' := by
    cases hv : validateRegistrars r with
    | error e =>
      rw [createRegistrars_run, hr'] at hfs
      simp only at hfs
      rw [hv] at hfs
      rw [← hfs]
      exact Wrote.refl _
    | ok u =>
      rw [(createRegistrars_seq env lang text folder base classes fs r items hg hr' hv).1] at hfs
      rw [← hfs]
      exact load_wrote hcwd text base r.specific items (readsClasses_coll hr.specific) hp fs
  refine ⟨?_, W.dirs p, ?_⟩
  · intro hi hn
    cases h : fs p with
    | none => exact absurd h hn
    | some n =>
      refine W.kept p n h ?_
      rintro ⟨i, h', e⟩
      exact hi i h' e
  · intro hn
    cases e : fs' p with
    | none => exact .inl rfl
    | some n =>
      rcases W.new _ _ e with h | ⟨h, q, c, ⟨f, hf, rfl, _⟩, h'⟩ | ⟨h, q, ⟨f, hf, rfl, hb⟩, h'⟩ | ⟨⟨i, hi, h⟩, t, h'⟩
      · rw [hn] at h; cases h
      · subst h
        exact .inr (.inl ⟨rfl, f, hf, h'⟩)
      · subst h
        exact .inr (.inr (.inl ⟨rfl, f, hf, hb, h'⟩))
      · exact .inr (.inr (.inr ⟨i, hi, h, t, by rw [h']⟩))

/-! ### Examples -/

/-- Definitions of one item each, with a text for the name; no text if the file is missing. -/
def toyDefs : DefLang Unit String where
  read _ o := match o with
    | none => .error .valueError
    | some t => .ok [("s", .list [.leaf t])]
  resolve _ x := if x = "bad" then .error .typeError else .ok (x, scaffoldItem)

def toyDefFs (general special : String) : Fs :=
  ((Fs.blank.put ["p"] .dir).put ["p", "pipeline_dict.py"] (.file general)).put ["p", "c_dict.py"] (.file special)

def toyRegistry (general special : String) : Registry Unit :=
  ⟨[("c", .coll true [("s", .coll true [(special, .item scaffoldItem)])])],
    .coll false [("s", .coll false [(general, .item scaffoldItem)])]⟩

theorem toy_reads : ReadsAll freeEnv toyDefs "p" [⟨some "c", true⟩] (toyDefFs "f" "x") (toyRegistry "f" "x") := by
  have h1 : contentAt (toyDefFs "f" "x") (freeEnv.resolve (Path.join2 "p" "pipeline_dict.py")) = some "f" := by decide +kernel
  have h2 : contentAt (toyDefFs "f" "x") (freeEnv.resolve (Path.join2 "p" ("c" ++ "_dict.py"))) = some "x" := by decide +kernel
  refine ⟨⟨by decide +kernel, [("s", .list [.leaf "f"])], by rw [h1]; rfl, ?_⟩, ?_⟩
  · simp [Reg.fromDefinition, fromDict, fromList, toyDefs, toyRegistry, bind, Except.bind, pure, Except.pure]
  · refine .cons rfl rfl ⟨by decide +kernel, [("s", .list [.leaf "x"])], by rw [h2]; rfl, ?_⟩ .nil
    simp [Reg.fromDefinition, fromDict, fromList, toyDefs, bind, Except.bind, pure, Except.pure]

theorem toy_load : createRegistrars freeEnv toyDefs keepText "p" "d" [⟨some "c", true⟩] (toyDefFs "f" "x") =
    (.ok (toyRegistry "f" "x"), (createRegistrars freeEnv toyDefs keepText "p" "d" [⟨some "c", true⟩] (toyDefFs "f" "x")).2) := by
  have hr := (readRegistry_iff _ _ _ _ _ _).2 toy_reads
  obtain ⟨_, h2, h3⟩ := createRegistrars_seq freeEnv toyDefs keepText "p" "d" [⟨some "c", true⟩] (toyDefFs "f" "x") _ _ rfl hr
    (by decide +kernel)
  have : ((do scaffoldSpecific freeEnv keepText "d" (toyRegistry "f" "x").specific
              (Reg.coll false [("s", .coll false [("f", .item scaffoldItem)])]).scaffold freeEnv keepText "d" : FM Unit)
            (toyDefFs "f" "x")).1 = .ok () := by
    simp only [toyRegistry, scaffoldSpecific, Reg.scaffold, outputItems]
    decide +kernel
  obtain ⟨r, h⟩ := h2.2 this
  have := h3 r h
  subst this
  rw [← h]

example : ∃ i ∈ itemFiles false (freeEnv.resolve "d") (Registry.entries (toyRegistry "f" "x")), i.path = ["d", "c", "s", "x.py"] := by
  simp only [Registry.entries, toyRegistry, List.cons_append, List.nil_append, itemFiles, List.append_nil]
  refine ⟨_, List.mem_cons_self, ?_⟩
  decide +kernel

/-- Loading with a definition that cannot be resolved, a class without a name, and a missing file. -/
example : (∃ e, createRegistrars freeEnv toyDefs keepText "p" "d" [⟨some "c", true⟩] (toyDefFs "f" "bad") = (.error e, toyDefFs "f" "bad")) ∧
    (∃ e, createRegistrars freeEnv toyDefs keepText "p" "d" [⟨none, true⟩] (toyDefFs "f" "x") = (.error e, toyDefFs "f" "x")) ∧
    (∃ e, createRegistrars freeEnv toyDefs keepText "p" "d" [⟨some "c2", true⟩] (toyDefFs "f" "x") = (.error e, toyDefFs "f" "x")) := by
  have h2 : contentAt (toyDefFs "f" "bad") (freeEnv.resolve (Path.join2 "p" ("c" ++ "_dict.py"))) = some "bad" := by decide +kernel
  have h3 : contentAt (toyDefFs "f" "x") (freeEnv.resolve (Path.join2 "p" ("c2" ++ "_dict.py"))) = none := by decide +kernel
  refine ⟨C65_incomplete _ _ _ _ _ _ _ (.inl ⟨⟨some "c", true⟩, by simp, .inr (.inr ⟨"c", rfl, ?_⟩)⟩),
    C65_incomplete _ _ _ _ _ _ _ (.inl ⟨⟨none, true⟩, by simp, .inl rfl⟩),
    C65_incomplete _ _ _ _ _ _ _ (.inl ⟨⟨some "c2", true⟩, by simp, .inr (.inr ⟨"c2", rfl, ?_⟩)⟩)⟩
  · rintro r ⟨_, es, h, h'⟩
    rw [h2] at h
    cases h
    simp [Reg.fromDefinition, fromDict, fromList, toyDefs, bind, Except.bind] at h'
  · rintro r ⟨_, es, h, _⟩
    rw [h3] at h
    cases h

/-! ### Violations -/

/-- A function that cannot be found is noticed only while scaffolding, when files of other items have been written: loading
fails and has changed files. -/
theorem C65_late_violated : ∃ (text : ItemText Unit) (fs : Fs), Fs.Closed fs ∧
    (∃ e, (createRegistrars freeEnv toyDefs text "p" "d" [⟨some "c", true⟩] fs).1 = .error e) ∧
    fs ["d", "c", "s", "x.py"] = none ∧
    (createRegistrars freeEnv toyDefs text "p" "d" [⟨some "c", true⟩] fs).2 ["d", "c", "s", "x.py"] = some (.file "new") := by
  refine ⟨fun b _ _ _ => if b then .ok "new" else .error .importError, toyDefFs "f" "x", ?_, ?_, by decide +kernel, ?_⟩
  · have h1 : Fs.Closed (Fs.blank.put ["p"] .dir) := (put_adds (allowed := fun _ _ => True) rfl trivial
      (fun r x h _ => by have := append_singleton_inj (q := []) h; subst this; rfl)).closed blank_closed
    have h2 : Fs.Closed ((Fs.blank.put ["p"] .dir).put ["p", "pipeline_dict.py"] (.file "f")) :=
      (put_adds (allowed := fun _ _ => True) rfl trivial
        (fun r x h _ => by have := append_singleton_inj (q := ["p"]) h; subst this; rfl)).closed h1
    exact (put_adds (allowed := fun _ _ => True) rfl trivial
        (fun r x h _ => by have := append_singleton_inj (q := ["p"]) h; subst this; rfl)).closed h2
  · have hr := (readRegistry_iff _ _ _ _ _ _).2 toy_reads
    obtain ⟨_, h2, _⟩ := createRegistrars_seq freeEnv toyDefs (fun b _ _ _ => if b then .ok "new" else .error .importError) "p" "d"
      [⟨some "c", true⟩] (toyDefFs "f" "x") _ _ rfl hr (by decide +kernel)
    have : ((do scaffoldSpecific freeEnv (fun b _ _ _ => if b then .ok "new" else .error .importError) "d" (toyRegistry "f" "x").specific
                (Reg.coll false [("s", .coll false [("f", .item scaffoldItem)])]).scaffold freeEnv
                  (fun b _ _ _ => if b then .ok "new" else .error .importError) "d" : FM Unit) (toyDefFs "f" "x")).1 ≠ .ok () := by
      simp only [toyRegistry, scaffoldSpecific, Reg.scaffold, outputItems]
      decide +kernel
    cases h : (createRegistrars freeEnv toyDefs (fun b _ _ _ => if b then .ok "new" else .error .importError) "p" "d"
      [⟨some "c", true⟩] (toyDefFs "f" "x")).1 with
    | error e => exact ⟨e, rfl⟩
    | ok r => exact absurd (h2.1 ⟨r, h⟩) this
  · have hr := (readRegistry_iff _ _ _ _ _ _).2 toy_reads
    have hv : validateRegistrars (toyRegistry "f" "x") = .ok () := by decide +kernel
    rw [createRegistrars_run, hr]
    simp only
    rw [hv]
    simp only [toyRegistry, scaffoldSpecific, Reg.scaffold, outputItems]
    decide +kernel

/-! ## C66 -/

/-! ### Specification -/

/-- The text written for a definition with a new entry, given the content before. -/
def NewText (lang : CreateLang V) (specific : Bool) (path : List String) (item : Leaf) (imp : Except PyErr (List Imp))
    (content : Option String) (text : String) : Prop :=
  ∃ f es new s t, readFile lang.lang content = .ok f ∧ lang.read specific content = .ok es ∧ imp = .ok new ∧
    (addItem item es path).1 = .ok () ∧
    (if specific then renderSpecific (addItem item es path).2 else renderDefinition (addItem item es path).2) = .ok s ∧
    lang.format s = .ok t ∧ text = definitionText lang.lang f.imports new t

/-- The entry was added to the definition file; nothing else was written. -/
def EntryAdded (env : FsEnv) (lang : CreateLang V) (specific : Bool) (file : String) (path : List String) (item : Leaf)
    (imp : Except PyErr (List Imp)) (fs fs' : Fs) : Prop :=
  fs (env.resolve file) ≠ some .dir ∧ fs (env.resolve file).dropLast = some .dir ∧ env.denied (env.resolve file) = false ∧
    ∃ text, NewText lang specific path item imp (contentAt fs (env.resolve file)) text ∧
      fs' = fs.put (env.resolve file) (.file text)

/-- What `create` is asked for: the registrar, the definition file, the path in the definition, the entry, its import, the
name and the object. -/
structure Request (V : Type) where
  registrar : Option String
  file : String
  path : List String
  entry : Leaf
  imp : Except PyErr (List Imp)
  name : String
  object : Except PyErr (Callable V)

/-- The valid calls of `create`: a function or class for the general definition, or a path of at least three names for one of
a class. -/
def requested (lang : CreateLang V) (folder : String) (classes sections : List String) (f : Option (NewItem V)) : Option (Request V) :=
  match sections, f with
  | [], _ => none
  | x :: path, some f =>
    if x ∈ classes then none
    else some ⟨none, Path.join2 folder "pipeline_dict.py", x :: path, .name f.name, f.imp.map (fun i => [i]), f.name, f.view⟩
  | x :: path, none =>
    if x ∈ classes ∧ 2 ≤ path.length then
      some ⟨some x, Path.join2 folder (x ++ "_dict.py"), path.dropLast, .str (path.getLast?.getD ""), .ok [], path.getLast?.getD "",
        lang.newObject x (path.getLast?.getD "")⟩
    else none

/-- The collection of a registrar, and its folder. -/
def registrarAt (r : Registry V) (base : String) : Option String → Option (Reg V × String)
  | none => some (r.general, base)
  | some k => (AList.get? r.specific k).map (fun g => (g, Path.join2 base k))

/-! ### Lemmas -/

theorem createEntry_run (env : FsEnv) (lang : CreateLang V) (specific : Bool) (file : String) (hfile : file ≠ "")
    (path : List String) (item : Leaf) (imp : Except PyErr (List Imp)) (fs : Fs) :
    ((∃ e, createEntry env lang specific file path item imp fs = (.error e, fs)) ∧
      ¬ ∃ fs', EntryAdded env lang specific file path item imp fs fs') ∨
    ∃ fs', createEntry env lang specific file path item imp fs = (.ok (), fs') ∧
      EntryAdded env lang specific file path item imp fs fs' := by
  unfold createEntry
  rw [M.bind_run, readIfThere_run env file hfile]
  by_cases hd : fs (env.resolve file) = some .dir
  · rw [if_pos hd]
    exact .inl ⟨⟨_, rfl⟩, fun ⟨_, h, _⟩ => h hd⟩
  rw [if_neg hd]
  simp only
  rw [M.bind_run, M.liftE_run]
  cases h1 : readFile lang.lang (contentAt fs (env.resolve file)) with
  | error e =>
    refine .inl ⟨⟨_, rfl⟩, ?_⟩
    rintro ⟨_, _, _, _, _, ⟨_, _, _, _, _, h, _⟩, _⟩
    rw [h1] at h; cases h
  | ok f =>
  simp only
  rw [M.bind_run, M.liftE_run]
  cases h2 : lang.read specific (contentAt fs (env.resolve file)) with
  | error e =>
    refine .inl ⟨⟨_, rfl⟩, ?_⟩
    rintro ⟨_, _, _, _, _, ⟨_, _, _, _, _, _, h, _⟩, _⟩
    rw [h2] at h; cases h
  | ok es =>
  simp only
  rw [M.bind_run, M.liftE_run]
  cases h3 : imp with
  | error e =>
    refine .inl ⟨⟨_, rfl⟩, ?_⟩
    rintro ⟨_, _, _, _, _, ⟨_, _, _, _, _, _, _, h, _⟩, _⟩
    cases h
  | ok new =>
  simp only
  rw [M.bind_run, M.liftE_run]
  cases h4 : (addItem item es path).1 with
  | error e =>
    refine .inl ⟨⟨_, rfl⟩, ?_⟩
    rintro ⟨_, _, _, _, _, ⟨_, es', _, _, _, _, h', _, h, _⟩, _⟩
    rw [h2] at h'
    cases h'
    rw [h4] at h; cases h
  | ok u =>
  simp only
  rw [M.bind_run, M.liftE_run]
  cases h5 : (if specific then renderSpecific (addItem item es path).2 else renderDefinition (addItem item es path).2) with
  | error e =>
    refine .inl ⟨⟨_, rfl⟩, ?_⟩
    rintro ⟨_, _, _, _, _, ⟨_, es', _, _, _, _, h', _, _, h, _⟩, _⟩
    rw [h2] at h'
    cases h'
    rw [h5] at h; cases h
  | ok s =>
  simp only
  rw [M.bind_run, M.liftE_run]
  cases h6 : lang.format s with
  | error e =>
    refine .inl ⟨⟨_, rfl⟩, ?_⟩
    rintro ⟨_, _, _, _, _, ⟨_, es', _, s', _, _, h', _, _, h, h'', _⟩, _⟩
    rw [h2] at h'
    cases h'
    rw [h5] at h
    cases h
    rw [h6] at h''; cases h''
  | ok t =>
  simp only
  rw [writeFile_run]
  split
  · next hw =>
    refine .inl ⟨⟨_, rfl⟩, ?_⟩
    rintro ⟨_, g1, g2, g3, _⟩
    rcases hw with h | h | h | h
    · exact hfile h
    · exact h g2
    · exact g1 h
    · rw [g3] at h; cases h
  · next hw =>
    rw [not_or, not_or, not_or] at hw
    refine .inr ⟨_, rfl, hd, by simpa using hw.2.1, by simpa using hw.2.2.2, _, ⟨f, es, new, s, t, h1, h2, rfl, h4, h5, h6, rfl⟩, rfl⟩

theorem KM.files_bind {R α β : Type} (m : FM α) (k : α → KM V R β) (s : Created V R) :
    (KM.files m >>= k) s = match m s.fs with
      | (.ok a, fs') => k a { s with fs := fs' }
      | (.error e, fs') => (.error e, { s with fs := fs' }) := by
  rw [M.bind_run]
  unfold KM.files
  cases m s.fs with
  | mk r fs' => cases r <;> rfl

theorem createRegistered_run {R : Type} (env : FsEnv) (text : ItemText V) (base : String) (reset : List String → KM V R Unit)
    (registrar : Option String) (path : List String) (name : String) (c : Callable V) (s : Created V R) :
    createRegistered env text base reset registrar path name c s =
      match s.reg with
      | none => (.error .valueError, s)
      | some r => match (r.set registrar path (name, .item c)).1 with
        | .error e => (.error e, { s with reg := some (r.set registrar path (name, .item c)).2 })
        | .ok _ => match registrarAt (r.set registrar path (name, .item c)).2 base registrar with
          | none => (.error .keyError, { s with reg := some (r.set registrar path (name, .item c)).2 })
          | some (g, base') => match g.scaffoldFor env text base' (path ++ [name]) s.fs with
            | (.error e, fs') => (.error e, { s with reg := some (r.set registrar path (name, .item c)).2, fs := fs' })
            | (.ok _, fs') => reset (registrar.toList ++ path ++ [name])
                { s with reg := some (r.set registrar path (name, .item c)).2, fs := fs' } := by
  unfold createRegistered
  rw [M.bind_run]
  simp only [M.get_run]
  cases hreg : s.reg with
  | none => rfl
  | some r =>
    simp only
    rw [M.bind_run, M.modify_run]
    simp only
    rw [M.bind_run, M.liftE_run]
    cases (r.set registrar path (name, .item c)).1 with
    | error e => rfl
    | ok u =>
      simp only
      rw [M.bind_run]
      simp only [M.get_run]
      cases registrar with
      | none =>
        simp only [registrarAt]
        rw [KM.files_bind]
        simp only
        cases (r.set none path (name, .item c)).2.general.scaffoldFor env text base (path ++ [name]) s.fs with
        | mk res fs' => cases res <;> rfl
      | some k =>
        simp only [registrarAt]
        cases AList.get? (r.set (some k) path (name, .item c)).2.specific k with
        | none => rfl
        | some g =>
          simp only [Option.map_some]
          rw [KM.files_bind]
          simp only
          cases g.scaffoldFor env text (Path.join2 base k) (path ++ [name]) s.fs with
          | mk res fs' => cases res <;> rfl

/-- Whether the object can be registered: there are registrars, the one asked for is one of them, and there is an object. -/
def Registrable {R : Type} (q : Request V) (s : Created V R) (r : Registry V) (c : Callable V) : Prop :=
  s.reg = some r ∧ q.object = .ok c ∧ ∀ k, q.registrar = some k → (AList.get? r.specific k).isSome = true

theorem createItem_run {R : Type} (env : FsEnv) (lang : CreateLang V) (text : ItemText V) (folder base : String)
    (classes : List String) (reset : List String → KM V R Unit) (sections : List String) (f : Option (NewItem V))
    (s : Created V R) :
    match requested lang folder classes sections f with
    | none => ∃ e, createItem env lang text folder base classes reset sections f s = (.error e, s)
    | some q =>
      ((∃ e, createItem env lang text folder base classes reset sections f s = (.error e, s)) ∧
        ¬ ∃ fs', EntryAdded env lang q.registrar.isSome q.file q.path q.entry q.imp s.fs fs') ∨
      ∃ fs', EntryAdded env lang q.registrar.isSome q.file q.path q.entry q.imp s.fs fs' ∧
        (((∃ e, createItem env lang text folder base classes reset sections f s = (.error e, { s with fs := fs' })) ∧
            ¬ ∃ r c, Registrable q s r c) ∨
          ∃ r c, Registrable q s r c ∧ createItem env lang text folder base classes reset sections f s =
            createRegistered env text base reset q.registrar q.path q.name c { s with fs := fs' }) := by
  unfold createItem
  cases sections with
  | nil => exact ⟨_, rfl⟩
  | cons x path =>
    unfold requested
    simp only
    cases f with
    | none =>
      simp only
      by_cases hx : x ∈ classes
      · rw [if_pos hx]
        cases hl : path.getLast? with
        | none =>
          rw [if_neg]
          · exact ⟨_, rfl⟩
          · rintro ⟨_, h⟩
            rw [List.getLast?_eq_none_iff] at hl
            subst hl
            simp at h
        | some name =>
          simp only
          by_cases hlen : path.length < 2
          · rw [if_pos hlen, if_neg (by omega)]
            exact ⟨_, rfl⟩
          · rw [if_neg hlen, if_pos ⟨hx, by omega⟩]
            simp only [Option.isSome_none, Bool.false_eq_true, if_false, Option.isSome_some, Option.getD_some]
            rcases createEntry_run env lang true (Path.join2 folder (x ++ "_dict.py")) (join2_py_ne folder x) path.dropLast (.str name)
              (.ok []) s.fs with ⟨⟨e, h⟩, hn⟩ | ⟨fs', h, ha⟩
            · refine .inl ⟨⟨e, ?_⟩, hn⟩
              rw [KM.files_bind, h]
            · refine .inr ⟨fs', ha, ?_⟩
              rw [KM.files_bind, h]
              simp only
              rw [M.bind_run]
              simp only [M.get_run]
              cases hreg : s.reg with
              | none =>
                refine .inl ⟨⟨_, rfl⟩, ?_⟩
                rintro ⟨r, c, h, _⟩
                rw [hreg] at h; cases h
              | some r =>
                simp only
                cases hg : AList.get? r.specific x with
                | none =>
                  refine .inl ⟨⟨_, rfl⟩, ?_⟩
                  rintro ⟨r', c, h, _, h'⟩
                  rw [hreg] at h
                  cases h
                  have := h' x rfl
                  rw [hg] at this
                  cases this
                | some g =>
                  simp only
                  rw [M.bind_run, M.liftE_run]
                  cases ho : lang.newObject x name with
                  | error e =>
                    refine .inl ⟨⟨_, rfl⟩, ?_⟩
                    rintro ⟨r', c, _, h, _⟩
                    cases h
                  | ok c =>
                    refine .inr ⟨r, c, ⟨hreg, rfl, ?_⟩, rfl⟩
                    intro k hk
                    cases hk
                    rw [hg]; rfl
      · rw [if_neg hx, if_neg (fun h => hx h.1)]
        exact ⟨_, rfl⟩
    | some f =>
      simp only
      by_cases hx : x ∈ classes
      · rw [if_pos hx, if_pos hx]
        cases path.getLast? with
        | none => exact ⟨_, rfl⟩
        | some name =>
          simp only [Option.isSome_some, if_true]
          split
          · exact ⟨_, rfl⟩
          · exact ⟨_, rfl⟩
      · rw [if_neg hx, if_neg hx]
        simp only [Option.isSome_none]
        rcases createEntry_run env lang false (Path.join2 folder "pipeline_dict.py") (join2_ne folder (by decide)) (x :: path)
          (.name f.name) (f.imp.map (fun i => [i])) s.fs with ⟨⟨e, h⟩, hn⟩ | ⟨fs', h, ha⟩
        · refine .inl ⟨⟨e, ?_⟩, hn⟩
          rw [KM.files_bind, h]
        · refine .inr ⟨fs', ha, ?_⟩
          rw [KM.files_bind, h]
          simp only
          rw [M.bind_run, M.liftE_run]
          cases ho : f.view with
          | error e =>
            refine .inl ⟨⟨_, rfl⟩, ?_⟩
            rintro ⟨r', c, _, h, _⟩
            cases h
          | ok c =>
            simp only
            cases hreg : s.reg with
            | none =>
              refine .inl ⟨⟨.valueError, ?_⟩, ?_⟩
              · rw [createRegistered_run]
              · rintro ⟨r, c, h, _⟩
                rw [hreg] at h; cases h
            | some r =>
              refine .inr ⟨r, c, ⟨hreg, rfl, ?_⟩, rfl⟩
              intro k hk
              cases hk

theorem resolve_foldl {env : FsEnv} (hcwd : Path.isAbs env.cwd = true) (base : String) (p : List String)
    (hp : ∀ x ∈ p, Path.Plain x) : env.resolve (p.foldl Path.join2 base) = env.resolve base ++ p := by
  induction p generalizing base with
  | nil => simp
  | cons x p ih =>
    rw [List.foldl_cons, ih _ (fun y hy => hp y (List.mem_cons_of_mem _ hy)),
      resolve_join2 hcwd base (hp x List.mem_cons_self)]
    simp

theorem scaffoldFor_run (env : FsEnv) (text : ItemText V) (base : String) (g : Reg V) (path : List String) (name : String) (fs : Fs) :
    g.scaffoldFor env text base (path ++ [name]) fs = match g.walk registrarReserved path with
      | .error e => (.error e, fs)
      | .ok c => c.scaffold env text (path.foldl Path.join2 base) fs := by
  unfold Reg.scaffoldFor
  rw [List.dropLast_concat, M.bind_run, M.liftE_run]
  cases g.walk registrarReserved path with
  | error e => rfl
  | ok c => rfl

theorem EntryAdded.unique {env : FsEnv} {lang : CreateLang V} {specific : Bool} {file : String} {path : List String} {item : Leaf}
    {imp : Except PyErr (List Imp)} {fs fs1 fs2 : Fs} (h1 : EntryAdded env lang specific file path item imp fs fs1)
    (h2 : EntryAdded env lang specific file path item imp fs fs2) : fs1 = fs2 := by
  obtain ⟨_, _, _, t1, ⟨f1, es1, n1, x1, y1, a1, a2, a3, a4, a5, a6, a7⟩, e1⟩ := h1
  obtain ⟨_, _, _, t2, ⟨f2, es2, n2, x2, y2, c1, c2, c3, c4, c5, c6, c7⟩, e2⟩ := h2
  rw [a1] at c1; cases c1
  rw [a2] at c2; cases c2
  rw [a3] at c3; cases c3
  rw [a5] at c5; cases c5
  rw [a6] at c6; cases c6
  rw [e1, e2, a7, c7]

theorem mem_itemFiles {b : Bool} (q : List String) {items : List (String × Reg V)} {x : String} {c : Callable V}
    (h : (x, Reg.item c) ∈ items) : (⟨q ++ [x ++ ".py"], b, x, c⟩ : ItemFile V) ∈ itemFiles b q items := by
  induction items with
  | nil => cases h
  | cons e rest ih =>
    obtain ⟨y, n⟩ := e
    rcases List.mem_cons.1 h with h' | h'
    · cases h'
      rw [itemFiles]
      exact List.mem_cons_self
    · have h := h'
      clear h'
      cases n with
      | coll b' sub => rw [itemFiles]; exact List.mem_append_right _ (ih (by assumption))
      | item c' => rw [itemFiles]; exact List.mem_cons_of_mem _ (ih (by assumption))
      | other => rw [itemFiles]; exact ih (by assumption)

/-! ### Theorems -/

/-- A call that is not valid, or whose entry cannot be added to the definition, fails and changes nothing. -/
theorem C66_rejected {R : Type} (env : FsEnv) (lang : CreateLang V) (text : ItemText V) (folder base : String)
    (classes : List String) (reset : List String → KM V R Unit) (sections : List String) (f : Option (NewItem V))
    (s : Created V R)
    (h : ∀ q, requested lang folder classes sections f = some q →
      ¬ ∃ fs', EntryAdded env lang q.registrar.isSome q.file q.path q.entry q.imp s.fs fs') :
    ∃ e, createItem env lang text folder base classes reset sections f s = (.error e, s) := by
  have hr := createItem_run env lang text folder base classes reset sections f s
  cases hq : requested lang folder classes sections f with
  | none => rw [hq] at hr; exact hr
  | some q =>
    rw [hq] at hr
    rcases hr with ⟨h1, _⟩ | ⟨fs', h1, _⟩
    · exact h1
    · exact absurd ⟨fs', h1⟩ (h q hq)

/-- If `create` succeeds, then before the reset at its end: the entry was added to the definition file, the object is
registered, and what scaffolding its collection does was done. -/
theorem C66_created {R : Type} (env : FsEnv) (lang : CreateLang V) (text : ItemText V) (folder base : String)
    (classes : List String) (reset : List String → KM V R Unit) (sections : List String) (f : Option (NewItem V))
    (s s' : Created V R) (h : createItem env lang text folder base classes reset sections f s = (.ok (), s')) :
    ∃ q r c fs1 s1 g base' b items, requested lang folder classes sections f = some q ∧
      EntryAdded env lang q.registrar.isSome q.file q.path q.entry q.imp s.fs fs1 ∧
      Registrable q s r c ∧ (r.set q.registrar q.path (q.name, .item c)).1 = .ok () ∧
      s1.reg = some (r.set q.registrar q.path (q.name, .item c)).2 ∧ s1.rest = s.rest ∧
      registrarAt (r.set q.registrar q.path (q.name, .item c)).2 base q.registrar = some (g, base') ∧
      g.walk registrarReserved q.path = .ok (.coll b items) ∧
      (Reg.coll b items).scaffold env text (q.path.foldl Path.join2 base') fs1 = (.ok (), s1.fs) ∧
      reset (q.registrar.toList ++ q.path ++ [q.name]) s1 = (.ok (), s') := by
  have hr := createItem_run env lang text folder base classes reset sections f s
  cases hq : requested lang folder classes sections f with
  | none =>
    rw [hq] at hr
    obtain ⟨e, hr⟩ := hr
    rw [hr] at h; cases h
  | some q =>
    rw [hq] at hr
    rcases hr with ⟨⟨e, h1⟩, _⟩ | ⟨fs1, h1, ⟨⟨e, h2⟩, _⟩ | ⟨r, c, h2, h3⟩⟩
    · rw [h1] at h; cases h
    · rw [h2] at h; cases h
    · rw [h3, createRegistered_run] at h
      simp only [h2.1] at h
      cases hset : (r.set q.registrar q.path (q.name, .item c)).1 with
      | error e => rw [hset] at h; cases h
      | ok u =>
        rw [hset] at h
        simp only at h
        cases hat : registrarAt (r.set q.registrar q.path (q.name, .item c)).2 base q.registrar with
        | none => rw [hat] at h; cases h
        | some gb =>
          obtain ⟨g, base'⟩ := gb
          rw [hat] at h
          simp only at h
          cases hs : g.scaffoldFor env text base' (q.path ++ [q.name]) fs1 with
          | mk res fs2 =>
            rw [hs] at h
            cases res with
            | error e => cases h
            | ok u =>
              simp only at h
              rw [scaffoldFor_run] at hs
              cases hw : g.walk registrarReserved q.path with
              | error e => rw [hw] at hs; cases hs
              | ok c' =>
                rw [hw] at hs
                simp only at hs
                cases c' with
                | item _ => cases hs
                | other => cases hs
                | coll b items =>
                  exact ⟨q, r, c, fs1, ⟨fs2, some _, s.rest⟩, g, base', b, items, rfl, h1, h2, hset, rfl, rfl, hat, hw, hs, h⟩

/-- So the object is found under its path, its config file has the text made for it, and the definition file still has the
new definition. -/
theorem C66_complete_partial {R : Type} (env : FsEnv) (hcwd : Path.isAbs env.cwd = true) (lang : CreateLang V) (text : ItemText V)
    (folder base : String) (classes : List String) (reset : List String → KM V R Unit) (sections : List String)
    (f : Option (NewItem V)) (s s' : Created V R) (hroot : s.fs [] = some .dir) (q : Request V)
    (hq : requested lang folder classes sections f = some q)
    (hnames : PlainNames (q.path ++ [q.name])) (hplain : ∀ x ∈ q.registrar.toList ++ q.path, Path.Plain x)
    (hr : ∀ r, s.reg = some r → RegistrarFor r q.registrar q.path)
    (h : createItem env lang text folder base classes reset sections f s = (.ok (), s')) :
    ∃ s1, reset (q.registrar.toList ++ q.path ++ [q.name]) s1 = (.ok (), s') ∧
      (∃ r' c, s1.reg = some r' ∧ q.object = .ok c ∧
        r'.lookup (q.registrar.toList ++ q.path ++ [q.name]) = .ok (.item c) ∧
        ∀ fs1, EntryAdded env lang q.registrar.isSome q.file q.path q.entry q.imp s.fs fs1 →
        ∀ g base' b items, registrarAt r' base q.registrar = some (g, base') →
          g.walk registrarReserved q.path = .ok (.coll b items) → PlainTree items →
          (OwnNames b items →
            ∃ t, text b q.name c (contentAt fs1 (env.resolve base ++ q.registrar.toList ++ q.path ++ [q.name ++ ".py"])) = .ok t ∧
              s1.fs (env.resolve base ++ q.registrar.toList ++ q.path ++ [q.name ++ ".py"]) = some (.file t)) ∧
          (¬ env.resolve base <+: env.resolve q.file →
            ∃ t, NewText lang q.registrar.isSome q.path q.entry q.imp (contentAt s.fs (env.resolve q.file)) t ∧
              s1.fs (env.resolve q.file) = some (.file t))) := by
  obtain ⟨q', r, c, fs1, s1, g, base', b, items, h0, h1, h2, h3, h4, h5, h6, h7, h8, h9⟩ :=
    C66_created env lang text folder base classes reset sections f s s' h
  rw [hq] at h0
  cases h0
  have hfor := hr r h2.1
  have hreg : q.registrar.toList = registrarPath q.registrar := by cases q.registrar <;> rfl
  have hfound := C39_found_partial r q.registrar q.path q.name c hfor hnames h3
  refine ⟨s1, h9, _, c, h4, h2.2.1, by rw [hreg]; exact hfound, ?_⟩
  intro fs2 hfs2 g2 base2 b2 items2 hg2 hw2 hp
  -- the same entry and collection
  have hfs : fs2 = fs1 := EntryAdded.unique hfs2 h1
  subst hfs
  rw [h6] at hg2
  cases hg2
  rw [h7] at hw2
  cases hw2
  have hbase : env.resolve (q.path.foldl Path.join2 base') = env.resolve base ++ q.registrar.toList ++ q.path := by
    rw [resolve_foldl hcwd base' q.path (fun x hx => hplain x (List.mem_append_right _ hx))]
    cases hreg' : q.registrar with
    | none =>
      rw [hreg'] at h6
      cases h6
      simp
    | some k =>
      rw [hreg'] at h6
      simp only [registrarAt] at h6
      cases hk : AList.get? (r.set (some k) q.path (q.name, .item c)).2.specific k with
      | none => rw [hk] at h6; cases h6
      | some g' =>
        rw [hk] at h6
        cases h6
        rw [resolve_join2 hcwd base (hplain k (by rw [hreg']; simp))]
        simp
  refine ⟨?_, ?_⟩
  · intro hg
    -- the item is in the collection
    have hmem : (q.name, Reg.item c) ∈ items := by
      have hwalk : g.walk registrarReserved (q.path ++ [q.name]) = .ok (.item c) := by
        cases hreg' : q.registrar with
        | none =>
          rw [hreg'] at h6 h3
          cases h6
          have := Defn.walk_setAt (sp := false) (value := (q.name, .item c)) q.path registrarReserved r.general
            (fun x hx => hnames x (List.mem_append_left _ hx)) (fun x hx => Defn.plain_coll hnames x (List.mem_append_left _ hx))
            (fun _ => hnames q.name (by simp)) (Defn.plain_coll hnames q.name (by simp)) h3 []
          simpa [Registry.set, Reg.walk] using this
        | some k =>
          rw [hreg'] at h6 h3
          simp only [registrarAt] at h6
          cases hk : AList.get? (r.set (some k) q.path (q.name, .item c)).2.specific k with
          | none => rw [hk] at h6; cases h6
          | some g' =>
            rw [hk] at h6
            cases h6
            cases hk0 : AList.get? r.specific k with
            | none => simp only [Registry.set, hk0] at h3; cases h3
            | some g0 =>
              simp only [Registry.set, hk0] at h3 hk
              rw [AList.get?_set, if_pos rfl] at hk
              cases hk
              have := Defn.walk_setAt (sp := true) (value := (q.name, .item c)) q.path registrarReserved g0
                (fun x hx => hnames x (List.mem_append_left _ hx)) (fun x hx => Defn.plain_coll hnames x (List.mem_append_left _ hx))
                (fun _ => hnames q.name (by simp)) (Defn.plain_coll hnames q.name (by simp)) h3 []
              simpa [Reg.walk] using this
      rw [Reg.walk_snoc _ _ _ _ _ h7] at hwalk
      rcases Reg.attr_coll hwalk with h | h
      · cases h
      · exact h
    have := (C64_items env hcwd text _ b items hp hg fs2 ?_ s1.fs h8).1 ⟨_, b, q.name, c⟩ (mem_itemFiles _ hmem)
    · rw [hbase] at this
      exact this
    · obtain ⟨hd, _, _, t, _, e⟩ := h1
      rw [e]
      unfold Fs.put
      rw [if_neg]
      · exact hroot
      · intro he
        rw [← he] at hd
        exact hd hroot
  · intro hout
    have hpre : env.resolve base <+: env.resolve (q.path.foldl Path.join2 base') := by
      rw [hbase, List.append_assoc]
      exact List.prefix_append _ _
    obtain ⟨_, _, _, t, ht, e⟩ := h1
    refine ⟨t, ht, ?_⟩
    have hthere : fs2 (env.resolve q.file) = some (.file t) := by rw [e]; unfold Fs.put; rw [if_pos rfl]
    rw [← hthere]
    refine (C64_frame env hcwd text _ b items hp fs2 (env.resolve q.file) s1.fs (by rw [h8])).1 ?_ (by rw [hthere]; simp)
    intro i hi he
    apply hout
    rw [← he]
    refine hpre.trans ?_
    rcases itemFiles_shape items b _ i hi with ⟨y, _, h, _⟩ | ⟨y, _, r, _, h⟩
    · rw [h]; exact List.prefix_append _ _
    · rw [h]; exact List.prefix_append _ _

/-- If `create` fails, either nothing was changed, or the entry is in the definition file.  Then the object could not be had
or there are no registrars; or it was registered as far as it could be, its collection was scaffolded as far as it could be,
or the reset failed. -/
theorem C66_failure_partial {R : Type} (env : FsEnv) (lang : CreateLang V) (text : ItemText V) (folder base : String)
    (classes : List String) (reset : List String → KM V R Unit) (sections : List String) (f : Option (NewItem V))
    (s s' : Created V R) (e : PyErr) (h : createItem env lang text folder base classes reset sections f s = (.error e, s')) :
    s' = s ∨ ∃ q fs1, requested lang folder classes sections f = some q ∧
      EntryAdded env lang q.registrar.isSome q.file q.path q.entry q.imp s.fs fs1 ∧
      ((¬ ∃ r c, Registrable q s r c) ∧ s' = { s with fs := fs1 } ∨
        ∃ r c, Registrable q s r c ∧
          ((∃ fs2, s' = ⟨fs2, some (r.set q.registrar q.path (q.name, .item c)).2, s.rest⟩ ∧
              (fs2 = fs1 ∨ ∃ g base' b items,
                registrarAt (r.set q.registrar q.path (q.name, .item c)).2 base q.registrar = some (g, base') ∧
                g.walk registrarReserved q.path = .ok (.coll b items) ∧
                (Reg.coll b items).scaffold env text (q.path.foldl Path.join2 base') fs1 = (.error e, fs2))) ∨
            ∃ fs2, reset (q.registrar.toList ++ q.path ++ [q.name])
              ⟨fs2, some (r.set q.registrar q.path (q.name, .item c)).2, s.rest⟩ = (.error e, s'))) := by
  have hr := createItem_run env lang text folder base classes reset sections f s
  cases hq : requested lang folder classes sections f with
  | none =>
    rw [hq] at hr
    obtain ⟨e, hr⟩ := hr
    rw [hr] at h; cases h
    exact .inl rfl
  | some q =>
    rw [hq] at hr
    rcases hr with ⟨⟨e, h1⟩, _⟩ | ⟨fs1, h1, ⟨⟨e, h2⟩, hn⟩ | ⟨r, c, h2, h3⟩⟩
    · rw [h1] at h; cases h
      exact .inl rfl
    · rw [h2] at h; cases h
      exact .inr ⟨q, fs1, rfl, h1, .inl ⟨hn, rfl⟩⟩
    · refine .inr ⟨q, fs1, rfl, h1, .inr ⟨r, c, h2, ?_⟩⟩
      rw [h3, createRegistered_run] at h
      simp only [h2.1] at h
      cases hset : (r.set q.registrar q.path (q.name, .item c)).1 with
      | error e => rw [hset] at h; cases h; exact .inl ⟨fs1, rfl, .inl rfl⟩
      | ok u =>
        rw [hset] at h
        simp only at h
        cases hat : registrarAt (r.set q.registrar q.path (q.name, .item c)).2 base q.registrar with
        | none => rw [hat] at h; cases h; exact .inl ⟨fs1, rfl, .inl rfl⟩
        | some gb =>
          obtain ⟨g, base'⟩ := gb
          rw [hat] at h
          simp only at h
          cases hs : g.scaffoldFor env text base' (q.path ++ [q.name]) fs1 with
          | mk res fs2 =>
            rw [hs] at h
            cases res with
            | ok u => exact .inr ⟨fs2, h⟩
            | error e =>
              cases h
              refine .inl ⟨fs2, rfl, ?_⟩
              rw [scaffoldFor_run] at hs
              cases hw : g.walk registrarReserved q.path with
              | error e => rw [hw] at hs; cases hs; exact .inl rfl
              | ok c' =>
                rw [hw] at hs
                simp only at hs
                cases c' with
                | item _ => cases hs; exact .inl rfl
                | other => cases hs; exact .inl rfl
                | coll b items => exact .inr ⟨g, base', b, items, rfl, hw, hs⟩

/-- Calling `create` before the manager was loaded fails, but the definition file has been changed. -/
theorem C66_unloaded_violated {R : Type} (env : FsEnv) (lang : CreateLang V) (text : ItemText V) (folder base : String)
    (classes : List String) (reset : List String → KM V R Unit) (sections : List String) (f : Option (NewItem V))
    (s : Created V R) (hs : s.reg = none) (q : Request V) (hq : requested lang folder classes sections f = some q) (fs1 : Fs)
    (h : EntryAdded env lang q.registrar.isSome q.file q.path q.entry q.imp s.fs fs1) :
    ∃ e, createItem env lang text folder base classes reset sections f s = (.error e, { s with fs := fs1 }) := by
  have hr := createItem_run env lang text folder base classes reset sections f s
  rw [hq] at hr
  rcases hr with ⟨_, hn⟩ | ⟨fs2, h1, ⟨⟨e, h2⟩, _⟩ | ⟨r, c, h2, _⟩⟩
  · exact absurd ⟨fs1, h⟩ hn
  · rw [EntryAdded.unique h h1]
    exact ⟨e, h2⟩
  · have := h2.1
    rw [hs] at this
    cases this

/-- If the text of the config file of the new item, or of one of its siblings, cannot be made, `create` fails, but the
definition file and the registered items have been changed. -/
theorem C66_scaffold_violated {R : Type} (env : FsEnv) (lang : CreateLang V) (text : ItemText V) (folder base : String)
    (classes : List String) (reset : List String → KM V R Unit) (sections : List String) (f : Option (NewItem V))
    (s : Created V R) (q : Request V) (hq : requested lang folder classes sections f = some q) (fs1 fs2 : Fs)
    (h : EntryAdded env lang q.registrar.isSome q.file q.path q.entry q.imp s.fs fs1)
    (r : Registry V) (c : Callable V) (hr : Registrable q s r c) (hset : (r.set q.registrar q.path (q.name, .item c)).1 = .ok ())
    (g : Reg V) (base' : String) (hat : registrarAt (r.set q.registrar q.path (q.name, .item c)).2 base q.registrar = some (g, base'))
    (b : Bool) (items : List (String × Reg V)) (hw : g.walk registrarReserved q.path = .ok (.coll b items)) (e : PyErr)
    (hs : (Reg.coll b items).scaffold env text (q.path.foldl Path.join2 base') fs1 = (.error e, fs2)) :
    createItem env lang text folder base classes reset sections f s =
      (.error e, ⟨fs2, some (r.set q.registrar q.path (q.name, .item c)).2, s.rest⟩) := by
  have hrun := createItem_run env lang text folder base classes reset sections f s
  rw [hq] at hrun
  rcases hrun with ⟨_, hn⟩ | ⟨fs3, h1, ⟨_, hn⟩ | ⟨r', c', h2, h3⟩⟩
  · exact absurd ⟨fs1, h⟩ hn
  · exact absurd ⟨r, c, hr⟩ hn
  · have hr1 := hr.1
    have hr2 := hr.2.1
    rw [h2.1] at hr1; cases hr1
    rw [h2.2.1] at hr2; cases hr2
    rw [h3, createRegistered_run, ← EntryAdded.unique h h1]
    simp only [h2.1, hset, hat]
    rw [scaffoldFor_run, hw]
    simp only [hs]

/-- Of the definition file only the imports and the definition itself are kept: files that differ in anything else, such as
comments and helper functions, give the same new text. -/
theorem C66_body_violated (lang : CreateLang V) (specific : Bool) (path : List String) (item : Leaf)
    (imp : Except PyErr (List Imp)) (content content' : Option String) (f f' : Model.Loaded)
    (h1 : readFile lang.lang content = .ok f) (h2 : readFile lang.lang content' = .ok f') (hi : f.imports = f'.imports)
    (hr : lang.read specific content = lang.read specific content') (text : String) :
    NewText lang specific path item imp content text → NewText lang specific path item imp content' text := by
  rintro ⟨g, es, new, s, t, a1, a2, a3, a4, a5, a6, a7⟩
  rw [h1] at a1
  cases a1
  exact ⟨f', es, new, s, t, h2, hr ▸ a2, a3, a4, a5, a6, by rw [a7, hi]⟩

/-! ### Examples -/

/-- Definitions are empty, and formatting does nothing. -/
def createToy : CreateLang Unit := ⟨toy, fun _ _ => .ok [], .ok, fun _ _ => .ok scaffoldItem⟩

def createNew : NewItem Unit := ⟨"f", .ok (⟨some "m", ["f"], [], false⟩), .ok scaffoldItem⟩

def createFs : Fs := (Fs.blank.put ["p"] .dir).put ["p", "pipeline_dict.py"] (.file "# comment\nhelper = 1\n")

def createState (r : Option (Registry Unit)) : Created Unit Unit := ⟨createFs, r, ()⟩

def createReset : List String → KM Unit Unit Unit := fun _ => pure ()

def createRequest : Request Unit :=
  ⟨none, Path.join2 "p" "pipeline_dict.py", ["s"], .name "f", .ok [⟨some "m", ["f"], [], false⟩], "f", .ok scaffoldItem⟩

def createdText : String := "from m import f\n\npipeline_dict = {\"s\": [f,],}"

def createBlank : Registry Unit := ⟨[], .coll false []⟩

def createdItems : List (String × Reg Unit) := [("f", .item scaffoldItem)]

def createFs1 : Fs := createFs.put ["p", "pipeline_dict.py"] (.file createdText)

theorem create_requested : requested createToy "p" [] ["s"] (some createNew) = some createRequest := by
  simp [requested, createNew, createRequest, Except.map]

theorem create_text : NewText createToy false ["s"] (.name "f") (.ok [⟨some "m", ["f"], [], false⟩])
    (some "# comment\nhelper = 1\n") createdText := by
  have h : (readFile toy (some "# comment\nhelper = 1\n")).toOption.map Model.Loaded.imports = some [] := by decide +kernel
  cases hf : readFile toy (some "# comment\nhelper = 1\n") with
  | error e => rw [hf] at h; cases h
  | ok f =>
    rw [hf] at h
    have hi : f.imports = [] := Option.some.inj h
    have ha : addItem (Leaf.name "f") [] ["s"] = (.ok (), [("s", Def.list [.leaf (.name "f")])]) := by
      simp [addItem, AList.get?, AList.set]
    refine ⟨f, [], _, "pipeline_dict = {\"s\": [f,],}", _, hf, rfl, rfl, by rw [ha], ?_, rfl, ?_⟩
    · rw [ha]
      simp only [Bool.false_eq_true, if_false]
      rw [renderDefinition, renderEntries, renderList, renderList, renderEntries]
      decide +kernel
    · rw [hi]
      decide +kernel

theorem create_added : EntryAdded freeEnv createToy false createRequest.file ["s"] (.name "f")
    (.ok [⟨some "m", ["f"], [], false⟩]) createFs createFs1 := by
  have hf : freeEnv.resolve createRequest.file = ["p", "pipeline_dict.py"] := by decide +kernel
  rw [EntryAdded, hf]
  exact ⟨by decide +kernel, by decide +kernel, rfl, createdText, create_text, rfl⟩

theorem create_set : createBlank.set none ["s"] ("f", .item scaffoldItem) =
    (.ok (), ⟨[], .coll false [("s", .coll false createdItems)]⟩) := by
  have : ("s" ∈ registrarReserved) = False := by simp [registrarReserved, collectionReserved]
  simp [createBlank, Registry.set, Reg.setAt, this, Reg.nameDict, AList.get?, createdItems]

theorem create_walk : (Reg.coll false [("s", .coll false createdItems)]).walk registrarReserved ["s"] = .ok (.coll false createdItems) := by
  have : ("s" ∈ registrarReserved) = False := by simp [registrarReserved, collectionReserved]
  simp [Reg.walk, Reg.attr, this, Reg.nameDict, AList.get?, AList.set]

/-- A call that succeeds. -/
example : (createItem freeEnv createToy keepText "p" "d" [] createReset ["s"] (some createNew) (createState (some createBlank))).1 =
    .ok () := by
  have h := createItem_run freeEnv createToy keepText "p" "d" [] createReset ["s"] (some createNew) (createState (some createBlank))
  rw [create_requested] at h
  rcases h with ⟨_, hn⟩ | ⟨fs', h1, ⟨_, hn⟩ | ⟨r, c, h2, h3⟩⟩
  · exact absurd ⟨_, create_added⟩ hn
  · exact absurd ⟨createBlank, scaffoldItem, rfl, rfl, by intro k hk; cases hk⟩ hn
  · obtain ⟨h4, h5, _⟩ := h2
    cases h4
    cases h5
    rw [h3, createRegistered_run, ← EntryAdded.unique create_added h1]
    simp only [createState, createRequest, create_set, registrarAt, scaffoldFor_run, create_walk]
    have : (Reg.scaffold freeEnv keepText "d/s" (.coll false createdItems) createFs1).1 = .ok () := by
      simp only [createdItems, Reg.scaffold, outputItems]
      decide +kernel
    have hb : List.foldl Path.join2 "d" ["s"] = "d/s" := by decide +kernel
    rw [hb]
    cases hs : Reg.scaffold freeEnv keepText "d/s" (.coll false createdItems) createFs1 with
    | mk res fs2 =>
      rw [hs] at this
      cases res with
      | error e => cases this
      | ok u => rfl

/-- The conditions of `C66_complete_partial` hold there. -/
example : PlainNames ["s", "f"] ∧ (∀ x ∈ ["s"], Path.Plain x) ∧ RegistrarFor createBlank none ["s"] ∧ PlainTree createdItems ∧
    OwnNames false createdItems ∧ ¬ freeEnv.resolve "d" <+: freeEnv.resolve createRequest.file := by
  refine ⟨?_, ?_, ?_, ?_, ?_, by decide +kernel⟩
  · intro x hx
    simp only [List.mem_cons, List.not_mem_nil, or_false] at hx
    rcases hx with rfl | rfl <;> decide +kernel
  · intro x hx
    simp only [List.mem_cons, List.not_mem_nil, or_false] at hx
    subst hx
    unfold Path.Plain
    decide +kernel
  · simp [RegistrarFor, createBlank]
  · simp only [createdItems, PlainTree]; decide +kernel
  · simp only [createdItems, OwnNames, itemNames]; decide +kernel

/-- Before loading: `create` fails, and the definition file has been changed. -/
example : ∃ e, createItem freeEnv createToy keepText "p" "d" [] createReset ["s"] (some createNew) (createState none) =
    (.error e, ⟨createFs1, none, ()⟩) :=
  C66_unloaded_violated freeEnv createToy keepText "p" "d" [] createReset ["s"] (some createNew) (createState none) rfl _
    create_requested createFs1 create_added

example : createFs ["p", "pipeline_dict.py"] ≠ createFs1 ["p", "pipeline_dict.py"] := by decide +kernel

/-- The config file cannot be made: `create` fails, and the definition file and the registered items have been changed. -/
example : ∃ fs2, createItem freeEnv createToy (fun _ _ _ _ => .error .importError) "p" "d" [] createReset ["s"] (some createNew)
      (createState (some createBlank)) =
      (.error .importError, ⟨fs2, some ⟨[], .coll false [("s", .coll false createdItems)]⟩, ()⟩) ∧
    fs2 ["p", "pipeline_dict.py"] = some (.file createdText) := by
  have hb : List.foldl Path.join2 "d" ["s"] = "d/s" := by decide +kernel
  have h1 : (Reg.scaffold freeEnv (fun _ _ _ _ => .error .importError) "d/s" (.coll false createdItems) createFs1).1 =
      .error .importError := by
    simp only [createdItems, Reg.scaffold, outputItems]
    decide +kernel
  have h2 : (Reg.scaffold freeEnv (fun _ _ _ _ => .error .importError) "d/s" (.coll false createdItems) createFs1).2
      ["p", "pipeline_dict.py"] = some (.file createdText) := by
    simp only [createdItems, Reg.scaffold, outputItems]
    decide +kernel
  refine ⟨_, ?_, h2⟩
  have := C66_scaffold_violated freeEnv createToy (fun _ _ _ _ => .error .importError) "p" "d" [] createReset ["s"] (some createNew)
    (createState (some createBlank)) createRequest create_requested createFs1 _ create_added createBlank scaffoldItem
    ⟨rfl, rfl, by intro k hk; cases hk⟩ (by simp only [createRequest, create_set])
    (.coll false [("s", .coll false createdItems)]) "d" (by simp only [createRequest, create_set]; rfl) false createdItems
    create_walk .importError (Prod.ext (by simp only [createRequest, hb]; exact h1) (by simp only [createRequest, hb]; rfl))
  simp only [createRequest, create_set] at this
  exact this

/-- The comment and the helper are not in the new text: an empty file gives the same. -/
example : NewText createToy false ["s"] (.name "f") (.ok [⟨some "m", ["f"], [], false⟩]) (some "") createdText := by
  have h : ∀ t : String, (readFile toy (some t)).toOption.map Model.Loaded.imports = some [] →
      ∃ f, readFile toy (some t) = .ok f ∧ f.imports = [] := by
    intro t h
    cases hf : readFile toy (some t) with
    | error e => rw [hf] at h; cases h
    | ok f => rw [hf] at h; exact ⟨f, rfl, Option.some.inj h⟩
  obtain ⟨f, h1, h2⟩ := h "# comment\nhelper = 1\n" (by decide +kernel)
  obtain ⟨f', h3, h4⟩ := h "" (by decide +kernel)
  exact C66_body_violated createToy false ["s"] (.name "f") _ _ _ f f' h1 h3 (h2.trans h4.symm) rfl _ create_text

end Verif.Props

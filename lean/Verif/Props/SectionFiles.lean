import Verif.Model.SectionFiles
import Verif.Lemmas.SectionPath

/-
C104: the config file of a section can read attributes of items.
-/

namespace Verif.Props
open Verif.Py Verif.Model

variable {V σ : Type}

/-! ### What executing files should give, in terms of reading items alone -/

/-- Executing a file in `s` asks for attributes of the items `l` in this order, ends with `o` and leaves `s'`. -/
inductive FileReads (answer : String → String → σ → Except PyErr V × σ) :
    SecProg V → σ → List String → Except PyErr (Dict String V) → σ → Prop
  | done (d : Dict String V) (s : σ) : FileReads answer (.done d) s [] (.ok d) s
  | raise (e : PyErr) (s : σ) : FileReads answer (.raise e) s [] (.error e) s
  | value (item attr : String) (next : V → SecProg V) (v : V) (s s₁ s₂ : σ) (l : List String) (o : Except PyErr (Dict String V)) :
      answer item attr s = (.ok v, s₁) → FileReads answer (next v) s₁ l o s₂ →
      FileReads answer (.read item attr next) s (item :: l) o s₂
  | failed (item attr : String) (next : V → SecProg V) (e : PyErr) (s s₁ : σ) :
      answer item attr s = (.error e, s₁) → FileReads answer (.read item attr next) s [item] (.error e) s₁

/-- The files are executed one after the other and give these configs, a file that raises `ValueError` none; the dependencies in
the order of reading. -/
inductive FilesRead (answer : String → String → σ → Except PyErr V × σ) :
    List (String × SecProg V) → σ → List (String × String) → List (Option (Dict String V)) → σ → Prop
  | nil (s : σ) : FilesRead answer [] s [] [] s
  | config (file : String) (p : SecProg V) (rest : List (String × SecProg V)) (s s₁ s₂ : σ) (l : List String) (d : Dict String V)
      (deps : List (String × String)) (cs : List (Option (Dict String V))) :
      FileReads answer p s l (.ok d) s₁ → FilesRead answer rest s₁ deps cs s₂ →
      FilesRead answer ((file, p) :: rest) s (l.map (fun i => (file, i)) ++ deps) (some d :: cs) s₂
  | without (file : String) (p : SecProg V) (rest : List (String × SecProg V)) (s s₁ s₂ : σ) (l : List String)
      (deps : List (String × String)) (cs : List (Option (Dict String V))) :
      FileReads answer p s l (.error .valueError) s₁ → FilesRead answer rest s₁ deps cs s₂ →
      FilesRead answer ((file, p) :: rest) s (l.map (fun i => (file, i)) ++ deps) (none :: cs) s₂

/-- Executing the file reads the items `l` and then comes to reading `attr` of `item`. -/
inductive ComesTo (answer : String → String → σ → Except PyErr V × σ) :
    SecProg V → σ → List String → String → String → σ → Prop
  | here (item attr : String) (next : V → SecProg V) (s : σ) : ComesTo answer (.read item attr next) s [] item attr s
  | later (item attr : String) (next : V → SecProg V) (v : V) (s s₁ s₂ : σ) (l : List String) (i a : String) :
      answer item attr s = (.ok v, s₁) → ComesTo answer (next v) s₁ l i a s₂ →
      ComesTo answer (.read item attr next) s (item :: l) i a s₂

/-- Every file ends in some way. -/
theorem fileReads_total (answer : String → String → σ → Except PyErr V × σ) (p : SecProg V) (s : σ) :
    ∃ l o s', FileReads answer p s l o s' := by
  induction p generalizing s with
  | done d => exact ⟨_, _, _, .done d s⟩
  | raise e => exact ⟨_, _, _, .raise e s⟩
  | read item attr next ih =>
    cases h : answer item attr s with
    | mk r s₁ =>
      cases r with
      | error e => exact ⟨_, _, _, .failed item attr next e s s₁ h⟩
      | ok v =>
        obtain ⟨l, o, s', hr⟩ := ih v s₁
        exact ⟨_, _, _, .value item attr next v s s₁ s' l o h hr⟩

/-! ### Reading -/

/-- All active managers have registrars. -/
def AllDefined (ms : List (String × Status)) : Prop := ∀ m ∈ ms, m.2 ≠ .new

theorem makeSelector_ok {s : SecS σ} (h : AllDefined s.managers) : SectionFiles.makeSelector s = (.ok (), s) := by
  unfold SectionFiles.makeSelector
  rw [M.bind_ok (M.get_run s)]
  have : s.managers.any (fun m => decide (m.2 = .new)) = false := by
    rw [List.any_eq_false]
    intro m hm
    simpa using h m hm
  rw [this]
  rfl

theorem readAttr_loaded {answer : Answer σ V} {file item attr : String} {s : SecS σ} (h : AllDefined s.managers)
    (hl : AList.get? s.managers (SectionFiles.managerOf item) = some .loaded) :
    SectionFiles.readAttr answer file item attr s =
      (match (answer item attr s.inner).1 with
        | .ok a => .ok a
        | .error e => .error (.py e),
        ⟨s.managers, (answer item attr s.inner).2, s.records ++ [(file, item)]⟩) := by
  unfold SectionFiles.readAttr
  rw [M.bind_ok (makeSelector_ok h), M.bind_ok (M.get_run s)]
  simp only [hl]
  rw [M.bind_ok (M.modify_run _ _)]
  rfl

theorem managerOf_attr (item attr : String) : SectionFiles.managerOf (item ++ "." ++ attr) = SectionFiles.managerOf item := by
  unfold SectionFiles.managerOf SectionPath.sections
  have hs : split '.' (item ++ "." ++ attr) = split '.' item ++ split '.' attr := by
    simp only [split, String.toList_append]
    have : ".".toList = ['.'] := rfl
    rw [this, List.append_assoc, List.singleton_append, splitL_append, List.map_append]
  rw [hs]
  cases h : split '.' item with
  | nil => exact absurd h (split_ne_nil _ _)
  | cons a as => rfl

theorem readAttr_defined {answer : Answer σ V} {file item attr : String} {s : SecS σ} (h : AllDefined s.managers)
    (hl : AList.get? s.managers (SectionFiles.managerOf item) = some .defined) :
    SectionFiles.readAttr answer file item attr s =
      (.error (.itemNotFound (item ++ "." ++ attr)), ⟨s.managers, s.inner, s.records ++ [(file, item)]⟩) := by
  unfold SectionFiles.readAttr
  rw [M.bind_ok (makeSelector_ok h), M.bind_ok (M.get_run s)]
  simp only [hl]
  rw [M.bind_ok (M.modify_run _ _)]
  unfold SectionFiles.notLoadedOrTypo
  rw [M.bind_ok (M.get_run _)]
  have : SectionFiles.managerOf (item ++ "." ++ attr) ∈ s.managers.map Prod.fst := by
    rw [← AList.get?_isSome_iff, managerOf_attr, hl]; rfl
  simp only [this, if_true]
  rfl

/-- The items are of managers that are loaded. -/
def OfLoaded (ms : List (String × Status)) (l : List String) : Prop :=
  ∀ i ∈ l, AList.get? ms (SectionFiles.managerOf i) = some .loaded

/-- The exceptions among those of loading. -/
def asLoad {α : Type} : Except PyErr α → Except LoadErr α
  | .ok a => .ok a
  | .error e => .error (.py e)

theorem runFile_reads {answer : Answer σ V} {p : SecProg V} {i i' : σ} {l : List String} {o : Except PyErr (Dict String V)}
    (hr : FileReads answer p i l o i') (file : String) {ms : List (String × Status)} (h : AllDefined ms)
    (hl : OfLoaded ms l) (recs : List (String × String)) :
    SectionFiles.runFile answer file p ⟨ms, i, recs⟩ =
      (asLoad o, ⟨ms, i', recs ++ l.map (fun x => (file, x))⟩) := by
  induction hr generalizing recs with
  | done d s => simp [SectionFiles.runFile, asLoad]
  | raise e s => simp [SectionFiles.runFile, asLoad]
  | value item attr next v s s₁ s₂ l o ha _ ih =>
    rw [SectionFiles.runFile]
    have hx := readAttr_loaded (answer := answer) (file := file) (item := item) (attr := attr) (s := ⟨ms, s, recs⟩) h
      (hl item List.mem_cons_self)
    simp only [ha] at hx
    rw [M.bind_ok hx, ih (fun x hx' => hl x (List.mem_cons_of_mem _ hx'))]
    simp
  | failed item attr next e s s₁ ha =>
    rw [SectionFiles.runFile]
    have hx := readAttr_loaded (answer := answer) (file := file) (item := item) (attr := attr) (s := ⟨ms, s, recs⟩) h
      (hl item List.mem_cons_self)
    simp only [ha] at hx
    rw [M.bind_error hx]
    simp [asLoad]

theorem runFile_comesTo {answer : Answer σ V} {p : SecProg V} {i i' : σ} {l : List String} {item attr : String}
    (hc : ComesTo answer p i l item attr i') (file : String) {ms : List (String × Status)} (h : AllDefined ms)
    (hl : OfLoaded ms l) (hd : AList.get? ms (SectionFiles.managerOf item) = some .defined) (recs : List (String × String)) :
    SectionFiles.runFile answer file p ⟨ms, i, recs⟩ =
      (.error (.itemNotFound (item ++ "." ++ attr)),
        ⟨ms, i', recs ++ l.map (fun x => (file, x)) ++ [(file, item)]⟩) := by
  induction hc generalizing recs with
  | here it at' next s =>
    rw [SectionFiles.runFile, M.bind_error (readAttr_defined (s := ⟨ms, s, recs⟩) h hd)]
    simp
  | later it at' next v s s₁ s₂ l i a ha _ ih =>
    rw [SectionFiles.runFile]
    have hx := readAttr_loaded (answer := answer) (file := file) (item := it) (attr := at') (s := ⟨ms, s, recs⟩) h
      (hl it List.mem_cons_self)
    simp only [ha] at hx
    rw [M.bind_ok hx, ih (fun x hx' => hl x (List.mem_cons_of_mem _ hx')) hd]
    simp

theorem runFile_absent {answer : Answer σ V} {p : SecProg V} {i i' : σ} {l : List String} {item attr : String}
    (hc : ComesTo answer p i l item attr i') (file : String) {ms : List (String × Status)} (h : AllDefined ms)
    (hl : OfLoaded ms l) (hd : AList.get? ms (SectionFiles.managerOf item) = none) (recs : List (String × String)) :
    SectionFiles.runFile answer file p ⟨ms, i, recs⟩ =
      (.error (.py .keyError), ⟨ms, i', recs ++ l.map (fun x => (file, x))⟩) := by
  induction hc generalizing recs with
  | here it at' next s =>
    rw [SectionFiles.runFile]
    have hx : SectionFiles.readAttr answer file it at' ⟨ms, s, recs⟩ = (.error (.py .keyError), ⟨ms, s, recs⟩) := by
      unfold SectionFiles.readAttr
      rw [M.bind_ok (makeSelector_ok (s := ⟨ms, s, recs⟩) h), M.bind_ok (M.get_run _)]
      simp only [hd]
      rfl
    rw [M.bind_error hx]
    simp
  | later it at' next v s s₁ s₂ l i a ha _ ih =>
    rw [SectionFiles.runFile]
    have hx := readAttr_loaded (answer := answer) (file := file) (item := it) (attr := at') (s := ⟨ms, s, recs⟩) h
      (hl it List.mem_cons_self)
    simp only [ha] at hx
    rw [M.bind_ok hx, ih (fun x hx' => hl x (List.mem_cons_of_mem _ hx')) hd]
    simp

theorem sectionConfig_ok {answer : Answer σ V} {file : String} {p : SecProg V} {d : Dict String V} {s t : SecS σ}
    (h : SectionFiles.runFile answer file p s = (.ok d, t)) :
    SectionFiles.sectionConfig answer file p s = (.ok (some d), t) := by
  unfold SectionFiles.sectionConfig M.tryCatch
  rw [M.bind_ok h]
  rfl

theorem sectionConfig_valueError {answer : Answer σ V} {file : String} {p : SecProg V} {s t : SecS σ}
    (h : SectionFiles.runFile answer file p s = (.error (.py .valueError), t)) :
    SectionFiles.sectionConfig answer file p s = (.ok none, t) := by
  unfold SectionFiles.sectionConfig M.tryCatch
  rw [M.bind_error h]
  rfl

theorem sectionConfig_error {answer : Answer σ V} {file : String} {p : SecProg V} {e : LoadErr} {s t : SecS σ}
    (h : SectionFiles.runFile answer file p s = (.error e, t)) (he : e ≠ .py .valueError) :
    SectionFiles.sectionConfig answer file p s = (.error e, t) := by
  unfold SectionFiles.sectionConfig M.tryCatch
  rw [M.bind_error h]
  simp only [if_neg he]
  rfl

/-- The items read are of loaded managers. -/
def DepsLoaded (ms : List (String × Status)) (deps : List (String × String)) : Prop :=
  ∀ d ∈ deps, AList.get? ms (SectionFiles.managerOf d.2) = some .loaded

theorem ofLoaded_of_deps {ms : List (String × Status)} {l : List String} {file : String} {deps : List (String × String)}
    (h : DepsLoaded ms (l.map (fun i => (file, i)) ++ deps)) : OfLoaded ms l ∧ DepsLoaded ms deps :=
  ⟨fun i hi => h (file, i) (List.mem_append_left _ (List.mem_map.2 ⟨i, hi, rfl⟩)),
    fun d hd => h d (List.mem_append_right _ hd)⟩

theorem fromFiles_read {answer : Answer σ V} {files : List (String × SecProg V)} {i i' : σ} {deps : List (String × String)}
    {cs : List (Option (Dict String V))} (hr : FilesRead answer files i deps cs i') {ms : List (String × Status)}
    (h : AllDefined ms) (hl : DepsLoaded ms deps) (recs : List (String × String)) :
    SectionFiles.fromFiles answer files ⟨ms, i, recs⟩ = (.ok cs, ⟨ms, i', recs ++ deps⟩) := by
  induction hr generalizing recs with
  | nil s => simp [SectionFiles.fromFiles]
  | config file p rest s s₁ s₂ l d deps cs hf _ ih =>
    obtain ⟨h1, h2⟩ := ofLoaded_of_deps hl
    rw [SectionFiles.fromFiles, M.bind_ok (sectionConfig_ok (runFile_reads hf file h h1 recs)), M.bind_ok (ih h2 _)]
    simp
  | without file p rest s s₁ s₂ l deps cs hf _ ih =>
    obtain ⟨h1, h2⟩ := ofLoaded_of_deps hl
    rw [SectionFiles.fromFiles, M.bind_ok (sectionConfig_valueError (runFile_reads hf file h h1 recs)), M.bind_ok (ih h2 _)]
    simp

/-- Files after some that have been executed. -/
theorem fromFiles_append {answer : Answer σ V} {pre : List (String × SecProg V)} {i i' : σ} {deps : List (String × String)}
    {cs : List (Option (Dict String V))} (hr : FilesRead answer pre i deps cs i') {ms : List (String × Status)}
    (h : AllDefined ms) (hl : DepsLoaded ms deps) (recs : List (String × String)) {rest : List (String × SecProg V)}
    {e : LoadErr} {t : SecS σ} (he : SectionFiles.fromFiles answer rest ⟨ms, i', recs ++ deps⟩ = (.error e, t)) :
    SectionFiles.fromFiles answer (pre ++ rest) ⟨ms, i, recs⟩ = (.error e, t) := by
  induction hr generalizing recs with
  | nil s => simpa using he
  | config file p rest' s s₁ s₂ l d deps cs hf _ ih =>
    obtain ⟨h1, h2⟩ := ofLoaded_of_deps hl
    rw [List.cons_append, SectionFiles.fromFiles, M.bind_ok (sectionConfig_ok (runFile_reads hf file h h1 recs)),
      M.bind_error (ih h2 _ (by simpa using he))]
  | without file p rest' s s₁ s₂ l deps cs hf _ ih =>
    obtain ⟨h1, h2⟩ := ofLoaded_of_deps hl
    rw [List.cons_append, SectionFiles.fromFiles, M.bind_ok (sectionConfig_valueError (runFile_reads hf file h h1 recs)),
      M.bind_error (ih h2 _ (by simpa using he))]

/-! ### Loading -/

theorem mem_of_get? {ms : List (String × Status)} {m : String} {st : Status} (h : AList.get? ms m = some st) : (m, st) ∈ ms := by
  induction ms with
  | nil => cases h
  | cons e ms ih =>
    obtain ⟨a, b⟩ := e
    by_cases ha : a = m
    · subst ha
      simp only [AList.get?, if_true, Option.some.injEq] at h
      subst h
      exact List.mem_cons_self
    · simp only [AList.get?, if_neg ha] at h
      exact List.mem_cons_of_mem _ (ih h)

/-- The managers while `m` is loaded: it has registrars, and a runner only if it had one. -/
def during (ms : List (String × Status)) (m : String) : List (String × Status) :=
  if AList.get? ms m = some .loaded then ms else AList.set ms m .defined

theorem load_during (answer : Answer σ V) (build : List (Option (Dict String V)) → σ → σ) (m : String)
    (files : List (String × SecProg V)) (s : SecS σ) :
    SectionFiles.load answer build m files s = (do
      let cs ← SectionFiles.fromFiles answer files
      M.modify (fun s => { s with inner := build cs s.inner })
      SectionFiles.setStatus m .loaded : SecM σ Unit) ⟨during s.managers m, s.inner, s.records⟩ := by
  unfold SectionFiles.load
  rw [M.bind_ok (M.get_run s)]
  unfold during
  by_cases h : AList.get? s.managers m = some .loaded
  · simp only [h, if_true]
    exact M.bind_ok (M.pure_run _ _)
  · simp only [h, if_false]
    exact M.bind_ok (M.modify_run _ _)

theorem allDefined_set {ms : List (String × Status)} {m : String} {st : Status}
    (h : ∀ n ∈ ms, n.1 ≠ m → n.2 ≠ .new) (hst : st ≠ .new) (hn : (ms.map Prod.fst).Nodup) :
    AllDefined (AList.set ms m st) := by
  induction ms with
  | nil =>
    intro n hn'
    rw [AList.set, List.mem_singleton] at hn'
    subst hn'
    exact hst
  | cons e ms ih =>
    obtain ⟨a, b⟩ := e
    rw [List.map_cons, List.nodup_cons] at hn
    intro n hm
    by_cases ha : a = m
    · subst ha
      simp only [AList.set, if_true] at hm
      rcases List.mem_cons.1 hm with rfl | hm
      · exact hst
      · exact h n (List.mem_cons_of_mem _ hm) (fun hc => hn.1 (hc ▸ List.mem_map.2 ⟨n, hm, rfl⟩))
    · simp only [AList.set, if_neg ha] at hm
      rcases List.mem_cons.1 hm with rfl | hm
      · exact h _ List.mem_cons_self ha
      · exact ih (fun n hn' => h n (List.mem_cons_of_mem _ hn')) hn.2 n hm

/-- No manager but `m` is without registrars, and the names are different. -/
def OthersDefined (ms : List (String × Status)) (m : String) : Prop :=
  (ms.map Prod.fst).Nodup ∧ ∀ n ∈ ms, n.1 ≠ m → n.2 ≠ .new

theorem get?_of_mem_nodup {ms : List (String × Status)} (hn : (ms.map Prod.fst).Nodup) {m : String} {st : Status}
    (h : (m, st) ∈ ms) : AList.get? ms m = some st := by
  induction ms with
  | nil => cases h
  | cons e ms ih =>
    obtain ⟨a, b⟩ := e
    rw [List.map_cons, List.nodup_cons] at hn
    rcases List.mem_cons.1 h with heq | h
    · cases heq; simp [AList.get?]
    · have : a ≠ m := fun hc => hn.1 (hc ▸ List.mem_map.2 ⟨(m, st), h, rfl⟩)
      rw [AList.get?, if_neg this]
      exact ih hn.2 h

theorem allDefined_during {ms : List (String × Status)} {m : String} (h : OthersDefined ms m) : AllDefined (during ms m) := by
  unfold during
  split
  · rename_i hl
    intro n hn
    by_cases hm : n.1 = m
    · have := get?_of_mem_nodup h.1 (m := n.1) (st := n.2) hn
      rw [hm, hl] at this
      intro hc
      rw [hc] at this
      cases this
    · exact h.2 n hn hm
  · exact allDefined_set h.2 (by decide) h.1

theorem get?_during {ms : List (String × Status)} {m n : String} (hn : n ≠ m) :
    AList.get? (during ms m) n = AList.get? ms n := by
  unfold during
  split
  · rfl
  · rw [AList.get?_set, if_neg (Ne.symm hn)]

theorem depsLoaded_during {ms : List (String × Status)} {m : String} {deps : List (String × String)}
    (h : DepsLoaded ms deps) : DepsLoaded (during ms m) deps := by
  intro d hd
  have := h d hd
  unfold during
  split
  · exact this
  · rename_i hc
    rw [AList.get?_set, if_neg (fun he : m = _ => hc (he ▸ this))]
    exact this

/-- If all active managers have registrars and the items read are of managers that have been loaded, then loading executes the
files of the sections in order, each reading what the items are at this time, and records what each read; afterwards the manager
has its new runner with these configs. -/
theorem C104_values_partial {answer : Answer σ V} {files : List (String × SecProg V)} {s : SecS σ} {i' : σ}
    {deps : List (String × String)} {cs : List (Option (Dict String V))} {m : String}
    (build : List (Option (Dict String V)) → σ → σ) (hm : OthersDefined s.managers m) (hl : DepsLoaded s.managers deps)
    (hr : FilesRead answer files s.inner deps cs i') :
    ∃ ms, SectionFiles.load answer build m files s = (.ok (), ⟨ms, build cs i', s.records ++ deps⟩) ∧
      AList.get? ms m = some .loaded ∧ ∀ n, n ≠ m → AList.get? ms n = AList.get? s.managers n := by
  refine ⟨AList.set (during s.managers m) m .loaded, ?_, ?_, ?_⟩
  · rw [load_during, M.bind_ok (fromFiles_read hr (allDefined_during hm) (depsLoaded_during hl) _), M.bind_ok (M.modify_run _ _)]
    rfl
  · rw [AList.get?_set, if_pos rfl]
  · intro n hn
    rw [AList.get?_set, if_neg (Ne.symm hn), get?_during hn]

/-- A file that raises something else than `ValueError` makes the load raise it; the manager keeps the runner it had. -/
theorem C104_raises {answer : Answer σ V} {pre post : List (String × SecProg V)} {file : String} {p : SecProg V} {s : SecS σ}
    {i₁ i₂ : σ} {deps : List (String × String)} {cs : List (Option (Dict String V))} {l : List String} {e : PyErr} {m : String}
    (build : List (Option (Dict String V)) → σ → σ) (hm : OthersDefined s.managers m) (hl : DepsLoaded s.managers deps)
    (hr : FilesRead answer pre s.inner deps cs i₁) (hf : FileReads answer p i₁ l (.error e) i₂)
    (hlp : OfLoaded s.managers l) (he : e ≠ .valueError) :
    SectionFiles.load answer build m (pre ++ (file, p) :: post) s =
      (.error (.py e), ⟨during s.managers m, i₂, s.records ++ deps ++ l.map (fun i => (file, i))⟩) := by
  have hd : DepsLoaded s.managers (l.map (fun i => (file, i))) := by
    intro d hd
    obtain ⟨i, hi, rfl⟩ := List.mem_map.1 hd
    exact hlp i hi
  have hlp' : OfLoaded (during s.managers m) l := fun i hi =>
    depsLoaded_during hd (file, i) (List.mem_map.2 ⟨i, hi, rfl⟩)
  have hx := sectionConfig_error (runFile_reads hf file (allDefined_during hm) hlp' (s.records ++ deps))
    (fun hc => he (LoadErr.py.inj hc))
  rw [load_during]
  refine M.bind_error (fromFiles_append hr (allDefined_during hm) (depsLoaded_during hl) _ ?_)
  rw [SectionFiles.fromFiles]
  exact M.bind_error hx

/-- At the first load, a file that comes to read an item of its own manager makes the load fail with `ItemNotFoundException`
whatever the item has, and the manager remains without runner. -/
theorem C104_first_violated {answer : Answer σ V} {pre post : List (String × SecProg V)} {file item attr : String} {p : SecProg V}
    {s : SecS σ} {i₁ i₂ : σ} {deps : List (String × String)} {cs : List (Option (Dict String V))} {l : List String} {m : String}
    (build : List (Option (Dict String V)) → σ → σ) (hm : OthersDefined s.managers m) (hl : DepsLoaded s.managers deps)
    (hnew : AList.get? s.managers m ≠ some .loaded)
    (hr : FilesRead answer pre s.inner deps cs i₁) (hc : ComesTo answer p i₁ l item attr i₂) (hlp : OfLoaded s.managers l)
    (hi : SectionFiles.managerOf item = m) :
    (SectionFiles.load answer build m (pre ++ (file, p) :: post) s).1 = .error (.itemNotFound (item ++ "." ++ attr)) ∧
    AList.get? (SectionFiles.load answer build m (pre ++ (file, p) :: post) s).2.managers m = some .defined := by
  have hd : DepsLoaded s.managers (l.map (fun i => (file, i))) := by
    intro d hd
    obtain ⟨i, hi, rfl⟩ := List.mem_map.1 hd
    exact hlp i hi
  have hlp' : OfLoaded (during s.managers m) l := fun i hi =>
    depsLoaded_during hd (file, i) (List.mem_map.2 ⟨i, hi, rfl⟩)
  have hdef : AList.get? (during s.managers m) m = some .defined := by
    unfold during
    rw [if_neg hnew, AList.get?_set, if_pos rfl]
  have hx := sectionConfig_error (runFile_comesTo hc file (allDefined_during hm) hlp' (hi ▸ hdef)
    (s.records ++ deps)) LoadErr.noConfusion
  have hy : SectionFiles.load answer build m (pre ++ (file, p) :: post) s = (.error (.itemNotFound (item ++ "." ++ attr)),
      ⟨during s.managers m, i₂, s.records ++ deps ++ l.map (fun x => (file, x)) ++ [(file, item)]⟩) := by
    rw [load_during]
    refine M.bind_error (fromFiles_append hr (allDefined_during hm) (depsLoaded_during hl) _ ?_)
    rw [SectionFiles.fromFiles]
    exact M.bind_error hx
  rw [hy]
  exact ⟨rfl, hdef⟩

/-- A file that comes to read an item of a manager that is not active makes the load fail with `KeyError`, no dependency is recorded for it,
and the configs of the files after it are not read. -/
theorem C104_absent_violated {answer : Answer σ V} {pre post : List (String × SecProg V)} {file item attr : String} {p : SecProg V}
    {s : SecS σ} {i₁ i₂ : σ} {deps : List (String × String)} {cs : List (Option (Dict String V))} {l : List String} {m : String}
    (build : List (Option (Dict String V)) → σ → σ) (hm : OthersDefined s.managers m) (hl : DepsLoaded s.managers deps)
    (hr : FilesRead answer pre s.inner deps cs i₁) (hc : ComesTo answer p i₁ l item attr i₂) (hlp : OfLoaded s.managers l)
    (hi : SectionFiles.managerOf item ≠ m) (hn : AList.get? s.managers (SectionFiles.managerOf item) = none) :
    SectionFiles.load answer build m (pre ++ (file, p) :: post) s =
      (.error (.py .keyError), ⟨during s.managers m, i₂, s.records ++ deps ++ l.map (fun x => (file, x))⟩) := by
  have hd : DepsLoaded s.managers (l.map (fun i => (file, i))) := by
    intro d hd
    obtain ⟨i, hi, rfl⟩ := List.mem_map.1 hd
    exact hlp i hi
  have hlp' : OfLoaded (during s.managers m) l := fun i hi =>
    depsLoaded_during hd (file, i) (List.mem_map.2 ⟨i, hi, rfl⟩)
  have hx := sectionConfig_error (runFile_absent hc file (allDefined_during hm) hlp' ((get?_during hi).trans hn)
    (s.records ++ deps)) (by decide)
  rw [load_during]
  refine M.bind_error (fromFiles_append hr (allDefined_during hm) (depsLoaded_during hl) _ ?_)
  rw [SectionFiles.fromFiles]
  exact M.bind_error hx

/-- While another active manager has not been loaded, a file that reads anything makes the load fail, also if that manager has
nothing to do with it. -/
theorem C104_other_violated {answer : Answer σ V} {file item attr : String} {next : V → SecProg V}
    {post : List (String × SecProg V)} {s : SecS σ} {m n : String}
    (build : List (Option (Dict String V)) → σ → σ) (hn : AList.get? s.managers n = some .new) (hne : n ≠ m) :
    SectionFiles.load answer build m ((file, .read item attr next) :: post) s =
      (.error (.py .attributeError), ⟨during s.managers m, s.inner, s.records⟩) := by
  have hx : SectionFiles.makeSelector (⟨during s.managers m, s.inner, s.records⟩ : SecS σ) =
      (.error (.py .attributeError), ⟨during s.managers m, s.inner, s.records⟩) := by
    unfold SectionFiles.makeSelector
    rw [M.bind_ok (M.get_run _)]
    have : (during s.managers m).any (fun m => decide (m.2 = .new)) = true := by
      rw [List.any_eq_true]
      exact ⟨(n, .new), mem_of_get? ((get?_during hne).trans hn), by simp⟩
    simp only [this, if_true]
    rfl
  rw [load_during]
  refine M.bind_error ?_
  rw [SectionFiles.fromFiles]
  refine M.bind_error (sectionConfig_error ?_ (by decide))
  rw [SectionFiles.runFile]
  refine M.bind_error ?_
  unfold SectionFiles.readAttr
  exact M.bind_error hx

/-- When a manager is loaded again, a file that reads an item of its own manager has the value from before the load: whatever the
files of the items say now does not matter. -/
theorem C104_reload_violated {answer : Answer σ V} {file item attr name : String} {v : V} {s : SecS σ} {i' : σ} {m : String}
    (build : List (Option (Dict String V)) → σ → σ) (hm : OthersDefined s.managers m)
    (hl : AList.get? s.managers m = some .loaded) (hi : SectionFiles.managerOf item = m)
    (ha : answer item attr s.inner = (.ok v, i')) :
    (SectionFiles.load answer build m [(file, .read item attr (fun v => .done (Dict.ofList [(name, v)])))] s).2.inner =
      build [some (Dict.ofList [(name, v)])] i' := by
  have hr : FilesRead answer [(file, .read item attr (fun v => .done (Dict.ofList [(name, v)])))] s.inner
      ([item].map (fun i => (file, i)) ++ []) [some (Dict.ofList [(name, v)])] i' :=
    .config file _ [] s.inner i' i' [item] _ [] [] (.value item attr _ v s.inner i' i' [] _ ha (.done _ i')) (.nil i')
  obtain ⟨ms, h, _⟩ := C104_values_partial (m := m) build hm (by
    intro d hd
    rw [List.append_nil, List.map_singleton, List.mem_singleton] at hd
    subst hd
    rw [hi]
    exact hl) hr
  rw [h]

/-! ### Examples: the state is the value of the only item -/

/-- Reading gives the value. -/
def demoAnswer : Answer Nat Nat := fun _ _ n => (.ok n, n)

/-- A file of a section with one name. -/
def demoSection (item : String) : SecProg Nat := .read item "a" (fun v => .done (Dict.ofList [("x", v)]))

example : OthersDefined [("project", .loaded), ("other", .loaded)] "project" := by
  refine ⟨by decide, ?_⟩
  intro n hn
  simp only [List.mem_cons, List.not_mem_nil, or_false] at hn
  rcases hn with rfl | rfl <;> decide

example : SectionFiles.managerOf "project.main.data.func" = "project" := by decide +kernel

/-- Loading again with a new value 7 of the item: the section has the old value 3; an item of another manager; the first load. -/
example : (match SectionFiles.load demoAnswer (fun cs n => if cs = [some (Dict.ofList [("x", n)])] then n + 100 else n) "project"
        [("project.main.section", demoSection "project.main.data.func")] ⟨[("project", .loaded)], 3, []⟩ with
      | (.ok (), s) => some (s.inner, s.records)
      | _ => none) = some (103, [("project.main.section", "project.main.data.func")]) ∧
    (match SectionFiles.load demoAnswer (fun cs n => if cs = [some (Dict.ofList [("x", n)])] then n + 100 else n) "project"
        [("project.main.section", demoSection "other.main.data.func")] ⟨[("project", .new), ("other", .loaded)], 3, []⟩ with
      | (.ok (), s) => some (s.inner, s.records)
      | _ => none) = some (103, [("project.main.section", "other.main.data.func")]) ∧
    (match SectionFiles.load demoAnswer (fun _ n => n) "project"
        [("project.main.section", demoSection "project.main.data.func")] ⟨[("project", .new)], 3, []⟩ with
      | (.error e, s) => some (e, s.managers)
      | _ => none) = some (.itemNotFound "project.main.data.func.a", [("project", .defined)]) := by decide +kernel

end Verif.Props

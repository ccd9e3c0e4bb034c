import Verif.Model.Scaffold
import Verif.Props.Project
import Verif.Props.SectionPath

/-
Files and folders of collections, and what scaffolding does to them; used for C64 to C66.
-/

namespace Verif.Props
open Verif.Py Verif.Model

variable {V : Type}

/-! ### Specification -/

/-- The file of an item in a folder, with what its text depends on. -/
structure ItemFile (V : Type) where
  path : List String
  specific : Bool
  name : String
  item : Callable V

/-- The files of all items of a collection in a folder. -/
def itemFiles (b : Bool) (q : List String) : List (String × Reg V) → List (ItemFile V)
  | [] => []
  | (x, .coll b' sub) :: rest => itemFiles b' (q ++ [x]) sub ++ itemFiles b q rest
  | (x, .item c) :: rest => ⟨q ++ [x ++ ".py"], b, x, c⟩ :: itemFiles b q rest
  | (_, .other) :: rest => itemFiles b q rest

/-- A folder of a section, whether it is for a specific class, and whether anything is in the section. -/
structure SectionFolder where
  path : List String
  specific : Bool
  empty : Bool
deriving DecidableEq

/-- The folders of all sections inside a collection in a folder. -/
def sectionFolders (q : List String) : List (String × Reg V) → List SectionFolder
  | [] => []
  | (x, .coll b sub) :: rest => ⟨q ++ [x], b, sub.isEmpty⟩ :: (sectionFolders (q ++ [x]) sub ++ sectionFolders q rest)
  | (_, .item _) :: rest => sectionFolders q rest
  | (_, .other) :: rest => sectionFolders q rest

/-- The section file of a folder. -/
def SectionFolder.file (f : SectionFolder) : List String := f.path ++ ["section.py"]

/-- Names of items have no slash, names of sections neither slash nor dot. -/
def PlainTree : List (String × Reg V) → Prop
  | [] => True
  | (x, .coll _ sub) :: rest => x ≠ "" ∧ hasChar '/' x = false ∧ hasChar '.' x = false ∧ PlainTree sub ∧ PlainTree rest
  | (x, .item _) :: rest => hasChar '/' x = false ∧ PlainTree rest
  | (_, .other) :: rest => PlainTree rest

/-- The content of the file at a path. -/
def contentAt (fs : Fs) (q : List String) : Option String :=
  match fs q with
  | some (.file t) => some t
  | _ => none

/-- The file of an item has the text made from its content before. -/
def ItemFile.Made (text : ItemText V) (fs fs' : Fs) (i : ItemFile V) : Prop :=
  ∃ t, text i.specific i.name i.item (contentAt fs i.path) = .ok t ∧ fs' i.path = some (.file t)

/-- No two items have the same file, and none has a section file. -/
structure DistinctFiles (is : List (ItemFile V)) (fs : List SectionFolder) : Prop where
  nodup : (is.map ItemFile.path).Nodup
  sections : ∀ i ∈ is, ∀ f ∈ fs, f.specific = false → i.path ≠ f.file

/-- What may be written: item files `I` and section folders `F`. -/
structure Wrote (I : List String → Prop) (F : List String → Bool → Prop) (fs fs' : Fs) : Prop where
  kept : ∀ q n, fs q = some n → ¬ I q → fs' q = some n
  dirs : ∀ q, fs q = some .dir → fs' q = some .dir
  stays : ∀ q, fs q ≠ none → fs' q ≠ none
  new : ∀ q n, fs' q = some n → fs q = some n ∨ (n = .dir ∧ ∃ p b, F p b ∧ q <+: p) ∨
    (n = .file "\n" ∧ ∃ p, F p false ∧ q = p ++ ["section.py"]) ∨ (I q ∧ ∃ t, n = .file t)
  closed : Fs.Closed fs → Fs.Closed fs'

/-! ### Lemmas -/

namespace Wrote
variable {I : List String → Prop} {F : List String → Bool → Prop}

theorem refl (fs : Fs) : Wrote I F fs fs :=
  ⟨fun _ _ h _ => h, fun _ h => h, fun _ h => h, fun _ _ h => .inl h, fun h => h⟩

theorem trans {a b c : Fs} (h1 : Wrote I F a b) (h2 : Wrote I F b c) : Wrote I F a c where
  kept q n h hi := h2.kept q n (h1.kept q n h hi) hi
  dirs q h := h2.dirs q (h1.dirs q h)
  stays q h := h2.stays q (h1.stays q h)
  new q n h := (h2.new q n h).elim (h1.new q n) Or.inr
  closed h := h2.closed (h1.closed h)

theorem mono {I' : List String → Prop} {F' : List String → Bool → Prop} {a b : Fs} (h : Wrote I F a b)
    (hI : ∀ q, I q → I' q) (hF : ∀ q b, F q b → F' q b) : Wrote I' F' a b where
  kept q n hq hi := h.kept q n hq (fun x => hi (hI q x))
  dirs := h.dirs
  stays := h.stays
  new q n hn := by
    rcases h.new q n hn with h1 | ⟨h1, p, c, h2, h3⟩ | ⟨h1, p, h2, h3⟩ | ⟨h1, h2⟩
    · exact .inl h1
    · exact .inr (.inl ⟨h1, p, c, hF _ _ h2, h3⟩)
    · exact .inr (.inr (.inl ⟨h1, p, hF _ _ h2, h3⟩))
    · exact .inr (.inr (.inr ⟨hI _ h1, h2⟩))
  closed := h.closed

/-- What is neither an item file, nor above a folder, nor a section file is as before. -/
theorem same {fs fs' : Fs} (h : Wrote I F fs fs') {q : List String} (h1 : ¬ I q) (h2 : ∀ p b, F p b → ¬ q <+: p)
    (h3 : ∀ p, F p false → q ≠ p ++ ["section.py"]) : fs' q = fs q := by
  cases hq : fs q with
  | some n => exact h.kept q n hq h1
  | none =>
    cases hq' : fs' q with
    | none => rfl
    | some n =>
      rcases h.new q n hq' with e | ⟨_, p, b, e, e'⟩ | ⟨_, p, e, e'⟩ | ⟨e, _⟩
      · rw [hq] at e; cases e
      · exact absurd e' (h2 p b e)
      · exact absurd e' (h3 p e)
      · exact absurd e h1

/-- Where there is a file it is the same, apart from item files and section files. -/
theorem file_iff {fs fs' : Fs} (h : Wrote I F fs fs') {q : List String} (h1 : ¬ I q)
    (h3 : ∀ p, F p false → q ≠ p ++ ["section.py"]) (t : String) : fs' q = some (.file t) ↔ fs q = some (.file t) := by
  constructor
  · intro hq
    rcases h.new q _ hq with e | ⟨e, _⟩ | ⟨_, p, e, e'⟩ | ⟨e, _⟩
    · exact e
    · cases e
    · exact absurd e' (h3 p e)
    · exact absurd e h1
  · intro hq
    exact h.kept q _ hq h1

end Wrote

theorem Wrote.ofAdds {I : List String → Prop} {F : List String → Bool → Prop} {allowed : List String → Entry → Prop} {fs fs' : Fs}
    (h : Adds allowed fs fs') (ha : ∀ q n, allowed q n → (n = .dir ∧ ∃ p b, F p b ∧ q <+: p) ∨
      (n = .file "\n" ∧ ∃ p, F p false ∧ q = p ++ ["section.py"])) : Wrote I F fs fs' where
  kept q n hq _ := h.kept q n hq
  dirs q hq := h.kept q _ hq
  stays q hq := by
    cases e : fs q with
    | none => exact absurd e hq
    | some n => rw [h.kept q n e]; simp
  new q n hn := by
    rcases h.new q n hn with e | e
    · exact .inl e
    · rcases ha q n e with e | e
      · exact .inr (.inl e)
      · exact .inr (.inr (.inl e))
  closed := h.closed

/-- `do a; b` -/
theorem seq_run {α : Type} (a : FM Unit) (b : FM α) (fs : Fs) :
    (do a; b : FM α) fs = match (a fs).1 with
      | .ok _ => b (a fs).2
      | .error e => (.error e, (a fs).2) := by
  show (a >>= fun _ => b) fs = _
  rw [M.bind_run]
  cases a fs with
  | mk r s => cases r <;> rfl

theorem seq_state (R : Fs → Fs → Prop) (ht : ∀ a b c, R a b → R b c → R a c) (a b : FM Unit) (fs : Fs)
    (ha : R fs (a fs).2) (hb : ∀ s, R s (b s).2) : R fs ((do a; b : FM Unit) fs).2 := by
  rw [seq_run]
  cases (a fs).1 with
  | ok _ => exact ht _ _ _ ha (hb _)
  | error e => exact ha

theorem seq_ok {a b : FM Unit} {fs : Fs} :
    ((do a; b : FM Unit) fs).1 = .ok () ↔ (a fs).1 = .ok () ∧ (b (a fs).2).1 = .ok () := by
  rw [seq_run]
  cases (a fs).1 with
  | ok _ => simp
  | error e => simp

theorem plain_section : Path.Plain "section.py" := ⟨by decide, by decide, by decide, by decide +kernel⟩

theorem plain_file {x : String} (h : hasChar '/' x = false) : Path.Plain (x ++ ".py") := by
  have key : ∀ s : String, s.toList.length < 3 → x ++ ".py" ≠ s := by
    rintro s hs rfl
    rw [String.toList_append, List.length_append] at hs
    have : ".py".toList.length = 3 := by decide
    omega
  refine ⟨key _ (by decide), key _ (by decide), key _ (by decide), ?_⟩
  rw [hasChar_append, h]
  decide +kernel

theorem plain_name {x : String} (h0 : x ≠ "") (h1 : hasChar '/' x = false) (h2 : hasChar '.' x = false) : Path.Plain x := by
  refine ⟨h0, ?_, ?_, h1⟩
  · rintro rfl
    exact absurd h2 (by decide +kernel)
  · rintro rfl
    exact absurd h2 (by decide +kernel)

theorem readIfThere_run (env : FsEnv) (p : String) (hp : p ≠ "") (fs : Fs) :
    readIfThere env p fs = (if fs (env.resolve p) = some .dir then .error .osError else .ok (contentAt fs (env.resolve p)), fs) := by
  unfold readIfThere
  rw [M.bind_run]
  simp only [M.get_run]
  unfold pathExists contentAt
  cases h : fs (env.resolve p) with
  | none => simp
  | some n => cases n <;> simp [hp]

theorem put_file_wrote {I : List String → Prop} {F : List String → Bool → Prop} {fs : Fs} {q : List String} {x t : String}
    (hd : fs (q ++ [x]) ≠ some .dir) (hq : fs q = some .dir) (hI : I (q ++ [x])) :
    Wrote I F fs (fs.put (q ++ [x]) (.file t)) := by
  have hother : ∀ r, r ≠ q ++ [x] → fs.put (q ++ [x]) (.file t) r = fs r := by
    intro r hr
    unfold Fs.put
    rw [if_neg hr]
  have hself : fs.put (q ++ [x]) (.file t) (q ++ [x]) = some (.file t) := by
    unfold Fs.put
    rw [if_pos rfl]
  have hdirs : ∀ r, fs r = some .dir → fs.put (q ++ [x]) (.file t) r = some .dir := by
    intro r hr
    rw [hother]
    · exact hr
    · rintro rfl
      exact hd hr
  refine ⟨?_, hdirs, ?_, ?_, ?_⟩
  · intro r n hr hi
    rw [hother]
    · exact hr
    · rintro rfl
      exact hi hI
  · intro r hr
    by_cases e : r = q ++ [x]
    · rw [e, hself]; simp
    · rw [hother r e]; exact hr
  · intro r n hr
    by_cases e : r = q ++ [x]
    · rw [e, hself] at hr
      cases hr
      exact .inr (.inr (.inr ⟨e ▸ hI, t, rfl⟩))
    · rw [hother r e] at hr
      exact .inl hr
  · intro hc
    refine ⟨hdirs _ hc.root, ?_⟩
    intro r y h
    by_cases e : r ++ [y] = q ++ [x]
    · have : r = q := append_singleton_inj e
      subst this
      exact hdirs _ hq
    · rw [hother _ e] at h
      exact hdirs _ (hc.parent r y h)

section
variable {env : FsEnv} (hcwd : Path.isAbs env.cwd = true)
include hcwd

theorem outputSection_wrote {I : List String → Prop} {F : List String → Bool → Prop} (b : Bool) (base : String)
    (hF : F (env.resolve base) b) (fs : Fs) : Wrote I F fs (outputSection env b base fs).2 := by
  unfold outputSection
  refine seq_state (Wrote I F) (fun _ _ _ => Wrote.trans) _ _ fs ?_ ?_
  · rw [unlessExists_run]
    split
    · exact Wrote.refl _
    · rw [makedirs_run]
      split
      · exact Wrote.refl _
      · refine Wrote.ofAdds (allowed := fun q n => n = .dir ∧ q <+: env.resolve base)
          (mkdirs_adds env [] _ fs (fun hc => hc.root) ?_) ?_
        · intro ys hys _
          exact ⟨rfl, by simpa using hys⟩
        · rintro q n ⟨rfl, h⟩
          exact .inl ⟨rfl, _, b, hF, h⟩
  · intro s
    cases b with
    | true => exact Wrote.refl _
    | false =>
      simp only [Bool.false_eq_true, if_false]
      rw [unlessExists_run]
      split
      · exact Wrote.refl _
      · next he =>
        rw [writeFile_run]
        split
        · exact Wrote.refl _
        · next hw =>
          have hr := resolve_join2 hcwd base plain_section
          have hne : Path.join2 base "section.py" ≠ "" := join2_ne base (by decide)
          have hnone := resolve_none (env := env) (fs := s) hne (by simpa using he)
          refine Wrote.ofAdds (allowed := fun q n => n = .file "\n" ∧ q = env.resolve base ++ ["section.py"])
            (put_adds hnone ⟨rfl, hr⟩ ?_) ?_
          · intro r x hrx _
            rw [not_or, not_or] at hw
            have h1 := hw.2.1
            rw [hrx, List.dropLast_concat] at h1
            simpa using h1
          · rintro q n ⟨rfl, h⟩
            exact .inr ⟨rfl, _, hF, h⟩

/-- What the file of an item becomes. -/
theorem outputItem_run (text : ItemText V) (b : Bool) (base x : String) (hx : hasChar '/' x = false) (c : Callable V) (fs : Fs) :
    outputItem env text b base x c fs =
      if fs (env.resolve base ++ [x ++ ".py"]) = some .dir then (.error .osError, fs)
      else match text b x c (contentAt fs (env.resolve base ++ [x ++ ".py"])) with
        | .error e => (.error e, fs)
        | .ok t =>
          if fs (env.resolve base) ≠ some .dir ∨ env.denied (env.resolve base ++ [x ++ ".py"]) = true then (.error .osError, fs)
          else (.ok (), fs.put (env.resolve base ++ [x ++ ".py"]) (.file t)) := by
  have hr := resolve_join2 hcwd base (plain_file hx)
  have hne : Path.join2 base (x ++ ".py") ≠ "" := join2_ne base (plain_file hx).1
  unfold outputItem
  rw [M.bind_run, readIfThere_run env _ hne, hr]
  by_cases hd : fs (env.resolve base ++ [x ++ ".py"]) = some .dir
  · rw [if_pos hd, if_pos hd]
  · rw [if_neg hd, if_neg hd]
    simp only
    rw [M.bind_run, M.liftE_run]
    cases text b x c (contentAt fs (env.resolve base ++ [x ++ ".py"])) with
    | error e => rfl
    | ok t =>
      simp only
      rw [writeFile_run, hr, List.dropLast_concat]
      simp only [hne, hd, false_or]

theorem outputItem_wrote {I : List String → Prop} {F : List String → Bool → Prop} (text : ItemText V) (b : Bool)
    (base x : String) (hx : hasChar '/' x = false) (c : Callable V) (hI : I (env.resolve base ++ [x ++ ".py"])) (fs : Fs) :
    Wrote I F fs (outputItem env text b base x c fs).2 := by
  rw [outputItem_run hcwd text b base x hx]
  split
  · exact Wrote.refl _
  · next hd =>
    split
    · exact Wrote.refl _
    · split
      · exact Wrote.refl _
      · next hw =>
        rw [not_or] at hw
        exact put_file_wrote hd (by simpa using hw.1) hI

theorem outputItems_wrote (text : ItemText V) (I : List String → Prop) (F : List String → Bool → Prop)
    (items : List (String × Reg V)) (b : Bool) (base : String) (hp : PlainTree items)
    (hI : ∀ i ∈ itemFiles b (env.resolve base) items, I i.path)
    (hF : ∀ f ∈ sectionFolders (env.resolve base) items, F f.path f.specific) (fs : Fs) :
    Wrote I F fs (outputItems env text b base items fs).2 := by
  match items with
  | [] =>
    rw [outputItems]
    exact Wrote.refl _
  | (x, .coll b' sub) :: rest =>
    rw [PlainTree] at hp
    obtain ⟨h0, h1, h2, hsub, hrest⟩ := hp
    have hr := resolve_join2 (env := env) hcwd base (plain_name h0 h1 h2)
    rw [itemFiles] at hI
    rw [sectionFolders] at hF
    rw [outputItems]
    refine seq_state (Wrote I F) (fun _ _ _ => Wrote.trans) _ _ fs ?_ ?_
    · exact outputSection_wrote hcwd b' _ (by rw [hr]; exact hF ⟨_, b', sub.isEmpty⟩ List.mem_cons_self) fs
    · intro s
      refine seq_state (Wrote I F) (fun _ _ _ => Wrote.trans) _ _ s ?_ ?_
      · exact outputItems_wrote text I F sub b' _ hsub
          (fun i hi => hI i (List.mem_append_left _ (by rwa [hr] at hi)))
          (fun f hf => hF f (List.mem_cons_of_mem _ (List.mem_append_left _ (by rwa [hr] at hf)))) s
      · intro s'
        exact outputItems_wrote text I F rest b base hrest (fun i hi => hI i (List.mem_append_right _ hi))
          (fun f hf => hF f (List.mem_cons_of_mem _ (List.mem_append_right _ hf))) s'
  | (x, .item c) :: rest =>
    rw [PlainTree] at hp
    rw [itemFiles] at hI
    rw [sectionFolders] at hF
    rw [outputItems]
    refine seq_state (Wrote I F) (fun _ _ _ => Wrote.trans) _ _ fs ?_ ?_
    · exact outputItem_wrote hcwd text b base x hp.1 c (hI ⟨_, b, x, c⟩ List.mem_cons_self) fs
    · intro s
      exact outputItems_wrote text I F rest b base hp.2 (fun i hi => hI i (List.mem_cons_of_mem _ hi)) hF s
  | (x, .other) :: rest =>
    rw [outputItems]
    exact Wrote.refl _

end

/-! #### Paths -/

theorem itemFiles_path (items : List (String × Reg V)) (b : Bool) (q : List String) (i : ItemFile V)
    (hi : i ∈ itemFiles b q items) : ∃ r x, i.path = q ++ (r ++ [x ++ ".py"]) := by
  match items with
  | [] => rw [itemFiles] at hi; cases hi
  | (x, .coll b' sub) :: rest =>
    rw [itemFiles] at hi
    rcases List.mem_append.1 hi with h | h
    · obtain ⟨r, y, e⟩ := itemFiles_path sub b' _ i h
      exact ⟨x :: r, y, by rw [e]; simp⟩
    · exact itemFiles_path rest b q i h
  | (x, .item c) :: rest =>
    rw [itemFiles] at hi
    rcases List.mem_cons.1 hi with h | h
    · subst h
      exact ⟨[], x, by simp⟩
    · exact itemFiles_path rest b q i h
  | (x, .other) :: rest =>
    rw [itemFiles] at hi
    exact itemFiles_path rest b q i hi

theorem sectionFolders_path (items : List (String × Reg V)) (q : List String) (hp : PlainTree items) (f : SectionFolder)
    (hf : f ∈ sectionFolders q items) : ∃ r, f.path = q ++ r ∧ r ≠ [] ∧ ∀ y ∈ r, hasChar '.' y = false := by
  match items with
  | [] => rw [sectionFolders] at hf; cases hf
  | (x, .coll b' sub) :: rest =>
    rw [PlainTree] at hp
    obtain ⟨_, _, h2, hsub, hrest⟩ := hp
    rw [sectionFolders] at hf
    rcases List.mem_cons.1 hf with h | h
    · subst h
      exact ⟨[x], rfl, by simp, by simpa using h2⟩
    · rcases List.mem_append.1 h with h | h
      · obtain ⟨r, e, _, hr⟩ := sectionFolders_path sub _ hsub f h
        refine ⟨x :: r, by rw [e]; simp, by simp, ?_⟩
        intro y hy
        rcases List.mem_cons.1 hy with rfl | hy
        · exact h2
        · exact hr y hy
      · exact sectionFolders_path rest q hrest f h
  | (x, .item c) :: rest =>
    rw [PlainTree] at hp
    rw [sectionFolders] at hf
    exact sectionFolders_path rest q hp.2 f hf
  | (x, .other) :: rest =>
    rw [PlainTree] at hp
    rw [sectionFolders] at hf
    exact sectionFolders_path rest q hp f hf

theorem dot_py (x : String) : hasChar '.' (x ++ ".py") = true := by
  rw [hasChar_append]
  have : hasChar '.' ".py" = true := by decide +kernel
  simp [this]

/-- A file is not above a folder. -/
theorem file_not_above {q r r' : List String} {x : String} (hr : ∀ y ∈ r', hasChar '.' y = false) :
    ¬ q ++ (r ++ [x ++ ".py"]) <+: q ++ r' := by
  rw [List.prefix_append_right_inj]
  intro h
  have hm : x ++ ".py" ∈ r' := h.subset (by simp)
  have := hr _ hm
  rw [dot_py] at this
  cases this

/-- A folder is not a file. -/
theorem folder_not_file {q r r' : List String} {x : String} (hr : ∀ y ∈ r', hasChar '.' y = false) :
    q ++ r' ≠ q ++ (r ++ [x ++ ".py"]) := by
  intro h
  have h := List.append_cancel_left h
  have hm : x ++ ".py" ∈ r' := by rw [h]; simp
  have := hr _ hm
  rw [dot_py] at this
  cases this

/-! #### The outcome -/

theorem ItemFile.Made.congr {text : ItemText V} {a b a' b' : Fs} {i : ItemFile V} (h : i.Made text a b)
    (ha : a i.path = a' i.path) (hb : b i.path = b' i.path) : i.Made text a' b' := by
  obtain ⟨t, h1, h2⟩ := h
  refine ⟨t, ?_, by rw [← hb, h2]⟩
  rw [← h1]
  unfold contentAt
  rw [ha]

/-- What scaffolding some items leaves. -/
structure Outcome (text : ItemText V) (is : List (ItemFile V)) (ss : List SectionFolder) (fs fs' : Fs) (ok : Prop) : Prop where
  each : ∀ i ∈ is, fs' i.path = fs i.path ∨ i.Made text fs fs'
  all : ok → ∀ i ∈ is, i.Made text fs fs'
  folders : ok → ∀ f ∈ ss, fs' f.path ≠ none ∧ (f.specific = false → fs' f.file ≠ none)

theorem outputSection_there {env : FsEnv} (hcwd : Path.isAbs env.cwd = true) (b : Bool) (base : String) (fs : Fs)
    (hroot : fs [] = some .dir) (h : (outputSection env b base fs).1 = .ok ()) :
    (outputSection env b base fs).2 (env.resolve base) ≠ none ∧
      (b = false → (outputSection env b base fs).2 (env.resolve base ++ ["section.py"]) ≠ none) := by
  unfold outputSection at h ⊢
  rw [seq_ok] at h
  obtain ⟨h1, h2⟩ := h
  rw [seq_run, h1]
  simp only
  have e1 : (unlessExists env base (makedirs env base) fs).2 (env.resolve base) ≠ none := by
    rw [unlessExists_run] at h1 ⊢
    split at h1
    · next he =>
      rw [if_pos he]
      unfold pathExists at he
      rw [Bool.and_eq_true] at he
      intro hn
      have hn : fs (env.resolve base) = none := hn
      rw [hn] at he
      exact absurd he.2 (by simp)
    · next he =>
      rw [if_neg he]
      rw [makedirs_run] at h1 ⊢
      split at h1
      · cases h1
      · next hb =>
        rw [if_neg hb]
        have := mkdirs_ok env [] _ fs hroot h1
        rw [List.nil_append] at this
        rw [this]
        simp
  cases b with
  | true => exact ⟨e1, fun h => by cases h⟩
  | false =>
    simp only [Bool.false_eq_true, if_false] at h2 ⊢
    generalize (unlessExists env base (makedirs env base) fs).2 = s at e1 h2 ⊢
    have hr := resolve_join2 hcwd base plain_section
    rw [unlessExists_run] at h2 ⊢
    split at h2
    · next he =>
      rw [if_pos he]
      refine ⟨e1, fun _ => ?_⟩
      unfold pathExists at he
      rw [Bool.and_eq_true, hr] at he
      intro hn
      have hn : s (env.resolve base ++ ["section.py"]) = none := hn
      rw [hn] at he
      exact absurd he.2 (by simp)
    · next he =>
      rw [if_neg he]
      rw [writeFile_run] at h2 ⊢
      split at h2
      · cases h2
      · next hw =>
        rw [if_neg hw, hr]
        refine ⟨?_, fun _ => ?_⟩
        · simp only [Fs.put]
          split
          · simp
          · exact e1
        · simp [Fs.put]

theorem outputItems_outcome {env : FsEnv} (hcwd : Path.isAbs env.cwd = true) (text : ItemText V)
    (items : List (String × Reg V)) (b : Bool) (base : String) (hp : PlainTree items)
    (hd : DistinctFiles (itemFiles b (env.resolve base) items) (sectionFolders (env.resolve base) items)) (fs : Fs)
    (hroot : fs [] = some .dir) :
    Outcome text (itemFiles b (env.resolve base) items) (sectionFolders (env.resolve base) items) fs
      (outputItems env text b base items fs).2 ((outputItems env text b base items fs).1 = .ok ()) := by
  match items with
  | [] =>
    rw [itemFiles, sectionFolders]
    exact ⟨fun _ h => (by cases h), fun _ _ h => (by cases h), fun _ _ h => (by cases h)⟩
  | (x, .coll b' sub) :: rest =>
    have hp' := hp
    rw [PlainTree] at hp
    obtain ⟨h0, h1, h2, hsub, hrest⟩ := hp
    have hr := resolve_join2 (env := env) hcwd base (plain_name h0 h1 h2)
    generalize hq : env.resolve base = q at hd hr ⊢
    have hnodup := hd.nodup
    have hsec := hd.sections
    rw [itemFiles] at hnodup hsec
    rw [sectionFolders] at hsec
    rw [List.map_append] at hnodup
    -- the three parts
    have W1 := outputSection_wrote (I := fun _ => False) (F := fun p c => p = q ++ [x] ∧ c = b') hcwd b' (Path.join2 base x)
      ⟨hr, rfl⟩ fs
    generalize e1 : outputSection env b' (Path.join2 base x) fs = r1 at W1
    have W2 := outputItems_wrote hcwd text (fun p => ∃ i ∈ itemFiles b' (q ++ [x]) sub, i.path = p)
      (fun p c => ∃ f ∈ sectionFolders (q ++ [x]) sub, f.path = p ∧ f.specific = c) sub b' (Path.join2 base x) hsub
      (fun i hi => ⟨i, by rwa [hr] at hi, rfl⟩) (fun f hf => ⟨f, by rwa [hr] at hf, rfl, rfl⟩) r1.2
    have O2 := outputItems_outcome hcwd text sub b' (Path.join2 base x) hsub
      (by
        rw [hr]
        refine ⟨(List.nodup_append.1 hnodup).1, ?_⟩
        intro i hi f hf
        exact hsec i (List.mem_append_left _ hi) f (List.mem_cons_of_mem _ (List.mem_append_left _ hf))) r1.2
      (W1.dirs _ hroot)
    rw [hr] at O2
    generalize e2 : outputItems env text b' (Path.join2 base x) sub r1.2 = r2 at W2 O2
    have W3 := outputItems_wrote hcwd text (fun p => ∃ i ∈ itemFiles b q rest, i.path = p)
      (fun p c => ∃ f ∈ sectionFolders q rest, f.path = p ∧ f.specific = c) rest b base hrest
      (fun i hi => ⟨i, by rwa [hq] at hi, rfl⟩) (fun f hf => ⟨f, by rwa [hq] at hf, rfl, rfl⟩) r2.2
    have O3 := outputItems_outcome hcwd text rest b base hrest
      (by
        rw [hq]
        refine ⟨(List.nodup_append.1 hnodup).2.1, ?_⟩
        intro i hi f hf
        exact hsec i (List.mem_append_right _ hi) f (List.mem_cons_of_mem _ (List.mem_append_right _ hf))) r2.2
      (W2.dirs _ (W1.dirs _ hroot))
    rw [hq] at O3
    generalize e3 : outputItems env text b base rest r2.2 = r3 at W3 O3
    -- paths
    have hpath : ∀ i ∈ itemFiles b' (q ++ [x]) sub ++ itemFiles b q rest, ∃ r y, i.path = q ++ (r ++ [y ++ ".py"]) := by
      intro i hi
      rcases List.mem_append.1 hi with h | h
      · obtain ⟨r, y, e⟩ := itemFiles_path _ _ _ i h
        exact ⟨x :: r, y, by rw [e]; simp⟩
      · exact itemFiles_path _ _ _ i h
    have hfold : ∀ f ∈ sectionFolders q ((x, .coll b' sub) :: rest), ∃ r, f.path = q ++ r ∧ r ≠ [] ∧ ∀ y ∈ r, hasChar '.' y = false :=
      fun f hf => sectionFolders_path _ q hp' f hf
    rw [sectionFolders] at hfold
    have S1 : ∀ i ∈ itemFiles b' (q ++ [x]) sub ++ itemFiles b q rest, r1.2 i.path = fs i.path := by
      intro i hi
      refine W1.same (fun h => h) ?_ ?_
      · rintro p c ⟨rfl, rfl⟩
        obtain ⟨r, y, e⟩ := hpath i hi
        rw [e]
        exact file_not_above (by simpa using h2)
      · rintro p ⟨rfl, hb⟩
        exact hsec i hi ⟨q ++ [x], b', sub.isEmpty⟩ List.mem_cons_self hb.symm
    have S2 : ∀ i ∈ itemFiles b q rest, r2.2 i.path = r1.2 i.path := by
      intro i hi
      refine W2.same ?_ ?_ ?_
      · rintro ⟨j, hj, e⟩
        exact (List.nodup_append.1 hnodup).2.2 _ (List.mem_map_of_mem hj) _ (List.mem_map_of_mem hi) e
      · rintro p c ⟨f, hf, rfl, rfl⟩
        obtain ⟨r, y, e⟩ := hpath i (List.mem_append_right _ hi)
        obtain ⟨r', e', _, hr'⟩ := hfold f (List.mem_cons_of_mem _ (List.mem_append_left _ hf))
        rw [e, e']
        exact file_not_above hr'
      · rintro p ⟨f, hf, rfl, hb⟩
        exact hsec i (List.mem_append_right _ hi) f (List.mem_cons_of_mem _ (List.mem_append_left _ hf)) hb
    have S3 : ∀ i ∈ itemFiles b' (q ++ [x]) sub, r3.2 i.path = r2.2 i.path := by
      intro i hi
      refine W3.same ?_ ?_ ?_
      · rintro ⟨j, hj, e⟩
        exact (List.nodup_append.1 hnodup).2.2 _ (List.mem_map_of_mem hi) _ (List.mem_map_of_mem hj) e.symm
      · rintro p c ⟨f, hf, rfl, rfl⟩
        obtain ⟨r, y, e⟩ := hpath i (List.mem_append_left _ hi)
        obtain ⟨r', e', _, hr'⟩ := hfold f (List.mem_cons_of_mem _ (List.mem_append_right _ hf))
        rw [e, e']
        exact file_not_above hr'
      · rintro p ⟨f, hf, rfl, hb⟩
        exact hsec i (List.mem_append_left _ hi) f (List.mem_cons_of_mem _ (List.mem_append_right _ hf)) hb
    have T1 := outputSection_there hcwd b' (Path.join2 base x) fs hroot
    rw [e1, hr] at T1
    rw [outputItems, seq_run, e1]
    cases hr1 : r1.1 with
    | error e =>
      simp only
      refine ⟨?_, fun h => (by cases h), fun h => (by cases h)⟩
      intro i hi
      rw [itemFiles] at hi
      exact .inl (S1 i hi)
    | ok u =>
      simp only
      rw [seq_run, e2]
      cases hr2 : r2.1 with
      | error e =>
        simp only
        refine ⟨?_, fun h => (by cases h), fun h => (by cases h)⟩
        intro i hi
        rw [itemFiles] at hi
        rcases List.mem_append.1 hi with h | h
        · rcases O2.each i h with h' | h'
          · exact .inl (h'.trans (S1 i hi))
          · exact .inr (h'.congr (S1 i hi) rfl)
        · exact .inl ((S2 i h).trans (S1 i hi))
      | ok u' =>
        simp only
        rw [e3]
        have hok1 : r1.1 = .ok () := hr1
        have hok2 : r2.1 = .ok () := hr2
        refine ⟨?_, ?_, ?_⟩
        · intro i hi
          rw [itemFiles] at hi
          rcases List.mem_append.1 hi with h | h
          · exact .inr ((O2.all hok2 i h).congr (S1 i hi) (S3 i h).symm)
          · rcases O3.each i h with h' | h'
            · exact .inl (h'.trans ((S2 i h).trans (S1 i hi)))
            · exact .inr (h'.congr ((S2 i h).trans (S1 i hi)) rfl)
        · intro ok i hi
          rw [itemFiles] at hi
          rcases List.mem_append.1 hi with h | h
          · exact (O2.all hok2 i h).congr (S1 i hi) (S3 i h).symm
          · exact (O3.all ok i h).congr ((S2 i h).trans (S1 i hi)) rfl
        · intro ok f hf
          rw [sectionFolders] at hf
          rcases List.mem_cons.1 hf with h | h
          · subst h
            obtain ⟨t1, t2⟩ := T1 hok1
            exact ⟨W3.stays _ (W2.stays _ t1), fun hb => W3.stays _ (W2.stays _ (t2 hb))⟩
          · rcases List.mem_append.1 h with h | h
            · obtain ⟨t1, t2⟩ := O2.folders hok2 f h
              exact ⟨W3.stays _ t1, fun hb => W3.stays _ (t2 hb)⟩
            · exact O3.folders ok f h
  | (x, .item c) :: rest =>
    have hp' := hp
    rw [PlainTree] at hp
    generalize hq : env.resolve base = q at hd ⊢
    have hnodup := hd.nodup
    have hsec := hd.sections
    rw [itemFiles] at hnodup hsec
    rw [sectionFolders] at hsec
    rw [List.map_cons, List.nodup_cons] at hnodup
    have W1 := outputItem_wrote (I := fun p => p = q ++ [x ++ ".py"]) (F := fun _ _ => False) hcwd text b base x hp.1 c
      (by rw [hq]) fs
    have R1 := outputItem_run hcwd text b base x hp.1 c fs
    rw [hq] at R1
    generalize e1 : outputItem env text b base x c fs = r1 at W1 R1
    have W3 := outputItems_wrote hcwd text (fun p => ∃ i ∈ itemFiles b q rest, i.path = p)
      (fun p c => ∃ f ∈ sectionFolders q rest, f.path = p ∧ f.specific = c) rest b base hp.2
      (fun i hi => ⟨i, by rwa [hq] at hi, rfl⟩) (fun f hf => ⟨f, by rwa [hq] at hf, rfl, rfl⟩) r1.2
    have O3 := outputItems_outcome hcwd text rest b base hp.2
      (by
        rw [hq]
        refine ⟨hnodup.2, ?_⟩
        intro i hi f hf
        exact hsec i (List.mem_cons_of_mem _ hi) f hf) r1.2
      (W1.dirs _ hroot)
    rw [hq] at O3
    generalize e3 : outputItems env text b base rest r1.2 = r3 at W3 O3
    have S1 : ∀ i ∈ itemFiles b q rest, r1.2 i.path = fs i.path := by
      intro i hi
      refine W1.same ?_ (fun _ _ h => h.elim) (fun _ h => h.elim)
      intro e
      exact hnodup.1 (List.mem_map.2 ⟨i, hi, e⟩)
    have S3 : r3.2 (q ++ [x ++ ".py"]) = r1.2 (q ++ [x ++ ".py"]) := by
      refine W3.same ?_ ?_ ?_
      · rintro ⟨j, hj, e⟩
        exact hnodup.1 (List.mem_map.2 ⟨j, hj, e⟩)
      · rintro p c ⟨f, hf, rfl, rfl⟩
        obtain ⟨r', e', _, hr'⟩ := sectionFolders_path rest q hp.2 f hf
        rw [e']
        exact file_not_above (r := []) hr'
      · rintro p ⟨f, hf, rfl, hb⟩
        exact hsec ⟨q ++ [x ++ ".py"], b, x, c⟩ List.mem_cons_self f hf hb
    have M1 : (r1.1 = .ok () → (⟨q ++ [x ++ ".py"], b, x, c⟩ : ItemFile V).Made text fs r1.2) ∧
        (∀ e, r1.1 = .error e → r1.2 = fs) := by
      rw [R1]
      split
      · exact ⟨fun h => (by cases h), fun _ _ => rfl⟩
      · split
        · exact ⟨fun h => (by cases h), fun _ _ => rfl⟩
        · next t ht =>
          split
          · exact ⟨fun h => (by cases h), fun _ _ => rfl⟩
          · refine ⟨fun _ => ⟨t, ht, ?_⟩, fun e h => by cases h⟩
            simp [Fs.put]
    rw [outputItems, seq_run, e1]
    cases hr1 : r1.1 with
    | error e =>
      simp only
      refine ⟨?_, fun h => (by cases h), fun h => (by cases h)⟩
      intro i hi
      rw [M1.2 e hr1]
      exact .inl rfl
    | ok u =>
      simp only
      rw [e3]
      have hok1 : r1.1 = .ok () := hr1
      refine ⟨?_, ?_, ?_⟩
      · intro i hi
        rw [itemFiles] at hi
        rcases List.mem_cons.1 hi with h | h
        · subst h
          exact .inr ((M1.1 hok1).congr rfl S3.symm)
        · rcases O3.each i h with h' | h'
          · exact .inl (h'.trans (S1 i h))
          · exact .inr (h'.congr (S1 i h) rfl)
      · intro ok i hi
        rw [itemFiles] at hi
        rcases List.mem_cons.1 hi with h | h
        · subst h
          exact (M1.1 hok1).congr rfl S3.symm
        · exact (O3.all ok i h).congr (S1 i h) rfl
      · intro ok f hf
        rw [sectionFolders] at hf
        exact O3.folders ok f hf
  | (x, .other) :: rest =>
    rw [outputItems]
    exact ⟨fun _ _ => .inl rfl, fun h => (by cases h), fun h => (by cases h)⟩

/-! #### When it succeeds -/

/-- Everything registered is an item or a collection. -/
def OnlyItems : List (String × Reg V) → Prop
  | [] => True
  | (_, .coll _ sub) :: rest => OnlyItems sub ∧ OnlyItems rest
  | (_, .item _) :: rest => OnlyItems rest
  | (_, .other) :: _ => False

/-- Nothing is in the way: no file where a folder is needed, no folder where a file is needed, and every text can be made. -/
structure Clear (text : ItemText V) (is : List (ItemFile V)) (ss : List SectionFolder) (fs : Fs) : Prop where
  folders : ∀ f ∈ ss, (f.specific = false ∨ f.empty = false) → ∀ t, fs f.path ≠ some (.file t)
  items : ∀ i ∈ is, fs i.path ≠ some .dir ∧ ∃ t, text i.specific i.name i.item (contentAt fs i.path) = .ok t

theorem Clear.append {text : ItemText V} {is js : List (ItemFile V)} {ss us : List SectionFolder} {fs : Fs} :
    Clear text (is ++ js) (ss ++ us) fs ↔ Clear text is ss fs ∧ Clear text js us fs := by
  constructor
  · intro h
    exact ⟨⟨fun f hf => h.folders f (List.mem_append_left _ hf), fun i hi => h.items i (List.mem_append_left _ hi)⟩,
      ⟨fun f hf => h.folders f (List.mem_append_right _ hf), fun i hi => h.items i (List.mem_append_right _ hi)⟩⟩
  · rintro ⟨h1, h2⟩
    refine ⟨?_, ?_⟩
    · intro f hf
      rcases List.mem_append.1 hf with h | h
      · exact h1.folders f h
      · exact h2.folders f h
    · intro i hi
      rcases List.mem_append.1 hi with h | h
      · exact h1.items i h
      · exact h2.items i h

theorem Clear.congr {text : ItemText V} {is : List (ItemFile V)} {ss : List SectionFolder} {fs fs' : Fs}
    (hs : ∀ f ∈ ss, ∀ t, fs' f.path = some (.file t) ↔ fs f.path = some (.file t)) (hi : ∀ i ∈ is, fs' i.path = fs i.path) :
    Clear text is ss fs' ↔ Clear text is ss fs := by
  constructor
  · intro h
    refine ⟨fun f hf hb t ht => h.folders f hf hb t ((hs f hf t).2 ht), ?_⟩
    intro i h'
    have := h.items i h'
    unfold contentAt at this ⊢
    rwa [hi i h'] at this
  · intro h
    refine ⟨fun f hf hb t ht => h.folders f hf hb t ((hs f hf t).1 ht), ?_⟩
    intro i h'
    have := h.items i h'
    unfold contentAt at this ⊢
    rwa [hi i h']

section
variable {env : FsEnv} (hcwd : Path.isAbs env.cwd = true) (hden : ∀ q, env.denied q = false)
include hcwd hden

theorem outputSection_ok_iff (b : Bool) (base : String) (fs : Fs) (hc : Fs.Closed fs) :
    (outputSection env b base fs).1 = .ok () ↔
      FreeWay env fs base ∧ (b = false → ∀ t, fs (env.resolve base) ≠ some (.file t)) := by
  unfold outputSection
  rw [seq_ok, folder_succeeds env hden base fs hc]
  refine and_congr_right fun hw => ?_
  cases b with
  | true =>
    simp
  | false =>
    simp only [Bool.false_eq_true, if_false, true_implies]
    have hr := resolve_join2 hcwd base plain_section
    have hne : Path.join2 base "section.py" ≠ "" := join2_ne base (by decide)
    have hok := (folder_succeeds env hden base fs hc).2 hw
    have hcl : Fs.Closed (unlessExists env base (makedirs env base) fs).2 :=
      (unlessExists_adds (folderStep_ok env (fun _ n => n = .dir) base (fun _ _ => rfl)) fs).closed hc
    have hfile : ∀ t, (unlessExists env base (makedirs env base) fs).2 (env.resolve base) = some (.file t) ↔
        fs (env.resolve base) = some (.file t) := by
      intro t
      have ha := unlessExists_adds (folderStep_ok env (fun _ n => n = .dir) base (fun _ _ => rfl)) fs
      constructor
      · intro h
        rcases ha.new _ _ h with h | h
        · exact h
        · cases h
      · exact ha.kept _ _
    have hthere : (unlessExists env base (makedirs env base) fs).2 (env.resolve base) ≠ none := by
      rw [unlessExists_run] at hok ⊢
      split at hok
      · next he =>
        rw [if_pos he]
        unfold pathExists at he
        rw [Bool.and_eq_true] at he
        intro hn
        have hn : fs (env.resolve base) = none := hn
        rw [hn] at he
        exact absurd he.2 (by simp)
      · next he =>
        rw [if_neg he]
        rw [makedirs_run] at hok ⊢
        split at hok
        · cases hok
        · next hb =>
          rw [if_neg hb]
          have := mkdirs_ok env [] _ fs hc.root hok
          rw [List.nil_append] at this
          rw [this]
          simp
    generalize (unlessExists env base (makedirs env base) fs).2 = s at hcl hfile hthere ⊢
    constructor
    · intro h t ht
      have hn : s (env.resolve base ++ ["section.py"]) = none := by
        cases e : s (env.resolve base ++ ["section.py"]) with
        | none => rfl
        | some n =>
          have := hcl.parent _ _ (by rw [e]; simp)
          rw [(hfile t).2 ht] at this
          cases this
      rw [unlessExists_run, if_neg, writeFile_run, if_pos] at h
      · cases h
      · rw [hr, List.dropLast_concat, (hfile t).2 ht]
        simp
      · unfold pathExists
        rw [hr, hn]
        simp
    · intro h
      have hdir : s (env.resolve base) = some .dir := by
        cases e : s (env.resolve base) with
        | none => exact absurd e hthere
        | some n =>
          cases n with
          | dir => rfl
          | file t => exact absurd ((hfile t).1 e) (h t)
      rw [unlessExists_run]
      split
      · rfl
      · next he =>
        have hnone := resolve_none (env := env) (fs := s) hne (by simpa using he)
        rw [writeFile_run, if_neg]
        rw [hr] at hnone ⊢
        rw [List.dropLast_concat, hdir, hnone, hden]
        simp [hne]

/-- Nothing can be put into what is not a folder. -/
theorem outputItems_fails (text : ItemText V) (b : Bool) (base : String) (items : List (String × Reg V)) (hp : PlainTree items)
    (hne : items ≠ []) (fs : Fs) (hc : Fs.Closed fs) (t : String) (hf : fs (env.resolve base) = some (.file t)) :
    (outputItems env text b base items fs).1 ≠ .ok () := by
  match items with
  | [] => exact absurd rfl hne
  | (x, .coll b' sub) :: rest =>
    rw [PlainTree] at hp
    have hr := resolve_join2 (env := env) hcwd base (plain_name hp.1 hp.2.1 hp.2.2.1)
    rw [outputItems]
    intro h
    rw [seq_ok, outputSection_ok_iff hcwd hden _ _ _ hc] at h
    exact h.1.1.2 (env.resolve base) [x] hr (by simp) t hf
  | (x, .item c) :: rest =>
    rw [PlainTree] at hp
    rw [outputItems]
    intro h
    rw [seq_ok, outputItem_run hcwd text b base x hp.1] at h
    have h := h.1
    split at h
    · cases h
    · split at h
      · cases h
      · rw [if_pos (.inl (by rw [hf]; simp))] at h
        cases h
  | (x, .other) :: rest =>
    rw [outputItems]
    intro h
    cases h

theorem outputItems_ok_iff (text : ItemText V) (items : List (String × Reg V)) (b : Bool) (base : String) (hb : base ≠ "")
    (hp : PlainTree items)
    (hd : DistinctFiles (itemFiles b (env.resolve base) items) (sectionFolders (env.resolve base) items)) (fs : Fs)
    (hc : Fs.Closed fs) (hdir : fs (env.resolve base) = some .dir) :
    (outputItems env text b base items fs).1 = .ok () ↔ OnlyItems items ∧
      Clear text (itemFiles b (env.resolve base) items) (sectionFolders (env.resolve base) items) fs := by
  match items with
  | [] =>
    rw [outputItems, OnlyItems, itemFiles, sectionFolders]
    exact ⟨fun _ => ⟨trivial, fun _ h => (by cases h), fun _ h => (by cases h)⟩, fun _ => rfl⟩
  | (x, .coll b' sub) :: rest =>
    have hp' := hp
    rw [PlainTree] at hp
    obtain ⟨h0, h1, h2, hsub, hrest⟩ := hp
    have hr := resolve_join2 (env := env) hcwd base (plain_name h0 h1 h2)
    have hb' : Path.join2 base x ≠ "" := join2_ne base h0
    generalize hq : env.resolve base = q at hd hr hdir ⊢
    have hnodup := hd.nodup
    have hsec := hd.sections
    rw [itemFiles] at hnodup hsec
    rw [sectionFolders] at hsec
    rw [List.map_append] at hnodup
    have K1 := outputSection_ok_iff hcwd hden b' (Path.join2 base x) fs hc
    have W1 := outputSection_wrote (I := fun _ => False) (F := fun p c => p = q ++ [x] ∧ c = b') hcwd b' (Path.join2 base x)
      ⟨hr, rfl⟩ fs
    have T1 := outputSection_there hcwd b' (Path.join2 base x) fs hc.root
    rw [hr] at K1 T1
    -- paths
    have hpath : ∀ i ∈ itemFiles b' (q ++ [x]) sub ++ itemFiles b q rest, ∃ r y, i.path = q ++ (r ++ [y ++ ".py"]) := by
      intro i hi
      rcases List.mem_append.1 hi with h | h
      · obtain ⟨r, y, e⟩ := itemFiles_path _ _ _ i h
        exact ⟨x :: r, y, by rw [e]; simp⟩
      · exact itemFiles_path _ _ _ i h
    have hfold : ∀ f ∈ sectionFolders q ((x, .coll b' sub) :: rest), ∃ r, f.path = q ++ r ∧ r ≠ [] ∧ ∀ y ∈ r, hasChar '.' y = false :=
      fun f hf => sectionFolders_path _ q hp' f hf
    rw [sectionFolders] at hfold
    have hfs : ∀ f ∈ (⟨q ++ [x], b', sub.isEmpty⟩ : SectionFolder) :: (sectionFolders (q ++ [x]) sub ++ sectionFolders q rest),
        ∀ f' ∈ (⟨q ++ [x], b', sub.isEmpty⟩ : SectionFolder) :: (sectionFolders (q ++ [x]) sub ++ sectionFolders q rest),
        f.path ≠ f'.path ++ ["section.py"] := by
      intro f hf f' hf' e
      obtain ⟨r, e1, _, hr1⟩ := hfold f hf
      obtain ⟨r', e2, _, _⟩ := hfold f' hf'
      rw [e1, e2] at e
      rw [List.append_assoc] at e
      exact folder_not_file (q := q) (r := r') (x := "section") hr1 e
    have hfi : ∀ f ∈ (⟨q ++ [x], b', sub.isEmpty⟩ : SectionFolder) :: (sectionFolders (q ++ [x]) sub ++ sectionFolders q rest),
        ∀ i ∈ itemFiles b' (q ++ [x]) sub ++ itemFiles b q rest, i.path ≠ f.path := by
      intro f hf i hi e
      obtain ⟨r, e1, _, hr1⟩ := hfold f hf
      obtain ⟨r', y, e2⟩ := hpath i hi
      rw [e1, e2] at e
      exact folder_not_file hr1 e.symm
    generalize e1 : outputSection env b' (Path.join2 base x) fs = r1 at W1 K1 T1
    have W2 := outputItems_wrote hcwd text (fun p => ∃ i ∈ itemFiles b' (q ++ [x]) sub, i.path = p)
      (fun p c => ∃ f ∈ sectionFolders (q ++ [x]) sub, f.path = p ∧ f.specific = c) sub b' (Path.join2 base x) hsub
      (fun i hi => ⟨i, by rwa [hr] at hi, rfl⟩) (fun f hf => ⟨f, by rwa [hr] at hf, rfl, rfl⟩) r1.2
    have S1 : ∀ i ∈ itemFiles b' (q ++ [x]) sub ++ itemFiles b q rest, r1.2 i.path = fs i.path := by
      intro i hi
      refine W1.same (fun h => h) ?_ ?_
      · rintro p c ⟨rfl, rfl⟩
        obtain ⟨r, y, e⟩ := hpath i hi
        rw [e]
        exact file_not_above (by simpa using h2)
      · rintro p ⟨rfl, hb⟩
        exact hsec i hi ⟨q ++ [x], b', sub.isEmpty⟩ List.mem_cons_self hb.symm
    have F1 : ∀ f ∈ (⟨q ++ [x], b', sub.isEmpty⟩ : SectionFolder) :: (sectionFolders (q ++ [x]) sub ++ sectionFolders q rest),
        ∀ t, r1.2 f.path = some (.file t) ↔ fs f.path = some (.file t) := by
      intro f hf t
      refine W1.file_iff (fun h => h) ?_ t
      rintro p ⟨rfl, hb⟩
      exact hfs f hf ⟨q ++ [x], b', sub.isEmpty⟩ List.mem_cons_self
    generalize e2 : outputItems env text b' (Path.join2 base x) sub r1.2 = r2 at W2
    have S2 : ∀ i ∈ itemFiles b q rest, r2.2 i.path = fs i.path := by
      intro i hi
      refine (W2.same ?_ ?_ ?_).trans (S1 i (List.mem_append_right _ hi))
      · rintro ⟨j, hj, e⟩
        exact (List.nodup_append.1 hnodup).2.2 _ (List.mem_map_of_mem hj) _ (List.mem_map_of_mem hi) e
      · rintro p c ⟨f, hf, rfl, rfl⟩
        obtain ⟨r, y, e⟩ := hpath i (List.mem_append_right _ hi)
        obtain ⟨r', e', _, hr'⟩ := hfold f (List.mem_cons_of_mem _ (List.mem_append_left _ hf))
        rw [e, e']
        exact file_not_above hr'
      · rintro p ⟨f, hf, rfl, hb⟩
        exact hsec i (List.mem_append_right _ hi) f (List.mem_cons_of_mem _ (List.mem_append_left _ hf)) hb
    have F2 : ∀ f ∈ sectionFolders q rest, ∀ t, r2.2 f.path = some (.file t) ↔ fs f.path = some (.file t) := by
      intro f hf t
      refine (W2.file_iff ?_ ?_ t).trans (F1 f (List.mem_cons_of_mem _ (List.mem_append_right _ hf)) t)
      · rintro ⟨i, hi, e⟩
        exact hfi f (List.mem_cons_of_mem _ (List.mem_append_right _ hf)) i (List.mem_append_left _ hi) e
      · rintro p ⟨f', hf', rfl, _⟩
        exact hfs f (List.mem_cons_of_mem _ (List.mem_append_right _ hf)) f'
          (List.mem_cons_of_mem _ (List.mem_append_left _ hf'))
    have hclear : Clear text (itemFiles b' (q ++ [x]) sub ++ itemFiles b q rest)
        (⟨q ++ [x], b', sub.isEmpty⟩ :: (sectionFolders (q ++ [x]) sub ++ sectionFolders q rest)) fs ↔
        ((b' = false ∨ sub.isEmpty = false) → ∀ t, fs (q ++ [x]) ≠ some (.file t)) ∧
        Clear text (itemFiles b' (q ++ [x]) sub) (sectionFolders (q ++ [x]) sub) fs ∧
        Clear text (itemFiles b q rest) (sectionFolders q rest) fs := by
      rw [← Clear.append]
      constructor
      · intro h
        exact ⟨h.folders _ List.mem_cons_self, fun f hf => h.folders f (List.mem_cons_of_mem _ hf), h.items⟩
      · rintro ⟨h, h'⟩
        refine ⟨?_, h'.items⟩
        intro f hf
        rcases List.mem_cons.1 hf with e | e
        · subst e
          exact h
        · exact h'.folders f e
    -- below, the folder is there
    have hway : FreeWay env fs (Path.join2 base x) := by
      refine ⟨hb', ?_⟩
      intro p r e hr' t ht
      rw [hr] at e
      by_cases hl : r.length = 1
      · have := List.append_inj' e (by simpa using hl.symm)
        rw [← this.1, hdir] at ht
        cases ht
      · have hlen := congrArg List.length e
        have hr1 : r.length ≠ 0 := fun h => hr' (List.length_eq_zero_iff.1 h)
        simp only [List.length_append, List.length_cons, List.length_nil] at hlen
        have hpre : p <+: q := by
          have h1 : p <+: q ++ [x] := e ▸ List.prefix_append p r
          exact List.prefix_of_prefix_length_le h1 (List.prefix_append q [x]) (by omega)
        obtain ⟨r', rfl⟩ := hpre
        have hr'' : r' ≠ [] := by
          rintro rfl
          simp at hlen
          omega
        have := hc.below p hr'' (by rw [hdir]; simp)
        rw [ht] at this
        cases this
    have hdir1 : ∀ (_ : r1.1 = .ok ()), (∀ t, fs (q ++ [x]) ≠ some (.file t)) → r1.2 (q ++ [x]) = some .dir := by
      intro hok hn
      have h := (T1 hok).1
      cases e : r1.2 (q ++ [x]) with
      | none => exact absurd e h
      | some n =>
        cases n with
        | dir => rfl
        | file t => exact absurd ((F1 _ List.mem_cons_self t).1 e) (hn t)
    have hc1 := W1.closed hc
    have hc2 := W2.closed hc1
    have I3 := outputItems_ok_iff text rest b base hb hrest
      (by
        rw [hq]
        refine ⟨(List.nodup_append.1 hnodup).2.1, ?_⟩
        intro i hi f hf
        exact hsec i (List.mem_append_right _ hi) f (List.mem_cons_of_mem _ (List.mem_append_right _ hf))) r2.2 hc2
      (by rw [hq]; exact W2.dirs _ (W1.dirs _ hdir))
    rw [hq, Clear.congr F2 S2] at I3
    rw [outputItems, seq_ok, seq_ok, e1, e2, I3, K1, OnlyItems, itemFiles, sectionFolders, hclear]
    by_cases hfile : ∃ t, fs (q ++ [x]) = some (.file t)
    · obtain ⟨t, ht⟩ := hfile
      by_cases hemp : sub = []
      · subst hemp
        rw [outputItems] at e2
        subst e2
        rw [OnlyItems, itemFiles, sectionFolders]
        constructor
        · rintro ⟨⟨_, h⟩, _, h3, h4⟩
          refine ⟨⟨trivial, h3⟩, ?_, ⟨fun _ h => (by cases h), fun _ h => (by cases h)⟩, h4⟩
          rintro (h' | h')
          · exact h h'
          · cases h'
        · rintro ⟨⟨_, h3⟩, h, _, h4⟩
          exact ⟨⟨hway, fun h' => h (.inl h')⟩, rfl, h3, h4⟩
      · have hf := outputItems_fails hcwd hden text b' (Path.join2 base x) sub hsub hemp r1.2 hc1 t
          (by rw [hr]; exact (F1 _ List.mem_cons_self t).2 ht)
        rw [e2] at hf
        constructor
        · rintro ⟨_, h, _⟩
          exact absurd h hf
        · rintro ⟨_, h, _⟩
          exact absurd ht (h (.inr (by simpa using hemp)) t)
    · have hn : ∀ t, fs (q ++ [x]) ≠ some (.file t) := fun t ht => hfile ⟨t, ht⟩
      have hok1 : r1.1 = .ok () := K1.2 ⟨hway, fun _ => hn⟩
      have I2 := outputItems_ok_iff text sub b' (Path.join2 base x) hb' hsub
        (by
          rw [hr]
          refine ⟨(List.nodup_append.1 hnodup).1, ?_⟩
          intro i hi f hf
          exact hsec i (List.mem_append_left _ hi) f (List.mem_cons_of_mem _ (List.mem_append_left _ hf))) r1.2 hc1
        (by rw [hr]; exact hdir1 hok1 hn)
      rw [hr, e2, Clear.congr (fun f hf => F1 f (List.mem_cons_of_mem _ (List.mem_append_left _ hf)))
        (fun i hi => S1 i (List.mem_append_left _ hi))] at I2
      rw [I2]
      constructor
      · rintro ⟨_, ⟨a1, a2⟩, a3, a4⟩
        exact ⟨⟨a1, a3⟩, fun _ => hn, a2, a4⟩
      · rintro ⟨⟨a1, a3⟩, _, a2, a4⟩
        exact ⟨⟨hway, fun _ => hn⟩, ⟨a1, a2⟩, a3, a4⟩
  | (x, .item c) :: rest =>
    have hp' := hp
    rw [PlainTree] at hp
    generalize hq : env.resolve base = q at hd hdir ⊢
    have hnodup := hd.nodup
    have hsec := hd.sections
    rw [itemFiles] at hnodup hsec
    rw [sectionFolders] at hsec
    rw [List.map_cons, List.nodup_cons] at hnodup
    have W1 := outputItem_wrote (I := fun p => p = q ++ [x ++ ".py"]) (F := fun _ _ => False) hcwd text b base x hp.1 c
      (by rw [hq]) fs
    have R1 := outputItem_run hcwd text b base x hp.1 c fs
    rw [hq] at R1
    generalize e1 : outputItem env text b base x c fs = r1 at W1 R1
    have K1 : r1.1 = .ok () ↔ fs (q ++ [x ++ ".py"]) ≠ some .dir ∧ ∃ t, text b x c (contentAt fs (q ++ [x ++ ".py"])) = .ok t := by
      rw [R1]
      by_cases h : fs (q ++ [x ++ ".py"]) = some .dir
      · rw [if_pos h]
        simp [h]
      · rw [if_neg h]
        cases ht : text b x c (contentAt fs (q ++ [x ++ ".py"])) with
        | error e => simp
        | ok t => simp [h, hdir, hden]
    have S1 : ∀ i ∈ itemFiles b q rest, r1.2 i.path = fs i.path := by
      intro i hi
      refine W1.same ?_ (fun _ _ h => h.elim) (fun _ h => h.elim)
      intro e
      exact hnodup.1 (List.mem_map.2 ⟨i, hi, e⟩)
    have F1 : ∀ f ∈ sectionFolders q rest, ∀ t, r1.2 f.path = some (.file t) ↔ fs f.path = some (.file t) := by
      intro f hf t
      refine W1.file_iff ?_ (fun _ h => h.elim) t
      intro e
      obtain ⟨r, e1, _, hr1⟩ := sectionFolders_path rest q hp.2 f hf
      rw [e1] at e
      exact folder_not_file (r := []) hr1 e
    have I3 := outputItems_ok_iff text rest b base hb hp.2
      (by
        rw [hq]
        refine ⟨hnodup.2, ?_⟩
        intro i hi f hf
        exact hsec i (List.mem_cons_of_mem _ hi) f hf) r1.2 (W1.closed hc)
      (by rw [hq]; exact W1.dirs _ hdir)
    rw [hq, Clear.congr F1 S1] at I3
    rw [outputItems, seq_ok, e1, I3, K1, OnlyItems, itemFiles, sectionFolders]
    constructor
    · rintro ⟨h1, h2, h3⟩
      refine ⟨h2, h3.folders, ?_⟩
      intro i hi
      rcases List.mem_cons.1 hi with e | e
      · subst e
        exact h1
      · exact h3.items i e
    · rintro ⟨h2, h3⟩
      exact ⟨h3.items ⟨q ++ [x ++ ".py"], b, x, c⟩ List.mem_cons_self, h2, h3.folders,
        fun i hi => h3.items i (List.mem_cons_of_mem _ hi)⟩
  | (x, .other) :: rest =>
    rw [outputItems, OnlyItems]
    constructor
    · intro h
      cases h
    · rintro ⟨h, _⟩
      exact h.elim

end

end Verif.Props

import Verif.Lemmas.Scaffold

/-
Property theorems about scaffolding: C64.
-/

namespace Verif.Props
open Verif.Py Verif.Model

variable {V : Type}

/-! ### Specification -/

/-- The folders of a collection and of the sections in it. -/
def allFolders (b : Bool) (q : List String) (items : List (String × Reg V)) : List SectionFolder :=
  ⟨q, b, items.isEmpty⟩ :: sectionFolders q items

def itemNames : List (String × Reg V) → List String
  | [] => []
  | (x, .item _) :: rest => x :: itemNames rest
  | _ :: rest => itemNames rest

def sectionNames : List (String × Reg V) → List String
  | [] => []
  | (x, .coll _ _) :: rest => x :: sectionNames rest
  | _ :: rest => sectionNames rest

/-- In every collection the names of items differ, and so do those of sections; no item of a general collection is called
`section`. -/
def OwnNames (b : Bool) : List (String × Reg V) → Prop
  | [] => True
  | (x, .coll b' sub) :: rest => x ∉ sectionNames rest ∧ OwnNames b' sub ∧ OwnNames b rest
  | (x, .item _) :: rest => x ∉ itemNames rest ∧ (b = false → x ≠ "section") ∧ OwnNames b rest
  | (_, .other) :: rest => OwnNames b rest

/-! ### Lemmas -/

theorem py_inj {x y : String} (h : x ++ ".py" = y ++ ".py") : x = y := by
  have := congrArg String.toList h
  rw [String.toList_append, String.toList_append] at this
  exact String.toList_inj.1 (List.append_cancel_right this)

theorem itemFiles_shape (items : List (String × Reg V)) (b : Bool) (q : List String) (i : ItemFile V)
    (hi : i ∈ itemFiles b q items) :
    (∃ y ∈ itemNames items, i.path = q ++ [y ++ ".py"] ∧ i.specific = b) ∨
      (∃ y ∈ sectionNames items, ∃ r, r ≠ [] ∧ i.path = q ++ y :: r) := by
  match items with
  | [] => rw [itemFiles] at hi; cases hi
  | (x, .coll b' sub) :: rest =>
    rw [itemFiles] at hi
    rw [itemNames, sectionNames]
    · rcases List.mem_append.1 hi with h | h
      · obtain ⟨r, y, e⟩ := itemFiles_path sub b' _ i h
        exact .inr ⟨x, List.mem_cons_self, r ++ [y ++ ".py"], by simp, by rw [e]; simp⟩
      · rcases itemFiles_shape rest b q i h with ⟨y, hy, e⟩ | ⟨y, hy, e⟩
        · exact .inl ⟨y, hy, e⟩
        · exact .inr ⟨y, List.mem_cons_of_mem _ hy, e⟩
    · intro _ _ h; cases h
  | (x, .item c) :: rest =>
    rw [itemFiles] at hi
    rw [itemNames, sectionNames]
    · rcases List.mem_cons.1 hi with h | h
      · subst h
        exact .inl ⟨x, List.mem_cons_self, rfl, rfl⟩
      · rcases itemFiles_shape rest b q i h with ⟨y, hy, e⟩ | ⟨y, hy, e⟩
        · exact .inl ⟨y, List.mem_cons_of_mem _ hy, e⟩
        · exact .inr ⟨y, hy, e⟩
    · intro _ _ _ h; cases h
  | (x, .other) :: rest =>
    rw [itemFiles] at hi
    rw [itemNames, sectionNames]
    · exact itemFiles_shape rest b q i hi
    · intro _ _ _ h; cases h
    · intro _ _ h; cases h

theorem sectionFolders_shape (items : List (String × Reg V)) (q : List String) (f : SectionFolder)
    (hf : f ∈ sectionFolders q items) : ∃ y ∈ sectionNames items, ∃ r, f.path = q ++ y :: r := by
  match items with
  | [] => rw [sectionFolders] at hf; cases hf
  | (x, .coll b' sub) :: rest =>
    rw [sectionFolders] at hf
    rw [sectionNames]
    rcases List.mem_cons.1 hf with h | h
    · subst h
      exact ⟨x, List.mem_cons_self, [], rfl⟩
    · rcases List.mem_append.1 h with h | h
      · obtain ⟨y, _, r, e⟩ := sectionFolders_shape sub _ f h
        exact ⟨x, List.mem_cons_self, y :: r, by rw [e]; simp⟩
      · obtain ⟨y, hy, e⟩ := sectionFolders_shape rest q f h
        exact ⟨y, List.mem_cons_of_mem _ hy, e⟩
  | (x, .item c) :: rest =>
    rw [sectionFolders] at hf
    rw [sectionNames]
    · exact sectionFolders_shape rest q f hf
    · intro _ _ _ h; cases h
  | (x, .other) :: rest =>
    rw [sectionFolders] at hf
    rw [sectionNames]
    · exact sectionFolders_shape rest q f hf
    · intro _ _ _ h; cases h

/-- With such names no two items have the same file, and none has a section file. -/
theorem distinct_files (items : List (String × Reg V)) (b : Bool) (q : List String) (hp : PlainTree items)
    (hg : OwnNames b items) : DistinctFiles (itemFiles b q items) (allFolders b q items) := by
  match items with
  | [] =>
    rw [itemFiles]
    exact ⟨List.nodup_nil, fun _ h => (by cases h)⟩
  | (x, .coll b' sub) :: rest =>
    have hp' := hp
    rw [PlainTree] at hp
    obtain ⟨_, _, hdot, hsub, hrest⟩ := hp
    rw [OwnNames] at hg
    obtain ⟨hx, g1, g2⟩ := hg
    have D1 := distinct_files sub b' (q ++ [x]) hsub g1
    have D2 := distinct_files rest b q hrest g2
    have hdots : ∀ y, x ≠ y ++ ".py" := by
      rintro y rfl
      rw [dot_py] at hdot
      cases hdot
    unfold allFolders
    rw [itemFiles, sectionFolders]
    refine ⟨?_, ?_⟩
    · rw [List.map_append, List.nodup_append]
      refine ⟨D1.nodup, D2.nodup, ?_⟩
      rintro p hp1 p' hp2 rfl
      obtain ⟨i, hi, rfl⟩ := List.mem_map.1 hp1
      obtain ⟨j, hj, e⟩ := List.mem_map.1 hp2
      obtain ⟨r, y, e'⟩ := itemFiles_path sub b' _ i hi
      rw [e', List.append_assoc] at e
      rcases itemFiles_shape rest b q j hj with ⟨z, _, e1, _⟩ | ⟨z, hz, r', _, e1⟩
      · rw [e1] at e
        have := List.append_cancel_left e
        simp at this
      · rw [e1] at e
        have := List.append_cancel_left e
        simp only [List.cons_append, List.nil_append, List.cons.injEq] at this
        exact hx (this.1 ▸ hz)
    · intro i hi f hf hb e
      rcases List.mem_append.1 hi with hi | hi
      · rcases List.mem_cons.1 hf with h | hf
        · subst h
          obtain ⟨r, y, e'⟩ := itemFiles_path sub b' _ i hi
          rw [e', SectionFolder.file, List.append_assoc] at e
          have := List.append_cancel_left e
          simp at this
        · rcases List.mem_cons.1 hf with h | hf
          · subst h
            exact D1.sections i hi ⟨q ++ [x], b', sub.isEmpty⟩ List.mem_cons_self hb e
          · rcases List.mem_append.1 hf with hf | hf
            · exact D1.sections i hi f (List.mem_cons_of_mem _ hf) hb e
            · obtain ⟨r, y, e'⟩ := itemFiles_path sub b' _ i hi
              obtain ⟨z, hz, r', e1⟩ := sectionFolders_shape rest q f hf
              rw [e', SectionFolder.file, e1, List.append_assoc, List.append_assoc] at e
              have := List.append_cancel_left e
              simp only [List.cons_append, List.nil_append, List.cons.injEq] at this
              exact hx (this.1 ▸ hz)
      · rcases List.mem_cons.1 hf with h | hf
        · subst h
          exact D2.sections i hi ⟨q, b, rest.isEmpty⟩ List.mem_cons_self hb e
        · have key : ∀ r, f.path = q ++ x :: r → False := by
            intro r e1
            rw [SectionFolder.file, e1] at e
            rcases itemFiles_shape rest b q i hi with ⟨z, _, e2, _⟩ | ⟨z, hz, r', _, e2⟩
            · rw [e2, List.append_assoc] at e
              have := List.append_cancel_left e
              simp at this
            · rw [e2, List.append_assoc] at e
              have := List.append_cancel_left e
              simp only [List.cons_append, List.cons.injEq] at this
              exact hx (this.1 ▸ hz)
          rcases List.mem_cons.1 hf with h | hf
          · subst h
            exact key [] rfl
          · rcases List.mem_append.1 hf with hf | hf
            · obtain ⟨z, _, r, e1⟩ := sectionFolders_shape sub _ f hf
              exact key (z :: r) (by rw [e1]; simp)
            · exact D2.sections i hi f (List.mem_cons_of_mem _ hf) hb e
  | (x, .item c) :: rest =>
    rw [PlainTree] at hp
    rw [OwnNames] at hg
    obtain ⟨hx, hs, g2⟩ := hg
    have D2 := distinct_files rest b q hp.2 g2
    unfold allFolders
    rw [itemFiles, sectionFolders]
    refine ⟨?_, ?_⟩
    · rw [List.map_cons, List.nodup_cons]
      refine ⟨?_, D2.nodup⟩
      intro h
      obtain ⟨j, hj, e⟩ := List.mem_map.1 h
      rcases itemFiles_shape rest b q j hj with ⟨z, hz, e1, _⟩ | ⟨z, _, r', hr', e1⟩
      · rw [e1] at e
        have := List.append_cancel_left e
        simp only [List.cons.injEq, and_true] at this
        exact hx (py_inj this ▸ hz)
      · rw [e1] at e
        have := List.append_cancel_left e
        simp only [List.cons.injEq] at this
        exact hr' this.2
    · intro i hi f hf hb e
      rcases List.mem_cons.1 hf with h | hf
      · subst h
        rcases List.mem_cons.1 hi with h | hi
        · subst h
          have := List.append_cancel_left e
          simp only [List.cons.injEq, and_true] at this
          exact hs hb (py_inj (y := "section") this)
        · exact D2.sections i hi ⟨q, b, rest.isEmpty⟩ List.mem_cons_self hb e
      · rcases List.mem_cons.1 hi with h | hi
        · subst h
          obtain ⟨z, _, r, e1⟩ := sectionFolders_shape rest q f hf
          rw [SectionFolder.file, e1, List.append_assoc] at e
          have := List.append_cancel_left e
          simp at this
        · exact D2.sections i hi f (List.mem_cons_of_mem _ hf) hb e
  | (x, .other) :: rest =>
    rw [PlainTree] at hp
    rw [OwnNames] at hg
    have D2 := distinct_files rest b q hp hg
    unfold allFolders
    rw [itemFiles, sectionFolders]
    refine ⟨D2.nodup, ?_⟩
    intro i hi f hf hb
    rcases List.mem_cons.1 hf with h | hf
    · subst h
      exact D2.sections i hi ⟨q, b, rest.isEmpty⟩ List.mem_cons_self hb
    · exact D2.sections i hi f (List.mem_cons_of_mem _ hf) hb

theorem allFolders_path (items : List (String × Reg V)) (b : Bool) (q : List String) (hp : PlainTree items) (f : SectionFolder)
    (hf : f ∈ allFolders b q items) : ∃ r, f.path = q ++ r ∧ ∀ y ∈ r, hasChar '.' y = false := by
  rcases List.mem_cons.1 hf with h | h
  · subst h
    exact ⟨[], by simp, fun _ h => (by cases h)⟩
  · obtain ⟨r, e, _, hr⟩ := sectionFolders_path items q hp f h
    exact ⟨r, e, hr⟩

section
variable {env : FsEnv} (hcwd : Path.isAbs env.cwd = true)
include hcwd

theorem scaffold_wrote (text : ItemText V) (base : String) (b : Bool) (items : List (String × Reg V)) (hp : PlainTree items)
    (fs : Fs) :
    Wrote (fun p => ∃ i ∈ itemFiles b (env.resolve base) items, i.path = p)
      (fun p c => ∃ f ∈ allFolders b (env.resolve base) items, f.path = p ∧ f.specific = c) fs
      ((Reg.coll b items).scaffold env text base fs).2 := by
  rw [Reg.scaffold]
  refine seq_state (Wrote _ _) (fun _ _ _ => Wrote.trans) _ _ fs ?_ ?_
  · exact outputSection_wrote hcwd b base ⟨⟨env.resolve base, b, items.isEmpty⟩, List.mem_cons_self, rfl, rfl⟩ fs
  · intro s
    exact outputItems_wrote hcwd text _ _ items b base hp (fun i hi => ⟨i, hi, rfl⟩)
      (fun f hf => ⟨f, List.mem_cons_of_mem _ hf, rfl, rfl⟩) s

theorem scaffold_parts (base : String) (b : Bool) (items : List (String × Reg V)) (hp : PlainTree items)
    (hd : DistinctFiles (itemFiles b (env.resolve base) items) (allFolders b (env.resolve base) items)) (fs : Fs) :
    (∀ i ∈ itemFiles b (env.resolve base) items, (outputSection env b base fs).2 i.path = fs i.path) ∧
    (∀ f ∈ allFolders b (env.resolve base) items, ∀ t,
      (outputSection env b base fs).2 f.path = some (.file t) ↔ fs f.path = some (.file t)) := by
  have W1 := outputSection_wrote (I := fun _ => False) (F := fun p c => p = env.resolve base ∧ c = b) hcwd b base ⟨rfl, rfl⟩ fs
  refine ⟨?_, ?_⟩
  · intro i hi
    refine W1.same (fun h => h) ?_ ?_
    · rintro p c ⟨rfl, rfl⟩ h
      obtain ⟨r, x, e⟩ := itemFiles_path items _ _ i hi
      rw [e] at h
      have := h.length_le
      simp at this
      omega
    · rintro p ⟨rfl, h⟩
      exact hd.sections i hi ⟨env.resolve base, b, items.isEmpty⟩ List.mem_cons_self h.symm
  · intro f hf t
    refine W1.file_iff (fun h => h) ?_ t
    rintro p ⟨rfl, _⟩ e
    obtain ⟨r, e', hr⟩ := allFolders_path items b _ hp f hf
    rw [e'] at e
    exact folder_not_file (r := []) (x := "section") hr e

theorem scaffold_outcome (text : ItemText V) (base : String) (b : Bool) (items : List (String × Reg V)) (hp : PlainTree items)
    (hd : DistinctFiles (itemFiles b (env.resolve base) items) (allFolders b (env.resolve base) items)) (fs : Fs)
    (hroot : fs [] = some .dir) :
    Outcome text (itemFiles b (env.resolve base) items) (allFolders b (env.resolve base) items) fs
      ((Reg.coll b items).scaffold env text base fs).2 (((Reg.coll b items).scaffold env text base fs).1 = .ok ()) := by
  obtain ⟨S1, _⟩ := scaffold_parts hcwd base b items hp hd fs
  have W1 := outputSection_wrote (I := fun _ => False) (F := fun p c => p = env.resolve base ∧ c = b) hcwd b base ⟨rfl, rfl⟩ fs
  have T1 := outputSection_there hcwd b base fs hroot
  have hd' : DistinctFiles (itemFiles b (env.resolve base) items) (sectionFolders (env.resolve base) items) :=
    ⟨hd.nodup, fun i hi f hf => hd.sections i hi f (List.mem_cons_of_mem _ hf)⟩
  rw [Reg.scaffold, seq_run]
  generalize outputSection env b base fs = r1 at S1 W1 T1 ⊢
  have O2 := outputItems_outcome hcwd text items b base hp hd' r1.2 (W1.dirs _ hroot)
  have W2 := outputItems_wrote hcwd text (fun p => ∃ i ∈ itemFiles b (env.resolve base) items, i.path = p)
    (fun p c => ∃ f ∈ sectionFolders (env.resolve base) items, f.path = p ∧ f.specific = c) items b base hp
    (fun i hi => ⟨i, hi, rfl⟩) (fun f hf => ⟨f, hf, rfl, rfl⟩) r1.2
  cases hr1 : r1.1 with
  | error e =>
    simp only
    exact ⟨fun i hi => .inl (S1 i hi), fun h => (by cases h), fun h => (by cases h)⟩
  | ok u =>
    simp only
    have hok : r1.1 = .ok () := hr1
    refine ⟨?_, ?_, ?_⟩
    · intro i hi
      rcases O2.each i hi with h | h
      · exact .inl (h.trans (S1 i hi))
      · exact .inr (h.congr (S1 i hi) rfl)
    · intro ok i hi
      exact (O2.all ok i hi).congr (S1 i hi) rfl
    · intro ok f hf
      rcases List.mem_cons.1 hf with h | h
      · subst h
        obtain ⟨t1, t2⟩ := T1 hok
        exact ⟨W2.stays _ t1, fun hb => W2.stays _ (t2 hb)⟩
      · exact O2.folders ok f h

theorem scaffold_ok_iff (hden : ∀ q, env.denied q = false) (text : ItemText V) (base : String) (b : Bool)
    (items : List (String × Reg V)) (hp : PlainTree items)
    (hd : DistinctFiles (itemFiles b (env.resolve base) items) (allFolders b (env.resolve base) items)) (fs : Fs)
    (hc : Fs.Closed fs) :
    ((Reg.coll b items).scaffold env text base fs).1 = .ok () ↔ FreeWay env fs base ∧ OnlyItems items ∧
      Clear text (itemFiles b (env.resolve base) items) (allFolders b (env.resolve base) items) fs := by
  obtain ⟨S1, F1⟩ := scaffold_parts hcwd base b items hp hd fs
  have W1 := outputSection_wrote (I := fun _ => False) (F := fun p c => p = env.resolve base ∧ c = b) hcwd b base ⟨rfl, rfl⟩ fs
  have T1 := outputSection_there hcwd b base fs hc.root
  have K1 := outputSection_ok_iff hcwd hden b base fs hc
  have hd' : DistinctFiles (itemFiles b (env.resolve base) items) (sectionFolders (env.resolve base) items) :=
    ⟨hd.nodup, fun i hi f hf => hd.sections i hi f (List.mem_cons_of_mem _ hf)⟩
  have hclear : ∀ fs : Fs, Clear text (itemFiles b (env.resolve base) items) (allFolders b (env.resolve base) items) fs ↔
      ((b = false ∨ items.isEmpty = false) → ∀ t, fs (env.resolve base) ≠ some (.file t)) ∧
      Clear text (itemFiles b (env.resolve base) items) (sectionFolders (env.resolve base) items) fs := by
    intro fs
    constructor
    · intro h
      exact ⟨h.folders _ List.mem_cons_self, fun f hf => h.folders f (List.mem_cons_of_mem _ hf), h.items⟩
    · rintro ⟨h, h'⟩
      refine ⟨?_, h'.items⟩
      intro f hf
      rcases List.mem_cons.1 hf with e | e
      · subst e
        exact h
      · exact h'.folders f e
  rw [Reg.scaffold, seq_ok, K1, hclear]
  generalize outputSection env b base fs = r1 at S1 F1 W1 T1 K1 ⊢
  by_cases hfile : ∃ t, fs (env.resolve base) = some (.file t)
  · obtain ⟨t, ht⟩ := hfile
    by_cases hemp : items = []
    · subst hemp
      rw [OnlyItems, itemFiles, sectionFolders]
      constructor
      · rintro ⟨⟨h1, h2⟩, _⟩
        refine ⟨h1, trivial, ?_, ⟨fun _ h => (by cases h), fun _ h => (by cases h)⟩⟩
        rintro (h' | h')
        · exact h2 h'
        · cases h'
      · rintro ⟨h1, _, h2, _⟩
        exact ⟨⟨h1, fun h => h2 (.inl h)⟩, by rw [outputItems]; rfl⟩
    · have hf := outputItems_fails hcwd hden text b base items hp hemp r1.2 (W1.closed hc) t
        ((F1 _ List.mem_cons_self t).2 ht)
      constructor
      · rintro ⟨_, h⟩
        exact absurd h hf
      · rintro ⟨_, _, h, _⟩
        exact absurd ht (h (.inr (by simpa using hemp)) t)
  · have hn : ∀ t, fs (env.resolve base) ≠ some (.file t) := fun t ht => hfile ⟨t, ht⟩
    constructor
    · rintro ⟨h1, h2⟩
      have hok : r1.1 = .ok () := K1.2 h1
      have hdir : r1.2 (env.resolve base) = some .dir := by
        cases e : r1.2 (env.resolve base) with
        | none => exact absurd e (T1 hok).1
        | some n =>
          cases n with
          | dir => rfl
          | file t => exact absurd ((F1 _ List.mem_cons_self t).1 e) (hn t)
      rw [outputItems_ok_iff hcwd hden text items b base h1.1.1 hp hd' r1.2 (W1.closed hc) hdir,
        Clear.congr (fun f hf => F1 f (List.mem_cons_of_mem _ hf)) S1] at h2
      exact ⟨h1.1, h2.1, fun _ => hn, h2.2⟩
    · rintro ⟨h1, h2, _, h3⟩
      have hok : r1.1 = .ok () := K1.2 ⟨h1, fun _ => hn⟩
      have hdir : r1.2 (env.resolve base) = some .dir := by
        cases e : r1.2 (env.resolve base) with
        | none => exact absurd e (T1 hok).1
        | some n =>
          cases n with
          | dir => rfl
          | file t => exact absurd ((F1 _ List.mem_cons_self t).1 e) (hn t)
      refine ⟨⟨h1, fun _ => hn⟩, ?_⟩
      rw [outputItems_ok_iff hcwd hden text items b base h1.1 hp hd' r1.2 (W1.closed hc) hdir,
        Clear.congr (fun f hf => F1 f (List.mem_cons_of_mem _ hf)) S1]
      exact ⟨h2, h3⟩

end

/-! ### C64 -/

/-- Scaffolding changes nothing but the files of the items.  What it adds are folders above and at sections, section files of
sections that are not for a class, and files of items. -/
theorem C64_frame (env : FsEnv) (hcwd : Path.isAbs env.cwd = true) (text : ItemText V) (base : String) (b : Bool)
    (items : List (String × Reg V)) (hp : PlainTree items) (fs : Fs) (p : List String) (fs' : Fs)
    (hfs : ((Reg.coll b items).scaffold env text base fs).2 = fs') :
    ((∀ i ∈ itemFiles b (env.resolve base) items, i.path ≠ p) → fs p ≠ none → fs' p = fs p) ∧
    (fs p = some .dir → fs' p = some .dir) ∧
    (∀ t, fs p = some (.file t) → ∃ t', fs' p = some (.file t')) ∧
    (fs p = none → fs' p = none ∨
      (fs' p = some .dir ∧ ∃ f ∈ allFolders b (env.resolve base) items, p <+: f.path) ∨
      (fs' p = some (.file "\n") ∧ ∃ f ∈ allFolders b (env.resolve base) items, f.specific = false ∧ p = f.file) ∨
      ∃ i ∈ itemFiles b (env.resolve base) items, i.path = p ∧ ∃ t, fs' p = some (.file t)) := by
  have W := scaffold_wrote hcwd text base b items hp fs
  rw [hfs] at W
  refine ⟨?_, W.dirs p, ?_, ?_⟩
  · intro hi hn
    cases h : fs p with
    | none => exact absurd h hn
    | some n =>
      refine W.kept p n h ?_
      rintro ⟨i, h', e⟩
      exact hi i h' e
  · intro t ht
    by_cases hi : ∃ i ∈ itemFiles b (env.resolve base) items, i.path = p
    · cases e : fs' p with
      | none => exact absurd e (W.stays p (by rw [ht]; simp))
      | some n =>
        cases n with
        | file t' => exact ⟨t', rfl⟩
        | dir =>
          obtain ⟨i, hi, rfl⟩ := hi
          rcases W.new _ _ e with h | ⟨_, q, c, ⟨f, hf, rfl, _⟩, h⟩ | ⟨h, _⟩ | ⟨_, t, h⟩
          · rw [ht] at h; cases h
          · obtain ⟨r, x, e1⟩ := itemFiles_path items _ _ i hi
            obtain ⟨r', e2, hr'⟩ := allFolders_path items b _ hp f hf
            rw [e1, e2] at h
            exact absurd h (file_not_above hr')
          · cases h
          · cases h
    · exact ⟨t, W.kept p _ ht hi⟩
  · intro hn
    cases e : fs' p with
    | none => exact .inl rfl
    | some n =>
      rcases W.new _ _ e with h | ⟨h, q, c, ⟨f, hf, rfl, _⟩, h'⟩ | ⟨h, q, ⟨f, hf, rfl, hb⟩, h'⟩ | ⟨⟨i, hi, h⟩, t, h'⟩
      · rw [hn] at h; cases h
      · subst h
        exact .inr (.inl ⟨rfl, f, hf, h'⟩)
      · subst h
        exact .inr (.inr (.inl ⟨rfl, f, hf, hb, h'⟩))
      · exact .inr (.inr (.inr ⟨i, hi, h, t, by rw [h']⟩))

/-- If scaffolding succeeds, every item has its file, with the text made for it from what was there, and every section has its
folder and section file. -/
theorem C64_items (env : FsEnv) (hcwd : Path.isAbs env.cwd = true) (text : ItemText V) (base : String) (b : Bool)
    (items : List (String × Reg V)) (hp : PlainTree items) (hg : OwnNames b items) (fs : Fs) (hroot : fs [] = some .dir)
    (fs' : Fs) (h : (Reg.coll b items).scaffold env text base fs = (.ok (), fs')) :
    (∀ i ∈ itemFiles b (env.resolve base) items, ∃ t,
      text i.specific i.name i.item (contentAt fs i.path) = .ok t ∧ fs' i.path = some (.file t)) ∧
    ∀ f ∈ allFolders b (env.resolve base) items, fs' f.path ≠ none ∧ (f.specific = false → fs' f.file ≠ none) := by
  have O := scaffold_outcome hcwd text base b items hp (distinct_files items b _ hp hg) fs hroot
  rw [h] at O
  exact ⟨O.all rfl, O.folders rfl⟩

/-- If scaffolding fails, the file of every item is as before or has the text made for it from what was there. -/
theorem C64_failure (env : FsEnv) (hcwd : Path.isAbs env.cwd = true) (text : ItemText V) (base : String) (b : Bool)
    (items : List (String × Reg V)) (hp : PlainTree items) (hg : OwnNames b items) (fs : Fs) (hroot : fs [] = some .dir)
    (e : PyErr) (fs' : Fs) (h : (Reg.coll b items).scaffold env text base fs = (.error e, fs')) :
    ∀ i ∈ itemFiles b (env.resolve base) items, fs' i.path = fs i.path ∨ ∃ t,
      text i.specific i.name i.item (contentAt fs i.path) = .ok t ∧ fs' i.path = some (.file t) := by
  have O := scaffold_outcome hcwd text base b items hp (distinct_files items b _ hp hg) fs hroot
  rw [h] at O
  exact O.each

/-- Scaffolding succeeds just if the folder can be made, everything registered is an item or a section, no file is where a
folder is needed and no folder where a file is needed, and every text can be made. -/
theorem C64_succeeds_iff (env : FsEnv) (hcwd : Path.isAbs env.cwd = true) (hden : ∀ q, env.denied q = false)
    (text : ItemText V) (base : String) (b : Bool) (items : List (String × Reg V)) (hp : PlainTree items)
    (hg : OwnNames b items) (fs : Fs) (hc : Fs.Closed fs) :
    ((Reg.coll b items).scaffold env text base fs).1 = .ok () ↔ FreeWay env fs base ∧ OnlyItems items ∧
      (∀ f ∈ allFolders b (env.resolve base) items, (f.specific = false ∨ f.empty = false) → ∀ t, fs f.path ≠ some (.file t)) ∧
      ∀ i ∈ itemFiles b (env.resolve base) items, fs i.path ≠ some .dir ∧
        ∃ t, text i.specific i.name i.item (contentAt fs i.path) = .ok t := by
  rw [scaffold_ok_iff hcwd hden text base b items hp (distinct_files items b _ hp hg) fs hc]
  constructor
  · rintro ⟨h1, h2, h3⟩
    exact ⟨h1, h2, h3.folders, h3.items⟩
  · rintro ⟨h1, h2, h3, h4⟩
    exact ⟨h1, h2, h3, h4⟩

/-- Scaffolding again changes nothing, if the text made from a text that was made is the same. -/
theorem C64_again (env : FsEnv) (hcwd : Path.isAbs env.cwd = true) (hden : ∀ q, env.denied q = false) (text : ItemText V)
    (hs : ∀ b x c o t, text b x c o = .ok t → text b x c (some t) = .ok t) (base : String) (b : Bool)
    (items : List (String × Reg V)) (hp : PlainTree items) (hg : OwnNames b items) (fs : Fs) (hc : Fs.Closed fs) (fs' : Fs)
    (h : (Reg.coll b items).scaffold env text base fs = (.ok (), fs')) :
    (Reg.coll b items).scaffold env text base fs' = (.ok (), fs') := by
  have hd := distinct_files items b (env.resolve base) hp hg
  have W := scaffold_wrote hcwd text base b items hp fs
  have O := scaffold_outcome hcwd text base b items hp hd fs hc.root
  have K := scaffold_ok_iff hcwd hden text base b items hp hd fs hc
  rw [h] at W O K
  have hc' : Fs.Closed fs' := W.closed hc
  have W' := scaffold_wrote hcwd text base b items hp fs'
  have O' := scaffold_outcome hcwd text base b items hp hd fs' hc'.root
  have K' := scaffold_ok_iff hcwd hden text base b items hp hd fs' hc'
  have hK := K.1 rfl
  have hmade : ∀ i ∈ itemFiles b (env.resolve base) items, ∃ t, fs' i.path = some (.file t) ∧
      text i.specific i.name i.item (some t) = .ok t := by
    intro i hi
    obtain ⟨t, h1, h2⟩ := O.all rfl i hi
    exact ⟨t, h2, hs _ _ _ _ _ h1⟩
  have hok : ((Reg.coll b items).scaffold env text base fs').1 = .ok () := by
    rw [K']
    refine ⟨⟨hK.1.1, ?_⟩, hK.2.1, ?_, ?_⟩
    · intro q r e hr t ht
      have hne := (O.folders rfl _ List.mem_cons_self).1
      have hne : fs' (env.resolve base) ≠ none := hne
      rw [e] at hne
      have := hc'.below q hr hne
      rw [ht] at this
      cases this
    · intro f hf hb t ht
      refine hK.2.2.folders f hf hb t ((W.file_iff ?_ ?_ t).1 ht)
      · rintro ⟨i, hi, e⟩
        obtain ⟨r, x, e1⟩ := itemFiles_path items _ _ i hi
        obtain ⟨r', e2, hr'⟩ := allFolders_path items b _ hp f hf
        rw [e1, e2] at e
        exact folder_not_file hr' e.symm
      · rintro p ⟨f', hf', rfl, _⟩ e
        obtain ⟨r, e1, hr⟩ := allFolders_path items b _ hp f hf
        obtain ⟨r', e2, _⟩ := allFolders_path items b _ hp f' hf'
        rw [e1, e2, List.append_assoc] at e
        exact folder_not_file (x := "section") hr e
    · intro i hi
      obtain ⟨t, h1, h2⟩ := hmade i hi
      refine ⟨by rw [h1]; simp, t, ?_⟩
      unfold contentAt
      rw [h1]
      exact h2
  have hstate : ((Reg.coll b items).scaffold env text base fs').2 = fs' := by
    funext p
    by_cases hi : ∃ i ∈ itemFiles b (env.resolve base) items, i.path = p
    · obtain ⟨i, hi, rfl⟩ := hi
      obtain ⟨t, h1, h2⟩ := hmade i hi
      obtain ⟨t', h3, h4⟩ := O'.all hok i hi
      unfold contentAt at h3
      rw [h1] at h3
      have h3 : text i.specific i.name i.item (some t) = .ok t' := h3
      rw [h2] at h3
      cases h3
      rw [h4, h1]
    · cases e : fs' p with
      | some n => exact W'.kept p n e hi
      | none =>
        cases e' : ((Reg.coll b items).scaffold env text base fs').2 p with
        | none => rfl
        | some n =>
          rcases W'.new _ _ e' with h1 | ⟨_, q, c, ⟨f, hf, rfl, _⟩, h1⟩ | ⟨_, q, ⟨f, hf, rfl, hb⟩, h1⟩ | ⟨h1, _⟩
          · rw [e] at h1; cases h1
          · obtain ⟨r, hr⟩ := h1
            have hne := (O.folders rfl f hf).1
            by_cases hr0 : r = []
            · subst hr0
              rw [List.append_nil] at hr
              rw [← hr] at hne
              exact absurd e hne
            · rw [← hr] at hne
              have := hc'.below p hr0 hne
              rw [e] at this
              cases this
          · rw [h1] at e
            exact absurd e ((O.folders rfl f hf).2 hb)
          · exact absurd h1 hi
  exact Prod.ext hok hstate

/-! ### Examples -/

def scaffoldItem : Callable Unit :=
  ⟨.func, ⟨[], [], []⟩, fun _ => .ok (), fun _ => .ok (), fun _ => .ok (), fun _ => .ok ()⟩

/-- Keep what is there. -/
def keepText : ItemText Unit := fun _ x _ o => .ok (o.getD ("# " ++ x))

def scaffoldTree : List (String × Reg Unit) :=
  [("f", .item scaffoldItem), ("s", .coll false [("f", .item scaffoldItem), ("t", .coll true [])])]

example : PlainTree scaffoldTree ∧ OwnNames false scaffoldTree ∧ OnlyItems scaffoldTree := by
  simp only [scaffoldTree, PlainTree, OwnNames, OnlyItems, itemNames, sectionNames]
  decide +kernel

example : (itemFiles false ["d"] scaffoldTree).map ItemFile.path = [["d", "f.py"], ["d", "s", "f.py"]] := by
  simp [scaffoldTree, itemFiles]

example : ((Reg.coll false scaffoldTree).scaffold freeEnv keepText "d" Fs.blank).1 = .ok () ∧
    ((Reg.coll false scaffoldTree).scaffold freeEnv keepText "d" Fs.blank).2 ["d", "s", "f.py"] = some (.file "# f") ∧
    ((Reg.coll false scaffoldTree).scaffold freeEnv keepText "d" Fs.blank).2 ["d", "s", "section.py"] = some (.file "\n") ∧
    ((Reg.coll false scaffoldTree).scaffold freeEnv keepText "d" Fs.blank).2 ["d", "s", "t"] = some .dir ∧
    ((Reg.coll false scaffoldTree).scaffold freeEnv keepText "d" Fs.blank).2 ["d", "s", "t", "section.py"] = none := by
  simp only [scaffoldTree, Reg.scaffold, outputItems]
  refine ⟨?_, ?_, ?_, ?_, ?_⟩ <;> decide +kernel

example : (∀ q, freeEnv.denied q = false) ∧ FreeWay freeEnv Fs.blank "d" :=
  ⟨fun _ => rfl, (folder_succeeds freeEnv (fun _ => rfl) "d" Fs.blank blank_closed).1 (by decide +kernel)⟩

example (b : Bool) (x : String) (c : Callable Unit) (o : Option String) (t : String) (_ : keepText b x c o = .ok t) :
    keepText b x c (some t) = .ok t := rfl

/-- A folder where the file of an item belongs: the files written before remain, and the run fails. -/
example : ((Reg.coll false scaffoldTree).scaffold freeEnv keepText "d"
      (((Fs.blank.put ["d"] .dir).put ["d", "s"] .dir).put ["d", "s", "f.py"] .dir)).1 = .error .osError ∧
    ((Reg.coll false scaffoldTree).scaffold freeEnv keepText "d"
      (((Fs.blank.put ["d"] .dir).put ["d", "s"] .dir).put ["d", "s", "f.py"] .dir)).2 ["d", "f.py"] = some (.file "# f") := by
  simp only [scaffoldTree, Reg.scaffold, outputItems]
  constructor <;> decide +kernel

/-! ### Violations -/

/-- What is neither an item nor a collection, in a general collection whose own folder and file can be made, is a
`ValueError`. -/
theorem C64_other_value_error (env : FsEnv) (hcwd : Path.isAbs env.cwd = true) (hden : ∀ q, env.denied q = false)
    (text : ItemText V) (base x : String) (rest : List (String × Reg V)) (fs : Fs) (hc : Fs.Closed fs) (hw : FreeWay env fs base)
    (hf : ∀ t, fs (env.resolve base) ≠ some (.file t)) :
    ((Reg.coll false ((x, .other) :: rest)).scaffold env text base fs).1 = .error .valueError := by
  have K := (outputSection_ok_iff hcwd hden false base fs hc).2 ⟨hw, fun _ => hf⟩
  rw [Reg.scaffold, M.bind_run]
  cases h : outputSection env false base fs with
  | mk r fs1 =>
    rw [h] at K
    simp only at K
    subst K
    simp only
    rw [outputItems]
    rfl

example : ((Reg.coll false [("x", .other)]).scaffold (V := Unit) freeEnv (fun _ _ _ _ => .ok "") "d" Fs.blank).1 =
    .error .valueError := by
  simp only [Reg.scaffold, outputItems]
  decide +kernel

/-- An item called `section` and the section share a file: the text of the item is made from the section file, although there
was no file. -/
theorem C64_section_violated (env : FsEnv) (hcwd : Path.isAbs env.cwd = true) (hden : ∀ q, env.denied q = false)
    (text : ItemText V) (base : String) (c : Callable V) (fs : Fs) (hc : Fs.Closed fs) (hw : FreeWay env fs base)
    (hn : fs (env.resolve base) = none) (t : String) (ht : text false "section" c (some "\n") = .ok t) :
    ((Reg.coll false [("section", .item c)]).scaffold env text base fs).1 = .ok () ∧
    ((Reg.coll false [("section", .item c)]).scaffold env text base fs).2 (env.resolve base ++ ["section.py"]) =
      some (.file t) := by
  have K1 := (outputSection_ok_iff hcwd hden false base fs hc).2 ⟨hw, fun _ t h => (by rw [hn] at h; cases h)⟩
  have T1 := (outputSection_there hcwd false base fs hc.root K1)
  have W1 := outputSection_wrote (I := fun _ => False) (F := fun p c => p = env.resolve base ∧ c = false) hcwd false base
    ⟨rfl, rfl⟩ fs
  have hsec : (outputSection env false base fs).2 (env.resolve base ++ ["section.py"]) = some (.file "\n") := by
    cases e : (outputSection env false base fs).2 (env.resolve base ++ ["section.py"]) with
    | none => exact absurd e (T1.2 rfl)
    | some n =>
      rcases W1.new _ _ e with h | ⟨_, p, b, ⟨rfl, _⟩, h⟩ | ⟨h, _⟩ | ⟨h, _⟩
      · have := hc.parent _ _ (by rw [h]; simp)
        rw [hn] at this
        cases this
      · have := h.length_le
        rw [List.length_append, List.length_singleton] at this
        omega
      · rw [h]
      · exact h.elim
  have hdir : (outputSection env false base fs).2 (env.resolve base) = some .dir :=
    (W1.closed hc).parent _ "section.py" (by rw [hsec]; simp)
  have e : (Reg.coll false [("section", .item c)]).scaffold env text base fs =
      (.ok (), ((outputSection env false base fs).2).put (env.resolve base ++ ["section.py"]) (.file t)) := by
    rw [Reg.scaffold, seq_run, K1]
    simp only
    rw [outputItems, seq_run, outputItem_run hcwd text false base "section" (by decide +kernel)]
    have hs : "section" ++ ".py" = "section.py" := by decide
    rw [hs, hsec, contentAt, hsec, hdir]
    simp [ht, hden, outputItems]
  rw [e]
  refine ⟨rfl, ?_⟩
  simp [Fs.put]

/-- Two items with the same name in a collection share a file: its text is made from the one of the first. -/
theorem C64_same_name_violated :
    ∃ (text : ItemText Unit) (fs : Fs), Fs.Closed fs ∧
      text false "f" scaffoldItem (contentAt fs ["d", "f.py"]) = .ok "new" ∧
      ((Reg.coll false [("f", .item scaffoldItem), ("f", .item scaffoldItem)]).scaffold freeEnv text "d" fs).1 = .ok () ∧
      ((Reg.coll false [("f", .item scaffoldItem), ("f", .item scaffoldItem)]).scaffold freeEnv text "d" fs).2 ["d", "f.py"] =
        some (.file "changed") := by
  refine ⟨fun _ _ _ o => .ok (match o with | none => "new" | some _ => "changed"), Fs.blank, blank_closed, rfl, ?_, ?_⟩ <;>
    simp only [Reg.scaffold, outputItems] <;> decide +kernel

end Verif.Props

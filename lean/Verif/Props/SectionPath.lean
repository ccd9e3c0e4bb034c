import Verif.Lemmas.SectionPath

/-
Property theorems about section paths: C01 - C05.
-/

namespace Verif.Props
open Verif.Py Verif.Model Verif.Model.SectionPath

/-! ## Specification vocabulary -/

/-- A name that does not contain a dot. -/
def DotFree (x : String) : Prop := '.' ∉ x.toList

/-- A proper file name: not empty, no path separator.  (Sections of a path never
contain a dot, so `.` and `..` do not occur.) -/
def FileName (x : String) : Prop := x ≠ "" ∧ '/' ∉ x.toList

theorem dotFree_iff (x : String) : DotFree x ↔ hasChar '.' x = false := by
  simp [DotFree, hasChar]

/-! ## C01 -/

/-- C01: the string determines the sections and back; the sections of a string are
its dot-free pieces separated by dots; a path made of a non-empty list of dot-free
names has exactly these sections. -/
theorem C01_text_sections_round_trip :
    (∀ s : String, (fromSectionStrList (SectionPath.mk s).sections).pathStr = s) ∧
    (∀ s : String, ".".intercalate (SectionPath.mk s).sections = s ∧
      (SectionPath.mk s).sections ≠ [] ∧ ∀ x ∈ (SectionPath.mk s).sections, DotFree x) ∧
    (∀ xs : List String, xs ≠ [] → (∀ x ∈ xs, DotFree x) →
      (fromSectionStrList xs).sections = xs ∧ (fromSectionStrList xs).pathStr = ".".intercalate xs) := by
  refine ⟨fun s => join_split '.' s, fun s => ⟨?_, sections_ne_nil _, fun x hx => ?_⟩,
    fun xs hne h => ⟨?_, ?_⟩⟩
  · have := join_eq_intercalate '.' (SectionPath.mk s).sections
    rw [show String.ofList ['.'] = "." from rfl] at this
    rw [← this]; exact join_split '.' s
  · exact (dotFree_iff x).2 (hasDot_sections _ x hx)
  · exact sections_fromSectionStrList hne (fun x hx => (dotFree_iff x).1 (h x hx))
  · exact join_eq_intercalate '.' xs

example : (["demo", "", "analysis"] : List String) ≠ [] ∧
    (∀ x ∈ (["demo", "", "analysis"] : List String), DotFree x) ∧
    (SectionPath.mk "demo..analysis").sections = ["demo", "", "analysis"] := by
  unfold DotFree; decide

/-! ## C02 -/

/-- C02: joining concatenates the section lists, join is associative, equality is
equality of section lists, and equal paths have equal hashes for every hash of
strings. -/
theorem C02_join_concatenates (a b c : SectionPath) (strHash : String → Int) :
    (joinSP a b).sections = a.sections ++ b.sections ∧
    joinSP (joinSP a b) c = joinSP a (joinSP b c) ∧
    (eq a b = true ↔ a.sections = b.sections) ∧
    (eq a b = true → hash strHash a = hash strHash b) := by
  refine ⟨sections_joinSP a b, ?_, ?_, ?_⟩
  · apply ext_sections
    simp only [sections_joinSP, List.append_assoc]
  · unfold eq
    rw [decide_eq_true_iff]
    constructor
    · intro h; unfold sections; rw [h]
    · intro h; rw [ext_sections h]
  · unfold SectionPath.eq SectionPath.hash
    rw [decide_eq_true_iff]
    intro h; rw [h]

example : joinSP ⟨"a.b"⟩ ⟨"c"⟩ = ⟨"a.b.c"⟩ ∧ eq ⟨"a.b"⟩ ⟨"a.b"⟩ = true ∧ eq ⟨"a.b"⟩ ⟨"a.c"⟩ = false := by
  decide

/-! ## C03 -/

theorem plain_of_section {sp : SectionPath} (h : ∀ x ∈ sp.sections, FileName x) :
    ∀ x ∈ sp.sections, Path.Plain x := by
  intro x hx
  have hd := hasDot_sections sp x hx
  refine ⟨(h x hx).1, ?_, ?_, ?_⟩
  · rintro rfl; exact absurd hd (by decide)
  · rintro rfl; exact absurd hd (by decide)
  · simpa [hasChar] using (h x hx).2

theorem plain_py {x : String} (h : Path.Plain x) :
    Path.Plain (x ++ ".py") := by
  have hl : (x ++ ".py").toList = x.toList ++ ['.', 'p', 'y'] := by
    rw [String.toList_append]; rfl
  have hlen : (x ++ ".py").toList.length ≥ 3 := by rw [hl]; simp
  refine ⟨?_, ?_, ?_, ?_⟩
  · intro e; rw [e] at hlen; exact absurd hlen (by decide)
  · intro e; rw [e] at hlen; exact absurd hlen (by decide)
  · intro e; rw [e] at hlen; exact absurd hlen (by decide)
  · rw [hasChar_append, h.2.2.2]; decide

theorem join_last_append (ini : List String) (last : String) :
    join '/' (ini ++ [last]) ++ ".py" = join '/' (ini ++ [last ++ ".py"]) := by
  rw [← String.toList_inj]
  simp only [join, String.toList_append, String.toList_ofList, List.map_append, List.map_cons,
    List.map_nil]
  induction ini with
  | nil => simp [joinL]
  | cons a as ih =>
    cases as with
    | nil => simp [joinL]
    | cons b bs =>
      simp only [List.map_cons, List.cons_append, joinL, List.append_assoc] at ih ⊢
      rw [ih]

/-- C03, with the suffix: the config file `<base>/<sections>.py` of a path leads back
to that path. -/
theorem C03_file_round_trip_py (cwd base : String) (hcwd : Path.isAbs cwd = true)
    (sp : SectionPath) (h : ∀ x ∈ sp.sections, FileName x) :
    fromFilepath cwd base (sp.toFilepath base ++ ".py") = some sp := by
  have hp := plain_of_section h
  obtain ⟨ini, last, hs⟩ : ∃ ini last, sp.sections = ini ++ [last] :=
    ⟨_, _, (List.dropLast_concat_getLast (sections_ne_nil sp)).symm⟩
  -- the relative file path with suffix is a joined list of plain names
  have hrel : sp.toFilepath base ++ ".py" = Path.join2 base (join '/' (ini ++ [last ++ ".py"])) := by
    have hj := join_last_append
    have e1 := Path.isAbs_join_plain hp
    have hws2 : ∀ w ∈ ini ++ [last ++ ".py"], Path.Plain w := by
      intro w hw
      rcases List.mem_append.1 hw with hw | hw
      · exact hp w (by rw [hs]; simp [hw])
      · simp only [List.mem_singleton] at hw
        subst hw
        exact plain_py (hp last (by rw [hs]; simp))
    have e2 := Path.isAbs_join_plain hws2
    unfold toFilepath toRelativeFilepath
    rw [Path.join2.eq_1, Path.join2.eq_1, e1, e2, hs, ← hj]
    simp only [Bool.false_eq_true, if_false]
    split <;> simp [String.append_assoc]
  have hws2 : ∀ w ∈ ini ++ [last ++ ".py"], Path.Plain w := by
    intro w hw
    rcases List.mem_append.1 hw with hw | hw
    · exact hp w (by rw [hs]; simp [hw])
    · simp only [List.mem_singleton] at hw
      subst hw
      exact plain_py (hp last (by rw [hs]; simp))
  unfold fromFilepath
  rw [hrel, Path.relpath_below hcwd base (by simp) hws2]
  simp only [Option.map_some, relativeFilepathToSectionPath]
  rw [split_join '/' (by simp) (fun x hx => (hws2 x hx).2.2.2), mapLast_append, stripPy_append, ← hs]
  exact congrArg some (by cases sp; simp only [SectionPath.mk.injEq]; exact join_split '.' _)

/-- C03, without the suffix (a section folder). -/
theorem C03_file_round_trip (cwd base : String) (hcwd : Path.isAbs cwd = true)
    (sp : SectionPath) (h : ∀ x ∈ sp.sections, FileName x) :
    fromFilepath cwd base (sp.toFilepath base) = some sp := by
  have hp := plain_of_section h
  obtain ⟨ini, last, hs⟩ : ∃ ini last, sp.sections = ini ++ [last] :=
    ⟨_, _, (List.dropLast_concat_getLast (sections_ne_nil sp)).symm⟩
  unfold fromFilepath toFilepath toRelativeFilepath
  rw [Path.relpath_below hcwd base (sections_ne_nil sp) hp]
  simp only [Option.map_some, relativeFilepathToSectionPath]
  rw [split_join '/' (sections_ne_nil sp) (fun x hx => (hp x hx).2.2.2), hs, mapLast_append,
    stripPy_of_no_dot (hasDot_sections sp last (by rw [hs]; simp)), ← hs]
  exact congrArg some (by cases sp; simp only [SectionPath.mk.injEq]; exact join_split '.' _)

/-- C03: distinct paths have distinct files. -/
theorem C03_files_distinct (base : String) (sp sp' : SectionPath)
    (h : ∀ x ∈ sp.sections, FileName x) (h' : ∀ x ∈ sp'.sections, FileName x)
    (hne : sp ≠ sp') :
    sp.toFilepath base ≠ sp'.toFilepath base ∧
    sp.toFilepath base ++ ".py" ≠ sp'.toFilepath base ++ ".py" ∧
    sp.toFilepath base ++ ".py" ≠ sp'.toFilepath base := by
  have hcwd : Path.isAbs "/" = true := by decide
  refine ⟨fun e => hne ?_, fun e => hne ?_, fun e => hne ?_⟩
  · have h1 := C03_file_round_trip "/" base hcwd sp h
    rw [e, C03_file_round_trip "/" base hcwd sp' h'] at h1
    exact (Option.some.inj h1).symm
  · have h1 := C03_file_round_trip_py "/" base hcwd sp h
    rw [e, C03_file_round_trip_py "/" base hcwd sp' h'] at h1
    exact (Option.some.inj h1).symm
  · have h1 := C03_file_round_trip_py "/" base hcwd sp h
    rw [e, C03_file_round_trip "/" base hcwd sp' h'] at h1
    exact (Option.some.inj h1).symm

/-- A relative base folder with `..` and a trailing slash. -/
example : Path.isAbs "/home/u" = true ∧
    (∀ x ∈ (SectionPath.mk "demo.analysis").sections, FileName x) ∧
    (SectionPath.mk "demo.analysis").toFilepath "../proj/defaults/" = "../proj/defaults/demo/analysis" ∧
    fromFilepath "/home/u" "../proj/defaults/" "../proj/defaults/demo/analysis.py"
      = some ⟨"demo.analysis"⟩ := by
  unfold FileName
  decide +kernel

/-! ## C04 -/

/-- C04, exact behaviour: `endswith` is the suffix relation, except that when the
receiver is the shorter path it is compared with the *beginning* of the argument. -/
theorem C04_endswith_exact (sp t : SectionPath) :
    endswith sp t = true ↔
      t.sections <:+ sp.sections ∨
      (sp.sections.length < t.sections.length ∧ sp.sections <+: t.sections) := by
  unfold endswith lastN
  rw [partsMatch_iff]
  by_cases hlen : sp.sections.length < t.sections.length
  · rw [show sp.sections.length - t.sections.length = 0 by omega, List.drop_zero]
    constructor
    · intro h; exact Or.inr ⟨hlen, h⟩
    · rintro (h | h)
      · exact absurd h.length_le (by omega)
      · exact h.2
  · have hl : (sp.sections.drop (sp.sections.length - t.sections.length)).length = t.sections.length := by
      rw [List.length_drop]; omega
    constructor
    · intro h
      left
      have := List.IsPrefix.eq_of_length h hl
      rw [← this]; exact List.drop_suffix _ _
    · rintro (h | h)
      · rw [List.suffix_iff_eq_drop.1 h] 
        simp only [List.length_drop]
        rw [show sp.sections.length - (sp.sections.length - (sp.sections.length - t.sections.length))
            = sp.sections.length - t.sections.length by omega]
        exact List.prefix_refl _
      · exact absurd h.1 hlen

/-- C04 (partial): the suffix relation, when the argument is not longer than the
receiver.  Missing: the case of a longer argument, where the property fails. -/
theorem C04_endswith_suffix_partial (sp t : SectionPath)
    (h : t.sections.length ≤ sp.sections.length) :
    endswith sp t = true ↔ t.sections <:+ sp.sections := by
  rw [C04_endswith_exact]
  constructor
  · rintro (h' | h')
    · exact h'
    · exact absurd h'.1 (by omega)
  · exact Or.inl

/-- C04 fails: `SectionPath('six').endswith(SectionPath('six.moves'))` is true. -/
theorem C04_endswith_suffix_violated :
    ∃ sp t : SectionPath, endswith sp t = true ∧ ¬ t.sections <:+ sp.sections :=
  ⟨⟨"six"⟩, ⟨"six.moves"⟩, by decide, by decide⟩

example : (SectionPath.mk "b.c").sections.length ≤ (SectionPath.mk "a.b.c").sections.length ∧
    endswith ⟨"a.b.c"⟩ ⟨"b.c"⟩ = true ∧ endswith ⟨"a.b.c"⟩ ⟨"a.b"⟩ = false := by decide

/-! ## C05 -/

/-- What one argument denotes: its sections, before a base path is prefixed.
A view loses its first section (the manager) when stripping is requested; a path of
the manager alone becomes the empty path, which has the one section `''`. -/
def Denotes (strip : Bool) : PathLike → List String → Prop
  | .view s, xs => ".".intercalate xs = (if strip then ".".intercalate ((SectionPath.mk s).sections.tail) else s)
      ∧ xs ≠ [] ∧ ∀ x ∈ xs, DotFree x
  | .path sp, xs => xs = sp.sections
  | .str s, xs => ".".intercalate xs = s ∧ xs ≠ [] ∧ ∀ x ∈ xs, DotFree x
  | .other, _ => False

/-- The sections of the base path. -/
def baseSections : Option String → List String
  | none => []
  | some b => (SectionPath.mk b).sections

theorem C05_denotes_unique (strip : Bool) (item : PathLike) (xs ys : List String)
    (hx : Denotes strip item xs) (hy : Denotes strip item ys) : xs = ys := by
  have key : ∀ s (xs : List String), (".".intercalate xs = s ∧ xs ≠ [] ∧ ∀ x ∈ xs, DotFree x) →
      xs = (SectionPath.mk s).sections := by
    rintro s xs ⟨h1, h2, h3⟩
    have h := (C01_text_sections_round_trip.2.2 xs h2 h3)
    rw [h1] at h
    rw [← h.1]
    cases hh : fromSectionStrList xs
    rw [hh] at h
    simp only at h
    rw [h.2]
  cases item with
  | view s => rw [key _ _ hx, key _ _ hy]
  | path sp => rw [show xs = _ from hx, show ys = _ from hy]
  | str s => rw [key _ _ hx, key _ _ hy]
  | other => exact hx.elim

/-- C05 for one argument: the result has the sections of the base followed by the
sections denoted by the argument; the call raises iff the argument is none of the
accepted kinds. -/
theorem C05_from_ambiguous (item : PathLike) (strip : Bool) (base : Option String) :
    (∀ sp, fromAmbiguous item strip base = .ok sp →
      ∃ xs, Denotes strip item xs ∧ sp.sections = baseSections base ++ xs) ∧
    ((∃ e, fromAmbiguous item strip base = .error e) ↔ item = .other) ∧
    (item = .other → fromAmbiguous item strip base = .error .valueError) := by
  have hden : ∀ s : String, ".".intercalate (SectionPath.mk s).sections = s ∧
      (SectionPath.mk s).sections ≠ [] ∧ ∀ x ∈ (SectionPath.mk s).sections, DotFree x :=
    C01_text_sections_round_trip.2.1
  have hbase : ∀ (base : Option String) (r : SectionPath) (xs : List String), r.sections = xs →
      ∀ sp, (match base with | none => Except.ok r | some b => Except.ok (joinSP ⟨b⟩ r) :
        Except PyErr SectionPath) = .ok sp → sp.sections = baseSections base ++ xs := by
    intro base r xs hr sp h
    cases base with
    | none => simp only [Except.ok.injEq] at h; subst h; simp [baseSections, hr]
    | some b =>
      simp only [Except.ok.injEq] at h; subst h
      rw [sections_joinSP, hr]; rfl
  have hnoerr : ∀ (r : SectionPath), ¬ ∃ e, (match base with
        | none => Except.ok r | some b => Except.ok (joinSP ⟨b⟩ r) : Except PyErr SectionPath) = .error e := by
    rintro r ⟨e, he⟩; cases base <;> simp at he
  cases item with
  | view s =>
    refine ⟨?_, ?_, by simp⟩
    · intro sp h
      cases strip with
      | false =>
        exact ⟨_, by simpa [Denotes] using hden s, hbase base ⟨s⟩ _ rfl sp h⟩
      | true =>
        refine ⟨(tail ⟨s⟩).sections, ?_, hbase base (tail ⟨s⟩) _ rfl sp h⟩
        have : (tail ⟨s⟩).pathStr = ".".intercalate ((SectionPath.mk s).sections.tail) := by
          unfold tail fromSectionStrList
          rw [List.drop_one]
          exact join_eq_intercalate '.' _
        have h2 := hden (tail ⟨s⟩).pathStr
        simp only [Denotes, if_true]
        rw [← this]; exact h2
    · constructor
      · intro h; exfalso
        cases strip with
        | false => exact hnoerr ⟨s⟩ h
        | true => exact hnoerr (tail ⟨s⟩) h
      · simp
  | path p =>
    refine ⟨fun sp h => ⟨_, rfl, hbase base p _ rfl sp h⟩, ⟨fun h => (hnoerr p h).elim, by simp⟩, by simp⟩
  | str s =>
    refine ⟨fun sp h => ⟨_, hden s, hbase base ⟨s⟩ _ rfl sp h⟩,
      ⟨fun h => (hnoerr ⟨s⟩ h).elim, by simp⟩, by simp⟩
  | other =>
    refine ⟨?_, ?_, fun _ => rfl⟩
    · intro sp h; simp [fromAmbiguous] at h
    · simp [fromAmbiguous]

/-- C05 for lists: one result per argument, in order; the call raises iff some
argument is of no accepted kind. -/
theorem C05_list_from_ambiguous (items : List PathLike) (strip : Bool) (base : Option String) :
    (∀ sps, listFromAmbiguous (.inr items) strip base = .ok sps →
      items.map (fun item => fromAmbiguous item strip base) = sps.map Except.ok) ∧
    ((∃ e, listFromAmbiguous (.inr items) strip base = .error e) ↔ PathLike.other ∈ items) ∧
    (∀ item, listFromAmbiguous (.inl item) strip base = listFromAmbiguous (.inr [item]) strip base) := by
  refine ⟨?_, ?_, fun _ => rfl⟩
  · induction items with
    | nil => intro sps h; simp [listFromAmbiguous, listFromAmbiguousLoop] at h; subst h; rfl
    | cons item items ih =>
      intro sps h
      simp only [listFromAmbiguous, listFromAmbiguousLoop] at h ih
      cases h1 : fromAmbiguous item strip base with
      | error e => rw [h1] at h; cases h
      | ok sp =>
        rw [h1] at h
        cases h2 : listFromAmbiguousLoop strip base items with
        | error e => rw [h2] at h; cases h
        | ok rest =>
          rw [h2] at h
          cases h
          simp only [List.map_cons, h1, ih rest h2]
  · induction items with
    | nil => simp [listFromAmbiguous, listFromAmbiguousLoop]
    | cons item items ih =>
      simp only [listFromAmbiguous, listFromAmbiguousLoop] at ih ⊢
      have hone := (C05_from_ambiguous item strip base).2.1
      cases h1 : fromAmbiguous item strip base with
      | error e =>
        have : item = .other := hone.1 ⟨e, h1⟩
        subst this
        constructor
        · intro _; simp
        · intro _; exact ⟨e, rfl⟩
      | ok sp =>
        have hno : item ≠ .other := by
          intro hh
          obtain ⟨e, he⟩ := hone.2 hh
          rw [h1] at he; cases he
        rw [List.mem_cons, or_iff_right (Ne.symm hno), ← ih]
        cases h2 : listFromAmbiguousLoop strip base items with
        | error e => exact ⟨fun _ => ⟨e, rfl⟩, fun _ => ⟨e, rfl⟩⟩
        | ok rest =>
          constructor
          · rintro ⟨e, he⟩; cases he
          · rintro ⟨e, he⟩; cases he

example : listFromAmbiguous (.inr [.view "pm.a.b", .str "c.d", .path ⟨"e"⟩]) true (some "base") =
    .ok [⟨"base.a.b"⟩, ⟨"base.c.d"⟩, ⟨"base.e"⟩] ∧
    listFromAmbiguous (.inr [.str "a", .other, .str "b"]) true none = .error .valueError := by
  decide

end Verif.Props

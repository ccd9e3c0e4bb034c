import Verif.Model.Imports

/-
Property theorems about import statements: C44, C58.
-/

namespace Verif.Props
open Verif.Py Verif.Model

/-! ### Specification -/

/-- What a name can be bound to by an import: a module, or a member of a module (of a relative
import, with its level). -/
inductive Thing where
  | module (m : String)
  | member (level : Nat) (m : Option String) (o : String)
deriving DecidableEq, Repr

/-- What an import statement provides: a name (for `import a.b`, the expression `a.b`) and what it
means. -/
def provides : ImportNode → List (String × Thing)
  | .import_ aliases => aliases.map (fun a => (a.2.getD a.1, .module a.1))
  | .from_ m level aliases => aliases.map (fun a => (a.2.getD a.1, .member level m a.1))

/-- The names of an import statement, each with the name after `as`. -/
def aliasesOf : ImportNode → List (String × Option String)
  | .import_ aliases => aliases
  | .from_ _ _ aliases => aliases

/-- No name occurs twice with different names after `as`. -/
def Clean (n : ImportNode) : Prop := ∀ a ∈ aliasesOf n, ∀ b ∈ aliasesOf n, a.1 = b.1 → a.2 = b.2

/-- One `name` or `name as newName`. -/
def readAlias (s : String) : Option (String × Option String) :=
  match (split ' ' s).filter (fun w => decide (w ≠ "")) with
  | [n] => some (n, none)
  | [n, "as", k] => some (n, some k)
  | _ => none

/-- A module with leading dots. -/
def readModule (s : String) : Option String × Nat :=
  let dots := s.toList.takeWhile (· == '.')
  let rest := String.ofList (s.toList.dropWhile (· == '.'))
  (if rest = "" then none else some rest, dots.length)

/-- Read an import statement on one line. -/
def readImport (line : String) : Option ImportNode :=
  match split ' ' line with
  | "import" :: ws => ((split ',' (join ' ' ws)).mapM readAlias).map .import_
  | "from" :: m :: "import" :: ws =>
    ((split ',' (join ' ' ws)).mapM readAlias).map (.from_ (readModule m).1 (readModule m).2)
  | _ => none

/-- A name as Python has them in imports: not empty, neither blanks nor commas, no leading dot. -/
def PlainImportName (s : String) : Prop :=
  s ≠ "" ∧ ' ' ∉ s.toList ∧ ',' ∉ s.toList ∧ s.toList.head? ≠ some '.'

/-- All names of a statement are plain. -/
structure PlainImp (i : Imp) : Prop where
  names : i.names ≠ [] ∧ ∀ n ∈ i.names, PlainImportName n
  renames : ∀ r ∈ i.renames, PlainImportName r.item ∧ PlainImportName r.newName
  source : ∀ m, i.source = some m → PlainImportName m

/-- The name a statement gives to one of its names when it is written: that of the last rename. -/
def asName (i : Imp) (n : String) : Option String :=
  (i.renames.reverse.find? (fun r => decide (r.item = n))).map Rename.newName

/-- The statement in a file that a written statement is. -/
def written (i : Imp) : ImportNode :=
  match i.source with
  | none => .import_ (i.names.map (fun n => (n, asName i n)))
  | some m => .from_ (some m) 0 (i.names.map (fun n => (n, asName i n)))

/-- What the statements of a container provide when they are written. -/
def provided (is : List Imp) : List (String × Thing) := is.flatMap (fun i => provides (written i))

/-- The statement was read from a file, or from a text. -/
def ReadFrom (i : Imp) (n : ImportNode) : Prop := ∃ b, (Imp.ofNode n).map (fun j => { j with preferBeginning := b }) = .ok i

/-! ### Lemmas -/

theorem lastRename_eq (rs : List Rename) (n : String) :
    lastRename rs n = rs.reverse.find? (fun r => decide (r.item = n)) := by
  unfold lastRename
  rw [List.getLast?_eq_head?_reverse, ← List.filter_reverse, List.head?_filter]

theorem joinS_comma (x : String) (xs : List String) :
    joinS ", " (x :: xs) = join ',' (x :: xs.map (" " ++ ·)) := by
  have key : ∀ (xs : List String) (x : String),
      (joinS ", " (x :: xs)).toList = joinL ',' ((x :: xs.map (" " ++ ·)).map String.toList) := by
    intro xs
    induction xs with
    | nil => intro x; rfl
    | cons y ys ih =>
      intro x
      rw [joinS]
      simp only [String.toList_append, List.map_cons, joinL]
      have h2 := ih y
      simp only [List.map_cons] at h2
      rw [h2]
      cases ys with
      | nil => simp [joinL]
      | cons z zs => simp [joinL]
  unfold join
  rw [← key xs x, String.ofList_toList]

theorem split_cons (sep : Char) {w : String} (h : sep ∉ w.toList) (rest : String) :
    split sep (w ++ String.ofList [sep] ++ rest) = w :: split sep rest := by
  unfold split
  simp only [String.toList_append, String.toList_ofList, List.append_assoc, List.singleton_append]
  rw [splitL_append_sep sep h]
  simp

theorem split_single (sep : Char) {w : String} (h : sep ∉ w.toList) : split sep w = [w] := by
  unfold split
  rw [splitL_of_not_mem sep h]
  simp

theorem not_mem_lit {c : Char} {s : String} (h : s.toList.contains c = false) : c ∉ s.toList := by
  intro hc
  have := List.contains_iff_mem.2 hc
  rw [h] at this
  cases this

theorem readAlias_renamedName {rs : List Rename} {n : String} (hn : PlainImportName n)
    (hr : ∀ r ∈ rs, PlainImportName r.item ∧ PlainImportName r.newName) (pre : String) (hpre : pre = "" ∨ pre = " ") :
    readAlias (pre ++ renamedName rs n) = some (n, (lastRename rs n).map Rename.newName) := by
  have hfilter : ∀ w : String, (split ' ' (pre ++ w)).filter (fun w => decide (w ≠ "")) =
      (split ' ' w).filter (fun w => decide (w ≠ "")) := by
    intro w
    rcases hpre with rfl | rfl
    · simp
    · have := split_cons ' ' (w := "") (by simp) w
      have e : "" ++ String.ofList [' '] ++ w = " " ++ w := by
        rw [String.empty_append]
      rw [e] at this
      rw [this]
      simp
  unfold readAlias
  rw [hfilter]
  unfold renamedName
  cases hl : lastRename rs n with
  | none =>
    simp only [Option.map_none]
    rw [split_single ' ' hn.2.1]
    simp [hn.1]
  | some r =>
    have hm : r ∈ rs ∧ r.item = n := by
      rw [lastRename_eq] at hl
      refine ⟨List.mem_reverse.1 (List.mem_of_find?_eq_some hl), by simpa using List.find?_some hl⟩
    obtain ⟨hi, hk⟩ := hr r hm.1
    simp only [Option.map_some]
    have e : r.item ++ " as " ++ r.newName =
        r.item ++ String.ofList [' '] ++ ("as" ++ String.ofList [' '] ++ r.newName) := by
      have : " as " = String.ofList [' '] ++ ("as" ++ String.ofList [' ']) := rfl
      rw [this]
      simp only [String.append_assoc]
    rw [e, split_cons ' ' hi.2.1, split_cons ' ' (by decide), split_single ' ' hk.2.1, hm.2]
    simp [hn.1, hk.1]

theorem comma_not_mem_renamedName {rs : List Rename} {n : String} (hn : PlainImportName n)
    (hr : ∀ r ∈ rs, PlainImportName r.item ∧ PlainImportName r.newName) : ',' ∉ (renamedName rs n).toList := by
  unfold renamedName
  cases hl : lastRename rs n with
  | none => exact hn.2.2.1
  | some r =>
    have hm : r ∈ rs := by
      rw [lastRename_eq] at hl
      exact List.mem_reverse.1 (List.mem_of_find?_eq_some hl)
    obtain ⟨hi, hk⟩ := hr r hm
    simp only [String.toList_append, List.mem_append, not_or]
    exact ⟨⟨hi.2.2.1, by decide⟩, hk.2.2.1⟩

theorem mapM_some {α β : Type} {f : α → Option β} {g : α → β} {xs : List α} (h : ∀ x ∈ xs, f x = some (g x)) :
    xs.mapM f = some (xs.map g) := by
  induction xs with
  | nil => rfl
  | cons x xs ih =>
    rw [List.mapM_cons, h x List.mem_cons_self, ih (fun y hy => h y (List.mem_cons_of_mem _ hy))]
    rfl

theorem readAliases {rs : List Rename} {ns : List String} (hne : ns ≠ []) (hn : ∀ n ∈ ns, PlainImportName n)
    (hr : ∀ r ∈ rs, PlainImportName r.item ∧ PlainImportName r.newName) :
    (split ',' (joinS ", " (ns.map (renamedName rs)))).mapM readAlias =
      some (ns.map (fun n => (n, (lastRename rs n).map Rename.newName))) := by
  cases ns with
  | nil => exact absurd rfl hne
  | cons n ns =>
    rw [List.map_cons, joinS_comma, split_join ',' (by simp)]
    · rw [List.mapM_cons]
      have h1 := readAlias_renamedName (hn n List.mem_cons_self) hr "" (.inl rfl)
      rw [String.empty_append] at h1
      rw [h1, List.map_map]
      have h2 : (ns.map ((" " ++ ·) ∘ renamedName rs)).mapM readAlias =
          some (ns.map (fun n => (n, (lastRename rs n).map Rename.newName))) := by
        rw [List.mapM_map]
        apply mapM_some
        intro x hx
        exact readAlias_renamedName (hn x (List.mem_cons_of_mem _ hx)) hr " " (.inr rfl)
      rw [h2]
      rfl
    · intro x hx
      rw [hasChar, Bool.eq_false_iff, ne_eq, List.contains_iff_mem]
      rcases List.mem_cons.1 hx with rfl | hx
      · exact comma_not_mem_renamedName (hn n List.mem_cons_self) hr
      · rw [List.map_map] at hx
        obtain ⟨y, hy, rfl⟩ := List.mem_map.1 hx
        simp only [Function.comp, String.toList_append, List.mem_append, not_or]
        exact ⟨by decide, comma_not_mem_renamedName (hn y (List.mem_cons_of_mem _ hy)) hr⟩

theorem readModule_plain {m : String} (h : PlainImportName m) : readModule m = (some m, 0) := by
  unfold readModule
  have h1 := h.2.2.2
  have e : m.toList.takeWhile (· == '.') = [] ∧ m.toList.dropWhile (· == '.') = m.toList := by
    cases hm : m.toList with
    | nil => simp
    | cons c cs =>
      rw [hm] at h1
      have : (c == '.') = false := by simpa using h1
      simp [List.takeWhile, List.dropWhile, this]
  simp [e.1, e.2, h.1]

/-! ## C44 -/

/-- C44. Python reads back a written import statement as the statement with the last rename of each
name. -/
theorem C44_read_back (i : Imp) (h : PlainImp i) : readImport i.str = some (written i) := by
  have ha := readAliases h.names.1 h.names.2 h.renames
  have has : (fun n => (n, (lastRename i.renames n).map Rename.newName)) = fun n => (n, asName i n) := by
    funext n
    rw [asName, lastRename_eq]
  rw [has] at ha
  cases hs : i.source with
  | none =>
    have e : i.str = "import" ++ String.ofList [' '] ++ joinS ", " (i.names.map (renamedName i.renames)) := by
      unfold Imp.str
      rw [hs]
      rfl
    rw [e]
    unfold readImport written
    rw [split_cons ' ' (by decide)]
    simp only [hs]
    rw [join_split, ha]
    rfl
  | some m =>
    have hm := h.source m hs
    have e : i.str = "from" ++ String.ofList [' '] ++ (m ++ String.ofList [' '] ++ ("import" ++ String.ofList [' '] ++
          joinS ", " (i.names.map (renamedName i.renames)))) := by
      have e1 : "from " = "from" ++ String.ofList [' '] := rfl
      have e2 : " import " = String.ofList [' '] ++ ("import" ++ String.ofList [' ']) := rfl
      unfold Imp.str
      rw [hs]
      simp only
      rw [e1, e2]
      simp only [String.append_assoc]
    rw [e]
    unfold readImport written
    rw [split_cons ' ' (by decide), split_cons ' ' hm.2.1, split_cons ' ' (by decide)]
    simp only [hs]
    rw [join_split, ha, readModule_plain hm]
    rfl

example : readImport (Imp.str ⟨some "a.b", ["x", "y"], [⟨"y", "z"⟩], false⟩) =
    some (.from_ (some "a.b") 0 [("x", none), ("y", some "z")]) := by decide +kernel

theorem covers_self (i : Imp) : i.covers i = true := by
  unfold Imp.covers
  simp

theorem hasImport_addImport (is : List Imp) (item : Imp) : hasImport (addImport is item) item = true := by
  unfold addImport
  split
  · assumption
  · split
    · simp [hasImport, covers_self]
    · simp [hasImport, covers_self]

/-- C44. Adding an import again changes nothing. -/
theorem C44_again (is : List Imp) (item : Imp) : addImport (addImport is item) item = addImport is item := by
  rw [addImport, if_pos (hasImport_addImport is item)]

/-- C44. Existing imports are kept in order; at most the added one is new, at the beginning or at the
end. -/
theorem C44_kept (is : List Imp) (item : Imp) :
    addImport is item = is ∨ addImport is item = item :: is ∨ addImport is item = is ++ [item] := by
  unfold addImport
  split
  · exact .inl rfl
  · split
    · exact .inr (.inl rfl)
    · exact .inr (.inr rfl)

theorem mem_renamesOf {as : List (String × Option String)} {r : Rename} :
    r ∈ renamesOf as ↔ (r.item, some r.newName) ∈ as := by
  unfold renamesOf
  rw [List.mem_filterMap]
  constructor
  · rintro ⟨⟨n, k⟩, ha, hr⟩
    cases k with
    | none => cases hr
    | some k =>
      cases hr
      exact ha
  · intro h
    exact ⟨_, h, rfl⟩

/-- What is known of a statement read from a file. -/
theorem readFrom_fields {i : Imp} {n : ImportNode} (h : ReadFrom i n) :
    i.names = (aliasesOf n).map Prod.fst ∧ i.renames = renamesOf (aliasesOf n) ∧
    ∀ level m as, n = .from_ m level as → i.source = m ∧ m ≠ none := by
  obtain ⟨b, h⟩ := h
  cases n with
  | import_ as =>
    cases h
    exact ⟨rfl, rfl, fun _ _ _ h => by cases h⟩
  | from_ m level as =>
    cases m with
    | none => cases h
    | some m =>
      cases h
      exact ⟨rfl, rfl, fun _ _ _ h => by cases h; exact ⟨rfl, by simp⟩⟩

/-- The name a name is written with, for a statement without a name with two new names. -/
theorem asName_of_clean {i : Imp} {n : ImportNode} (h : ReadFrom i n) (hc : Clean n) {x : String} {k : Option String}
    (hx : (x, k) ∈ aliasesOf n) : asName i x = k := by
  obtain ⟨_, hr, _⟩ := readFrom_fields h
  unfold asName
  rw [hr]
  cases hf : (renamesOf (aliasesOf n)).reverse.find? (fun r => decide (r.item = x)) with
  | none =>
    cases k with
    | none => rfl
    | some k =>
      have hm : (⟨x, k⟩ : Rename) ∈ (renamesOf (aliasesOf n)).reverse := List.mem_reverse.2 (mem_renamesOf.2 hx)
      have := List.find?_eq_none.1 hf _ hm
      simp at this
  | some r =>
    have hm := mem_renamesOf.1 (List.mem_reverse.1 (List.mem_of_find?_eq_some hf))
    have hi : r.item = x := by simpa using List.find?_some hf
    have := hc _ hm _ hx hi
    simp only at this
    rw [Option.map_some, this]

theorem provides_written_mem {i : Imp} {x y : String} (hx : x ∈ i.names) (hy : (asName i x).getD x = y) :
    (y, match i.source with | none => Thing.module x | some m => Thing.member 0 (some m) x) ∈ provides (written i) := by
  unfold written
  subst hy
  cases i.source with
  | none =>
    simp only [provides, List.mem_map]
    exact ⟨(x, asName i x), ⟨x, hx, rfl⟩, rfl⟩
  | some m =>
    simp only [provides, List.mem_map]
    exact ⟨(x, asName i x), ⟨x, hx, rfl⟩, rfl⟩

/-- C44, for imports that are not relative and without a name with two new names: after an import is
added if missing, the file provides every name of it that it gives a new name, and every other name
of it unless another import of the file from the same module gives that one a new name. -/
theorem C44_provided_partial (is : List Imp) (item : Imp) (node : ImportNode) (hi : ReadFrom item node) (hc : Clean node)
    (hlevel : ∀ m level as, node = .from_ m level as → level = 0)
    (his : ∀ i ∈ is, ∃ n, ReadFrom i n ∧ Clean n)
    (x : String) (t : Thing) (hx : (x, t) ∈ provides node)
    (hren : ∀ a ∈ aliasesOf node, a.2 = none → a.1 = x →
      ∀ i ∈ is, i.source = item.source → ∀ r ∈ i.renames, r.item ≠ x) :
    (x, t) ∈ provided (addImport is item) := by
  -- the statement of the file that covers the import
  have hcov : ∃ i ∈ addImport is item, i.covers item = true := by
    have := hasImport_addImport is item
    unfold hasImport at this
    rw [List.any_eq_true] at this
    exact this
  obtain ⟨i, himem, hcv⟩ := hcov
  have hin : i ∈ is ∨ i = item := by
    rcases C44_kept is item with h | h | h <;> rw [h] at himem
    · exact .inl himem
    · rcases List.mem_cons.1 himem with h | h
      · exact .inr h
      · exact .inl h
    · rcases List.mem_append.1 himem with h | h
      · exact .inl h
      · exact .inr (List.mem_singleton.1 h)
  have hread : ∃ n, ReadFrom i n ∧ Clean n := by
    rcases hin with h | h
    · exact his i h
    · exact ⟨node, h ▸ hi, hc⟩
  obtain ⟨n, hn, hnc⟩ := hread
  obtain ⟨hn1, hn2, _⟩ := readFrom_fields hn
  obtain ⟨hi1, hi2, hi3⟩ := readFrom_fields hi
  unfold Imp.covers at hcv
  simp only [Bool.and_eq_true, decide_eq_true_eq, List.all_eq_true] at hcv
  obtain ⟨⟨hsrc, hnames⟩, hrens⟩ := hcv
  -- the alias that provides the name
  have halias : ∃ a ∈ aliasesOf node, a.2.getD a.1 = x ∧
      t = (match i.source with | none => Thing.module a.1 | some m => Thing.member 0 (some m) a.1) := by
    cases node with
    | import_ as =>
      simp only [provides, List.mem_map] at hx
      obtain ⟨a, ha, he⟩ := hx
      cases he
      refine ⟨a, ha, rfl, ?_⟩
      obtain ⟨b, hb⟩ := hi
      cases hb
      rw [hsrc]
    | from_ m level as =>
      simp only [provides, List.mem_map] at hx
      obtain ⟨a, ha, he⟩ := hx
      cases he
      refine ⟨a, ha, rfl, ?_⟩
      obtain ⟨hs, hm⟩ := hi3 level m as rfl
      have hl := hlevel m level as rfl
      subst hl
      rw [hsrc, hs]
      cases m with
      | none => exact absurd rfl hm
      | some m => rfl
  obtain ⟨⟨a1, a2⟩, ha, hax, rfl⟩ := halias
  have hname : a1 ∈ i.names := hnames a1 (by rw [hi1]; exact List.mem_map.2 ⟨_, ha, rfl⟩)
  unfold provided
  rw [List.mem_flatMap]
  refine ⟨i, himem, provides_written_mem hname ?_⟩
  cases a2 with
  | some k =>
    have hr : (⟨a1, k⟩ : Rename) ∈ i.renames := hrens _ (by rw [hi2]; exact mem_renamesOf.2 ha)
    rw [hn2] at hr
    rw [asName_of_clean hn hnc (mem_renamesOf.1 hr)]
    exact hax
  | none =>
    have hax : a1 = x := hax
    subst hax
    rw [hn1] at hname
    obtain ⟨⟨b1, b2⟩, hb, hb1⟩ := List.mem_map.1 hname
    simp only at hb1
    subst hb1
    cases b2 with
    | none =>
      rw [asName_of_clean hn hnc hb]
      rfl
    | some k =>
      exfalso
      have hr : (⟨b1, k⟩ : Rename) ∈ i.renames := by rw [hn2]; exact mem_renamesOf.2 hb
      rcases hin with h | h
      · exact hren _ ha rfl rfl i h hsrc _ hr rfl
      · subst h
        rw [hi2] at hr
        have := hc _ ha _ (mem_renamesOf.1 hr) rfl
        cases this

/-- Non-vacuity, with a rename and a name that another import already has. -/
example : provided (addImport [⟨some "m", ["a", "b"], [⟨"b", "c"⟩], false⟩] ⟨some "m", ["b"], [⟨"b", "c"⟩], true⟩) =
    [("a", .member 0 (some "m") "a"), ("c", .member 0 (some "m") "b")] := by decide +kernel

/-- C44 fails if another import gives the name a new name: `from m import a` counts as there when the
file has `from m import a as b`. -/
theorem C44_renamed_violated :
    ∃ (is : List Imp) (item : Imp) (node : ImportNode), ReadFrom item node ∧ Clean node ∧
      (∀ i ∈ is, ∃ n, ReadFrom i n ∧ Clean n) ∧
      ("a", Thing.member 0 (some "m") "a") ∈ provides node ∧
      ∀ t, ("a", t) ∉ provided (addImport is item) := by
  refine ⟨[⟨some "m", ["a"], [⟨"a", "b"⟩], false⟩], ⟨some "m", ["a"], [], false⟩, .from_ (some "m") 0 [("a", none)],
    ⟨false, rfl⟩, by simp [Clean, aliasesOf], ?_, by decide, ?_⟩
  · intro i hi
    rw [List.mem_singleton] at hi
    subst hi
    exact ⟨.from_ (some "m") 0 [("a", some "b")], ⟨false, rfl⟩, by simp [Clean, aliasesOf]⟩
  · intro t
    have : provided (addImport [⟨some "m", ["a"], [⟨"a", "b"⟩], false⟩] ⟨some "m", ["a"], [], false⟩) =
      [("b", .member 0 (some "m") "a")] := by decide +kernel
    rw [this]
    simp

/-- C44 fails for a name with two new names: writing a file with `from m import a as b, a as c` loses
`b`. -/
theorem C44_two_names_violated :
    ∃ (i : Imp) (node : ImportNode), ReadFrom i node ∧ ("b", Thing.member 0 (some "m") "a") ∈ provides node ∧
      ∀ t, ("b", t) ∉ provided [i] := by
  refine ⟨⟨some "m", ["a", "a"], [⟨"a", "b"⟩, ⟨"a", "c"⟩], false⟩,
    .from_ (some "m") 0 [("a", some "b"), ("a", some "c")], ⟨false, rfl⟩, by decide, ?_⟩
  intro t
  have : provided [⟨some "m", ["a", "a"], [⟨"a", "b"⟩, ⟨"a", "c"⟩], false⟩] =
    [("c", .member 0 (some "m") "a"), ("c", .member 0 (some "m") "a")] := by decide +kernel
  rw [this]
  simp

/-- C44 fails for relative imports: writing a file with `from .m import a` makes it `from m import a`;
and a file with `from . import a` cannot be read at all. -/
theorem C44_relative_violated :
    (∃ (i : Imp) (node : ImportNode), ReadFrom i node ∧ provides node = [("a", .member 1 (some "m") "a")] ∧
      provided [i] = [("a", .member 0 (some "m") "a")]) ∧
    ∀ level as, Imp.ofNode (.from_ none level as) = .error .importError :=
  ⟨⟨⟨some "m", ["a"], [], false⟩, .from_ (some "m") 1 [("a", none)], ⟨false, rfl⟩, rfl, by decide +kernel⟩,
    fun _ _ => rfl⟩

/-! ## C58 -/

/-- The first statement that mentions a name, as a name or as a new name. -/
def mentions (i : Imp) (name : String) : Prop := name ∈ i.names ∨ ∃ r ∈ i.renames, r.newName = name

theorem mem_newNames {rs : List Rename} {name : String} : name ∈ newNames rs ↔ ∃ r ∈ rs, r.newName = name := by
  unfold newNames
  rw [List.mem_map]

/-- C58. An import is found exactly for the names that some import mentions; otherwise looking for it
raises an exception. -/
theorem C58_found_iff (is : List Imp) (name : String) :
    (∃ i, getImport is name = .ok i) ↔ ∃ i ∈ is, mentions i name := by
  induction is with
  | nil => simp [getImport]
  | cons i is ih =>
    rw [getImport]
    by_cases h1 : name ∈ i.names
    · simp [h1, mentions]
    · rw [if_neg h1]
      by_cases h2 : name ∈ newNames i.renames
      · simp only [if_pos h2]
        refine ⟨fun _ => ⟨i, List.mem_cons_self, .inr (mem_newNames.1 h2)⟩, fun _ => ⟨_, rfl⟩⟩
      · rw [if_neg h2, ih]
        constructor
        · rintro ⟨j, hj, hm⟩
          exact ⟨j, List.mem_cons_of_mem _ hj, hm⟩
        · rintro ⟨j, hj, hm⟩
          rcases List.mem_cons.1 hj with rfl | hj
          · rcases hm with hm | hm
            · exact absurd hm h1
            · exact absurd (mem_newNames.2 hm) h2
          · exact ⟨j, hj, hm⟩

/-- C58. The import found for a name binds exactly that name. -/
theorem C58_binds (is : List Imp) (name : String) (i : Imp) (h : getImport is name = .ok i) :
    ∃ t, provides (written i) = [(name, t)] := by
  induction is with
  | nil => cases h
  | cons j is ih =>
    rw [getImport] at h
    by_cases h1 : name ∈ j.names
    · rw [if_pos h1] at h
      cases h
      cases hs : j.source with
      | none => exact ⟨.module name, by simp [written, provides, asName]⟩
      | some m => exact ⟨.member 0 (some m) name, by simp [written, provides, asName]⟩
    · rw [if_neg h1] at h
      by_cases h2 : name ∈ newNames j.renames
      · rw [if_pos h2] at h
        cases h
        -- the rename that is found is one to the name
        have hne : j.renames.filter (fun r => decide (r.newName = name)) ≠ [] := by
          obtain ⟨r, hr, hn⟩ := mem_newNames.1 h2
          intro he
          have : r ∈ j.renames.filter (fun r => decide (r.newName = name)) := List.mem_filter.2 ⟨hr, by simpa using hn⟩
          rw [he] at this
          cases this
        have hlast : ∃ r, (j.renames.filter (fun r => decide (r.newName = name))).getLast? = some r := by
          cases hl : (j.renames.filter (fun r => decide (r.newName = name))).getLast? with
          | none => exact absurd (List.getLast?_eq_none_iff.1 hl) hne
          | some r => exact ⟨r, rfl⟩
        obtain ⟨r, hr⟩ := hlast
        have ho : originalOf j.renames name = r.item := by
          unfold originalOf
          rw [hr]
        have has : ∀ b, asName ⟨j.source, [originalOf j.renames name],
            j.renames.filter (fun r => decide (r.newName = name)), b⟩ (originalOf j.renames name) = some name := by
          intro b
          unfold asName
          have hm : r ∈ j.renames.filter (fun r => decide (r.newName = name)) := List.mem_of_getLast? hr
          cases hf : (j.renames.filter (fun r => decide (r.newName = name))).reverse.find?
              (fun r => decide (r.item = originalOf j.renames name)) with
          | none =>
            have := List.find?_eq_none.1 hf r (List.mem_reverse.2 hm)
            simp [ho] at this
          | some r' =>
            have hm' := List.mem_reverse.1 (List.mem_of_find?_eq_some hf)
            rw [List.mem_filter] at hm'
            simp only [decide_eq_true_eq] at hm'
            simp only [Option.map_some, hm'.2]
        cases hs : j.source with
        | none =>
          refine ⟨.module (originalOf j.renames name), ?_⟩
          have := has false
          rw [hs] at this
          simp [written, provides, this]
        | some m =>
          refine ⟨.member 0 (some m) (originalOf j.renames name), ?_⟩
          have := has false
          rw [hs] at this
          simp [written, provides, this]
      · rw [if_neg h2] at h
        exact ih h

/-- C58, if no import gives the name a new name and no import has two new names for one name: the
found import binds the name to something that an import of the file binds it to. -/
theorem C58_same_partial (is : List Imp) (name : String) (i : Imp) (h : getImport is name = .ok i)
    (his : ∀ j ∈ is, ∃ n, ReadFrom j n ∧ Clean n) (hren : ∀ j ∈ is, ∀ r ∈ j.renames, r.item ≠ name) :
    ∃ t, provides (written i) = [(name, t)] ∧ (name, t) ∈ provided is := by
  obtain ⟨t, ht⟩ := C58_binds is name i h
  refine ⟨t, ht, ?_⟩
  induction is with
  | nil => cases h
  | cons j is ih =>
    unfold provided
    rw [List.flatMap_cons, List.mem_append]
    rw [getImport] at h
    obtain ⟨n, hn, hc⟩ := his j List.mem_cons_self
    obtain ⟨hn1, hn2, _⟩ := readFrom_fields hn
    by_cases h1 : name ∈ j.names
    · rw [if_pos h1] at h
      cases h
      left
      have hno : asName j name = none := by
        unfold asName
        rw [Option.map_eq_none_iff, List.find?_eq_none]
        intro r hr
        simpa using hren j List.mem_cons_self r (List.mem_reverse.1 hr)
      have := provides_written_mem h1 (y := name) (by rw [hno]; rfl)
      revert this ht
      cases j.source with
      | none =>
        intro ht this
        simp [written, provides, asName] at ht
        rw [← ht]
        exact this
      | some m =>
        intro ht this
        simp [written, provides, asName] at ht
        rw [← ht]
        exact this
    · rw [if_neg h1] at h
      by_cases h2 : name ∈ newNames j.renames
      · rw [if_pos h2] at h
        cases h
        left
        have hmem : ∃ r ∈ j.renames, r.item = originalOf j.renames name ∧ r.newName = name := by
          obtain ⟨r, hr, hrn⟩ := mem_newNames.1 h2
          unfold originalOf
          cases hl : (j.renames.filter (fun r => decide (r.newName = name))).getLast? with
          | none =>
            rw [List.getLast?_eq_none_iff] at hl
            have : r ∈ j.renames.filter (fun r => decide (r.newName = name)) :=
              List.mem_filter.2 ⟨hr, by simpa using hrn⟩
            rw [hl] at this
            cases this
          | some r' =>
            have := List.mem_filter.1 (List.mem_of_getLast? hl)
            exact ⟨r', this.1, rfl, by simpa using this.2⟩
        obtain ⟨r, hr, hi, hrn⟩ := hmem
        have hal : (r.item, some name) ∈ aliasesOf n := by
          rw [← hrn]
          exact mem_renamesOf.1 (hn2 ▸ hr)
        have hin : r.item ∈ j.names := by
          rw [hn1]
          exact List.mem_map.2 ⟨_, hal, rfl⟩
        have := provides_written_mem hin (y := name) (by rw [asName_of_clean hn hc hal]; rfl)
        have ht2 : ∀ (src : Option String) (rs : List Rename),
            provides (written ⟨src, [originalOf j.renames name], rs, false⟩) = [(name, t)] →
            t = (match src with
              | none => Thing.module (originalOf j.renames name)
              | some m => Thing.member 0 (some m) (originalOf j.renames name)) := by
          intro src rs h
          cases src with
          | none =>
            simp only [written, provides, List.map_cons, List.map_nil, List.cons.injEq, Prod.mk.injEq] at h
            exact h.1.2.symm
          | some m =>
            simp only [written, provides, List.map_cons, List.map_nil, List.cons.injEq, Prod.mk.injEq] at h
            exact h.1.2.symm
        rw [ht2 _ _ ht, ← hi]
        exact this
      · rw [if_neg h2] at h
        right
        exact ih h (fun k hk => his k (List.mem_cons_of_mem _ hk)) (fun k hk => hren k (List.mem_cons_of_mem _ hk))

/-- Non-vacuity. -/
example : getImport [⟨none, ["os"], [], false⟩, ⟨some "m", ["a", "b"], [⟨"b", "c"⟩], false⟩] "c" =
    .ok ⟨some "m", ["b"], [⟨"b", "c"⟩], false⟩ := by decide +kernel

/-- C58 fails if an import gives the name a new name: for `a` in a file with only
`from m import a as b`, an import of `a` from `m` is found although `a` is not bound in the file. -/
theorem C58_renamed_violated :
    ∃ (is : List Imp) (i : Imp), (∀ j ∈ is, ∃ n, ReadFrom j n ∧ Clean n) ∧ getImport is "a" = .ok i ∧
      provides (written i) = [("a", .member 0 (some "m") "a")] ∧ ∀ t, ("a", t) ∉ provided is := by
  refine ⟨[⟨some "m", ["a"], [⟨"a", "b"⟩], false⟩], ⟨some "m", ["a"], [], false⟩, ?_, rfl, by decide +kernel, ?_⟩
  · intro i hi
    rw [List.mem_singleton] at hi
    subst hi
    exact ⟨.from_ (some "m") 0 [("a", some "b")], ⟨false, rfl⟩, by simp [Clean, aliasesOf]⟩
  · intro t
    have : provided [⟨some "m", ["a"], [⟨"a", "b"⟩], false⟩] = [("b", .member 0 (some "m") "a")] := by decide +kernel
    rw [this]
    simp

/-- C58 fails if several imports bind the name: the last one counts in Python, the first one is
found. -/
theorem C58_first_violated :
    ∃ (is : List Imp) (i : Imp), getImport is "a" = .ok i ∧ provides (written i) = [("a", .member 0 (some "m") "a")] ∧
      (provided is).getLast? = some ("a", .member 0 (some "n") "a") :=
  ⟨[⟨some "m", ["a"], [], false⟩, ⟨some "n", ["a"], [], false⟩], ⟨some "m", ["a"], [], false⟩, rfl,
    by decide +kernel, by decide +kernel⟩

/-- A name without a dot counts as imported exactly if an import from a module mentions it; a name `m.x` exactly if `m` is
mentioned by an import of modules, or `x` by an import from any module. -/
theorem C58_imported_name (is : List Imp) (x : String) (hx : '.' ∉ x.toList) :
    (objNameImported is x = true ↔ ∃ i ∈ is, i.source ≠ none ∧ mentions i x) ∧
    ∀ ps : List String, ps ≠ [] → (∀ p ∈ ps, '.' ∉ p.toList) →
      (objNameImported is (join '.' (ps ++ [x])) = true ↔
        ∃ i ∈ is, (i.source = none ∧ mentions i (join '.' ps)) ∨ (i.source ≠ none ∧ mentions i x)) := by
  have hmem : ∀ (i : Imp) (y : String), (decide (y ∈ i.names) || decide (y ∈ newNames i.renames)) = true ↔ mentions i y := by
    intro i y
    rw [Bool.or_eq_true, decide_eq_true_eq, decide_eq_true_eq, mem_newNames]
    rfl
  constructor
  · unfold objNameImported
    rw [split_single '.' hx]
    simp only [List.length_singleton, ne_eq, not_true, if_false, List.getLastD_cons, List.getLastD_nil]
    rw [List.any_eq_true]
    refine exists_congr fun i => and_congr_right fun _ => ?_
    cases i.source with
    | none => simp
    | some m => simpa using hmem i x
  · intro ps hne hps
    unfold objNameImported
    have hsp : split '.' (join '.' (ps ++ [x])) = ps ++ [x] := by
      refine split_join '.' (by simp) ?_
      intro p hp
      rcases List.mem_append.1 hp with hp | hp
      · simpa [hasChar] using hps p hp
      · rw [List.mem_singleton.1 hp]
        simpa [hasChar] using hx
    rw [hsp]
    have hlen : (ps ++ [x]).length ≠ 1 := by
      cases ps with
      | nil => exact absurd rfl hne
      | cons p ps => simp
    simp only [if_pos hlen, List.dropLast_concat]
    rw [List.any_eq_true]
    refine exists_congr fun i => and_congr_right fun _ => ?_
    cases i.source with
    | none => simpa using hmem i (join '.' ps)
    | some m => simpa using hmem i x

/-- Non-vacuity: `import os` does not import an object `os`, but it imports `os.path`; any `path` from a module counts
as `os.path` too. -/
example : objNameImported [⟨none, ["os"], [], false⟩] "os" = false ∧ objNameImported [⟨none, ["os"], [], false⟩] "os.path" = true
    ∧ objNameImported [⟨some "lib", ["path"], [], false⟩] "os.path" = true := by decide +kernel

end Verif.Props

import Verif.Props.Files

/-
A small language for which the laws used in `Props/Files.lean` hold, and the files for which the
properties C41, C42 and C43 fail.  The files are accepted by Python as well, with the same meaning;
where the expressions are written without blanks, this is for the small language only.
-/

namespace Verif.Props
open Verif.Py Verif.Model

/-! ### The small language -/

/-- A target: a name, an attribute, or a subscript. -/
def toyTarget (x : String) : Target :=
  if x.toList.contains '[' then .other x
  else if x.toList.contains '.' then .attribute x
  else .name x

/-- One line: an import, nothing (blank, or a comment), or an assignment, with blanks between the
words. -/
def toyLine (l : String) : Except PyErr Mod :=
  match readImport l with
  | some n => .ok ⟨[n], []⟩
  | none =>
    if l.toList.all pySpace || l.toList.head? == some '#' then .ok ⟨[], []⟩
    else match split ' ' l with
      | [x, "=", v] => .ok ⟨[], [.assign [toyTarget x] v]⟩
      | [x, "=", y, "=", v] => .ok ⟨[], [.assign [toyTarget x, toyTarget y] v]⟩
      | [x, ":", a, "=", v] => .ok ⟨[], [.ann (toyTarget x) a (some v)]⟩
      | _ => .error .syntaxError

/-- All lines. -/
def toyParse : List String → Except PyErr Mod
  | [] => .ok ⟨[], []⟩
  | l :: ls => match toyLine l, toyParse ls with
    | .ok m, .ok n => .ok (m.append n)
    | _, _ => .error .syntaxError

/-- The source of an assignment. -/
def toySource : Target → Option Expr → Option Expr → List String
  | .name x, none, some v => [join ' ' [x, "=", v]]
  | .name x, some a, some v => [join ' ' [x, ":", a, "=", v]]
  | _, _, _ => ["?"]

def toy : Lang := ⟨toyParse, toySource⟩

/-- A word of the small language. -/
def Word (w : String) : Prop := w ≠ "" ∧ ' ' ∉ w.toList ∧ '\n' ∉ w.toList

/-- Parameters that can be written. -/
def ToyOk (x : String) (a : Option Expr) (v : Expr) : Prop :=
  Word x ∧ Word v ∧ (∀ t, a = some t → Word t) ∧ x ≠ "import" ∧ x ≠ "from" ∧ x.toList.head? ≠ some '#' ∧
    '[' ∉ x.toList ∧ '.' ∉ x.toList

/-- Imports that can be written. -/
def ToyIm (i : Imp) : Prop := PlainImp i ∧ hasChar '\n' i.str = false

theorem toyParse_append {a b : List String} {m n : Mod} (ha : toyParse a = .ok m) (hb : toyParse b = .ok n) :
    toyParse (a ++ b) = .ok ⟨m.imports ++ n.imports, m.assigns ++ n.assigns⟩ := by
  induction a generalizing m with
  | nil => cases ha; simpa using hb
  | cons l a ih =>
    rw [toyParse] at ha
    rw [List.cons_append, toyParse]
    cases hl : toyLine l with
    | error e => rw [hl] at ha; cases ha
    | ok x =>
      cases hla : toyParse a with
      | error e => rw [hl, hla] at ha; cases ha
      | ok y =>
        rw [hl, hla] at ha
        cases ha
        rw [ih hla]
        simp [Model.Mod.append]

theorem toyParse_one {l : String} {m : Mod} (h : toyLine l = .ok m) : toyParse [l] = .ok m := by
  rw [toyParse, h]
  simp [toyParse, Model.Mod.append]

theorem noSpace {w : String} (h : Word w) : hasChar ' ' w = false := by
  unfold hasChar
  rw [Bool.eq_false_iff, ne_eq, List.contains_iff_mem]
  exact h.2.1

theorem mem_join_of_mem {sep : Char} {ws : List String} {w : String} (hw : w ∈ ws) {c : Char} (hc : c ∈ w.toList) :
    c ∈ (join sep ws).toList := by
  induction ws with
  | nil => cases hw
  | cons x xs ih =>
    cases xs with
    | nil =>
      rw [List.mem_singleton] at hw
      subst hw
      rw [join_singleton]
      exact hc
    | cons y ys =>
      have := join_append sep (as := [x]) (bs := y :: ys) (by simp) (by simp)
      rw [List.singleton_append, join_singleton] at this
      rw [this]
      simp only [String.toList_append, List.mem_append]
      rcases List.mem_cons.1 hw with rfl | hw
      · exact .inl (.inl hc)
      · exact .inr (ih hw)

theorem head_join {sep : Char} {x y : String} {ys : List String} (hx : x ≠ "") :
    (join sep (x :: y :: ys)).toList.head? = x.toList.head? := by
  have := join_append sep (as := [x]) (bs := y :: ys) (by simp) (by simp)
  rw [List.singleton_append, join_singleton] at this
  rw [this]
  simp only [String.toList_append, List.append_assoc]
  rw [List.head?_append]
  cases hh : x.toList.head? with
  | none =>
    rw [List.head?_eq_none_iff] at hh
    exact absurd (String.toList_inj.1 hh) hx
  | some c => rfl

theorem mem_join {sep : Char} {ws : List String} {c : Char} (h : c ∈ (join sep ws).toList) (hs : c ≠ sep) :
    ∃ w ∈ ws, c ∈ w.toList := by
  induction ws with
  | nil => cases h
  | cons x xs ih =>
    cases xs with
    | nil =>
      rw [join_singleton] at h
      exact ⟨x, List.mem_cons_self, h⟩
    | cons y ys =>
      have := join_append sep (as := [x]) (bs := y :: ys) (by simp) (by simp)
      rw [List.singleton_append, join_singleton] at this
      rw [this] at h
      simp only [String.toList_append, List.mem_append, String.toList_ofList, List.mem_singleton] at h
      rcases h with (h | h) | h
      · exact ⟨x, List.mem_cons_self, h⟩
      · exact absurd h hs
      · obtain ⟨w, hw, hc⟩ := ih h
        exact ⟨w, List.mem_cons_of_mem _ hw, hc⟩

theorem toyTarget_name {x : String} (h1 : '[' ∉ x.toList) (h2 : '.' ∉ x.toList) : toyTarget x = .name x := by
  unfold toyTarget
  rw [if_neg (by rw [List.contains_iff_mem]; exact h1), if_neg (by rw [List.contains_iff_mem]; exact h2)]

theorem toyLine_words {x y : String} {ys : List String} (hx : x ≠ "") (hall : ∀ w ∈ x :: y :: ys, hasChar ' ' w = false)
    (h1 : x ≠ "import") (h2 : x ≠ "from") (h3 : x.toList.head? ≠ some '#') (heq : "=" ∈ x :: y :: ys) :
    toyLine (join ' ' (x :: y :: ys)) = match x :: y :: ys with
      | [x, "=", v] => .ok ⟨[], [.assign [toyTarget x] v]⟩
      | [x, "=", y, "=", v] => .ok ⟨[], [.assign [toyTarget x, toyTarget y] v]⟩
      | [x, ":", a, "=", v] => .ok ⟨[], [.ann (toyTarget x) a (some v)]⟩
      | _ => .error .syntaxError := by
  have hsplit := split_join ' ' (by simp) hall
  have hri : readImport (join ' ' (x :: y :: ys)) = none := by
    unfold readImport
    rw [hsplit]
    split
    · rename_i h; cases h; exact absurd rfl h1
    · rename_i h; cases h; exact absurd rfl h2
    · rfl
  have hblank : ((join ' ' (x :: y :: ys)).toList.all pySpace ||
      (join ' ' (x :: y :: ys)).toList.head? == some '#') = false := by
    rw [Bool.or_eq_false_iff]
    constructor
    · rw [← Bool.not_eq_true, List.all_eq_true]
      intro h
      have := h '=' (mem_join_of_mem heq (by decide))
      revert this
      decide
    · rw [head_join hx]
      simpa using h3
  unfold toyLine
  rw [hri, hsplit]
  dsimp only
  rw [hblank]
  rfl

theorem toy_lawful : Lawful toy ToyOk ToyIm where
  nil := rfl
  blank := by decide +kernel
  append := fun _ _ _ _ ha hb => toyParse_append ha hb
  selector := by decide +kernel
  imports := by
    intro i hi
    refine ⟨toyParse_one ?_, hi.2⟩
    unfold toyLine
    rw [C44_read_back i hi.1]
  assign := by
    intro x a v h
    obtain ⟨hx, hv, ha, h1, h2, h3, h4, h5⟩ := h
    cases a with
    | none =>
      apply toyParse_one
      rw [toyLine_words hx.1 _ h1 h2 h3 (by simp), paramNode, ← toyTarget_name h4 h5]
      · rfl
      · intro w hw
        simp only [List.mem_cons, List.not_mem_nil, or_false] at hw
        rcases hw with rfl | rfl | rfl
        · exact noSpace hx
        · decide
        · exact noSpace hv
    | some t =>
      have ht := ha t rfl
      apply toyParse_one
      rw [toyLine_words hx.1 _ h1 h2 h3 (by simp), paramNode, ← toyTarget_name h4 h5]
      · split
        · rename_i h; simp at h
        · rename_i h; simp at h
        · rename_i h; cases h; rfl
        · rename_i h; exact (h _ _ _ rfl).elim
      · intro w hw
        simp only [List.mem_cons, List.not_mem_nil, or_false] at hw
        rcases hw with rfl | rfl | rfl | rfl | rfl
        · exact noSpace hx
        · decide
        · exact noSpace ht
        · decide
        · exact noSpace hv
  lines := by
    intro x a v h
    obtain ⟨hx, hv, ha, _⟩ := h
    have hnl : ∀ ws : List String, (∀ w ∈ ws, '\n' ∉ w.toList) → hasChar '\n' (join ' ' ws) = false := by
      intro ws hws
      unfold hasChar
      rw [Bool.eq_false_iff, ne_eq, List.contains_iff_mem]
      intro hc
      obtain ⟨w, hw, hcw⟩ := mem_join hc (by decide)
      exact hws w hw hcw
    have hne : ∀ (w : String) (ws : List String), w ≠ "" → join ' ' (w :: ws) ≠ "" := by
      intro w ws hw hj
      rcases join_eq_empty.1 hj with h | h
      · cases h
      · cases h; exact hw rfl
    cases a with
    | none =>
      refine ⟨?_, _, rfl, hne _ _ hx.1⟩
      intro l hl
      simp only [toy, toySource, List.mem_singleton] at hl
      subst hl
      apply hnl
      intro w hw
      simp only [List.mem_cons, List.not_mem_nil, or_false] at hw
      rcases hw with rfl | rfl | rfl
      · exact hx.2.2
      · decide
      · exact hv.2.2
    | some t =>
      have ht := ha t rfl
      refine ⟨?_, _, rfl, hne _ _ hx.1⟩
      intro l hl
      simp only [toy, toySource, List.mem_singleton] at hl
      subst hl
      apply hnl
      intro w hw
      simp only [List.mem_cons, List.not_mem_nil, or_false] at hw
      rcases hw with rfl | rfl | rfl | rfl | rfl
      · exact hx.2.2
      · decide
      · exact ht.2.2
      · decide
      · exact hv.2.2
  ident := fun _ _ _ h => h.1.2.2

/-! ### Examples -/

/-- The defaults of `def f(a, b=2)`. -/
def toyDefaults : Cfg := ⟨Dict.ofList [("a", some "None"), ("b", some "2")], .empty, []⟩

instance : DecidableEq (Except PyErr String) := fun a b =>
  match a, b with
  | .ok x, .ok y => if h : x = y then isTrue (by rw [h]) else isFalse (by intro he; cases he; exact h rfl)
  | .error x, .error y => if h : x = y then isTrue (by rw [h]) else isFalse (by intro he; cases he; exact h rfl)
  | .ok _, .error _ => isFalse (by intro he; cases he)
  | .error _, .ok _ => isFalse (by intro he; cases he)

/-- A new file, and a file with some of the parameters. -/
example : scaffoldFunction toy "f" toyDefaults none =
      .ok "from pyfileconf import Selector\n\ns = Selector()\na = None\nb = 2\n" ∧
    scaffoldFunction toy "f" toyDefaults (some "from m import x\n# mine\nb = x\nc = 1\n") =
      .ok "from pyfileconf import Selector\nfrom m import x\n\ns = Selector()\n# mine\nb = x\nc = 1\na = None\n" := by
  decide +kernel

theorem toySelector : ToyIm selectorImport := by
  refine ⟨⟨⟨by decide, ?_⟩, ?_, ?_⟩, by decide +kernel⟩
  · intro n hn
    simp only [selectorImport, List.mem_singleton] at hn
    subst hn
    exact ⟨by decide, by decide +kernel, by decide +kernel, by decide +kernel⟩
  · intro r hr
    cases hr
  · intro m hm
    cases hm
    exact ⟨by decide, by decide +kernel, by decide +kernel, by decide +kernel⟩

theorem parts_of_sections {ls P B : List String} (h : splitSections ls = (P, B)) : Parts ls P B := by
  have := parts_sections ls
  rw [h] at this
  exact this

/-- The hypotheses of `C41_function_partial`, `C42_function_partial` and `C43_function_partial` hold for
a file with an import, a comment and an assignment. -/
example : ∃ (content : Option String) (P B : List String) (ins : List ImportNode) (as : List AssignNode) (text : String),
    Params toyDefaults [("a", "None"), ("b", "2")] ∧ Parts (linesOf content) P B ∧ toy.parse P = .ok ⟨ins, []⟩ ∧
    toy.parse B = .ok ⟨[], as⟩ ∧ ins ≠ [] ∧ as ≠ [] ∧ B.getLast? ≠ some "" ∧
    (∀ n ∈ ins, Clean n ∧ ∀ i, Imp.ofNode n = .ok i → ToyIm i) ∧
    (∀ i ∈ selectorImport :: toyDefaults.imports, ToyIm i ∧ ∃ n, ReadFrom i n ∧ Clean n) ∧
    newParams [("a", "None"), ("b", "2")] ⟨[], as⟩ = [("a", "None")] ∧
    (∀ p ∈ newParams [("a", "None"), ("b", "2")] ⟨[], as⟩, ToyOk p.1 (toyDefaults.annotations.get? p.1) p.2) ∧
    scaffoldFunction toy "f" toyDefaults content = .ok text := by
  have hnew : newParams [("a", "None"), ("b", "2")] ⟨[], [.assign [.name "b"] "x", .assign [.name "c"] "1"]⟩ = [("a", "None")] := by
    decide +kernel
  refine ⟨some "from m import x\n# mine\nb = x\nc = 1\n", ["from m import x"], ["# mine", "b = x", "c = 1"],
    [.from_ (some "m") 0 [("x", none)]], [.assign [.name "b"] "x", .assign [.name "c"] "1"],
    "from pyfileconf import Selector\nfrom m import x\n\ns = Selector()\n# mine\nb = x\nc = 1\na = None\n",
    rfl, parts_of_sections (by decide +kernel), by decide +kernel, by decide +kernel, by simp, by simp, by decide, ?_, ?_, hnew, ?_,
    by decide +kernel⟩
  · intro n hn
    rw [List.mem_singleton] at hn
    subst hn
    refine ⟨by simp [Clean, aliasesOf], ?_⟩
    intro i hi
    cases hi
    refine ⟨⟨⟨by decide, ?_⟩, ?_, ?_⟩, by decide +kernel⟩
    · intro n hn
      simp only [List.map_cons, List.map_nil, List.mem_singleton] at hn
      subst hn
      exact ⟨by decide, by decide +kernel, by decide +kernel, by decide +kernel⟩
    · intro r hr
      cases hr
    · intro m hm
      cases hm
      exact ⟨by decide, by decide +kernel, by decide +kernel, by decide +kernel⟩
  · intro i hi
    have : i = selectorImport := by simpa [toyDefaults] using hi
    subst this
    exact ⟨toySelector, .from_ (some "pyfileconf") 0 [("Selector", none)], ⟨true, rfl⟩, by simp [Clean, aliasesOf]⟩
  · intro p hp
    rw [hnew, List.mem_singleton] at hp
    subst hp
    refine ⟨⟨by decide, by decide +kernel, by decide +kernel⟩, ⟨by decide, by decide +kernel, by decide +kernel⟩, ?_,
      by decide, by decide, by decide +kernel, by decide +kernel, by decide +kernel⟩
    intro t ht
    cases ht

/-! ### Files for which C41, C42 and C43 fail -/

/-- C41 and C43 fail: a first line that assigns but has the text `import` somewhere is dropped, and its
assignment is not written again. -/
theorem C41_import_text_violated :
    ∃ (content text : String), toy.parse (linesOf (some content)) =
        .ok ⟨[], [.assign [.name "important"] "5", .assign [.name "a"] "1"]⟩ ∧
      scaffoldFunction toy "f" toyDefaults (some content) = .ok text ∧
      toy.parse (linesOf (some text)) = .ok ⟨[.from_ (some "pyfileconf") 0 [("Selector", none)]],
        [.assign [.name "s"] "Selector()", .assign [.name "a"] "1", .assign [.name "b"] "2"]⟩ :=
  ⟨"important = 5\na = 1\n", "from pyfileconf import Selector\n\ns = Selector()\na = 1\nb = 2\n", by decide +kernel,
    by decide +kernel, by decide +kernel⟩

/-- C41 and C43 fail: so is a parameter of the function with such a name; it is assigned in the file, so
it is not written again, and the value the user gave is lost. -/
theorem C41_parameter_lost_violated :
    ∃ (defaults : Cfg) (content text : String), defaults.values.contains "import_path" = true ∧
      toy.parse (linesOf (some content)) = .ok ⟨[], [.assign [.name "import_path"] "5"]⟩ ∧
      scaffoldFunction toy "f" defaults (some content) = .ok text ∧
      toy.parse (linesOf (some text)) = .ok ⟨[.from_ (some "pyfileconf") 0 [("Selector", none)]],
        [.assign [.name "s"] "Selector()"]⟩ :=
  ⟨⟨Dict.ofList [("import_path", some "None")], .empty, []⟩, "import_path = 5\n",
    "from pyfileconf import Selector\n\ns = Selector()", by decide +kernel, by decide +kernel, by decide +kernel,
    by decide +kernel⟩

/-- C43 fails: a comment before the first assignment that has the text `import` is dropped, as are blank
lines there. -/
theorem C43_comment_violated :
    ∃ (content text : String), "# important note" ∈ linesOf (some content) ∧
      scaffoldFunction toy "f" toyDefaults (some content) = .ok text ∧ "# important note" ∉ linesOf (some text) :=
  ⟨"from m import x\n# important note\na = 1\n",
    "from pyfileconf import Selector\nfrom m import x\n\ns = Selector()\na = 1\nb = 2\n", by decide +kernel,
    by decide +kernel, by decide +kernel⟩

/-- C42 fails for the text: the second write takes the last newline away. -/
theorem C42_newline_violated :
    ∃ text text2 : String, scaffoldFunction toy "f" toyDefaults none = .ok text ∧
      scaffoldFunction toy "f" toyDefaults (some text) = .ok text2 ∧ text = text2 ++ "\n" :=
  ⟨"from pyfileconf import Selector\n\ns = Selector()\na = None\nb = 2\n",
    "from pyfileconf import Selector\n\ns = Selector()\na = None\nb = 2", by decide +kernel, by decide +kernel,
    by decide +kernel⟩

/-- Write `n` times. -/
def writeTimes (lang : Lang) (name : String) (defaults : Cfg) : Nat → Option String → Except PyErr (Option String)
  | 0, c => .ok c
  | n + 1, c => match writeTimes lang name defaults n c with
    | .ok c => (scaffoldFunction lang name defaults c).map some
    | .error e => .error e

/-- C42 fails: with blank lines at the end, each write takes one of them away. -/
theorem C42_blank_lines_violated :
    ∃ content a b : String, (writeTimes toy "f" toyDefaults 1 (some content)) = .ok (some a) ∧
      (writeTimes toy "f" toyDefaults 2 (some content)) = .ok (some b) ∧
      linesOf (some a) = linesOf (some b) ++ [""] :=
  ⟨"from m import x\ns = 1\na = 1\nb = 1\n\n\n\n",
    "from pyfileconf import Selector\nfrom m import x\n\ns = 1\na = 1\nb = 1\n\n\n",
    "from pyfileconf import Selector\nfrom m import x\n\ns = 1\na = 1\nb = 1\n\n", by decide +kernel, by decide +kernel,
    by decide +kernel⟩

/-- The file after some writes, with `n` more imports than the user wrote. -/
def grown (n : Nat) : List String :=
  ["from pyfileconf import Selector"] ++ List.replicate n "from m import x" ++ [""] ++
    ["s = Selector()", "# first", "from m import x", "a = 1", "b = 2"]

theorem grown_step (n : Nat) (text : String) (h : readLines text = grown n) :
    ∃ text2, scaffoldFunction toy "f" toyDefaults (some text) = .ok text2 ∧ readLines text2 = grown (n + 1) := by
  let x : Imp := ⟨some "m", ["x"], [], false⟩
  let sel : Imp := ⟨some "pyfileconf", ["Selector"], [], false⟩
  have hx : ToyIm x := by
    refine ⟨⟨⟨by decide, ?_⟩, ?_, ?_⟩, by decide +kernel⟩
    · intro n hn
      simp only [x, List.mem_singleton] at hn
      subst hn
      exact ⟨by decide, by decide +kernel, by decide +kernel, by decide +kernel⟩
    · intro r hr
      cases hr
    · intro m hm
      cases hm
      exact ⟨by decide, by decide +kernel, by decide +kernel, by decide +kernel⟩
  have hsel : ToyIm sel := ⟨⟨toySelector.1.names, toySelector.1.renames, toySelector.1.source⟩, by decide +kernel⟩
  have him : ∀ i ∈ sel :: List.replicate n x, ToyIm i := by
    intro i hi
    rcases List.mem_cons.1 hi with rfl | hi
    · exact hsel
    · rw [(List.mem_replicate.1 hi).2]; exact hx
  have hI : importLines (sel :: List.replicate n x) = ["from pyfileconf import Selector"] ++ List.replicate n "from m import x" := by
    have h1 : sel.str = "from pyfileconf import Selector" := by decide +kernel
    have h2 : x.str = "from m import x" := by decide +kernel
    simp [importLines, h1, h2]
  have hP := parse_imports toy_lawful him
  have hBp : toy.parse ["s = Selector()", "# first", "from m import x", "a = 1", "b = 2"] =
      .ok ⟨[.from_ (some "m") 0 [("x", none)]], [.assign [.name "s"] "Selector()", .assign [.name "a"] "1",
        .assign [.name "b"] "2"]⟩ := by decide +kernel
  have hlines : linesOf (some text) = (importLines (sel :: List.replicate n x) ++ [""]) ++
      ["s = Selector()", "# first", "from m import x", "a = 1", "b = 2"] := by
    rw [linesOf, h, hI]
    rfl
  have hparts : Parts (linesOf (some text)) (importLines (sel :: List.replicate n x) ++ [""])
      ["s = Selector()", "# first", "from m import x", "a = 1", "b = 2"] := by
    refine ⟨hlines, ?_, ?_⟩
    · intro l hl
      rw [hI] at hl
      rw [← importish_iff]
      simp only [List.mem_append, List.mem_singleton, List.mem_replicate] at hl
      rcases hl with (rfl | ⟨_, rfl⟩) | rfl <;> decide +kernel
    · intro l hl
      cases hl
      exact selector_line_not_skipped
  have hm := toy_lawful.append _ _ _ _ hP hBp
  rw [← hlines] at hm
  obtain ⟨⟨f, d⟩, hl⟩ := (loadFile_ok_iff toy_lawful.nil (some text)).2 ⟨_, hm, by
    intro n hn
    rcases List.mem_append.1 hn with hn | hn
    · obtain ⟨i, _, rfl⟩ := List.mem_map.1 hn
      unfold written
      cases i.source <;> trivial
    · rw [List.mem_singleton] at hn; subst hn; trivial, by
    intro n hn
    simp only [List.nil_append, List.mem_cons, List.not_mem_nil, or_false] at hn
    rcases hn with rfl | rfl | rfl <;> trivial⟩
  obtain ⟨h1, h2, h3, ann, h4⟩ := loaded_facts toy_lawful hparts hP hBp hl
  have himports : f.imports = sel :: List.replicate n x ++ [x] := by
    have e : (sel :: List.replicate n x).map written ++ [ImportNode.from_ (some "m") 0 [("x", none)]] =
        (sel :: List.replicate n x ++ [x]).map written := by simp [x, written, asName]
    rw [e, mapM_map_ok _ (fun i _ => ofNode_written i)] at h1
    simp only [Except.ok.injEq] at h1
    rw [← h1]
    simp [reread, sel, x, renamesOf, asName]
  have hassigns : f.assigns = [⟨.name "s", some "Selector()", none, false, none⟩, ⟨.name "a", some "1", none, false, none⟩,
      ⟨.name "b", some "2", none, false, none⟩] := by
    have : [AssignNode.assign [.name "s"] "Selector()", .assign [.name "a"] "1", .assign [.name "b"] "2"].mapM Assign.ofNode =
        .ok [⟨.name "s", some "Selector()", none, false, none⟩, ⟨.name "a", some "1", none, false, none⟩,
          ⟨.name "b", some "2", none, false, none⟩] := rfl
    rw [this] at h2
    exact (Except.ok.inj h2).symm
  have hfold : (addImport toyDefaults.imports selectorImport).foldl addImport f.imports = f.imports := by
    apply addImports_covered
    intro y hy
    have : y = selectorImport := by simpa [toyDefaults, addImport, hasImport] using hy
    subst this
    rw [himports]
    rfl
  have hfresh := freshAssigns_eq (values := toyDefaults.values) (d := d) (ann := toyDefaults.annotations)
    (imports := addImport toyDefaults.imports selectorImport) (ps := [("a", "None"), ("b", "2")]) h2 (by
      intro k hk
      rcases defaultsFrom_keys h4 k hk with hk | hk
      · cases hk
      · exact hk) rfl (by
      intro p hp _
      simp only [List.mem_cons, List.not_mem_nil, or_false] at hp
      rcases hp with rfl | rfl <;> decide +kernel)
  have hnone : ([("a", "None"), ("b", "2")] : List (String × Expr)).filter (fun p => decide (p.1 ∉ assignedNames
      [.assign [.name "s"] "Selector()", .assign [.name "a"] "1", .assign [.name "b"] "2"])) = [] := by decide +kernel
  rw [hnone, List.map_nil] at hfresh
  have hout := createText_lines (lang := toy) (f := f)
    (cfg := ⟨toyDefaults.values.update d, toyDefaults.annotations, addImport toyDefaults.imports selectorImport⟩) true
    (by rw [h3]; decide)
    (by rw [h3]; decide +kernel)
    (by
      rw [hfold, himports]
      intro i hi
      rcases List.mem_append.1 hi with hi | hi
      · exact (him i hi).2
      · rw [List.mem_singleton] at hi; rw [hi]; exact hx.2)
    (by rw [hfresh]; intro a ha; cases ha)
  rw [hfresh, if_pos rfl, if_pos rfl, h3, hfold, himports] at hout
  refine ⟨_, by rw [scaffoldFunction_eq toy (by decide), hl]; rfl, ?_⟩
  refine hout.trans ?_
  have hs : (true && !containsVarname f.assigns "s") = false := by rw [hassigns]; rfl
  rw [hs, dropLastBlank_append (by simp)]
  have hI2 : importLines (sel :: List.replicate n x ++ [x]) =
      ["from pyfileconf import Selector"] ++ List.replicate (n + 1) "from m import x" := by
    have h1 : sel.str = "from pyfileconf import Selector" := by decide +kernel
    have h2 : x.str = "from m import x" := by decide +kernel
    rw [List.replicate_succ']
    simp [importLines, h1, h2]
  have hdl : dropLastBlank ["s = Selector()", "# first", "from m import x", "a = 1", "b = 2"] =
      ["s = Selector()", "# first", "from m import x", "a = 1", "b = 2"] := by decide +kernel
  rw [hI2, hdl, grown]
  simp [selectorLines]

/-- C42 fails: a file with a comment before its import gets one more import line with every write. -/
theorem C42_grows_violated :
    ∃ content : String, linesOf (some content) = ["# first", "from m import x", "a = 1"] ∧
      ∀ n, ∃ text, writeTimes toy "f" toyDefaults (n + 1) (some content) = .ok (some text) ∧
        (linesOf (some text)).count "from m import x" = n + 2 := by
  refine ⟨"# first\nfrom m import x\na = 1\n", by decide +kernel, ?_⟩
  have key : ∀ n, ∃ text, writeTimes toy "f" toyDefaults (n + 1) (some "# first\nfrom m import x\na = 1\n") = .ok (some text) ∧
      readLines text = grown (n + 1) := by
    intro n
    induction n with
    | zero =>
      exact ⟨"from pyfileconf import Selector\nfrom m import x\n\ns = Selector()\n# first\nfrom m import x\na = 1\nb = 2\n",
        by decide +kernel, by decide +kernel⟩
    | succ n ih =>
      obtain ⟨text, h1, h2⟩ := ih
      obtain ⟨text2, h3, h4⟩ := grown_step (n + 1) text h2
      refine ⟨text2, ?_, h4⟩
      rw [writeTimes, h1]
      dsimp only
      rw [h3]
      rfl
  intro n
  obtain ⟨text, h1, h2⟩ := key n
  refine ⟨text, h1, ?_⟩
  rw [linesOf, h2, grown]
  simp [List.count_append]

/-- C42 fails for a class without selector: the first parameter, called `import_path`, goes with the
second write and comes back, at the end, with the third. -/
theorem C42_alternates_violated :
    ∃ (defaults : Cfg) (a b c : String),
      scaffoldObject toy (classTemplate (some []) (some [])) "x" "name" "'x'" defaults none = .ok a ∧
      scaffoldObject toy (classTemplate (some []) (some [])) "x" "name" "'x'" defaults (some a) = .ok b ∧
      scaffoldObject toy (classTemplate (some []) (some [])) "x" "name" "'x'" defaults (some b) = .ok c ∧
      toy.parse (linesOf (some a)) = .ok ⟨[], [.assign [.name "import_path"] "None", .assign [.name "name"] "'x'"]⟩ ∧
      toy.parse (linesOf (some b)) = .ok ⟨[], [.assign [.name "name"] "'x'"]⟩ ∧
      toy.parse (linesOf (some c)) = .ok ⟨[], [.assign [.name "name"] "'x'", .assign [.name "import_path"] "None"]⟩ :=
  ⟨⟨Dict.ofList [("import_path", some "None")], .empty, []⟩, "\n\nimport_path = None\nname = 'x'\n", "\n\nname = 'x'",
    "\n\nname = 'x'\nimport_path = None\n", by decide +kernel, by decide +kernel, by decide +kernel, by decide +kernel,
    by decide +kernel, by decide +kernel⟩

/-- Files with a chained assignment, an assignment to a subscript or an annotated attribute are not
accepted. -/
example : scaffoldFunction toy "f" toyDefaults (some "a = b = 1\n") = .error .notImplemented ∧
    scaffoldFunction toy "f" toyDefaults (some "a[0] = 1\n") = .error .notImplemented ∧
    scaffoldFunction toy "f" toyDefaults (some "o.a : t = 1\n") = .error .attributeError := by decide +kernel

end Verif.Props

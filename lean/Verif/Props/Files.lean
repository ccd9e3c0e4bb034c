import Verif.Lemmas.Files
import Verif.Props.Imports

/-
Property theorems about config files: C41, C42, C43.
-/

namespace Verif.Props
open Verif.Py Verif.Model

/-! ### Specification -/

/-- A line that belongs to the import section if all lines before it do: it has the text `import` or
only blanks. -/
def Skipped (l : String) : Prop := (∃ pre post, l.toList = pre ++ "import".toList ++ post) ∨ ∀ c ∈ l.toList, pySpace c = true

/-- The two parts of a file: the lines before the first line that is not skipped, and the rest. -/
structure Parts (ls P B : List String) : Prop where
  all : ls = P ++ B
  head : ∀ l ∈ P, Skipped l
  rest : ∀ l, B.head? = some l → ¬ Skipped l

/-- The statement that an assignment of a parameter is. -/
def paramNode (x : String) (annotation : Option Expr) (v : Expr) : AssignNode :=
  match annotation with
  | none => .assign [.name x] v
  | some a => .ann (.name x) a (some v)

/-- The targets of an assignment. -/
def targetsOf : AssignNode → List Target
  | .assign ts _ => ts
  | .ann t _ _ => [t]

/-- The names that statements assign to. -/
def assignedNames (ns : List AssignNode) : List String :=
  (ns.flatMap targetsOf).filterMap (fun t => match t with
    | .name x => some x
    | _ => none)

/-- What is used about Python's parser and about `astor`: `Ok x a v` are parameters with annotation
and default that are printed as an assignment, `Im` are imports that are printed as an import. -/
structure Lawful (lang : Lang) (Ok : String → Option Expr → Expr → Prop) (Im : Imp → Prop) : Prop where
  nil : lang.parse [] = .ok ⟨[], []⟩
  blank : lang.parse [""] = .ok ⟨[], []⟩
  append : ∀ a b m n, lang.parse a = .ok m → lang.parse b = .ok n →
    lang.parse (a ++ b) = .ok ⟨m.imports ++ n.imports, m.assigns ++ n.assigns⟩
  selector : lang.parse ["s = Selector()"] = .ok ⟨[], [.assign [.name "s"] "Selector()"]⟩
  imports : ∀ i, Im i → lang.parse [i.str] = .ok ⟨[written i], []⟩ ∧ hasChar '\n' i.str = false
  assign : ∀ x a v, Ok x a v → lang.parse (lang.source (.name x) a (some v)) = .ok ⟨[], [paramNode x a v]⟩
  lines : ∀ x a v, Ok x a v → (∀ l ∈ lang.source (.name x) a (some v), hasChar '\n' l = false) ∧
    ∃ l, (lang.source (.name x) a (some v)).getLast? = some l ∧ l ≠ ""
  ident : ∀ x a v, Ok x a v → '\n' ∉ x.toList

/-- The lines of a file; a file that does not exist has none. -/
def linesOf : Option String → List String
  | none => []
  | some text => readLines text

/-! ### Lemmas -/

theorem hasSub_iff (sub s : List Char) : hasSub sub s = true ↔ ∃ pre post, s = pre ++ sub ++ post := by
  induction s with
  | nil =>
    rw [hasSub, List.isEmpty_iff]
    constructor
    · rintro rfl
      exact ⟨[], [], rfl⟩
    · rintro ⟨pre, post, h⟩
      have h2 := List.append_eq_nil_iff.1 h.symm
      exact (List.append_eq_nil_iff.1 h2.1).2
  | cons c s ih =>
    rw [hasSub, Bool.or_eq_true, ih, List.isPrefixOf_iff_prefix]
    constructor
    · rintro (⟨post, h⟩ | ⟨pre, post, h⟩)
      · exact ⟨[], post, by simpa using h.symm⟩
      · exact ⟨c :: pre, post, by rw [h]; simp⟩
    · rintro ⟨pre, post, h⟩
      cases pre with
      | nil => exact .inl ⟨post, by simpa using h.symm⟩
      | cons d pre =>
        simp only [List.cons_append, List.cons.injEq] at h
        exact .inr ⟨pre, post, by simpa using h.2⟩

theorem importish_iff (l : String) : importish l = true ↔ Skipped l := by
  unfold importish Skipped isWhitespaceLine
  rw [Bool.or_eq_true, hasSub_iff, List.all_eq_true]

theorem Parts.sections {ls P B : List String} (h : Parts ls P B) : splitSections ls = (P, B) := by
  rw [h.all]
  apply splitSections_of
  · exact fun l hl => (importish_iff l).2 (h.head l hl)
  · intro l hl
    rw [← Bool.not_eq_true, importish_iff]
    exact h.rest l hl

theorem parts_sections (ls : List String) : Parts ls (splitSections ls).1 (splitSections ls).2 := by
  refine ⟨(splitSections_append ls).symm, fun l hl => (importish_iff l).1 (splitSections_fst ls l hl), ?_⟩
  intro l hl
  rw [← importish_iff, Bool.not_eq_true]
  rcases splitSections_snd ls with h | ⟨x, rest, h, hx⟩
  · rw [h] at hl; cases hl
  · rw [h] at hl; cases hl; exact hx

theorem dropLastBlank_append {a b : List String} (h : b ≠ []) : dropLastBlank (a ++ b) = a ++ dropLastBlank b := by
  unfold dropLastBlank
  have : (a ++ b).getLast? = b.getLast? := by
    rw [List.getLast?_append]
    cases hb : b.getLast? with
    | none => exact absurd (List.getLast?_eq_none_iff.1 hb) h
    | some l => rfl
  rw [this]
  split
  · rw [List.dropLast_append_of_ne_nil h]
  · rfl

/-- The assignments for parameters of a config. -/
theorem assignsOf_nodup (cfg : Cfg) : ((assignsOf cfg).map (fun a => a.target.varname)).Nodup := by
  unfold assignsOf
  rw [List.map_map]
  exact cfg.values.nodup

/-- The line written for the selector. -/
def selectorLines (s : Bool) : List String := if s then ["s = Selector()"] else []

/-- The assignments written for parameters that are not assigned. -/
def freshAssigns (cfg : Cfg) (existing : List Assign) : List Assign :=
  (assignsOf cfg).filter (fun a => !containsVarname existing a.target.varname)

theorem newAssigns_std (cfg : Cfg) (existing : List Assign) (s : Bool) :
    newAssigns existing ((if s then [selectorAssign] else []) ++ assignsOf cfg) ([], []) =
      (if s && !containsVarname existing "s" then [selectorAssign] else [], freshAssigns cfg existing) := by
  have key := fun b => newAssigns_ends existing b (assignsOf cfg) [] (by
    intro a ha
    unfold assignsOf at ha
    obtain ⟨e, _, rfl⟩ := List.mem_map.1 ha
    rfl) (by simpa using assignsOf_nodup cfg)
  simp only [List.nil_append] at key
  cases s with
  | false => simpa [freshAssigns] using key []
  | true =>
    rw [if_pos rfl, List.singleton_append, newAssigns]
    have hv : selectorAssign.target.varname = "s" := rfl
    rw [hv]
    by_cases hc : containsVarname existing "s" = true
    · rw [if_pos hc, key]
      simp [hc, freshAssigns]
    · rw [if_neg hc, if_pos (by rfl)]
      have : appendAssign [] selectorAssign = [selectorAssign] := rfl
      rw [this, key]
      simp [hc, freshAssigns]

/-- The lines of a file after writing a config to it. -/
theorem createText_lines {lang : Lang} {f : Loaded} {cfg : Cfg} (s : Bool)
    (hbody : f.body ≠ [""]) (hn : ∀ l ∈ f.body, hasChar '\n' l = false)
    (hi : ∀ i ∈ cfg.imports.foldl addImport f.imports, hasChar '\n' i.str = false)
    (he : ∀ a ∈ freshAssigns cfg f.assigns, a.lines lang ≠ [] ∧ ∀ l ∈ a.lines lang, hasChar '\n' l = false) :
    readLines (createText lang f cfg (if s then [selectorAssign] else [])) =
      if freshAssigns cfg f.assigns = [] then
        dropLastBlank (importLines (cfg.imports.foldl addImport f.imports) ++ [""] ++
          selectorLines (s && !containsVarname f.assigns "s") ++ f.body)
      else importLines (cfg.imports.foldl addImport f.imports) ++ [""] ++
          selectorLines (s && !containsVarname f.assigns "s") ++ f.body ++
          (freshAssigns cfg f.assigns).flatMap (Assign.lines lang) := by
  unfold createText
  rw [newAssigns_std]
  dsimp only
  apply readLines_fileText
  · cases s && !containsVarname f.assigns "s" <;> rfl
  · unfold selectorLines
    split <;> decide
  · exact hbody
  · intro a ha
    have := (List.mem_filter.1 ha).1
    unfold assignsOf at this
    obtain ⟨e, _, rfl⟩ := List.mem_map.1 this
    rfl
  · exact fun a ha => (he a ha).1
  · exact hi
  · unfold selectorLines
    split
    · intro l hl
      rw [List.mem_singleton] at hl
      subst hl
      decide +kernel
    · intro l hl; cases hl
  · exact hn
  · exact fun a ha => (he a ha).2

/-! ### Parsing what was written -/

theorem parse_imports' {lang : Lang} {Ok : String → Option Expr → Expr → Prop} {Im : Imp → Prop} (law : Lawful lang Ok Im)
    {is : List Imp} (h : ∀ i ∈ is, Im i) : lang.parse (is.map Imp.str) = .ok ⟨is.map written, []⟩ := by
  induction is with
  | nil => exact law.nil
  | cons i is ih =>
    have := law.append _ _ _ _ (law.imports i (h i List.mem_cons_self)).1 (ih (fun j hj => h j (List.mem_cons_of_mem _ hj)))
    simpa using this

theorem parse_imports {lang : Lang} {Ok : String → Option Expr → Expr → Prop} {Im : Imp → Prop} (law : Lawful lang Ok Im)
    {is : List Imp} (h : ∀ i ∈ is, Im i) : lang.parse (importLines is ++ [""]) = .ok ⟨is.map written, []⟩ := by
  unfold importLines
  split
  · rename_i hnil
    subst hnil
    simpa using law.append _ _ _ _ law.blank law.blank
  · simpa using law.append _ _ _ _ (parse_imports' law h) law.blank

theorem parse_selector {lang : Lang} {Ok : String → Option Expr → Expr → Prop} {Im : Imp → Prop} (law : Lawful lang Ok Im)
    (s : Bool) : lang.parse (selectorLines s) = .ok ⟨[], if s then [.assign [.name "s"] "Selector()"] else []⟩ := by
  unfold selectorLines
  cases s
  · exact law.nil
  · exact law.selector

/-- The parameters of a config with their defaults. -/
def Params (cfg : Cfg) (ps : List (String × Expr)) : Prop := cfg.values.items = ps.map (fun p => (p.1, some p.2))

theorem parse_params {lang : Lang} {Ok : String → Option Expr → Expr → Prop} {Im : Imp → Prop} (law : Lawful lang Ok Im)
    (ann : Dict String Expr) (ps : List (String × Expr)) (h : ∀ p ∈ ps, Ok p.1 (ann.get? p.1) p.2) :
    lang.parse ((ps.map (fun p => (⟨.name p.1, some p.2, ann.get? p.1, false, none⟩ : Assign))).flatMap (Assign.lines lang)) =
      .ok ⟨[], ps.map (fun p => paramNode p.1 (ann.get? p.1) p.2)⟩ := by
  induction ps with
  | nil => exact law.nil
  | cons p ps ih =>
    rw [List.map_cons, List.flatMap_cons, List.map_cons]
    have := law.append _ _ _ _ (law.assign _ _ _ (h p List.mem_cons_self)) (ih (fun q hq => h q (List.mem_cons_of_mem _ hq)))
    simpa [Assign.lines] using this

theorem mapM_ok_mem {α β : Type} {f : α → Except PyErr β} {xs : List α} {ys : List β} (h : xs.mapM f = .ok ys) :
    (∀ y ∈ ys, ∃ x ∈ xs, f x = .ok y) ∧ ∀ x ∈ xs, ∃ y ∈ ys, f x = .ok y := by
  induction xs generalizing ys with
  | nil =>
    cases h
    simp
  | cons x xs ih =>
    rw [List.mapM_cons] at h
    cases hx : f x with
    | error e => rw [hx] at h; cases h
    | ok y =>
      rw [hx] at h
      cases hxs : xs.mapM f with
      | error e => rw [hxs] at h; cases h
      | ok zs =>
        rw [hxs] at h
        cases h
        obtain ⟨h1, h2⟩ := ih hxs
        constructor
        · intro z hz
          rcases List.mem_cons.1 hz with rfl | hz
          · exact ⟨x, List.mem_cons_self, hx⟩
          · obtain ⟨w, hw, he⟩ := h1 z hz
            exact ⟨w, List.mem_cons_of_mem _ hw, he⟩
        · intro w hw
          rcases List.mem_cons.1 hw with rfl | hw
          · exact ⟨y, List.mem_cons_self, hx⟩
          · obtain ⟨z, hz, he⟩ := h2 w hw
            exact ⟨z, List.mem_cons_of_mem _ hz, he⟩

theorem ofNode_targets {n : AssignNode} {a : Assign} (h : Assign.ofNode n = .ok a) : targetsOf n = [a.target] := by
  unfold Assign.ofNode at h
  split at h
  · cases h
  · cases h; rfl
  · cases h
  · cases h; rfl

/-- Which names the tool takes as assigned. -/
theorem containsVarname_iff {ns : List AssignNode} {as : List Assign} (h : ns.mapM Assign.ofNode = .ok as) {x : String}
    (hx : x ∉ assignedNames ns → '\n' ∉ x.toList) : containsVarname as x = true ↔ x ∈ assignedNames ns := by
  obtain ⟨h1, h2⟩ := mapM_ok_mem h
  unfold containsVarname
  rw [List.any_eq_true]
  constructor
  · rintro ⟨a, ha, hv⟩
    rw [decide_eq_true_eq] at hv
    obtain ⟨n, hn, hna⟩ := h1 a ha
    have ht := ofNode_targets hna
    by_cases hmem : x ∈ assignedNames ns
    · exact hmem
    · exfalso
      have hnl := hx hmem
      cases hta : a.target with
      | name y =>
        rw [hta] at hv ht
        apply hmem
        unfold assignedNames
        rw [List.mem_filterMap]
        refine ⟨.name y, List.mem_flatMap.2 ⟨n, hn, by rw [ht]; simp⟩, ?_⟩
        simpa [Target.varname] using hv
      | «attribute» src =>
        rw [hta] at hv
        apply hnl
        rw [← hv]
        simp [Target.varname]
      | other src =>
        rw [hta] at hv
        apply hnl
        rw [← hv]
        simp [Target.varname]
  · intro hmem
    unfold assignedNames at hmem
    obtain ⟨t, ht, hx'⟩ := List.mem_filterMap.1 hmem
    obtain ⟨n, hn, htn⟩ := List.mem_flatMap.1 ht
    obtain ⟨a, ha, hna⟩ := h2 n hn
    rw [ofNode_targets hna, List.mem_singleton] at htn
    subst htn
    refine ⟨a, ha, ?_⟩
    cases hta : a.target with
    | name y =>
      rw [hta] at hx'
      rw [decide_eq_true_eq]
      simpa [Target.varname] using hx'
    | «attribute» src => rw [hta] at hx'; cases hx'
    | other src => rw [hta] at hx'; cases hx'

theorem loaded_facts {lang : Lang} {Ok : String → Option Expr → Expr → Prop} {Im : Imp → Prop} (law : Lawful lang Ok Im)
    {content : Option String} {P B : List String} {ins : List ImportNode} {b : Mod} (hp : Parts (linesOf content) P B)
    (hP : lang.parse P = .ok ⟨ins, []⟩) (hB : lang.parse B = .ok b) {f : Loaded} {d : Dict String (Option Expr)}
    (h : loadFile lang content = .ok (f, d)) :
    (ins ++ b.imports).mapM Imp.ofNode = .ok f.imports ∧ b.assigns.mapM Assign.ofNode = .ok f.assigns ∧ f.body = B ∧
      ∃ ann, defaultsFrom f.assigns .empty .empty = .ok (d, ann) := by
  unfold loadFile at h
  cases hr : readFile lang content with
  | error e => rw [hr] at h; cases h
  | ok f0 =>
    rw [hr] at h
    cases hd : defaultsFrom f0.assigns .empty .empty with
    | error e =>
      simp only [bind, Except.bind] at h
      rw [hd] at h
      cases h
    | ok r =>
      simp only [bind, Except.bind] at h
      rw [hd] at h
      cases h
      have key : (ins ++ b.imports).mapM Imp.ofNode = .ok f.imports ∧ b.assigns.mapM Assign.ofNode = .ok f.assigns ∧
          f.body = B := by
        cases content with
        | none =>
          have h0 : P = [] ∧ B = [] := by
            have := hp.all
            unfold linesOf at this
            exact List.append_eq_nil_iff.1 this.symm
          obtain ⟨rfl, rfl⟩ := h0
          rw [law.nil] at hP hB
          cases hP
          cases hB
          cases hr
          exact ⟨rfl, rfl, rfl⟩
        | some text =>
          have hall := law.append _ _ _ _ hP hB
          rw [← hp.all] at hall
          unfold readFile at hr
          dsimp only at hr
          simp only [linesOf] at hall hp
          rw [hall] at hr
          simp only [bind, Except.bind, List.nil_append] at hr
          cases h1 : (ins ++ b.imports).mapM Imp.ofNode with
          | error e => rw [h1] at hr; cases hr
          | ok is =>
            rw [h1] at hr
            cases h2 : b.assigns.mapM Assign.ofNode with
            | error e => rw [h2] at hr; cases hr
            | ok as =>
              rw [h2] at hr
              cases hr
              exact ⟨rfl, rfl, by rw [hp.sections]⟩
      exact ⟨key.1, key.2.1, key.2.2, _, hd⟩

/-- What a file has after writing a config to it. -/
theorem createText_parse {lang : Lang} {Ok : String → Option Expr → Expr → Prop} {Im : Imp → Prop} (law : Lawful lang Ok Im)
    {f : Loaded} {cfg : Cfg} (s : Bool) {b : Mod} (hbody : f.body ≠ [""]) (hn : ∀ l ∈ f.body, hasChar '\n' l = false)
    (hB : lang.parse f.body = .ok b) (hB' : lang.parse (dropLastBlank f.body) = .ok b)
    (hi : ∀ i ∈ cfg.imports.foldl addImport f.imports, Im i) (ps : List (String × Expr))
    (hps : freshAssigns cfg f.assigns =
      ps.map (fun p => (⟨.name p.1, some p.2, cfg.annotations.get? p.1, false, none⟩ : Assign)))
    (hok : ∀ p ∈ ps, Ok p.1 (cfg.annotations.get? p.1) p.2) :
    lang.parse (readLines (createText lang f cfg (if s then [selectorAssign] else []))) =
      .ok ⟨(cfg.imports.foldl addImport f.imports).map written ++ b.imports,
        (if s && !containsVarname f.assigns "s" then [.assign [.name "s"] "Selector()"] else []) ++ b.assigns ++
          ps.map (fun p => paramNode p.1 (cfg.annotations.get? p.1) p.2)⟩ := by
  have hfresh : ∀ a ∈ freshAssigns cfg f.assigns, a.lines lang ≠ [] ∧ ∀ l ∈ a.lines lang, hasChar '\n' l = false := by
    intro a ha
    rw [hps] at ha
    obtain ⟨p, hp, rfl⟩ := List.mem_map.1 ha
    obtain ⟨h1, l, h2, _⟩ := law.lines _ _ _ (hok p hp)
    refine ⟨?_, h1⟩
    intro hnil
    simp only [Assign.lines] at hnil
    rw [hnil] at h2
    cases h2
  rw [createText_lines s hbody hn (fun i hi' => (law.imports i (hi i hi')).2) hfresh]
  have h1 := parse_imports law hi
  have h2 := law.append _ _ _ _ h1 (parse_selector law (s && !containsVarname f.assigns "s"))
  have h3 := law.append _ _ _ _ h2 hB
  have h4 := law.append _ _ _ _ h3 (parse_params law cfg.annotations ps hok)
  rw [← hps] at h4
  split
  · rename_i hnil
    rw [hnil] at hps
    have hpsn : ps = [] := by
      cases ps with
      | nil => rfl
      | cons p ps => cases hps
    subst hpsn
    have h3' := law.append _ _ _ _ h2 hB'
    by_cases hb : f.body = []
    · rw [hb, List.append_nil]
      have hbe : b = ⟨[], []⟩ := by
        rw [hb, law.nil] at hB
        cases hB
        rfl
      subst hbe
      cases hsel : s && !containsVarname f.assigns "s" with
      | true =>
        rw [hsel] at h2
        have : dropLastBlank (importLines (List.foldl addImport f.imports cfg.imports) ++ [""] ++ selectorLines true) =
            importLines (List.foldl addImport f.imports cfg.imports) ++ [""] ++ selectorLines true := by
          rw [dropLastBlank_append (by decide)]
          rfl
        rw [this, h2]
        simp
      | false =>
        have : importLines (List.foldl addImport f.imports cfg.imports) ++ [""] ++ selectorLines false =
            importLines (List.foldl addImport f.imports cfg.imports) ++ [""] := by
          simp [selectorLines]
        rw [this, dropLastBlank_concat]
        have himp : lang.parse (importLines (List.foldl addImport f.imports cfg.imports)) =
            .ok ⟨(List.foldl addImport f.imports cfg.imports).map written, []⟩ := by
          unfold importLines
          split
          · rename_i hnil'
            rw [hnil']
            exact law.blank
          · exact parse_imports' law hi
        rw [himp]
        simp
    · rw [dropLastBlank_append hb, h3']
      simp
  · rw [h4]
    simp

/-! ### Scaffolding as one write -/

theorem scaffoldFunction_eq (lang : Lang) {name : String} (hname : name ≠ "DataPipeline") (defaults : Cfg)
    (content : Option String) : scaffoldFunction lang name defaults content = (loadFile lang content).map (fun r =>
      createText lang r.1 ⟨defaults.values.update r.2, defaults.annotations, addImport defaults.imports selectorImport⟩
        [selectorAssign]) := by
  have hget : AList.get? functionTemplate.named name = none := by
    simp [functionTemplate, AList.get?, Ne.symm hname]
  have hadd : ∀ cfg : Cfg, addAlways functionTemplate name cfg =
      .ok (⟨cfg.values, cfg.annotations, addImport cfg.imports selectorImport⟩, [selectorAssign]) := by
    intro cfg
    unfold addAlways
    rw [hget]
    rfl
  have hdrop : ∀ cfg : Cfg, dropCleanup name cfg = cfg := by
    intro cfg
    unfold dropCleanup
    rw [if_neg (fun h => hname h.1)]
  unfold scaffoldFunction toFile
  cases content with
  | none =>
    have hl : loadFile lang none = .ok (⟨[], [], []⟩, .empty) := rfl
    rw [hl]
    simp only [bind, Except.bind, pure, Except.pure, hdrop, hadd, Except.map]
  | some text =>
    cases hl : loadFile lang (some text) with
    | error e => rfl
    | ok r =>
      simp only [bind, Except.bind, pure, Except.pure, hdrop, hadd, Except.map]

/-- What a config of `DataPipeline` has for `cleanup_kwargs`: `dict()` instead of `None` or nothing. -/
def withCleanup (d : Dict String (Option Expr)) : Dict String (Option Expr) :=
  let d' := if d.get? "cleanup_kwargs" = some (some "None") then d.del "cleanup_kwargs" else d
  if d'.contains "cleanup_kwargs" then d' else d'.set "cleanup_kwargs" (some "dict()")

theorem alist_set_absent {W : Type} (l : List (String × W)) (k : String) (v : W) (h : k ∉ l.map Prod.fst) :
    AList.set l k v = l ++ [(k, v)] := by
  induction l with
  | nil => rfl
  | cons e l ih =>
    rw [List.map_cons, List.mem_cons, not_or] at h
    rw [AList.set, if_neg (fun he => h.1 he.symm), ih h.2]
    rfl

theorem withCleanup_items (d : Dict String (Option Expr)) : (withCleanup d).items =
    match d.get? "cleanup_kwargs" with
    | none => d.items ++ [("cleanup_kwargs", some "dict()")]
    | some (some "None") => d.items.filter (fun e => decide (e.1 ≠ "cleanup_kwargs")) ++ [("cleanup_kwargs", some "dict()")]
    | some _ => d.items := by
  unfold withCleanup
  by_cases h : d.get? "cleanup_kwargs" = some (some "None")
  · have hn : (d.del "cleanup_kwargs").get? "cleanup_kwargs" = none := by simp [Dict.get?_del]
    have hc : (d.del "cleanup_kwargs").contains "cleanup_kwargs" = false := by simp [Dict.contains, hn]
    simp only [h, if_true, hc, Bool.false_eq_true, if_false]
    refine (alist_set_absent _ _ _ ((Dict.get?_eq_none_iff _ _).1 hn)).trans ?_
    rfl
  · simp only [h, if_false]
    split
    · next hc =>
      split
      · next hn => simp [Dict.contains, hn] at hc
      · next hn => exact absurd hn h
      · rfl
    · next hc =>
      split
      · next hn => exact alist_set_absent _ _ _ ((Dict.get?_eq_none_iff _ _).1 hn)
      · next hn => exact absurd hn h
      · next hn => simp [Dict.contains, hn] at hc

theorem withCleanup_filter (v d : Dict String (Option Expr)) (p : String → Bool) (hd : ∀ k ∈ d.keys, p k = false) :
    (withCleanup (v.update d)).items.filter (fun e => p e.1) =
      ((withCleanup v).update d).items.filter (fun e => p e.1) := by
  have hu : ∀ x : Dict String (Option Expr), (x.update d).items.filter (fun e => p e.1) = x.items.filter (fun e => p e.1) :=
    fun x => items_filter_setAll _ _ _ (fun e he => hd _ (List.mem_map_of_mem he))
  rw [hu, withCleanup_items, withCleanup_items]
  cases hp : p "cleanup_kwargs" with
  | false =>
    have hk : ∀ x : Dict String (Option Expr),
        (match x.get? "cleanup_kwargs" with
          | none => x.items ++ [("cleanup_kwargs", some "dict()")]
          | some (some "None") =>
            x.items.filter (fun e => decide (e.1 ≠ "cleanup_kwargs")) ++ [("cleanup_kwargs", some "dict()")]
          | some _ => x.items : List (String × Option Expr)).filter (fun e => p e.1) = x.items.filter (fun e => p e.1) := by
      intro x
      split
      · simp [hp]
      · rw [List.filter_append, List.filter_filter]
        simp only [List.filter_cons, hp, Bool.false_eq_true, if_false, List.filter_nil, List.append_nil]
        congr 1
        funext e
        by_cases he : e.1 = "cleanup_kwargs"
        · simp [he, hp]
        · simp [he]
      · rfl
    rw [hk, hk, hu]
  | true =>
    have hn : d.get? "cleanup_kwargs" = none := by
      rw [Dict.get?_eq_none_iff]
      intro h
      rw [hd _ h] at hp
      cases hp
    rw [Dict.get?_update, hn, Option.none_or]
    split
    · rw [List.filter_append, List.filter_append, hu]
    · rw [List.filter_append, List.filter_append, List.filter_filter, List.filter_filter]
      congr 1
      have := congrArg (List.filter (fun e => decide (e.1 ≠ "cleanup_kwargs"))) (hu v)
      rw [List.filter_filter, List.filter_filter] at this
      simpa only [Bool.and_comm] using this
    · exact hu v

theorem createText_congr (lang : Lang) (f : Loaded) (values values' : Dict String (Option Expr)) (ann : Dict String Expr)
    (imports : List Imp)
    (h : values.items.filter (fun e => !containsVarname f.assigns e.1) =
      values'.items.filter (fun e => !containsVarname f.assigns e.1)) :
    createText lang f ⟨values, ann, imports⟩ [selectorAssign] = createText lang f ⟨values', ann, imports⟩ [selectorAssign] := by
  have hf : ∀ v : Dict String (Option Expr), freshAssigns ⟨v, ann, imports⟩ f.assigns =
      (v.items.filter (fun e => !containsVarname f.assigns e.1)).map
        (fun e => ⟨.name e.1, e.2, ann.get? e.1, false, none⟩) := by
    intro v
    unfold freshAssigns assignsOf
    rw [List.filter_map]
    rfl
  have := newAssigns_std ⟨values, ann, imports⟩ f.assigns true
  have := newAssigns_std ⟨values', ann, imports⟩ f.assigns true
  unfold createText
  simp_all

/-- A function called `DataPipeline` is scaffolded like any other function whose parameter `cleanup_kwargs` is `dict()`, where it
is `None` or missing. -/
theorem scaffoldFunction_pipeline (lang : Lang) {name : String} (hname : name ≠ "DataPipeline") (defaults : Cfg)
    (content : Option String) : scaffoldFunction lang "DataPipeline" defaults content =
      scaffoldFunction lang name { defaults with values := withCleanup defaults.values } content := by
  rw [scaffoldFunction_eq lang hname]
  have hadd : ∀ cfg : Cfg, addAlways functionTemplate "DataPipeline" (dropCleanup "DataPipeline" cfg) =
      .ok (⟨withCleanup cfg.values, cfg.annotations, addImport cfg.imports selectorImport⟩, [selectorAssign]) := by
    intro cfg
    have hd : dropCleanup "DataPipeline" cfg = ⟨if cfg.values.get? "cleanup_kwargs" = some (some "None") then
        cfg.values.del "cleanup_kwargs" else cfg.values, cfg.annotations, cfg.imports⟩ := by
      unfold dropCleanup
      by_cases h : cfg.values.get? "cleanup_kwargs" = some (some "None") <;> simp [h]
    rw [hd]
    have hstep : ∀ (v : Dict String (Option Expr)), addAlways functionTemplate "DataPipeline" ⟨v, cfg.annotations, cfg.imports⟩ =
        .ok (⟨if v.contains "cleanup_kwargs" then v else v.set "cleanup_kwargs" (some "dict()"), cfg.annotations,
          addImport cfg.imports selectorImport⟩, [selectorAssign]) := by
      intro v
      have : addAlways functionTemplate "DataPipeline" ⟨v, cfg.annotations, cfg.imports⟩ =
        .ok (⟨v.update ((Dict.empty.set "cleanup_kwargs" (some "dict()")).filterKeys (fun k => !v.contains k)), cfg.annotations,
          addImport cfg.imports selectorImport⟩, [selectorAssign]) := rfl
      rw [this]
      congr 4
      cases hc : v.contains "cleanup_kwargs" with
      | true =>
        have : (Dict.empty.set "cleanup_kwargs" (some "dict()")).filterKeys (fun k => !v.contains k) =
            (Dict.empty : Dict String (Option Expr)) := by
          apply Dict.ext_items
          simp [Dict.filterKeys, Dict.set, Dict.empty, AList.set, hc]
        rw [this]
        rfl
      | false =>
        have : (Dict.empty.set "cleanup_kwargs" (some "dict()")).filterKeys (fun k => !v.contains k) =
            (Dict.empty.set "cleanup_kwargs" (some "dict()") : Dict String (Option Expr)) := by
          apply Dict.ext_items
          simp [Dict.filterKeys, Dict.set, Dict.empty, AList.set, hc]
        rw [this]
        rfl
    rw [hstep]
    rfl
  unfold scaffoldFunction toFile
  cases content with
  | none =>
    have hl : loadFile lang none = .ok (⟨[], [], []⟩, .empty) := rfl
    rw [hl]
    simp only [bind, Except.bind, pure, Except.pure, hadd, Except.map]
    rfl
  | some text =>
    cases hl : loadFile lang (some text) with
    | error e => rfl
    | ok r =>
      obtain ⟨f, d⟩ := r
      simp only [bind, Except.bind, pure, Except.pure, hadd, Except.map]
      congr 1
      apply createText_congr
      refine withCleanup_filter defaults.values d (fun k => !containsVarname f.assigns k) (fun k hk => ?_)
      unfold loadFile at hl
      cases hr : readFile lang (some text) with
      | error e => rw [hr] at hl; cases hl
      | ok f' =>
        rw [hr] at hl
        simp only [bind, Except.bind, pure, Except.pure] at hl
        cases hdf : defaultsFrom f'.assigns .empty .empty with
        | error e => rw [hdf] at hl; cases hl
        | ok r =>
          rw [hdf] at hl
          cases hl
          rcases defaultsFrom_keys hdf k hk with hk | hk
          · cases hk
          · rw [hk]; rfl

theorem scaffoldObject_eq (lang : Lang) (imps : List Imp) (s : Bool) (name keyAttr nameExpr : String) (defaults : Cfg)
    (content : Option String) :
    scaffoldObject lang ⟨imps, if s then [selectorAssign] else [], []⟩ name keyAttr nameExpr defaults content =
      (loadFile lang content).map (fun r =>
        createText lang r.1 ⟨defaults.values.set keyAttr (some nameExpr), defaults.annotations,
          imps.foldl addImport (r.1.imports ++ defaults.imports)⟩ (if s then [selectorAssign] else [])) := by
  have hadd : ∀ cfg : Cfg, addAlways ⟨imps, if s then [selectorAssign] else [], []⟩ name cfg =
      .ok (⟨cfg.values, cfg.annotations, imps.foldl addImport cfg.imports⟩, if s then [selectorAssign] else []) := by
    intro cfg
    unfold addAlways
    cases s <;> rfl
  unfold scaffoldObject toFile
  cases content with
  | none =>
    have hl : loadFile lang none = .ok (⟨[], [], []⟩, .empty) := rfl
    rw [hl]
    simp only [bind, Except.bind, pure, Except.pure, hadd, Except.map]
  | some text =>
    cases hl : loadFile lang (some text) with
    | error e => rfl
    | ok r =>
      simp only [bind, Except.bind, pure, Except.pure, hadd, Except.map]

/-! ### Imports -/

theorem addImport_mem {is : List Imp} {x i : Imp} : i ∈ addImport is x → i ∈ is ∨ i = x := by
  intro h
  rcases C44_kept is x with e | e | e
  · rw [e] at h; exact .inl h
  · rw [e] at h
    rcases List.mem_cons.1 h with h | h
    · exact .inr h
    · exact .inl h
  · rw [e, List.mem_append, List.mem_singleton] at h
    exact h

theorem addImport_sublist (is : List Imp) (x : Imp) : is.Sublist (addImport is x) := by
  rcases C44_kept is x with e | e | e
  · rw [e]; exact List.Sublist.refl _
  · rw [e]; exact List.sublist_cons_self _ _
  · rw [e]; exact List.sublist_append_left _ _

theorem addImports_mem {xs is : List Imp} {i : Imp} : i ∈ xs.foldl addImport is → i ∈ is ∨ i ∈ xs := by
  induction xs generalizing is with
  | nil => exact .inl
  | cons x xs ih =>
    intro h
    rcases ih h with h | h
    · rcases addImport_mem h with h | h
      · exact .inl h
      · exact .inr (h ▸ List.mem_cons_self)
    · exact .inr (List.mem_cons_of_mem _ h)

theorem addImports_sublist (xs is : List Imp) : is.Sublist (xs.foldl addImport is) := by
  induction xs generalizing is with
  | nil => exact List.Sublist.refl _
  | cons x xs ih => exact (addImport_sublist is x).trans (ih _)

theorem hasImport_mono {is js : List Imp} (h : is.Sublist js) {i : Imp} (hi : hasImport is i = true) : hasImport js i = true := by
  unfold hasImport at hi ⊢
  rw [List.any_eq_true] at hi ⊢
  obtain ⟨j, hj, hc⟩ := hi
  exact ⟨j, h.subset hj, hc⟩

theorem addImports_has {xs is : List Imp} {i : Imp} (h : i ∈ xs) : hasImport (xs.foldl addImport is) i = true := by
  induction xs generalizing is with
  | nil => cases h
  | cons x xs ih =>
    rcases List.mem_cons.1 h with rfl | h
    · exact hasImport_mono (addImports_sublist xs _) (hasImport_addImport is i)
    · exact ih h

theorem covers_trans {i j k : Imp} (h1 : i.covers j = true) (h2 : j.covers k = true) : i.covers k = true := by
  unfold Imp.covers at *
  simp only [Bool.and_eq_true, decide_eq_true_eq, List.all_eq_true] at *
  refine ⟨⟨h1.1.1.trans h2.1.1, fun n hn => h1.1.2 n (h2.1.2 n hn)⟩, fun r hr => h1.2 r (h2.2 r hr)⟩

theorem hasImport_trans {is xs : List Imp} {k : Imp} (h1 : ∀ x ∈ xs, hasImport is x = true) (h2 : hasImport xs k = true) :
    hasImport is k = true := by
  unfold hasImport at *
  rw [List.any_eq_true] at h2
  obtain ⟨x, hx, hc⟩ := h2
  have := h1 x hx
  rw [List.any_eq_true] at this ⊢
  obtain ⟨i, hi, hic⟩ := this
  exact ⟨i, hi, covers_trans hic hc⟩

/-! ### New parameters -/

theorem freshAssigns_eq {values d : Dict String (Option Expr)} {ann : Dict String Expr} {imports : List Imp}
    {as : List Assign} {ns : List AssignNode} (hns : ns.mapM Assign.ofNode = .ok as)
    (hd : ∀ k ∈ d.keys, containsVarname as k = true) {ps : List (String × Expr)}
    (hps : values.items = ps.map (fun p => (p.1, some p.2)))
    (hnl : ∀ p ∈ ps, p.1 ∉ assignedNames ns → '\n' ∉ p.1.toList) :
    freshAssigns ⟨values.update d, ann, imports⟩ as =
      (ps.filter (fun p => decide (p.1 ∉ assignedNames ns))).map
        (fun p => (⟨.name p.1, some p.2, ann.get? p.1, false, none⟩ : Assign)) := by
  unfold freshAssigns assignsOf
  rw [List.filter_map]
  have e1 : (values.update d).items.filter ((fun a : Assign => !containsVarname as a.target.varname) ∘
      fun e => (⟨.name e.1, e.2, ann.get? e.1, false, none⟩ : Assign)) =
      values.items.filter (fun e => !containsVarname as e.1) := by
    have := items_filter_setAll d.items values (fun x => !containsVarname as x) (by
      intro e he
      have : e.1 ∈ d.keys := List.mem_map_of_mem he
      simp [hd _ this])
    exact this
  rw [e1, hps, List.filter_map, List.map_map]
  have e2 : ps.filter ((fun e : String × Option Expr => !containsVarname as e.1) ∘ fun p => (p.1, some p.2)) =
      ps.filter (fun p => decide (p.1 ∉ assignedNames ns)) := by
    apply List.filter_congr
    intro p hp
    have := containsVarname_iff hns (hnl p hp)
    simp only [Function.comp_apply]
    by_cases h : p.1 ∈ assignedNames ns
    · simp [h, this.2 h]
    · have : containsVarname as p.1 = false := by
        rw [← Bool.not_eq_true, this]; exact h
      simp [h, this]
  rw [e2]
  rfl

theorem contains_s {ns : List AssignNode} {as : List Assign} (hns : ns.mapM Assign.ofNode = .ok as) :
    (!containsVarname as "s") = decide ("s" ∉ assignedNames ns) := by
  have := containsVarname_iff hns (x := "s") (fun _ => by decide)
  by_cases h : "s" ∈ assignedNames ns
  · simp [h, this.2 h]
  · have h2 : containsVarname as "s" = false := by
      rw [← Bool.not_eq_true, this]; exact h
    simp [h, h2]

/-! ## C41 -/

/-- The line of the selector, if the file has none. -/
def selectorNode (b : Mod) : List AssignNode :=
  if "s" ∈ assignedNames b.assigns then [] else [.assign [.name "s"] "Selector()"]

/-- The parameters that the file does not assign. -/
def newParams (ps : List (String × Expr)) (b : Mod) : List (String × Expr) :=
  ps.filter (fun p => decide (p.1 ∉ assignedNames b.assigns))

/-- The imports of a file after a write: those before, in order, and of the others only required ones,
all of which are there. -/
def ImportsKept (old required new : List Imp) : Prop :=
  old.Sublist new ∧ (∀ i ∈ new, i ∈ old ∨ i ∈ required) ∧ ∀ r ∈ required, ∃ i ∈ new, i.covers r = true

/-- One write, for the two sorts of items. -/
theorem write_core {lang : Lang} {Ok : String → Option Expr → Expr → Prop} {Im : Imp → Prop}
    (law : Lawful lang Ok Im) (s : Bool) {values d : Dict String (Option Expr)} {annotations : Dict String Expr}
    {imports required : List Imp} {ps : List (String × Expr)}
    (hps : values.items = ps.map (fun p => (p.1, some p.2))) {content : Option String} {P B : List String}
    {ins : List ImportNode} {b : Mod}
    (hparts : Parts (linesOf content) P B) (hP : lang.parse P = .ok ⟨ins, []⟩) (hB : lang.parse B = .ok b)
    (hB' : lang.parse (dropLastBlank B) = .ok b)
    (hins : ∀ n ∈ ins ++ b.imports, ∀ i, Imp.ofNode n = .ok i → Im i) (hreqIm : ∀ i ∈ required, Im i)
    (hok : ∀ p ∈ newParams ps b, Ok p.1 (annotations.get? p.1) p.2) {f : Loaded} {d0 : Dict String (Option Expr)}
    (hl : loadFile lang content = .ok (f, d0)) (hd : d = .empty ∨ d = d0)
    (hreq : ∀ i ∈ imports, i ∈ f.imports ∨ i ∈ required) (hhas : ∀ r ∈ required, hasImport imports r = true) :
    ∃ old new, (ins ++ b.imports).mapM Imp.ofNode = .ok old ∧ ImportsKept old required new ∧
      lang.parse (readLines (createText lang f ⟨values.update d, annotations, imports⟩ (if s then [selectorAssign] else []))) =
        .ok ⟨new.map written ++ b.imports,
          (if s then selectorNode b else []) ++ b.assigns ++
            (newParams ps b).map (fun p => paramNode p.1 (annotations.get? p.1) p.2)⟩ := by
  obtain ⟨h1, h2, h3, ann, h4⟩ := loaded_facts law hparts hP hB hl
  subst h3
  refine ⟨f.imports, _, h1, ⟨addImports_sublist imports f.imports, ?_, ?_⟩, ?_⟩
  · intro i hi
    rcases addImports_mem hi with hi | hi
    · exact .inl hi
    · exact hreq i hi
  · intro r hr
    have := hasImport_trans (fun x hx => addImports_has (is := f.imports) hx) (hhas r hr)
    unfold hasImport at this
    rw [List.any_eq_true] at this
    exact this
  · have hfresh := freshAssigns_eq (values := values) (d := d) (ann := annotations) (imports := imports) h2 (by
        intro k hk
        rcases hd with rfl | rfl
        · cases hk
        · rcases defaultsFrom_keys h4 k hk with hk | hk
          · cases hk
          · exact hk) hps (by
        intro p hp hn
        exact law.ident _ _ _ (hok p (List.mem_filter.2 ⟨hp, decide_eq_true hn⟩)))
    have hbody : f.body = (splitSections (linesOf content)).2 := by rw [hparts.sections]
    have hcore := createText_parse law (f := f) (cfg := ⟨values.update d, annotations, imports⟩) s (b := b)
      (by rw [hbody]; exact body_ne_blank (linesOf content))
      (by
        intro l hl
        have hmem : l ∈ linesOf content := by rw [hparts.all]; exact List.mem_append_right _ hl
        cases content with
        | none => cases hmem
        | some t => exact mem_readLines_noNewline l hmem)
      hB hB'
      (by
        intro i hi
        have hold : ∀ i ∈ f.imports, Im i := by
          intro i hi
          obtain ⟨n, hn, hni⟩ := (mapM_ok_mem h1).1 i hi
          exact hins n hn i hni
        rcases addImports_mem hi with hi | hi
        · exact hold i hi
        · rcases hreq i hi with hi | hi
          · exact hold i hi
          · exact hreqIm i hi)
      (newParams ps b) hfresh hok
    rw [hcore, contains_s h2]
    unfold selectorNode
    by_cases hs : "s" ∈ assignedNames b.assigns <;> cases s <;> simp [hs]

/-- C41. What a config file class always assigns never replaces what is there: every value and annotation of the config is
kept, and only names that are always assigned are added. -/
theorem C41_always (t : Template) (name : String) (cfg cfg' : Cfg) (begins : List Assign)
    (h : addAlways t name cfg = .ok (cfg', begins)) :
    (∀ k v, cfg.values.get? k = some v → cfg'.values.get? k = some v) ∧
    (∀ k a, cfg.annotations.get? k = some a → cfg'.annotations.get? k = some a) ∧
    (∀ k ∈ cfg'.values.keys, k ∈ cfg.values.keys ∨
      ∃ a ∈ t.alwaysAssigns ++ (AList.get? t.named name).getD [], a.preferBeginning = false ∧ a.target.varname = k) ∧
    (∀ i ∈ cfg.imports, i ∈ cfg'.imports) := by
  unfold addAlways at h
  simp only [bind, Except.bind, pure, Except.pure] at h
  cases hd : defaultsFrom ((t.alwaysAssigns ++ (AList.get? t.named name).getD []).filter (fun a => !a.preferBeginning))
      .empty .empty with
  | error e => rw [hd] at h; cases h
  | ok r =>
    rw [hd] at h
    cases h
    refine ⟨fun k v hk => ?_, fun k a hk => ?_, fun k hk => ?_, ?_⟩
    · rw [Dict.get?_update, Dict.get?_filterKeys]
      have hc : cfg.values.contains k = true := by
        rw [Dict.contains_iff, Dict.mem_keys_iff, hk]
        rfl
      simp [hc, hk]
    · rw [Dict.get?_update, Dict.get?_filterKeys]
      have hc : cfg.annotations.contains k = true := by
        rw [Dict.contains_iff, Dict.mem_keys_iff, hk]
        rfl
      simp [hc, hk]
    · rw [Dict.mem_keys_update, Dict.keys_filterKeys] at hk
      rcases hk with hk | hk
      · exact .inl hk
      · rcases defaultsFrom_keys hd k (List.mem_filter.1 hk).1 with hk | hk
        · cases hk
        · unfold containsVarname at hk
          obtain ⟨a, ha, hak⟩ := List.any_eq_true.1 hk
          obtain ⟨ha1, ha2⟩ := List.mem_filter.1 ha
          exact .inr ⟨a, ha1, by simpa using ha2, by simpa using hak⟩
    · intro i hi
      generalize t.alwaysImports = as
      show i ∈ as.foldl addImport cfg.imports
      generalize cfg.imports = is at hi
      induction as generalizing is with
      | nil => exact hi
      | cons a as ih =>
        rw [List.foldl_cons]
        refine ih _ ?_
        unfold addImport
        split
        · exact hi
        · split
          · exact List.mem_cons_of_mem _ hi
          · exact List.mem_append.2 (.inl hi)

/-- Non-vacuity: the annotation and the value of `x` are kept, `y` is added. -/
example : ((addAlways ⟨[], [⟨.name "x", some "1", none, false, none⟩, ⟨.name "y", some "2", none, false, none⟩], []⟩ "f"
    ⟨Dict.empty.set "x" (some "5"), .empty, []⟩).map (fun r => r.1.values.items)).toOption =
      some [("x", some "5"), ("y", some "2")] := by decide +kernel

/-- The parameters of a function with the defaults that are written: for one called `DataPipeline`, `cleanup_kwargs` is `dict()` at the
end if it is `None` or no parameter. -/
def writtenParams (name : String) (ps : List (String × Expr)) : List (String × Expr) :=
  if name = "DataPipeline" ∧ (("cleanup_kwargs", "None") ∈ ps ∨ "cleanup_kwargs" ∉ ps.map Prod.fst) then
    ps.filter (fun p => decide (p.1 ≠ "cleanup_kwargs")) ++ [("cleanup_kwargs", "dict()")]
  else ps

/-- What is written for a function called `DataPipeline`, and for another one. -/
example : writtenParams "DataPipeline" [("cleanup_kwargs", "None"), ("a", "1")] = [("a", "1"), ("cleanup_kwargs", "dict()")] ∧
    writtenParams "DataPipeline" [("a", "1")] = [("a", "1"), ("cleanup_kwargs", "dict()")] ∧
    writtenParams "DataPipeline" [("cleanup_kwargs", "{}"), ("a", "1")] = [("cleanup_kwargs", "{}"), ("a", "1")] ∧
    writtenParams "f" [("cleanup_kwargs", "None"), ("a", "1")] = [("cleanup_kwargs", "None"), ("a", "1")] := by decide

theorem writtenParams_other {name : String} (h : name ≠ "DataPipeline") (ps : List (String × Expr)) :
    writtenParams name ps = ps := if_neg (fun hh => h hh.1)

theorem params_written {defaults : Cfg} {ps : List (String × Expr)} (hps : Params defaults ps) :
    Params { defaults with values := withCleanup defaults.values } (writtenParams "DataPipeline" ps) := by
  have hk : defaults.values.keys = ps.map Prod.fst := by
    unfold Dict.keys
    rw [hps, List.map_map]
    rfl
  have hf : ∀ l : List (String × Expr), (l.map (fun p => (p.1, some p.2))).filter (fun e => decide (e.1 ≠ "cleanup_kwargs")) =
      (l.filter (fun p => decide (p.1 ≠ "cleanup_kwargs"))).map (fun p => (p.1, some p.2)) := by
    intro l
    rw [List.filter_map]
    rfl
  unfold Params
  show (withCleanup defaults.values).items = _
  rw [withCleanup_items]
  cases hg : defaults.values.get? "cleanup_kwargs" with
  | none =>
    have hn := (Dict.get?_eq_none_iff _ _).1 hg
    rw [hk] at hn
    have hall : ps.filter (fun p => decide (p.1 ≠ "cleanup_kwargs")) = ps := by
      rw [List.filter_eq_self]
      intro p hp
      simp only [decide_eq_true_eq]
      exact fun he => hn (List.mem_map.2 ⟨p, hp, he⟩)
    unfold writtenParams
    rw [if_pos ⟨rfl, .inr hn⟩, hall, List.map_append, hps]
    rfl
  | some v =>
    have hm := (Dict.mem_items_iff _ _ _).2 hg
    rw [hps, List.mem_map] at hm
    obtain ⟨p, hp, he⟩ := hm
    obtain ⟨a, b⟩ := p
    cases he
    by_cases hb : b = "None"
    · subst hb
      unfold writtenParams
      rw [if_pos ⟨rfl, .inl hp⟩]
      simp only
      rw [hps, hf, List.map_append]
      rfl
    · have hno : ¬ ("DataPipeline" = "DataPipeline" ∧
          (("cleanup_kwargs", "None") ∈ ps ∨ "cleanup_kwargs" ∉ ps.map Prod.fst)) := by
        rintro ⟨_, h | h⟩
        · have : ("cleanup_kwargs", some "None") ∈ defaults.values.items := by
            rw [hps]
            exact List.mem_map.2 ⟨_, h, rfl⟩
          rw [Dict.mem_items_iff, hg] at this
          cases this
          exact hb rfl
        · exact h (List.mem_map.2 ⟨_, hp, rfl⟩)
      unfold writtenParams
      rw [if_neg hno]
      split
      · next heq => cases heq
      · next heq => cases heq; exact absurd rfl hb
      · exact hps

theorem function_written {lang : Lang} {Ok : String → Option Expr → Expr → Prop} {Im : Imp → Prop}
    (law : Lawful lang Ok Im) (name : String) (hname : name ≠ "DataPipeline") (defaults : Cfg) (ps : List (String × Expr))
    (hps : Params defaults ps) (content : Option String) (P B : List String) (ins : List ImportNode) (b : Mod)
    (hparts : Parts (linesOf content) P B) (hP : lang.parse P = .ok ⟨ins, []⟩) (hB : lang.parse B = .ok b)
    (hB' : lang.parse (dropLastBlank B) = .ok b)
    (hins : ∀ n ∈ ins ++ b.imports, ∀ i, Imp.ofNode n = .ok i → Im i)
    (hreq : ∀ i ∈ selectorImport :: defaults.imports, Im i)
    (hok : ∀ p ∈ newParams ps b, Ok p.1 (defaults.annotations.get? p.1) p.2)
    (text : String) (h : scaffoldFunction lang name defaults content = .ok text) :
    ∃ old new, (ins ++ b.imports).mapM Imp.ofNode = .ok old ∧ ImportsKept old (selectorImport :: defaults.imports) new ∧
      lang.parse (linesOf (some text)) = .ok ⟨new.map written ++ b.imports,
        selectorNode b ++ b.assigns ++
          (newParams ps b).map (fun p => paramNode p.1 (defaults.annotations.get? p.1) p.2)⟩ := by
  rw [scaffoldFunction_eq lang hname] at h
  cases hl : loadFile lang content with
  | error e => rw [hl] at h; cases h
  | ok r =>
    obtain ⟨f, d⟩ := r
    rw [hl] at h
    cases h
    have := write_core law true (d := d) (imports := addImport defaults.imports selectorImport)
      (required := selectorImport :: defaults.imports) hps hparts hP hB hB' hins hreq hok hl (.inr rfl)
      (by
        intro i hi
        right
        rcases addImport_mem hi with hi | hi
        · exact List.mem_cons_of_mem _ hi
        · exact hi ▸ List.mem_cons_self)
      (by
        intro r hr
        rcases List.mem_cons.1 hr with rfl | hr
        · exact hasImport_addImport _ _
        · exact hasImport_mono (addImport_sublist _ _) (by
            unfold hasImport
            rw [List.any_eq_true]
            exact ⟨r, hr, covers_self r⟩))
    simpa [linesOf] using this

/-- C41, for functions: if the first lines of the file have imports only, and the rest can be parsed by
itself, then the file written has the same assignments in the same order, before them the selector if
it was not assigned, after them the parameters of the function that were not assigned, and nothing
else. -/
theorem C41_function_partial {lang : Lang} {Ok : String → Option Expr → Expr → Prop} {Im : Imp → Prop}
    (law : Lawful lang Ok Im) (name : String) (defaults : Cfg) (ps : List (String × Expr))
    (hps : Params defaults ps) (content : Option String) (P B : List String) (ins : List ImportNode) (b : Mod)
    (hparts : Parts (linesOf content) P B) (hP : lang.parse P = .ok ⟨ins, []⟩) (hB : lang.parse B = .ok b)
    (hB' : lang.parse (dropLastBlank B) = .ok b)
    (hins : ∀ n ∈ ins ++ b.imports, ∀ i, Imp.ofNode n = .ok i → Im i)
    (hreq : ∀ i ∈ selectorImport :: defaults.imports, Im i)
    (hok : ∀ p ∈ newParams (writtenParams name ps) b, Ok p.1 (defaults.annotations.get? p.1) p.2)
    (text : String) (h : scaffoldFunction lang name defaults content = .ok text) :
    ∃ old new, (ins ++ b.imports).mapM Imp.ofNode = .ok old ∧ ImportsKept old (selectorImport :: defaults.imports) new ∧
      lang.parse (linesOf (some text)) = .ok ⟨new.map written ++ b.imports,
        selectorNode b ++ b.assigns ++
          (newParams (writtenParams name ps) b).map (fun p => paramNode p.1 (defaults.annotations.get? p.1) p.2)⟩ := by
  by_cases hname : name = "DataPipeline"
  · subst hname
    rw [scaffoldFunction_pipeline lang (name := "f") (by decide)] at h
    exact function_written law "f" (by decide) { defaults with values := withCleanup defaults.values } _ (params_written hps) content P B ins b hparts hP hB hB' hins hreq hok text h
  · rw [writtenParams_other hname] at *
    exact function_written law name hname defaults ps hps content P B ins b hparts hP hB hB' hins hreq hok text h

/-- The arguments of `__init__` with the name of the item for the key attribute. -/
def withKey (ps : List (String × Expr)) (k : String) (v : Expr) : List (String × Expr) :=
  if k ∈ ps.map Prod.fst then ps.map (fun p => if p.1 = k then (k, v) else p) else ps ++ [(k, v)]

theorem set_withKey {ps : List (String × Expr)} (hn : (ps.map Prod.fst).Nodup) (k : String) (v : Expr) :
    AList.set (ps.map (fun p => (p.1, some p.2))) k (some v) = (withKey ps k v).map (fun p => (p.1, some p.2)) := by
  unfold withKey
  induction ps with
  | nil => rfl
  | cons p ps ih =>
    have hn' := List.nodup_cons.1 (by simpa using hn : (p.1 :: ps.map Prod.fst).Nodup)
    rw [List.map_cons, AList.set]
    by_cases hk : p.1 = k
    · subst hk
      rw [if_pos rfl, if_pos (by simp)]
      have : ps.map (fun q => if q.1 = p.1 then (p.1, v) else q) = ps := by
        conv => rhs; rw [← List.map_id ps]
        apply List.map_congr_left
        intro q hq
        rw [if_neg]
        · rfl
        · intro he
          exact hn'.1 (List.mem_map.2 ⟨q, hq, he⟩)
      simp [this]
    · rw [if_neg hk, ih hn'.2]
      by_cases hm : k ∈ ps.map Prod.fst
      · have hm2 : k ∈ (p :: ps).map Prod.fst := List.mem_cons_of_mem _ hm
        rw [if_pos hm, if_pos hm2]
        simp [hk]
      · have hm2 : k ∉ (p :: ps).map Prod.fst := by
          rw [List.map_cons, List.mem_cons]
          rintro (h | h)
          · exact hk h.symm
          · exact hm h
        rw [if_neg hm, if_neg hm2]
        simp

/-- C41, for objects of specific classes: the same, with the imports the class always has, and the
selector if the class has the usual assignments (`s`) or none (`¬ s`). -/
theorem C41_object_partial {lang : Lang} {Ok : String → Option Expr → Expr → Prop} {Im : Imp → Prop}
    (law : Lawful lang Ok Im) (imps : List Imp) (s : Bool) (name keyAttr nameExpr : String) (defaults : Cfg)
    (ps : List (String × Expr))
    (hps : Params defaults ps) (content : Option String) (P B : List String) (ins : List ImportNode) (b : Mod)
    (hparts : Parts (linesOf content) P B) (hP : lang.parse P = .ok ⟨ins, []⟩) (hB : lang.parse B = .ok b)
    (hB' : lang.parse (dropLastBlank B) = .ok b)
    (hins : ∀ n ∈ ins ++ b.imports, ∀ i, Imp.ofNode n = .ok i → Im i)
    (hreq : ∀ i ∈ imps ++ defaults.imports, Im i)
    (hok : ∀ p ∈ newParams (withKey ps keyAttr nameExpr) b, Ok p.1 (defaults.annotations.get? p.1) p.2)
    (text : String)
    (h : scaffoldObject lang (classTemplate (some imps) (some (if s then [selectorAssign] else []))) name keyAttr nameExpr
      defaults content = .ok text) :
    ∃ old new, (ins ++ b.imports).mapM Imp.ofNode = .ok old ∧ ImportsKept old (imps ++ defaults.imports) new ∧
      lang.parse (linesOf (some text)) = .ok ⟨new.map written ++ b.imports,
        (if s then selectorNode b else []) ++ b.assigns ++
          (newParams (withKey ps keyAttr nameExpr) b).map (fun p => paramNode p.1 (defaults.annotations.get? p.1) p.2)⟩ := by
  have ht : classTemplate (some imps) (some (if s then [selectorAssign] else [])) =
      ⟨imps, if s then [selectorAssign] else [], []⟩ := rfl
  rw [ht, scaffoldObject_eq] at h
  cases hl : loadFile lang content with
  | error e => rw [hl] at h; cases h
  | ok r =>
    obtain ⟨f, d⟩ := r
    rw [hl] at h
    cases h
    have hps' : (defaults.values.set keyAttr (some nameExpr)).items =
        (withKey ps keyAttr nameExpr).map (fun p => (p.1, some p.2)) := by
      unfold Params at hps
      have hn : (ps.map Prod.fst).Nodup := by
        have := defaults.values.nodup
        rw [hps, List.map_map] at this
        exact this
      unfold Dict.set
      dsimp only
      rw [hps]
      exact set_withKey hn _ _
    have := write_core law s (d := .empty) (imports := imps.foldl addImport (f.imports ++ defaults.imports))
      (required := imps ++ defaults.imports) (annotations := defaults.annotations)
      hps' hparts hP hB hB' hins hreq hok hl (.inl rfl)
      (by
        intro i hi
        rcases addImports_mem hi with hi | hi
        · rcases List.mem_append.1 hi with hi | hi
          · exact .inl hi
          · exact .inr (List.mem_append_right _ hi)
        · exact .inr (List.mem_append_left _ hi))
      (by
        intro r hr
        rcases List.mem_append.1 hr with hr | hr
        · exact addImports_has hr
        · exact hasImport_mono (addImports_sublist _ _) (by
            unfold hasImport
            rw [List.any_eq_true]
            exact ⟨r, List.mem_append_right _ hr, covers_self r⟩))
    exact this

/-- Assignments that can be read: one target, which is a name, or an attribute without annotation. -/
def Readable : AssignNode → Prop
  | .assign [.name _] _ => True
  | .assign [.attribute _] _ => True
  | .ann (.name _) _ _ => True
  | _ => False

/-- Imports that can be read: all but `from . import x`. -/
def ReadableImport : ImportNode → Prop
  | .from_ none _ _ => False
  | _ => True

theorem mapM_ok_iff {α β : Type} (f : α → Except PyErr β) (xs : List α) :
    (∃ ys, xs.mapM f = .ok ys) ↔ ∀ x ∈ xs, ∃ y, f x = .ok y := by
  induction xs with
  | nil => exact ⟨fun _ _ h => by (cases h), fun _ => ⟨[], rfl⟩⟩
  | cons x xs ih =>
    rw [List.mapM_cons]
    constructor
    · rintro ⟨ys, h⟩ w hw
      cases hx : f x with
      | error e => rw [hx] at h; cases h
      | ok y =>
        rw [hx] at h
        cases hxs : xs.mapM f with
        | error e => rw [hxs] at h; cases h
        | ok zs =>
          rcases List.mem_cons.1 hw with rfl | hw
          · exact ⟨y, hx⟩
          · exact ih.1 ⟨zs, hxs⟩ w hw
    · intro h
      obtain ⟨y, hy⟩ := h x List.mem_cons_self
      obtain ⟨ys, hys⟩ := ih.2 (fun w hw => h w (List.mem_cons_of_mem _ hw))
      rw [hy, hys]
      exact ⟨_, rfl⟩

theorem defaultsFrom_ok_iff (as : List Assign) (d : Dict String (Option Expr)) (ann : Dict String Expr) :
    (∃ r, defaultsFrom as d ann = .ok r) ↔ ∀ a ∈ as, ∃ r, a.toDefault = .ok r := by
  induction as generalizing d ann with
  | nil => exact ⟨fun _ _ h => by (cases h), fun _ => ⟨_, rfl⟩⟩
  | cons a as ih =>
    rw [defaultsFrom]
    cases ha : a.toDefault with
    | error e =>
      constructor
      · rintro ⟨r, h⟩; cases h
      · intro h
        obtain ⟨r, hr⟩ := h a List.mem_cons_self
        rw [ha] at hr; cases hr
    | ok xy =>
      obtain ⟨x, y⟩ := xy
      refine Iff.trans (ih (d.setAll x) (ann.setAll y)) ?_
      constructor
      · intro h b hb
        rcases List.mem_cons.1 hb with rfl | hb
        · exact ⟨_, ha⟩
        · exact h b hb
      · exact fun h b hb => h b (List.mem_cons_of_mem _ hb)

theorem readable_iff (n : AssignNode) : (∃ a r, Assign.ofNode n = .ok a ∧ a.toDefault = .ok r) ↔ Readable n := by
  constructor
  · rintro ⟨a, r, h1, h2⟩
    unfold Assign.ofNode at h1
    split at h1
    · cases h1
    · rename_i t v
      cases h1
      cases t with
      | name x => trivial
      | «attribute» x => trivial
      | other x => cases h2
    · cases h1
    · rename_i t e v
      cases h1
      cases t with
      | name x => trivial
      | «attribute» x => cases h2
      | other x => cases h2
  · intro h
    unfold Readable at h
    split at h
    · exact ⟨_, _, rfl, rfl⟩
    · exact ⟨_, _, rfl, rfl⟩
    · exact ⟨_, _, rfl, rfl⟩
    · cases h

theorem loadFile_ok_iff {lang : Lang} (hnil : lang.parse [] = .ok ⟨[], []⟩) (content : Option String) :
    (∃ r, loadFile lang content = .ok r) ↔ ∃ m, lang.parse (linesOf content) = .ok m ∧
      (∀ n ∈ m.imports, ReadableImport n) ∧ ∀ n ∈ m.assigns, Readable n := by
  cases content with
  | none =>
    refine ⟨fun _ => ⟨_, hnil, by simp, by simp⟩, fun _ => ⟨_, rfl⟩⟩
  | some text =>
    have himp : ∀ n, (∃ i, Imp.ofNode n = .ok i) ↔ ReadableImport n := by
      intro n
      cases n with
      | import_ as => exact ⟨fun _ => trivial, fun _ => ⟨_, rfl⟩⟩
      | from_ m level as =>
        cases m with
        | none => exact ⟨fun ⟨i, h⟩ => by (cases h), fun h => h.elim⟩
        | some m => exact ⟨fun _ => trivial, fun _ => ⟨_, rfl⟩⟩
    constructor
    · rintro ⟨r, h⟩
      unfold loadFile readFile at h
      dsimp only [linesOf] at h ⊢
      cases hm : lang.parse (readLines text) with
      | error e => rw [hm] at h; cases h
      | ok m =>
        rw [hm] at h
        simp only [bind, Except.bind] at h
        cases h1 : m.imports.mapM Imp.ofNode with
        | error e => rw [h1] at h; cases h
        | ok is =>
          cases h2 : m.assigns.mapM Assign.ofNode with
          | error e => rw [h1, h2] at h; cases h
          | ok as =>
            rw [h1, h2] at h
            simp only [pure, Except.pure] at h
            cases h3 : defaultsFrom as .empty .empty with
            | error e => rw [h3] at h; cases h
            | ok dd =>
              refine ⟨m, rfl, fun n hn => (himp n).1 ((mapM_ok_iff _ _).1 ⟨is, h1⟩ n hn), ?_⟩
              intro n hn
              obtain ⟨a, ha, hna⟩ := (mapM_ok_mem h2).2 n hn
              obtain ⟨r', hr'⟩ := (defaultsFrom_ok_iff _ _ _).1 ⟨dd, h3⟩ a ha
              exact (readable_iff n).1 ⟨a, r', hna, hr'⟩
    · rintro ⟨m, hm, hi, ha⟩
      obtain ⟨is, h1⟩ := (mapM_ok_iff Imp.ofNode m.imports).2 (fun n hn => (himp n).2 (hi n hn))
      obtain ⟨as, h2⟩ := (mapM_ok_iff Assign.ofNode m.assigns).2 (fun n hn => by
        obtain ⟨a, _, h, _⟩ := (readable_iff n).2 (ha n hn)
        exact ⟨a, h⟩)
      obtain ⟨dd, h3⟩ := (defaultsFrom_ok_iff as .empty .empty).2 (fun a haa => by
        obtain ⟨n, hn, hna⟩ := (mapM_ok_mem h2).1 a haa
        obtain ⟨a', r, h, hr⟩ := (readable_iff n).2 (ha n hn)
        rw [hna] at h
        cases h
        exact ⟨r, hr⟩)
      dsimp only [linesOf] at hm
      unfold loadFile readFile
      dsimp only
      rw [hm]
      simp only [bind, Except.bind]
      rw [h1, h2]
      simp only [pure, Except.pure]
      rw [h3]
      exact ⟨_, rfl⟩

/-- C41. Scaffolding a function succeeds exactly if the existing file can be parsed and has only
imports and assignments that can be read; otherwise the file is not touched. -/
theorem C41_succeeds_iff {lang : Lang} (hnil : lang.parse [] = .ok ⟨[], []⟩) (name : String)
    (defaults : Cfg) (content : Option String) :
    (∃ text, scaffoldFunction lang name defaults content = .ok text) ↔
      ∃ m, lang.parse (linesOf content) = .ok m ∧ (∀ n ∈ m.imports, ReadableImport n) ∧ ∀ n ∈ m.assigns, Readable n := by
  have hother : ∃ name' defaults', name' ≠ "DataPipeline" ∧
      scaffoldFunction lang name defaults content = scaffoldFunction lang name' defaults' content := by
    by_cases hname : name = "DataPipeline"
    · subst hname
      exact ⟨"f", _, by decide, scaffoldFunction_pipeline lang (by decide) defaults content⟩
    · exact ⟨name, defaults, hname, rfl⟩
  obtain ⟨name', defaults', hname, heq⟩ := hother
  rw [← loadFile_ok_iff hnil, heq, scaffoldFunction_eq lang hname]
  cases loadFile lang content with
  | error e => exact ⟨fun ⟨_, h⟩ => by (cases h), fun ⟨_, h⟩ => by (cases h)⟩
  | ok r => exact ⟨fun _ => ⟨_, rfl⟩, fun _ => ⟨_, rfl⟩⟩

/-! ## C43 -/

theorem sublist_dropLastBlank {p : String → Bool} (hp : p "" = false) (ls : List String) :
    (ls.filter p).Sublist (dropLastBlank ls) := by
  unfold dropLastBlank
  split
  · rename_i h
    obtain ⟨hne, hl⟩ := List.getLast?_eq_some_iff.1 h
    rw [hl]
    simp [hp]
  · exact List.filter_sublist

/-- The lines that are never skipped, in order. -/
def isKept (l : String) : Bool := !importish l

theorem isKept_iff (l : String) : isKept l = true ↔ ¬ Skipped l := by
  unfold isKept
  rw [← importish_iff]
  simp

theorem createText_block {lang : Lang} {f : Loaded} {cfg : Cfg} (s : Bool)
    (hbody : f.body ≠ [""]) (hn : ∀ l ∈ f.body, hasChar '\n' l = false)
    (hi : ∀ i ∈ cfg.imports.foldl addImport f.imports, hasChar '\n' i.str = false)
    (he : ∀ a ∈ freshAssigns cfg f.assigns, a.lines lang ≠ [] ∧ ∀ l ∈ a.lines lang, hasChar '\n' l = false) :
    ∃ pre post, readLines (createText lang f cfg (if s then [selectorAssign] else [])) = pre ++ f.body ++ post ∨
      readLines (createText lang f cfg (if s then [selectorAssign] else [])) = pre ++ dropLastBlank f.body := by
  rw [createText_lines s hbody hn hi he]
  split
  · by_cases hb : f.body = []
    · rw [hb]
      exact ⟨_, [], .inr (by simp [dropLastBlank]; rfl)⟩
    · rw [dropLastBlank_append hb]
      exact ⟨_, [], .inr rfl⟩
  · exact ⟨_, _, .inl rfl⟩

theorem loadFile_mod {lang : Lang} {Ok : String → Option Expr → Expr → Prop} {Im : Imp → Prop} (law : Lawful lang Ok Im)
    {content : Option String} {m : Mod} (hm : lang.parse (linesOf content) = .ok m) {f : Loaded}
    {d : Dict String (Option Expr)} (h : loadFile lang content = .ok (f, d)) :
    m.imports.mapM Imp.ofNode = .ok f.imports ∧ m.assigns.mapM Assign.ofNode = .ok f.assigns ∧
      f.body = (splitSections (linesOf content)).2 ∧ ∃ ann, defaultsFrom f.assigns .empty .empty = .ok (d, ann) := by
  unfold loadFile at h
  cases content with
  | none =>
    cases h
    have : m = ⟨[], []⟩ := by
      have := law.nil
      rw [linesOf, this] at hm
      cases hm
      rfl
    subst this
    exact ⟨rfl, rfl, rfl, _, rfl⟩
  | some text =>
    unfold readFile at h
    dsimp only [linesOf] at h hm ⊢
    rw [hm] at h
    simp only [bind, Except.bind] at h
    cases h1 : m.imports.mapM Imp.ofNode with
    | error e => rw [h1] at h; cases h
    | ok is =>
      cases h2 : m.assigns.mapM Assign.ofNode with
      | error e => rw [h1, h2] at h; cases h
      | ok as =>
        rw [h1, h2] at h
        simp only [pure, Except.pure] at h
        cases h3 : defaultsFrom as .empty .empty with
        | error e => rw [h3] at h; cases h
        | ok dd =>
          rw [h3] at h
          cases h
          exact ⟨rfl, rfl, rfl, _, h3⟩

/-- The lines of a file are kept: those from the first one that is not skipped are there in one block,
of which at most an empty last line is missing, and all lines that are not skipped are there in order. -/
def LinesKept (before after : List String) : Prop :=
  (∀ P B, Parts before P B → ∃ pre post, after = pre ++ B ++ post ∨ after = pre ++ dropLastBlank B) ∧
    ∀ kept : List String, kept.Sublist before → (∀ l ∈ kept, ¬ Skipped l) → kept.Sublist after

theorem write_block {lang : Lang} {Ok : String → Option Expr → Expr → Prop} {Im : Imp → Prop}
    (law : Lawful lang Ok Im) (s : Bool) {values d : Dict String (Option Expr)} {annotations : Dict String Expr}
    {imports required : List Imp} {ps : List (String × Expr)}
    (hps : values.items = ps.map (fun p => (p.1, some p.2))) {content : Option String} {m : Mod}
    (hm : lang.parse (linesOf content) = .ok m)
    (hins : ∀ n ∈ m.imports, ∀ i, Imp.ofNode n = .ok i → Im i) (hreqIm : ∀ i ∈ required, Im i)
    (hok : ∀ p ∈ newParams ps m, Ok p.1 (annotations.get? p.1) p.2) {f : Loaded} {d0 : Dict String (Option Expr)}
    (hl : loadFile lang content = .ok (f, d0)) (hd : d = .empty ∨ d = d0)
    (hreq : ∀ i ∈ imports, i ∈ f.imports ∨ i ∈ required) :
    LinesKept (linesOf content)
      (readLines (createText lang f ⟨values.update d, annotations, imports⟩ (if s then [selectorAssign] else []))) := by
  obtain ⟨h1, h2, hbody, ann, h4⟩ := loadFile_mod law hm hl
  have hfresh := freshAssigns_eq (values := values) (d := d) (ann := annotations) (imports := imports) h2 (by
      intro k hk
      rcases hd with rfl | rfl
      · cases hk
      · rcases defaultsFrom_keys h4 k hk with hk | hk
        · cases hk
        · exact hk) hps (by
      intro p hp hn
      exact law.ident _ _ _ (hok p (List.mem_filter.2 ⟨hp, decide_eq_true hn⟩)))
  obtain ⟨pre, post, hblock⟩ := createText_block (lang := lang) (f := f) (cfg := ⟨values.update d, annotations, imports⟩) s
    (by rw [hbody]; exact body_ne_blank (linesOf content))
    (by
      intro l hl
      rw [hbody] at hl
      have hmem : l ∈ linesOf content := by
        rw [← splitSections_append (linesOf content)]
        exact List.mem_append_right _ hl
      cases content with
      | none => cases hmem
      | some t => exact mem_readLines_noNewline l hmem)
    (by
      intro i hi
      have hold : ∀ i ∈ f.imports, Im i := by
        intro i hi
        obtain ⟨n, hn, hni⟩ := (mapM_ok_mem h1).1 i hi
        exact hins n hn i hni
      refine (law.imports i ?_).2
      rcases addImports_mem hi with hi | hi
      · exact hold i hi
      · rcases hreq i hi with hi | hi
        · exact hold i hi
        · exact hreqIm i hi)
    (by
      intro a ha
      rw [hfresh] at ha
      obtain ⟨p, hp, rfl⟩ := List.mem_map.1 ha
      obtain ⟨h1, l, h2, _⟩ := law.lines _ _ _ (hok p hp)
      refine ⟨?_, h1⟩
      intro hnil
      simp only [Assign.lines] at hnil
      rw [hnil] at h2
      cases h2)
  constructor
  · intro P B hparts
    have : f.body = B := by rw [hbody, hparts.sections]
    rw [← this]
    exact ⟨pre, post, hblock⟩
  · intro kept hk hs
    have e1 : kept.Sublist ((linesOf content).filter isKept) := by
      have : kept.filter isKept = kept := by
        rw [List.filter_eq_self]
        exact fun l hl => (isKept_iff l).2 (hs l hl)
      rw [← this]
      exact hk.filter _
    have e2 : (linesOf content).filter isKept = f.body.filter isKept := by
      conv => lhs; rw [← splitSections_append (linesOf content)]
      rw [List.filter_append, ← hbody]
      have : (splitSections (linesOf content)).1.filter isKept = [] := by
        rw [List.filter_eq_nil_iff]
        intro l hl
        unfold isKept
        rw [splitSections_fst _ l hl]
        simp
      rw [this, List.nil_append]
    rw [e2] at e1
    rcases hblock with hb | hb
    · rw [hb]
      exact (e1.trans List.filter_sublist).trans
        ((List.sublist_append_right pre f.body).trans (List.sublist_append_left _ post))
    · rw [hb]
      exact (e1.trans (sublist_dropLastBlank (by decide) f.body)).trans (List.sublist_append_right _ _)

theorem function_lines {lang : Lang} {Ok : String → Option Expr → Expr → Prop} {Im : Imp → Prop}
    (law : Lawful lang Ok Im) (name : String) (hname : name ≠ "DataPipeline") (defaults : Cfg) (ps : List (String × Expr))
    (hps : Params defaults ps) (content : Option String) (m : Mod) (hm : lang.parse (linesOf content) = .ok m)
    (hins : ∀ n ∈ m.imports, ∀ i, Imp.ofNode n = .ok i → Im i)
    (hreq : ∀ i ∈ selectorImport :: defaults.imports, Im i)
    (hok : ∀ p ∈ newParams ps m, Ok p.1 (defaults.annotations.get? p.1) p.2)
    (text : String) (h : scaffoldFunction lang name defaults content = .ok text) :
    LinesKept (linesOf content) (linesOf (some text)) := by
  rw [scaffoldFunction_eq lang hname] at h
  cases hl : loadFile lang content with
  | error e => rw [hl] at h; cases h
  | ok r =>
    obtain ⟨f, d⟩ := r
    rw [hl] at h
    cases h
    refine write_block law true (d := d) (imports := addImport defaults.imports selectorImport)
      (required := selectorImport :: defaults.imports) hps hm hins hreq hok hl (.inr rfl) ?_
    intro i hi
    right
    rcases addImport_mem hi with hi | hi
    · exact List.mem_cons_of_mem _ hi
    · exact hi ▸ List.mem_cons_self

/-- C43, for functions: from the first line that has not the text `import` (and is not blank) on, all
lines are kept, verbatim, in order and together; at most an empty line at the end goes. -/
theorem C43_function_partial {lang : Lang} {Ok : String → Option Expr → Expr → Prop} {Im : Imp → Prop}
    (law : Lawful lang Ok Im) (name : String) (defaults : Cfg) (ps : List (String × Expr))
    (hps : Params defaults ps) (content : Option String) (m : Mod) (hm : lang.parse (linesOf content) = .ok m)
    (hins : ∀ n ∈ m.imports, ∀ i, Imp.ofNode n = .ok i → Im i)
    (hreq : ∀ i ∈ selectorImport :: defaults.imports, Im i)
    (hok : ∀ p ∈ newParams (writtenParams name ps) m, Ok p.1 (defaults.annotations.get? p.1) p.2)
    (text : String) (h : scaffoldFunction lang name defaults content = .ok text) :
    LinesKept (linesOf content) (linesOf (some text)) := by
  by_cases hname : name = "DataPipeline"
  · subst hname
    rw [scaffoldFunction_pipeline lang (name := "f") (by decide)] at h
    exact function_lines law "f" (by decide) { defaults with values := withCleanup defaults.values } _ (params_written hps) content m hm hins hreq hok text h
  · rw [writtenParams_other hname] at *
    exact function_lines law name hname defaults ps hps content m hm hins hreq hok text h

/-- C43, for objects of specific classes. -/
theorem C43_object_partial {lang : Lang} {Ok : String → Option Expr → Expr → Prop} {Im : Imp → Prop}
    (law : Lawful lang Ok Im) (imps : List Imp) (s : Bool) (name keyAttr nameExpr : String) (defaults : Cfg)
    (ps : List (String × Expr)) (hps : Params defaults ps) (content : Option String) (m : Mod)
    (hm : lang.parse (linesOf content) = .ok m)
    (hins : ∀ n ∈ m.imports, ∀ i, Imp.ofNode n = .ok i → Im i)
    (hreq : ∀ i ∈ imps ++ defaults.imports, Im i)
    (hok : ∀ p ∈ newParams (withKey ps keyAttr nameExpr) m, Ok p.1 (defaults.annotations.get? p.1) p.2)
    (text : String)
    (h : scaffoldObject lang (classTemplate (some imps) (some (if s then [selectorAssign] else []))) name keyAttr nameExpr
      defaults content = .ok text) :
    LinesKept (linesOf content) (linesOf (some text)) := by
  have ht : classTemplate (some imps) (some (if s then [selectorAssign] else [])) =
      ⟨imps, if s then [selectorAssign] else [], []⟩ := rfl
  rw [ht, scaffoldObject_eq] at h
  cases hl : loadFile lang content with
  | error e => rw [hl] at h; cases h
  | ok r =>
    obtain ⟨f, d⟩ := r
    rw [hl] at h
    cases h
    have hps' : (defaults.values.set keyAttr (some nameExpr)).items =
        (withKey ps keyAttr nameExpr).map (fun p => (p.1, some p.2)) := by
      unfold Params at hps
      have hn : (ps.map Prod.fst).Nodup := by
        have := defaults.values.nodup
        rw [hps, List.map_map] at this
        exact this
      unfold Dict.set
      dsimp only
      rw [hps]
      exact set_withKey hn _ _
    refine write_block law s (d := .empty) (imports := imps.foldl addImport (f.imports ++ defaults.imports))
      (required := imps ++ defaults.imports) (annotations := defaults.annotations)
      hps' hm hins hreq hok hl (.inl rfl) ?_
    intro i hi
    rcases addImports_mem hi with hi | hi
    · rcases List.mem_append.1 hi with hi | hi
      · exact .inl hi
      · exact .inr (List.mem_append_right _ hi)
    · exact .inr (List.mem_append_left _ hi)

/-! ## C42 -/

/-- An import as it is read after it was written. -/
def reread (i : Imp) : Imp := ⟨i.source, i.names, renamesOf (i.names.map (fun n => (n, asName i n))), false⟩

theorem ofNode_written (i : Imp) : Imp.ofNode (written i) = .ok (reread i) := by
  unfold written reread
  cases hs : i.source with
  | none => simp [Imp.ofNode, Function.comp_def]
  | some m => simp [Imp.ofNode, Function.comp_def]

theorem asName_reread {i : Imp} {n : String} (hn : n ∈ i.names) : asName (reread i) n = asName i n := by
  have hall : ∀ r ∈ (reread i).renames, r.item = n → some r.newName = asName i n := by
    intro r hr hi
    unfold reread at hr
    rw [mem_renamesOf] at hr
    obtain ⟨k, hk, he⟩ := List.mem_map.1 hr
    rw [Prod.mk.injEq] at he
    rw [← he.2, ← hi, he.1]
  cases h : asName i n with
  | some x =>
    have hm : (⟨n, x⟩ : Rename) ∈ (reread i).renames := by
      unfold reread
      rw [mem_renamesOf]
      exact List.mem_map.2 ⟨n, hn, by rw [h]⟩
    cases hf : (reread i).renames.reverse.find? (fun r => decide (r.item = n)) with
    | none =>
      rw [List.find?_eq_none] at hf
      have := hf ⟨n, x⟩ (List.mem_reverse.2 hm)
      simp at this
    | some r =>
      have h1 := List.mem_reverse.1 (List.mem_of_find?_eq_some hf)
      have h2 := List.find?_some hf
      unfold asName
      rw [hf, Option.map_some, hall r h1 (by simpa using h2), h]
  | none =>
    cases hf : (reread i).renames.reverse.find? (fun r => decide (r.item = n)) with
    | none =>
      unfold asName
      rw [hf]
      rfl
    | some r =>
      have h1 := List.mem_reverse.1 (List.mem_of_find?_eq_some hf)
      have h2 := List.find?_some hf
      have := hall r h1 (by simpa using h2)
      rw [h] at this
      cases this

theorem renamedName_eq (i : Imp) (n : String) : renamedName i.renames n =
    match asName i n with
    | some k => n ++ " as " ++ k
    | none => n := by
  unfold renamedName asName
  rw [lastRename_eq]
  cases hf : i.renames.reverse.find? (fun r => decide (r.item = n)) with
  | none => rfl
  | some r =>
    have h2 : r.item = n := by simpa using List.find?_some hf
    simp [h2]

theorem reread_str (i : Imp) : (reread i).str = i.str := by
  have : (reread i).names.map (renamedName (reread i).renames) = i.names.map (renamedName i.renames) := by
    apply List.map_congr_left
    intro n hn
    rw [renamedName_eq, renamedName_eq, asName_reread (i := i) hn]
  unfold Imp.str
  rw [this]
  rfl

/-- Every rename of the import is what the import is written with. -/
def Faithful (i : Imp) : Prop := ∀ r ∈ i.renames, r.item ∈ i.names ∧ asName i r.item = some r.newName

theorem covers_reread {i k : Imp} (hi : Faithful i) (h : i.covers k = true) : (reread i).covers k = true := by
  unfold Imp.covers at *
  simp only [Bool.and_eq_true, decide_eq_true_eq, List.all_eq_true] at *
  refine ⟨h.1, ?_⟩
  intro r hr
  have hr2 := h.2 r hr
  obtain ⟨h1, h2⟩ := hi r hr2
  unfold reread
  rw [mem_renamesOf]
  exact List.mem_map.2 ⟨r.item, h1, by rw [h2]⟩

theorem faithful_of_clean {i : Imp} {n : ImportNode} (hr : ReadFrom i n) (hc : Clean n) : Faithful i := by
  intro r hrm
  obtain ⟨h1, h2, _⟩ := readFrom_fields hr
  have hr' := hrm
  rw [h2, mem_renamesOf] at hr'
  refine ⟨by rw [h1]; exact List.mem_map.2 ⟨_, hr', rfl⟩, ?_⟩
  exact asName_of_clean hr hc hr'

theorem mapM_map_ok {α β γ : Type} {f : α → Except PyErr β} {g : γ → α} {h : γ → β} (xs : List γ)
    (hf : ∀ x ∈ xs, f (g x) = .ok (h x)) : (xs.map g).mapM f = .ok (xs.map h) := by
  induction xs with
  | nil => rfl
  | cons x xs ih =>
    rw [List.map_cons, List.mapM_cons, hf x List.mem_cons_self, ih (fun y hy => hf y (List.mem_cons_of_mem _ hy))]
    rfl

theorem addImports_covered {xs is : List Imp} (h : ∀ x ∈ xs, hasImport is x = true) : xs.foldl addImport is = is := by
  induction xs with
  | nil => rfl
  | cons x xs ih =>
    rw [List.foldl_cons]
    have : addImport is x = is := by
      unfold addImport
      rw [if_pos (h x List.mem_cons_self)]
    rw [this]
    exact ih (fun y hy => h y (List.mem_cons_of_mem _ hy))

theorem skipped_str (i : Imp) : Skipped i.str := by
  left
  unfold Imp.str
  cases i.source with
  | none => exact ⟨[], " ".toList ++ (joinS ", " (i.names.map (renamedName i.renames))).toList, by simp⟩
  | some m =>
    refine ⟨"from ".toList ++ m.toList ++ " ".toList, " ".toList ++ (joinS ", " (i.names.map (renamedName i.renames))).toList, ?_⟩
    simp

/-- A write, for the two sorts of items: `s` is whether the selector is written, `u` whether the values
of the file go into the config. -/
def writeWith (lang : Lang) (s u : Bool) (values : Dict String (Option Expr)) (annotations : Dict String Expr)
    (imports : List Imp → List Imp) (content : Option String) : Except PyErr String :=
  (loadFile lang content).map (fun r => createText lang r.1
    ⟨values.update (if u then r.2 else .empty), annotations, imports r.1.imports⟩ (if s then [selectorAssign] else []))

theorem scaffoldFunction_with (lang : Lang) {name : String} (hname : name ≠ "DataPipeline") (defaults : Cfg)
    (content : Option String) : scaffoldFunction lang name defaults content =
      writeWith lang true true defaults.values defaults.annotations (fun _ => addImport defaults.imports selectorImport)
        content := by
  rw [scaffoldFunction_eq lang hname]
  rfl

theorem scaffoldObject_with (lang : Lang) (imps : List Imp) (s : Bool) (name keyAttr nameExpr : String) (defaults : Cfg)
    (content : Option String) :
    scaffoldObject lang (classTemplate (some imps) (some (if s then [selectorAssign] else []))) name keyAttr nameExpr
      defaults content =
      writeWith lang s false (defaults.values.set keyAttr (some nameExpr)) defaults.annotations
        (fun is => imps.foldl addImport (is ++ defaults.imports)) content := by
  have ht : classTemplate (some imps) (some (if s then [selectorAssign] else [])) =
      ⟨imps, if s then [selectorAssign] else [], []⟩ := rfl
  rw [ht, scaffoldObject_eq]
  rfl

/-- Writing to a file that has everything. -/
theorem settled_write {lang : Lang} {Ok : String → Option Expr → Expr → Prop} {Im : Imp → Prop}
    (law : Lawful lang Ok Im) (s u : Bool) {values : Dict String (Option Expr)} {annotations : Dict String Expr}
    {imports : List Imp → List Imp} {required : List Imp} {ps : List (String × Expr)}
    (hps : values.items = ps.map (fun p => (p.1, some p.2))) {is : List Imp} {B : List String} {as : List AssignNode} {text : String}
    (hlines : readLines text = importLines is ++ [""] ++ B) (hB1 : ∃ l, B.getLast? = some l ∧ l ≠ "")
    (hB2 : ∀ l, B.head? = some l → ¬ Skipped l)
    (hparse : lang.parse B = .ok ⟨[], as⟩) (him : ∀ i ∈ is, Im i) (hf : ∀ i ∈ is, Faithful i)
    (hread : ∀ n ∈ as, Readable n) (hs : s = true → "s" ∈ assignedNames as) (hall : ∀ p ∈ ps, p.1 ∈ assignedNames as)
    (hreqm : ∀ is, ∀ i ∈ imports is, i ∈ is ∨ i ∈ required)
    (hreq : ∀ r ∈ required, hasImport is r = true) :
    writeWith lang s u values annotations imports (some text) = .ok (join '\n' (importLines is ++ [""] ++ B)) := by
  have hparts : Parts (linesOf (some text)) (importLines is ++ [""]) B := by
    refine ⟨hlines, ?_, hB2⟩
    intro l hl
    rw [List.mem_append, List.mem_singleton] at hl
    rcases hl with hl | rfl
    · unfold importLines at hl
      split at hl
      · rw [List.mem_singleton] at hl
        subst hl
        exact .inr (by simp)
      · obtain ⟨i, _, rfl⟩ := List.mem_map.1 hl
        exact skipped_str i
    · exact .inr (by simp)
  have hpi := parse_imports law him
  have hm := law.append _ _ _ _ hpi hparse
  rw [← hlines] at hm
  obtain ⟨⟨f, d⟩, hl⟩ := (loadFile_ok_iff law.nil (some text)).2 ⟨_, hm, by
    intro n hn
    rw [List.append_nil] at hn
    obtain ⟨i, _, rfl⟩ := List.mem_map.1 hn
    unfold written
    cases i.source <;> trivial, by simpa using hread⟩
  obtain ⟨h1, h2, h3, ann, h4⟩ := loaded_facts law hparts hpi hparse hl
  rw [List.append_nil, mapM_map_ok is (fun i _ => ofNode_written i)] at h1
  simp only [Except.ok.injEq] at h1
  have hhas : ∀ r ∈ required, hasImport f.imports r = true := by
    intro r hr
    have := hreq r hr
    unfold hasImport at this ⊢
    rw [List.any_eq_true] at this ⊢
    obtain ⟨i, hi, hc⟩ := this
    exact ⟨reread i, by rw [← h1]; exact List.mem_map_of_mem hi, covers_reread (hf i hi) hc⟩
  have himps : (imports f.imports).foldl addImport f.imports = f.imports := by
    apply addImports_covered
    intro x hx
    rcases hreqm f.imports x hx with hx | hx
    · unfold hasImport
      rw [List.any_eq_true]
      exact ⟨x, hx, covers_self x⟩
    · exact hhas x hx
  have hfresh := freshAssigns_eq (values := values) (d := if u then d else .empty) (ann := annotations)
    (imports := imports f.imports) h2 (by
      intro k hk
      cases u with
      | false => cases hk
      | true =>
        rcases defaultsFrom_keys h4 k hk with hk | hk
        · cases hk
        · exact hk) hps (by
      intro p hp hn
      exact absurd (hall p hp) hn)
  have hnil : ps.filter (fun p => decide (p.1 ∉ assignedNames as)) = [] := by
    rw [List.filter_eq_nil_iff]
    intro p hp
    simp [hall p hp]
  rw [hnil] at hfresh
  have hcs := contains_s h2
  unfold writeWith
  rw [hl]
  simp only [Except.map, Except.ok.injEq]
  unfold createText
  rw [newAssigns_std, hfresh, hcs]
  have hsel : (s && decide ("s" ∉ assignedNames as)) = false := by
    cases s with
    | false => rfl
    | true => simp [hs rfl]
  simp only [himps, hsel, Bool.false_eq_true, if_false, List.map_nil]
  have hstr : importsStr f.imports = join '\n' (importLines is) := by
    rw [← importsStr_eq, ← h1]
    unfold importsStr
    rw [List.map_map]
    congr 1
    apply List.map_congr_left
    intro i _
    exact reread_str i
  obtain ⟨l, hlast, hl0⟩ := hB1
  have hBne : B ≠ [] := by
    intro h
    rw [h] at hlast
    cases hlast
  have hjB : join '\n' B ≠ "" := by
    intro h
    rcases join_eq_empty.1 h with h | h
    · exact hBne h
    · rw [h] at hlast
      cases hlast
      exact hl0 rfl
  unfold fileText
  have ha : assignsStr lang [] = "" := rfl
  rw [h3, ha, List.filter_cons_of_pos (by simp), List.filter_cons_of_neg (by simp),
    List.filter_cons_of_pos (by simpa using hjB), List.filter_cons_of_neg (by simp), List.filter_nil]
  rw [join_append '\n' (by simp) hBne, join_append '\n' (importLines_ne_nil is) (by simp), join_singleton, hstr]
  simp [joinS]

theorem selector_line_not_skipped : ¬ Skipped "s = Selector()" := by
  rw [← importish_iff]
  decide +kernel

theorem readable_paramNode (x : String) (a : Option Expr) (v : Expr) : Readable (paramNode x a v) := by
  unfold paramNode
  cases a <;> trivial

theorem mem_assignedNames_append {a b : List AssignNode} {x : String} :
    x ∈ assignedNames (a ++ b) ↔ x ∈ assignedNames a ∨ x ∈ assignedNames b := by
  unfold assignedNames
  rw [List.flatMap_append, List.filterMap_append, List.mem_append]

theorem mem_assignedNames_param {ps : List (String × Expr)} {ann : Dict String Expr} {p : String × Expr} (hp : p ∈ ps) :
    p.1 ∈ assignedNames (ps.map (fun p => paramNode p.1 (ann.get? p.1) p.2)) := by
  unfold assignedNames
  rw [List.mem_filterMap]
  refine ⟨.name p.1, List.mem_flatMap.2 ⟨paramNode p.1 (ann.get? p.1) p.2, List.mem_map.2 ⟨p, hp, rfl⟩, ?_⟩, rfl⟩
  unfold paramNode targetsOf
  cases ann.get? p.1 <;> simp

/-- Writing twice. -/
theorem twice_core {lang : Lang} {Ok : String → Option Expr → Expr → Prop} {Im : Imp → Prop}
    (law : Lawful lang Ok Im) (s u : Bool) {values : Dict String (Option Expr)} {annotations : Dict String Expr}
    {imports : List Imp → List Imp} {required : List Imp} {ps : List (String × Expr)}
    (hps : values.items = ps.map (fun p => (p.1, some p.2))) {content : Option String} {P B : List String}
    {ins : List ImportNode} {as : List AssignNode}
    (hparts : Parts (linesOf content) P B) (hP : lang.parse P = .ok ⟨ins, []⟩) (hB : lang.parse B = .ok ⟨[], as⟩)
    (hlast : B.getLast? ≠ some "")
    (hins : ∀ n ∈ ins, Clean n ∧ ∀ i, Imp.ofNode n = .ok i → Im i)
    (hreqIm : ∀ i ∈ required, Im i ∧ ∃ n, ReadFrom i n ∧ Clean n)
    (hreqm : ∀ is, ∀ i ∈ imports is, i ∈ is ∨ i ∈ required) (hhas : ∀ is, ∀ r ∈ required, hasImport (imports is) r = true)
    (hok : ∀ p ∈ newParams ps ⟨[], as⟩, Ok p.1 (annotations.get? p.1) p.2)
    (hne : s = false → ps ≠ [])
    (hfirst : s = false → ∀ l, (B ++ ((newParams ps ⟨[], as⟩).flatMap
      (fun p => lang.source (.name p.1) (annotations.get? p.1) (some p.2)))).head? = some l → ¬ Skipped l)
    {text : String} (h : writeWith lang s u values annotations imports content = .ok text) :
    ∃ text2, writeWith lang s u values annotations imports (some text) = .ok text2 ∧
      linesOf (some text2) = linesOf (some text) ∧
      writeWith lang s u values annotations imports (some text2) = .ok text2 := by
  have hB' : dropLastBlank B = B := by
    unfold dropLastBlank
    rw [if_neg hlast]
  have hsucc : ∃ r, loadFile lang content = .ok r := by
    unfold writeWith at h
    cases hl : loadFile lang content with
    | error e => rw [hl] at h; cases h
    | ok r => exact ⟨r, rfl⟩
  rw [loadFile_ok_iff law.nil] at hsucc
  unfold writeWith at h
  cases hl : loadFile lang content with
  | error e => rw [hl] at h; cases h
  | ok r =>
    obtain ⟨f, d⟩ := r
    rw [hl] at h
    cases h
    obtain ⟨h1, h2, h3, ann, h4⟩ := loaded_facts law hparts hP hB hl
    have hbody : f.body = (splitSections (linesOf content)).2 := by rw [h3, hparts.sections]
    rw [List.append_nil] at h1
    -- what is written
    have hold : ∀ i ∈ f.imports, Im i ∧ Faithful i := by
      intro i hi
      obtain ⟨n, hn, hni⟩ := (mapM_ok_mem h1).1 i hi
      refine ⟨(hins n hn).2 i hni, faithful_of_clean (n := n) ⟨i.preferBeginning, ?_⟩ (hins n hn).1⟩
      rw [hni]
      rfl
    have himp : ∀ i ∈ (imports f.imports).foldl addImport f.imports, Im i ∧ Faithful i := by
      intro i hi
      rcases addImports_mem hi with hi | hi
      · exact hold i hi
      · rcases hreqm f.imports i hi with hi | hi
        · exact hold i hi
        · obtain ⟨h5, n, h6, h7⟩ := hreqIm i hi
          exact ⟨h5, faithful_of_clean h6 h7⟩
    have hfresh := freshAssigns_eq (values := values) (d := if u then d else .empty) (ann := annotations)
      (imports := imports f.imports) h2 (by
        intro k hk
        cases u with
        | false => cases hk
        | true =>
          rcases defaultsFrom_keys h4 k hk with hk | hk
          · cases hk
          · exact hk) hps (by
        intro p hp hn
        exact law.ident _ _ _ (hok p (List.mem_filter.2 ⟨hp, decide_eq_true hn⟩)))
    have hlines := createText_lines (lang := lang) (f := f)
      (cfg := ⟨values.update (if u then d else .empty), annotations, imports f.imports⟩) s
      (by rw [hbody]; exact body_ne_blank (linesOf content))
      (by
        intro l hl
        rw [h3] at hl
        have hmem : l ∈ linesOf content := by rw [hparts.all]; exact List.mem_append_right _ hl
        cases content with
        | none => cases hmem
        | some t => exact mem_readLines_noNewline l hmem)
      (fun i hi => (law.imports i (himp i hi).1).2)
      (by
        intro a ha
        rw [hfresh] at ha
        obtain ⟨p, hp, rfl⟩ := List.mem_map.1 ha
        obtain ⟨h1, l, h2, _⟩ := law.lines _ _ _ (hok p hp)
        refine ⟨?_, h1⟩
        intro hnil
        simp only [Assign.lines] at hnil
        rw [hnil] at h2
        cases h2)
    rw [hfresh, h3, contains_s h2] at hlines
    dsimp only at hlines
    -- the body after the first write
    let sel := selectorLines (s && decide ("s" ∉ assignedNames as))
    let E := ((newParams ps ⟨[], as⟩).map
      (fun p => (⟨.name p.1, some p.2, annotations.get? p.1, false, none⟩ : Assign))).flatMap (Assign.lines lang)
    let is := (imports f.imports).foldl addImport f.imports
    have hEdef : E = (newParams ps ⟨[], as⟩).flatMap
        (fun p => lang.source (.name p.1) (annotations.get? p.1) (some p.2)) := by
      show ((newParams ps ⟨[], as⟩).map _).flatMap (Assign.lines lang) = _
      rw [List.flatMap_map]
      rfl
    have hEne0 : E = [] → newParams ps ⟨[], as⟩ = [] := by
      intro hE
      cases hq : newParams ps ⟨[], as⟩ with
      | nil => rfl
      | cons q qs =>
        obtain ⟨_, l, hl, _⟩ := law.lines _ _ _ (hok q (by rw [hq]; simp))
        rw [hEdef, hq, List.flatMap_cons, List.append_eq_nil_iff] at hE
        rw [hE.1] at hl
        cases hl
    have hBlast0 : ∀ l, B.getLast? = some l → l ≠ "" := by
      intro l hl h0
      rw [h0] at hl
      exact hlast hl
    have hselB : (E = [] → sel ++ B ≠ []) ∧ (sel ++ B).getLast? ≠ some "" ∧
        ∀ l, (sel ++ B ++ E).head? = some l → ¬ Skipped l := by
      by_cases hs : (s && decide ("s" ∉ assignedNames as)) = true
      · have e : sel = ["s = Selector()"] := by simp only [sel, selectorLines, hs, if_true]
        rw [e]
        refine ⟨by simp, ?_, ?_⟩
        · cases hb : B with
          | nil => decide
          | cons x xs =>
            rw [List.getLast?_append]
            cases hg : (x :: xs).getLast? with
            | none => rw [List.getLast?_eq_none_iff] at hg; cases hg
            | some y =>
              rw [← hb] at hg
              rw [hg] at hlast
              exact hlast
        · intro l hl
          cases hl
          exact selector_line_not_skipped
      · have e : sel = [] := by simp only [sel, selectorLines, hs]; rfl
        rw [e, List.nil_append]
        have hBne : s = true → B ≠ [] := by
          intro hst hb
          rw [hb, law.nil] at hB
          cases hB
          rw [hst] at hs
          exact hs (by decide)
        refine ⟨?_, hlast, ?_⟩
        · intro hE hb
          cases hst : s with
          | true => exact hBne hst hb
          | false =>
            rw [hb, law.nil] at hB
            cases hB
            have := hEne0 hE
            unfold newParams at this
            rw [List.filter_eq_nil_iff] at this
            cases hq : ps with
            | nil => exact hne hst hq
            | cons q qs =>
              have := this q (by rw [hq]; exact List.mem_cons_self)
              simp [assignedNames] at this
        · intro l hl
          cases hst : s with
          | true =>
            apply hparts.rest l
            cases hb : B with
            | nil => exact absurd hb (hBne hst)
            | cons x xs => rw [hb] at hl; exact hl
          | false =>
            rw [hEdef] at hl
            exact hfirst hst l hl
    have hlines2 : readLines (createText lang f
        ⟨values.update (if u then d else .empty), annotations, imports f.imports⟩ (if s then [selectorAssign] else [])) =
        importLines is ++ [""] ++ (sel ++ B ++ E) := by
      rw [hlines]
      split
      · rename_i hnil
        have hE : E = [] := by
          show ((newParams ps ⟨[], as⟩).map _).flatMap (Assign.lines lang) = []
          unfold newParams
          rw [hnil]
          rfl
        rw [hE, List.append_nil, List.append_assoc (importLines _ ++ [""]), dropLastBlank_append (hselB.1 hE)]
        congr 1
        unfold dropLastBlank
        rw [if_neg hselB.2.1]
      · simp only [List.append_assoc]
        rfl
    have hEne : E = [] ∨ ∃ l, E.getLast? = some l ∧ l ≠ "" := by
      rcases List.eq_nil_or_concat (newParams ps ⟨[], as⟩) with hn | ⟨qs, q, hq⟩
      · left
        show ((newParams ps ⟨[], as⟩).map _).flatMap (Assign.lines lang) = []
        rw [hn]
        rfl
      · right
        obtain ⟨_, l, hl, hl0⟩ := law.lines _ _ _ (hok q (by rw [hq]; simp))
        refine ⟨l, ?_, hl0⟩
        show (((newParams ps ⟨[], as⟩).map _).flatMap (Assign.lines lang)).getLast? = some l
        rw [hq]
        rw [List.concat_eq_append, List.map_append, List.flatMap_append, List.getLast?_append]
        simp only [List.map_cons, List.map_nil, List.flatMap_cons, List.flatMap_nil, List.append_nil, Assign.lines]
        rw [hl]
        rfl
    have hBlast : ∃ l, (sel ++ B ++ E).getLast? = some l ∧ l ≠ "" := by
      rcases hEne with hE | ⟨l, hl, hl0⟩
      · rw [hE, List.append_nil]
        cases hg : (sel ++ B).getLast? with
        | none => exact absurd (List.getLast?_eq_none_iff.1 hg) (hselB.1 hE)
        | some l =>
          refine ⟨l, rfl, ?_⟩
          intro h0
          rw [h0] at hg
          exact hselB.2.1 hg
      · refine ⟨l, ?_, hl0⟩
        rw [List.getLast?_append, hl]
        rfl
    have hBparse : lang.parse (sel ++ B ++ E) = .ok ⟨[], (if s && decide ("s" ∉ assignedNames as) then
        [.assign [.name "s"] "Selector()"] else []) ++ as ++
        (newParams ps ⟨[], as⟩).map (fun p => paramNode p.1 (annotations.get? p.1) p.2)⟩ := by
      have := law.append _ _ _ _ (law.append _ _ _ _ (parse_selector law (s && decide ("s" ∉ assignedNames as))) hB)
        (parse_params law annotations _ hok)
      simp only [List.append_nil] at this
      exact this
    have hreadas : ∀ n ∈ as, Readable n := by
      obtain ⟨m, hm, _, hr⟩ := hsucc
      have := law.append _ _ _ _ hP hB
      rw [← hparts.all, hm] at this
      cases this
      simpa using hr
    have hsettled := fun (text : String) (ht : readLines text = importLines is ++ [""] ++ (sel ++ B ++ E)) =>
      settled_write law s u (annotations := annotations) (imports := imports) (required := required) hps ht hBlast hselB.2.2 hBparse (fun i hi => (himp i hi).1) (fun i hi => (himp i hi).2)
        (by
          intro n hn
          rcases List.mem_append.1 hn with hn | hn
          · rcases List.mem_append.1 hn with hn | hn
            · split at hn
              · rw [List.mem_singleton] at hn
                subst hn
                trivial
              · cases hn
            · exact hreadas n hn
          · obtain ⟨p, _, rfl⟩ := List.mem_map.1 hn
            exact readable_paramNode _ _ _)
        (by
          intro hst
          rw [mem_assignedNames_append, mem_assignedNames_append]
          left
          by_cases hs : "s" ∈ assignedNames as
          · exact .inr hs
          · left
            rw [if_pos (by simp [hst, hs])]
            decide)
        (by
          intro p hp
          rw [mem_assignedNames_append, mem_assignedNames_append]
          by_cases hpa : p.1 ∈ assignedNames as
          · exact .inl (.inr hpa)
          · exact .inr (mem_assignedNames_param (List.mem_filter.2 ⟨hp, decide_eq_true hpa⟩)))
        hreqm
        (fun r hr => hasImport_trans (fun x hx => addImports_has (is := f.imports) hx) (hhas f.imports r hr))
    have hread2 : readLines (join '\n' (importLines is ++ [""] ++ (sel ++ B ++ E))) =
        importLines is ++ [""] ++ (sel ++ B ++ E) := by
      obtain ⟨l, hl, hl0⟩ := hBlast
      have hne : sel ++ B ++ E ≠ [] := by
        intro h0
        rw [h0] at hl
        cases hl
      rw [readLines_join (by simp) (by
        intro x hx
        rw [← hlines2] at hx
        exact mem_readLines_noNewline x hx), dropLastBlank_append hne]
      congr 1
      unfold dropLastBlank
      rw [if_neg]
      rw [hl]
      intro h0
      cases h0
      exact hl0 rfl
    refine ⟨_, hsettled _ hlines2, ?_, hsettled _ hread2⟩
    exact hread2.trans hlines2.symm

theorem function_twice {lang : Lang} {Ok : String → Option Expr → Expr → Prop} {Im : Imp → Prop}
    (law : Lawful lang Ok Im) (name : String) (hname : name ≠ "DataPipeline") (defaults : Cfg) (ps : List (String × Expr))
    (hps : Params defaults ps) (content : Option String) (P B : List String) (ins : List ImportNode)
    (as : List AssignNode)
    (hparts : Parts (linesOf content) P B) (hP : lang.parse P = .ok ⟨ins, []⟩) (hB : lang.parse B = .ok ⟨[], as⟩)
    (hlast : B.getLast? ≠ some "")
    (hins : ∀ n ∈ ins, Clean n ∧ ∀ i, Imp.ofNode n = .ok i → Im i)
    (hreq : ∀ i ∈ selectorImport :: defaults.imports, Im i ∧ ∃ n, ReadFrom i n ∧ Clean n)
    (hok : ∀ p ∈ newParams ps ⟨[], as⟩, Ok p.1 (defaults.annotations.get? p.1) p.2)
    (text : String) (h : scaffoldFunction lang name defaults content = .ok text) :
    ∃ text2, scaffoldFunction lang name defaults (some text) = .ok text2 ∧
      linesOf (some text2) = linesOf (some text) ∧
      scaffoldFunction lang name defaults (some text2) = .ok text2 := by
  simp only [scaffoldFunction_with lang hname] at h ⊢
  refine twice_core law true true (required := selectorImport :: defaults.imports) hps hparts hP hB hlast hins hreq ?_ ?_ hok
    (fun h => by cases h) (fun h => by cases h) h
  · intro is i hi
    right
    rcases addImport_mem hi with hi | hi
    · exact List.mem_cons_of_mem _ hi
    · exact hi ▸ List.mem_cons_self
  · intro is r hr
    rcases List.mem_cons.1 hr with rfl | hr
    · exact hasImport_addImport _ _
    · exact hasImport_mono (addImport_sublist _ _) (by
        unfold hasImport
        rw [List.any_eq_true]
        exact ⟨r, hr, covers_self r⟩)

/-- C42, for functions: if the first lines of the file have imports only, the rest none, and its last
line is not blank, then writing a second time writes the same lines, and from then on the very same
text. -/
theorem C42_function_partial {lang : Lang} {Ok : String → Option Expr → Expr → Prop} {Im : Imp → Prop}
    (law : Lawful lang Ok Im) (name : String) (defaults : Cfg) (ps : List (String × Expr))
    (hps : Params defaults ps) (content : Option String) (P B : List String) (ins : List ImportNode)
    (as : List AssignNode)
    (hparts : Parts (linesOf content) P B) (hP : lang.parse P = .ok ⟨ins, []⟩) (hB : lang.parse B = .ok ⟨[], as⟩)
    (hlast : B.getLast? ≠ some "")
    (hins : ∀ n ∈ ins, Clean n ∧ ∀ i, Imp.ofNode n = .ok i → Im i)
    (hreq : ∀ i ∈ selectorImport :: defaults.imports, Im i ∧ ∃ n, ReadFrom i n ∧ Clean n)
    (hok : ∀ p ∈ newParams (writtenParams name ps) ⟨[], as⟩, Ok p.1 (defaults.annotations.get? p.1) p.2)
    (text : String) (h : scaffoldFunction lang name defaults content = .ok text) :
    ∃ text2, scaffoldFunction lang name defaults (some text) = .ok text2 ∧
      linesOf (some text2) = linesOf (some text) ∧
      scaffoldFunction lang name defaults (some text2) = .ok text2 := by
  by_cases hname : name = "DataPipeline"
  · subst hname
    rw [scaffoldFunction_pipeline lang (name := "f") (by decide)] at h
    simp only [scaffoldFunction_pipeline lang (name := "f") (by decide)]
    exact function_twice law "f" (by decide) { defaults with values := withCleanup defaults.values } _ (params_written hps) content P B ins as hparts hP hB hlast hins hreq hok text h
  · rw [writtenParams_other hname] at *
    exact function_twice law name hname defaults ps hps content P B ins as hparts hP hB hlast hins hreq hok text h

theorem withKey_ne_nil (ps : List (String × Expr)) (k : String) (v : Expr) : withKey ps k v ≠ [] := by
  unfold withKey
  split
  · rename_i h
    intro h0
    rw [List.map_eq_nil_iff] at h0
    rw [h0] at h
    cases h
  · simp

theorem params_withKey {defaults : Cfg} {ps : List (String × Expr)} (hps : Params defaults ps) (k : String) (v : Expr) :
    (defaults.values.set k (some v)).items = (withKey ps k v).map (fun p => (p.1, some p.2)) := by
  unfold Params at hps
  have hn : (ps.map Prod.fst).Nodup := by
    have := defaults.values.nodup
    rw [hps, List.map_map] at this
    exact this
  unfold Dict.set
  dsimp only
  rw [hps]
  exact set_withKey hn _ _

/-- C42, for objects of specific classes; without selector, the first line after the imports (of the old
file, or of the first parameter) must not have the text `import`. -/
theorem C42_object_partial {lang : Lang} {Ok : String → Option Expr → Expr → Prop} {Im : Imp → Prop}
    (law : Lawful lang Ok Im) (imps : List Imp) (s : Bool) (name keyAttr nameExpr : String) (defaults : Cfg)
    (ps : List (String × Expr))
    (hps : Params defaults ps) (content : Option String) (P B : List String) (ins : List ImportNode)
    (as : List AssignNode)
    (hparts : Parts (linesOf content) P B) (hP : lang.parse P = .ok ⟨ins, []⟩) (hB : lang.parse B = .ok ⟨[], as⟩)
    (hlast : B.getLast? ≠ some "")
    (hins : ∀ n ∈ ins, Clean n ∧ ∀ i, Imp.ofNode n = .ok i → Im i)
    (hreq : ∀ i ∈ imps ++ defaults.imports, Im i ∧ ∃ n, ReadFrom i n ∧ Clean n)
    (hok : ∀ p ∈ newParams (withKey ps keyAttr nameExpr) ⟨[], as⟩, Ok p.1 (defaults.annotations.get? p.1) p.2)
    (hfirst : s = false → ∀ l, (B ++ ((newParams (withKey ps keyAttr nameExpr) ⟨[], as⟩).flatMap
      (fun p => lang.source (.name p.1) (defaults.annotations.get? p.1) (some p.2)))).head? = some l → ¬ Skipped l)
    (text : String)
    (h : scaffoldObject lang (classTemplate (some imps) (some (if s then [selectorAssign] else []))) name keyAttr nameExpr
      defaults content = .ok text) :
    ∃ text2, scaffoldObject lang (classTemplate (some imps) (some (if s then [selectorAssign] else []))) name keyAttr
        nameExpr defaults (some text) = .ok text2 ∧
      linesOf (some text2) = linesOf (some text) ∧
      scaffoldObject lang (classTemplate (some imps) (some (if s then [selectorAssign] else []))) name keyAttr
        nameExpr defaults (some text2) = .ok text2 := by
  simp only [scaffoldObject_with] at h ⊢
  refine twice_core law s false (required := imps ++ defaults.imports) (params_withKey hps keyAttr nameExpr) hparts hP hB hlast
    hins hreq ?_ ?_ hok (fun _ => withKey_ne_nil _ _ _) hfirst h
  · intro is i hi
    rcases addImports_mem hi with hi | hi
    · rcases List.mem_append.1 hi with hi | hi
      · exact .inl hi
      · exact .inr (List.mem_append_right _ hi)
    · exact .inr (List.mem_append_left _ hi)
  · intro is r hr
    rcases List.mem_append.1 hr with hr | hr
    · exact addImports_has hr
    · exact hasImport_mono (addImports_sublist _ _) (by
        unfold hasImport
        rw [List.any_eq_true]
        exact ⟨r, List.mem_append_right _ hr, covers_self r⟩)

/-- C43. The file of a section is only written if there is none. -/
theorem C43_section (text : String) : scaffoldSection (some text) = text ∧ linesOf (some (scaffoldSection none)) = [""] := by
  refine ⟨rfl, ?_⟩
  decide +kernel

end Verif.Props

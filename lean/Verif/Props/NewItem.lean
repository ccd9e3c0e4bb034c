import Verif.Model.NewItem
import Verif.Props.Args
import Verif.Props.Files
import Verif.Props.LoadConfig

/-
Property theorems about functions that are new in the definition: C91.
-/

namespace Verif.Props
open Verif.Py Verif.Model

variable {V : Type}

/-! ### Specification -/

/-- What is used about Python: what a text means that the code writes.  `eval` is the value of an expression in a namespace,
`thing` what an import gives. -/
structure TextMeans (t : Tools V) (Ok : String → Option Expr → Expr → Prop) (Im : Imp → Prop)
    (eval : Expr → Dict String V → Except PyErr V) (thing : Thing → V) : Prop where
  nil : t.stmts [] = .ok []
  blank : t.stmts [""] = .ok []
  append : ∀ a b m n, t.stmts a = .ok m → t.stmts b = .ok n → t.stmts (a ++ b) = .ok (m ++ n)
  selector : t.stmts ["s = Selector()"] = .ok [.assign [.name "s"] (eval "Selector()")]
  imports : ∀ i, Im i → t.stmts [i.str] = .ok [.bring ((provides (written i)).map (fun p => (p.1, thing p.2)))]
  assign : ∀ x v, Ok x none v → t.stmts (t.lang.source (.name x) none (some v)) = .ok [.assign [.name x] (eval v)]
  annotated : ∀ x a v, Ok x (some a) v → t.stmts (t.lang.source (.name x) (some a) (some v)) =
    .ok [.annotated (.name x) (some (fun env => do
      let r ← eval v env
      let _ ← eval a env
      return r))]

/-- Assigning parameters one after the other: the value, then the annotation is evaluated. -/
def assignParams (eval : Expr → Dict String V → Except PyErr V) (ann : Dict String Expr) :
    List (String × Expr) → Dict String V → Except PyErr (Dict String V)
  | [], env => .ok env
  | (x, e) :: rest, env => match eval e env with
    | .error err => .error err
    | .ok v => match ann.get? x with
      | none => assignParams eval ann rest (env.set x v)
      | some t => match eval t env with
        | .error err => .error err
        | .ok _ => assignParams eval ann rest (env.set x v)

/-- What the imports of a file bind. -/
def broughtBy (thing : Thing → V) (is : List Imp) : List (String × V) := (provided is).map (fun p => (p.1, thing p.2))

/-- The imports of the new file of a function. -/
def newFileImports (c : Cfg) : List Imp := (addImport c.imports selectorImport).foldl addImport []

/-! ### The contents of a new file -/

/-- The statement that assigns a parameter. -/
def paramStmt (eval : Expr → Dict String V → Except PyErr V) (ann : Dict String Expr) (p : String × Expr) : CStmt V :=
  match ann.get? p.1 with
  | none => .assign [.name p.1] (eval p.2)
  | some a => .annotated (.name p.1) (some (fun env => do
      let r ← eval p.2 env
      let _ ← eval a env
      return r))

/-- The statement that an import is. -/
def importStmt (thing : Thing → V) (i : Imp) : CStmt V := .bring ((provides (written i)).map (fun p => (p.1, thing p.2)))

section
variable {t : Tools V} {Ok : String → Option Expr → Expr → Prop} {Im : Imp → Prop}
  {eval : Expr → Dict String V → Except PyErr V} {thing : Thing → V}

theorem stmts_imports (means : TextMeans t Ok Im eval thing) {is : List Imp} (h : ∀ i ∈ is, Im i) :
    t.stmts (importLines is ++ [""]) = .ok (is.map (importStmt thing)) := by
  have hall : ∀ is : List Imp, (∀ i ∈ is, Im i) → t.stmts (is.map Imp.str) = .ok (is.map (importStmt thing)) := by
    intro is
    induction is with
    | nil => intro _; exact means.nil
    | cons i is ih =>
      intro h
      have := means.append _ _ _ _ (means.imports i (h i List.mem_cons_self)) (ih (fun j hj => h j (List.mem_cons_of_mem _ hj)))
      simpa [importStmt] using this
  unfold importLines
  split
  · next hnil =>
    subst hnil
    exact means.append _ _ _ _ means.blank means.blank
  · have := means.append _ _ _ _ (hall is h) means.blank
    rwa [List.append_nil] at this

theorem stmts_params (means : TextMeans t Ok Im eval thing) (ann : Dict String Expr) (ps : List (String × Expr))
    (h : ∀ p ∈ ps, Ok p.1 (ann.get? p.1) p.2) :
    t.stmts ((ps.map (fun p => (⟨.name p.1, some p.2, ann.get? p.1, false, none⟩ : Assign))).flatMap (Assign.lines t.lang)) =
      .ok (ps.map (paramStmt eval ann)) := by
  induction ps with
  | nil => exact means.nil
  | cons p ps ih =>
    rw [List.map_cons, List.flatMap_cons, List.map_cons]
    have h1 : t.stmts (Assign.lines t.lang ⟨.name p.1, some p.2, ann.get? p.1, false, none⟩) = .ok [paramStmt eval ann p] := by
      have hp := h p List.mem_cons_self
      unfold paramStmt Assign.lines
      cases ha : ann.get? p.1 with
      | none => rw [ha] at hp; exact means.assign _ _ hp
      | some a => rw [ha] at hp; exact means.annotated _ _ _ hp
    exact means.append _ _ _ _ h1 (ih (fun q hq => h q (List.mem_cons_of_mem _ hq)))

theorem newFile_stmts_other (law : Lawful t.lang Ok Im) (means : TextMeans t Ok Im eval thing) {name : String}
    (hname : name ≠ "DataPipeline") {c : Cfg} {ps : List (String × Expr)} (hps : Params c ps)
    (hIm : ∀ i ∈ selectorImport :: c.imports, Im i) (hOk : ∀ p ∈ ps, Ok p.1 (c.annotations.get? p.1) p.2) :
    ∃ text, scaffoldFunction t.lang name c none = .ok text ∧
      t.stmts (readLines text) = .ok ((newFileImports c).map (importStmt thing) ++ [.assign [.name "s"] (eval "Selector()")] ++
        ps.map (paramStmt eval c.annotations)) := by
  rw [scaffoldFunction_eq t.lang hname]
  have hl : loadFile t.lang none = .ok (⟨[], [], []⟩, .empty) := rfl
  rw [hl]
  refine ⟨_, rfl, ?_⟩
  have hue : c.values.update .empty = c.values := rfl
  dsimp only
  rw [hue]
  have hI : ∀ i ∈ newFileImports c, Im i := by
    intro i hi
    rcases addImports_mem hi with hi | hi
    · cases hi
    · rcases addImport_mem hi with hi | hi
      · exact hIm i (List.mem_cons_of_mem _ hi)
      · exact hi ▸ hIm _ List.mem_cons_self
  have hfresh : freshAssigns ⟨c.values, c.annotations, addImport c.imports selectorImport⟩ [] =
      ps.map (fun p => (⟨.name p.1, some p.2, c.annotations.get? p.1, false, none⟩ : Assign)) := by
    unfold freshAssigns assignsOf
    rw [hps, List.map_map, List.filter_eq_self.2]
    · rfl
    · intro a _
      rfl
  have hlines := createText_lines (lang := t.lang) (f := ⟨[], [], []⟩)
    (cfg := ⟨c.values, c.annotations, addImport c.imports selectorImport⟩) true (by simp) (by simp)
    (fun i hi => (law.imports i (hI i hi)).2) (by
      intro a ha
      rw [hfresh] at ha
      obtain ⟨p, hp, rfl⟩ := List.mem_map.1 ha
      obtain ⟨h1, l, h2, _⟩ := law.lines _ _ _ (hOk p hp)
      refine ⟨?_, h1⟩
      intro hnil
      simp only [Assign.lines] at hnil
      rw [hnil] at h2
      cases h2)
  rw [if_pos rfl] at hlines
  rw [hlines, hfresh]
  have h1 := means.append _ _ _ _ (stmts_imports means hI) means.selector
  have h2 := means.append _ _ _ _ h1 (stmts_params means c.annotations ps hOk)
  have hc : (true && !containsVarname [] "s") = true := rfl
  simp only [hc, selectorLines, if_true, List.append_nil]
  split
  · next hnil =>
    rw [List.map_eq_nil_iff] at hnil
    subst hnil
    rw [List.map_nil, List.append_nil, dropLastBlank_append (by simp)]
    exact h1
  · exact h2

theorem newFile_stmts (law : Lawful t.lang Ok Im) (means : TextMeans t Ok Im eval thing) (name : String) {c : Cfg}
    {ps : List (String × Expr)} (hps : Params c ps)
    (hIm : ∀ i ∈ selectorImport :: c.imports, Im i) (hOk : ∀ p ∈ writtenParams name ps, Ok p.1 (c.annotations.get? p.1) p.2) :
    ∃ text, scaffoldFunction t.lang name c none = .ok text ∧
      t.stmts (readLines text) = .ok ((newFileImports c).map (importStmt thing) ++ [.assign [.name "s"] (eval "Selector()")] ++
        (writtenParams name ps).map (paramStmt eval c.annotations)) := by
  by_cases hname : name = "DataPipeline"
  · subst hname
    rw [scaffoldFunction_pipeline t.lang (name := "f") (by decide)]
    exact newFile_stmts_other law means (by decide) (c := { c with values := withCleanup c.values }) (params_written hps) hIm hOk
  · rw [writtenParams_other hname] at *
    exact newFile_stmts_other law means hname hps hIm hOk
end

/-! ### Executing it -/

theorem execAll_append (py : Python V) (a b : List (CStmt V)) (env : Dict String V) :
    CStmt.execAll py.unpack (a ++ b) env = match CStmt.execAll py.unpack a env with
      | .error e => .error e
      | .ok env' => CStmt.execAll py.unpack b env' := by
  induction a generalizing env with
  | nil => simp only [List.nil_append, CStmt.execAll]
  | cons s a ih =>
    simp only [List.cons_append, CStmt.execAll, bind, Except.bind]
    cases CStmt.exec py.unpack s env with
    | error e => rfl
    | ok env' => exact ih env'

theorem exec_imports (py : Python V) (thing : Thing → V) (is : List Imp) (env : Dict String V) :
    CStmt.execAll py.unpack (is.map (importStmt thing)) env = .ok (env.setAll (broughtBy thing is)) := by
  induction is generalizing env with
  | nil => simp [CStmt.execAll, broughtBy, provided, Dict.setAll]
  | cons i is ih =>
    simp only [List.map_cons, CStmt.execAll, importStmt, CStmt.exec, bind, Except.bind]
    rw [ih]
    simp [broughtBy, provided, Dict.setAll, List.foldl_append]

theorem exec_params (py : Python V) (eval : Expr → Dict String V → Except PyErr V) (ann : Dict String Expr)
    (ps : List (String × Expr)) (env : Dict String V) :
    CStmt.execAll py.unpack (ps.map (paramStmt eval ann)) env = assignParams eval ann ps env := by
  induction ps generalizing env with
  | nil => simp only [List.map_nil, CStmt.execAll, assignParams]
  | cons p ps ih =>
    obtain ⟨x, e⟩ := p
    simp only [List.map_cons, CStmt.execAll, assignParams, paramStmt]
    cases ha : ann.get? x with
    | none =>
      simp only [CStmt.exec, bind, Except.bind, bindTargets, bindTarget, pure, Except.pure]
      cases eval e env with
      | error err => rfl
      | ok v => exact ih _
    | some t =>
      simp only [CStmt.exec, bind, Except.bind, bindTarget, pure, Except.pure]
      cases eval e env with
      | error err => rfl
      | ok v =>
        cases eval t env with
        | error err => rfl
        | ok _ => exact ih _

theorem check_append (a b : List (CStmt V)) (ha : CStmt.checkAll a = .ok ()) (hb : CStmt.checkAll b = .ok ()) :
    CStmt.checkAll (a ++ b) = .ok () := by
  induction a with
  | nil => exact hb
  | cons s a ih =>
    simp only [List.cons_append, CStmt.checkAll, bind, Except.bind] at ha ⊢
    cases hs : CStmt.check s with
    | error e => rw [hs] at ha; cases ha
    | ok u => rw [hs] at ha; exact ih ha

theorem check_map {α : Type} (g : α → CStmt V) (h : ∀ x, CStmt.check (g x) = .ok ()) (xs : List α) :
    CStmt.checkAll (xs.map g) = .ok () := by
  induction xs with
  | nil => simp only [List.map_nil, CStmt.checkAll]
  | cons x xs ih =>
    simp only [List.map_cons, CStmt.checkAll, bind, Except.bind, h, ih]

/-- What is loaded from a new file. -/
theorem newFile_config {t : Tools V} {Ok : String → Option Expr → Expr → Prop} {Im : Imp → Prop}
    {eval : Expr → Dict String V → Except PyErr V} {thing : Thing → V} (law : Lawful t.lang Ok Im)
    (means : TextMeans t Ok Im eval thing) (name : String) (c : Cfg)
    (ps : List (String × Expr)) (hps : Params c ps) (hIm : ∀ i ∈ selectorImport :: c.imports, Im i)
    (hOk : ∀ p ∈ writtenParams name ps, Ok p.1 (c.annotations.get? p.1) p.2) :
    (scaffoldFunction t.lang name c none >>= fun text => t.stmts (readLines text) >>= fun ss => loadConfigFile t.py (some ss)) =
      match eval "Selector()" (t.py.init.setAll (broughtBy thing (newFileImports c))) with
      | .error e => .error e
      | .ok sel => (assignParams eval c.annotations (writtenParams name ps) ((t.py.init.setAll (broughtBy thing (newFileImports c))).set "s" sel)).map
          (userDefined t.py) := by
  obtain ⟨text, h1, h2⟩ := newFile_stmts law means name hps hIm hOk
  simp only [h1, h2, bind, Except.bind, loadConfigFile]
  have hcheck : CStmt.checkAll ((newFileImports c).map (importStmt thing) ++ [.assign [.name "s"] (eval "Selector()")] ++
      (writtenParams name ps).map (paramStmt eval c.annotations)) = .ok () := by
    refine check_append _ _ (check_append _ _ (check_map _ ?_ _) ?_) (check_map _ ?_ _)
    · intro i
      simp only [importStmt, CStmt.check]
    · simp only [CStmt.checkAll, CStmt.check, bind, Except.bind]
    · intro p
      unfold paramStmt
      split <;> simp only [CStmt.check]
  rw [hcheck]
  dsimp only
  rw [execAll_append, execAll_append, exec_imports]
  dsimp only
  simp only [CStmt.execAll, CStmt.exec, bind, Except.bind, bindTargets, bindTarget, pure, Except.pure]
  cases eval "Selector()" (t.py.init.setAll (broughtBy thing (newFileImports c))) with
  | error e => rfl
  | ok sel =>
    dsimp only
    rw [exec_params]
    cases assignParams eval c.annotations (writtenParams name ps) ((t.py.init.setAll (broughtBy thing (newFileImports c))).set "s" sel) <;> rfl

/-- C91, the config of a new function exactly: the imports are bound, then `s`, then each parameter in the order of the
signature, and names with two underscores and modules are left out. -/
theorem C91_config_exact {t : Tools V} {Ok : String → Option Expr → Expr → Prop} {Im : Imp → Prop}
    {eval : Expr → Dict String V → Except PyErr V} {thing : Thing → V} (law : Lawful t.lang Ok Im)
    (means : TextMeans t Ok Im eval thing) (f : FunctionSource) (c : Cfg)
    (hc : functionCfg t.setList t.builtin t.annSrc false f.args f.imports f.assigns f.module = .ok c)
    (ps : List (String × Expr)) (hps : Params c ps) (hIm : ∀ i ∈ selectorImport :: c.imports, Im i)
    (hOk : ∀ p ∈ writtenParams f.name ps, Ok p.1 (c.annotations.get? p.1) p.2) :
    newConfig t f = match eval "Selector()" (t.py.init.setAll (broughtBy thing (newFileImports c))) with
      | .error e => .error e
      | .ok sel => (assignParams eval c.annotations (writtenParams f.name ps) ((t.py.init.setAll (broughtBy thing (newFileImports c))).set "s" sel)).map
          (userDefined t.py) := by
  rw [← newFile_config law means f.name c ps hps hIm hOk]
  unfold newConfig
  rw [hc]
  rfl

/-! ### Names that defaults and annotations use -/

/-- The name is used by a default, or by an annotation without being a type of Python itself. -/
def UsesName (builtin : String → Bool) (a : Arguments) (x : String) : Prop :=
  (∃ p ∈ keywordParams a, ∃ v, p.2 = some v ∧ x ∈ v.names) ∨
  (∃ p ∈ keywordParams a, ∃ ty, p.1.annotation = some ty ∧ x ∈ rootNames (unquoted ty) ∧ builtin x = false)

/-- The parameters with the source of their defaults, `None` for those without. -/
def ownParams (a : Arguments) : List (String × Expr) :=
  (keywordParams a).map (fun p => (p.1.name, (p.2.map Default.src).getD "None"))

theorem mem_rootNamesList {as : List Ann} {x : String} : x ∈ rootNamesList as ↔ ∃ a ∈ as, x ∈ rootNames a := by
  induction as with
  | nil => simp [rootNamesList]
  | cons a as ih =>
    rw [rootNamesList, List.mem_append, ih]
    simp

theorem keywordParams_fst {a : Arguments} (hv : Valid a) (hpos : a.defaults.length ≤ a.args.length) :
    (keywordParams a).map Prod.fst = a.args ++ a.kwonly := by
  rw [params_split hpos, List.map_append, List.map_fst_zip, List.map_fst_zip]
  · rw [hv.kwDefaults]; omega
  · simp; omega

theorem needed_iff {builtin : String → Bool} {a : Arguments} (hv : Valid a) (hpos : a.defaults.length ≤ a.args.length)
    {d : Dict String (Option Default)} {ann : Dict String Ann} (h : argDicts a = .ok (d, ann)) (x : String) :
    NeededName builtin d ann x ↔ UsesName builtin a x := by
  obtain ⟨d', ann', h', hd⟩ := C59_defaults_partial a hv hpos
  rw [h] at h'
  cases h'
  have hann := C59_annotations hv h
  unfold NeededName UsesName
  refine or_congr ?_ ?_
  · constructor
    · rintro ⟨v, hm, hx⟩
      unfold Dict.values at hm
      rw [hd, List.map_map, List.mem_map] at hm
      obtain ⟨p, hp, hpv⟩ := hm
      simp only [Function.comp_apply, scaffolded] at hpv
      split at hpv
      · cases hp2 : p.2 with
        | none =>
          rw [hp2] at hpv
          cases hpv
          cases hx
        | some w =>
          rw [hp2] at hpv
          cases hpv
          exact ⟨p, hp, w, hp2, hx⟩
      · exact ⟨p, hp, v, hpv, hx⟩
    · rintro ⟨p, hp, v, hpv, hx⟩
      refine ⟨v, ?_, hx⟩
      unfold Dict.values
      rw [hd, List.map_map, List.mem_map]
      refine ⟨p, hp, ?_⟩
      simp only [Function.comp_apply, scaffolded, hpv]
      split <;> rfl
  · rw [mem_rootNamesList]
    have hmem : ∀ t, t ∈ ann.values ↔ ∃ p ∈ keywordParams a, ∃ ty, p.1.annotation = some ty ∧ unquoted ty = t := by
      intro t
      constructor
      · intro ht
        unfold Dict.values at ht
        rw [List.mem_map] at ht
        obtain ⟨⟨k, t'⟩, he, rfl⟩ := ht
        have hg := (Dict.mem_items_iff _ _ _).1 he
        by_cases hk : k ∈ (a.args ++ a.kwonly).map Arg.name
        · obtain ⟨y, hy, rfl⟩ := List.mem_map.1 hk
          rw [hann.1 y hy] at hg
          rw [← keywordParams_fst hv hpos, List.mem_map] at hy
          obtain ⟨p, hp, rfl⟩ := hy
          cases hty : p.1.annotation with
          | none => rw [hty] at hg; cases hg
          | some ty =>
            rw [hty] at hg
            cases hg
            exact ⟨p, hp, ty, hty, rfl⟩
        · rw [hann.2 k hk] at hg
          cases hg
      · rintro ⟨p, hp, ty, hty, rfl⟩
        have hy : p.1 ∈ a.args ++ a.kwonly := by
          rw [← keywordParams_fst hv hpos]
          exact List.mem_map.2 ⟨p, hp, rfl⟩
        have := hann.1 p.1 hy
        rw [hty] at this
        unfold Dict.values
        exact List.mem_map.2 ⟨_, (Dict.mem_items_iff _ _ _).2 this, rfl⟩
    constructor
    · rintro ⟨⟨t, ht, hx⟩, hb⟩
      obtain ⟨p, hp, ty, h1, rfl⟩ := (hmem t).1 ht
      exact ⟨p, hp, ty, h1, hx, hb⟩
    · rintro ⟨p, hp, ty, h1, hx, hb⟩
      exact ⟨⟨_, (hmem _).2 ⟨p, hp, ty, h1, rfl⟩, hx⟩, hb⟩

theorem mapM_getImport {imports : List Imp} {names : List String} {r : List Imp} (h : names.mapM (getImport imports) = .ok r) :
    (∀ i ∈ r, ∃ x ∈ names, getImport imports x = .ok i) ∧ ∀ x ∈ names, ∃ i ∈ r, getImport imports x = .ok i := mapM_ok_mem h

theorem argImports_form {setList : List String → List String} (hs : SetList setList) {builtin : String → Bool} {a : Arguments}
    (hv : Valid a) (hpos : a.defaults.length ≤ a.args.length) {imports : List Imp} {assigns : List Assign} {module : String}
    {d : Dict String (Option Default)} {ann : Dict String Ann} (ha : argDicts a = .ok (d, ann)) {is : List Imp}
    (hi : argImports setList builtin a imports assigns module = .ok is)
    (hass : ∀ x, UsesName builtin a x → containsVarname assigns x = false) :
    (∀ i ∈ is, ∃ x, UsesName builtin a x ∧ getImport imports x = .ok i) ∧
    ∀ x, UsesName builtin a x → ∃ i ∈ is, getImport imports x = .ok i := by
  unfold argImports at hi
  rw [ha] at hi
  simp only [bind, Except.bind] at hi
  cases hx : externalNames setList builtin d ann with
  | error e => rw [hx] at hi; cases hi
  | ok names =>
    rw [hx] at hi
    dsimp only at hi
    obtain ⟨_, _, _, h4⟩ := mem_externalNames hs hx
    have hmem : ∀ x, x ∈ names ↔ UsesName builtin a x := fun x => (h4 x).trans (needed_iff hv hpos ha x)
    have hnil : names.filter (fun n => containsVarname assigns n) = [] := by
      rw [List.filter_eq_nil_iff]
      intro x hxm
      rw [hass x ((hmem x).1 hxm)]
      simp
    cases hm : names.mapM (getImport imports) with
    | error e => rw [hm] at hi; cases hi
    | ok r =>
      rw [hm] at hi
      cases hi
      rw [hnil]
      obtain ⟨h1, h2⟩ := mapM_getImport hm
      constructor
      · intro i hmi
        obtain ⟨x, hxm, hg⟩ := h1 i hmi
        exact ⟨x, (hmem x).1 hxm, hg⟩
      · intro x hu
        exact h2 x ((hmem x).2 hu)

/-- What is taken from the source of a function. -/
theorem functionCfg_facts {t : Tools V} (hs : SetList t.setList) {f : FunctionSource} (hv : Valid f.args)
    (hpos : f.args.defaults.length ≤ f.args.args.length) {c : Cfg}
    (hc : functionCfg t.setList t.builtin t.annSrc false f.args f.imports f.assigns f.module = .ok c)
    (hass : ∀ x, UsesName t.builtin f.args x → containsVarname f.assigns x = false) :
    Params c (ownParams f.args) ∧
    (∀ p ∈ keywordParams f.args, c.annotations.get? p.1.name = p.1.annotation.map (fun ty => t.annSrc (unquoted ty))) ∧
    (∀ i ∈ c.imports, ∃ x, UsesName t.builtin f.args x ∧ getImport f.imports x = .ok i) ∧
    (∀ x, UsesName t.builtin f.args x → ∃ i ∈ c.imports, getImport f.imports x = .ok i) ∧
    (∀ p ∈ keywordParams f.args, p.1 ∈ f.args.kwonly → p.2 ≠ none) := by
  obtain ⟨hvals, _⟩ := C59_config_partial hs t.builtin t.annSrc f.args hv f.imports f.assigns f.module hpos c hc
  obtain ⟨d, ann, ha, hd⟩ := C59_defaults_partial f.args hv hpos
  unfold functionCfg at hc
  simp only [Bool.false_eq_true, if_false, pure, Except.pure, bind, Except.bind] at hc
  cases hi : argImports t.setList t.builtin f.args f.imports f.assigns f.module with
  | error e => rw [hi] at hc; cases hc
  | ok is =>
    have hnone := ((C60_succeeds_iff hs t.builtin f.args f.imports f.assigns f.module d ann ha).1 ⟨is, hi⟩).1
    rw [hi, ha] at hc
    dsimp only at hc
    cases hc
    refine ⟨?_, ?_, ?_, ?_, ?_⟩
    · unfold Params ownParams
      rw [List.map_map]
      exact hvals
    · intro p hp
      have hy : p.1 ∈ f.args.args ++ f.args.kwonly := by
        rw [← keywordParams_fst hv hpos]
        exact List.mem_map.2 ⟨p, hp, rfl⟩
      have hann := (C59_annotations hv ha).1 p.1 hy
      have hmap : ∀ l : List (String × Ann), AList.get? (l.map (fun e => (e.1, t.annSrc e.2))) p.1.name =
          (AList.get? l p.1.name).map t.annSrc := by
        intro l
        induction l with
        | nil => rfl
        | cons e l ih =>
          rw [List.map_cons, AList.get?, AList.get?]
          split
          · rfl
          · exact ih
      show AList.get? (ann.items.map (fun e => (e.1, t.annSrc e.2))) p.1.name = _
      rw [hmap]
      have : AList.get? ann.items p.1.name = p.1.annotation.map unquoted := hann
      rw [this, Option.map_map]
      rfl
    · intro i hmem
      have := argImports_form hs hv hpos ha hi hass
      exact this.1 i hmem
    · exact (argImports_form hs hv hpos ha hi hass).2
    · intro p hp hk hn
      refine hnone none ?_ rfl
      unfold Dict.values
      rw [hd, List.map_map, List.mem_map]
      refine ⟨p, hp, ?_⟩
      simp only [Function.comp_apply, scaffolded]
      rw [if_neg]
      · exact hn
      · intro hm
        have hnd := hv.names
        rw [List.map_append, List.map_append, List.nodup_append] at hnd
        exact hnd.2.2 p.1.name (List.mem_append_right _ hm) p.1.name (List.mem_map.2 ⟨_, hk, rfl⟩) rfl

/-! ### What the imports of the new file bind -/

theorem getImport_form {is : List Imp} {x : String} {i : Imp} (h : getImport is x = .ok i) :
    i.preferBeginning = false ∧ ((i.names = [x] ∧ i.renames = []) ∨
      ∃ j ∈ is, ∃ r ∈ i.renames, i.names = [r.item] ∧ ∀ q ∈ i.renames, q ∈ j.renames ∧ q.newName = x) := by
  induction is with
  | nil => cases h
  | cons j is ih =>
    rw [getImport] at h
    by_cases h1 : x ∈ j.names
    · rw [if_pos h1] at h
      cases h
      exact ⟨rfl, .inl ⟨rfl, rfl⟩⟩
    · rw [if_neg h1] at h
      by_cases h2 : x ∈ newNames j.renames
      · rw [if_pos h2] at h
        cases h
        refine ⟨rfl, .inr ⟨j, List.mem_cons_self, ?_⟩⟩
        obtain ⟨r, hr, hrx⟩ := mem_newNames.1 h2
        have hmem : r ∈ j.renames.filter (fun r => decide (r.newName = x)) := List.mem_filter.2 ⟨hr, by simpa using hrx⟩
        cases hl : (j.renames.filter (fun r => decide (r.newName = x))).getLast? with
        | none =>
          rw [List.getLast?_eq_none_iff] at hl
          rw [hl] at hmem
          cases hmem
        | some r' =>
          have hr' := List.mem_of_getLast? hl
          refine ⟨r', hr', ?_, ?_⟩
          · unfold originalOf
            rw [hl]
          · intro q hq
            have := List.mem_filter.1 hq
            exact ⟨this.1, by simpa using this.2⟩
      · rw [if_neg h2] at h
        obtain ⟨hb, h3 | ⟨k, hk, r, hr⟩⟩ := ih h
        · exact ⟨hb, .inl h3⟩
        · exact ⟨hb, .inr ⟨k, List.mem_cons_of_mem _ hk, r, hr⟩⟩

/-- If all bindings of a name are of the same value, it has that value. -/
theorem get?_setAll_const (es : List (String × V)) (d : Dict String V) (x : String) (v : V)
    (hall : ∀ w, (x, w) ∈ es → w = v) (hex : d.get? x = some v ∨ (x, v) ∈ es) : (d.setAll es).get? x = some v := by
  induction es generalizing d with
  | nil =>
    rcases hex with h | h
    · exact h
    · cases h
  | cons e es ih =>
    show ((d.set e.1 e.2).setAll es).get? x = some v
    apply ih
    · exact fun w hw => hall w (List.mem_cons_of_mem _ hw)
    · by_cases he : e.1 = x
      · refine .inl ?_
        have : e.2 = v := hall e.2 (by rw [← he]; exact List.mem_cons_self)
        rw [he, Dict.get?_set_self, this]
      · rcases hex with h | h
        · refine .inl ?_
          rw [Dict.get?_set_ne _ _ he]
          exact h
        · rcases List.mem_cons.1 h with h | h
          · exact absurd (by rw [← h]) he
          · exact .inr h

theorem get?_setAll_absent (es : List (String × V)) (d : Dict String V) (x : String) (h : x ∉ es.map Prod.fst) :
    (d.setAll es).get? x = d.get? x := by
  induction es generalizing d with
  | nil => rfl
  | cons e es ih =>
    rw [List.map_cons, List.mem_cons, not_or] at h
    show ((d.set e.1 e.2).setAll es).get? x = _
    rw [ih _ h.2, Dict.get?_set_ne _ _ (fun hh => h.1 hh.symm)]

/-- What `from pyfileconf import Selector` gives. -/
def selectorThing : Thing := .member 0 (some "pyfileconf") "Selector"

/-- The imports of the module bind the names that are used, under no other name as well. -/
structure PlainImports (builtin : String → Bool) (f : FunctionSource) (thing : Thing → V) (menv : Dict String V) : Prop where
  read : ∀ j ∈ f.imports, ∃ n, ReadFrom j n ∧ Clean n
  once : ∀ j ∈ f.imports, ∀ r ∈ j.renames, ¬ UsesName builtin f.args r.item ∧ r.item ≠ "Selector"
  bound : ∀ x th, UsesName builtin f.args x → (x, th) ∈ provided f.imports → menv.get? x = some (thing th)
  unassigned : ∀ x, UsesName builtin f.args x → containsVarname f.assigns x = false
  selector : ¬ UsesName builtin f.args "Selector"

theorem newFile_env {t : Tools V} {thing : Thing → V} {menv : Dict String V} {f : FunctionSource} {c : Cfg}
    (hp : PlainImports t.builtin f thing menv)
    (h3 : ∀ i ∈ c.imports, ∃ x, UsesName t.builtin f.args x ∧ getImport f.imports x = .ok i)
    (h4 : ∀ x, UsesName t.builtin f.args x → ∃ i ∈ c.imports, getImport f.imports x = .ok i) (init : Dict String V) :
    (∀ x, UsesName t.builtin f.args x → (init.setAll (broughtBy thing (newFileImports c))).get? x = menv.get? x ∧
      (menv.get? x).isSome = true) ∧
    (init.setAll (broughtBy thing (newFileImports c))).get? "Selector" = some (thing selectorThing) ∧
    ∀ x, ¬ UsesName t.builtin f.args x → x ≠ "Selector" →
      (init.setAll (broughtBy thing (newFileImports c))).get? x = init.get? x := by
  have hin : ∀ i ∈ newFileImports c, i ∈ c.imports ∨ i = selectorImport := by
    intro i hi
    rcases addImports_mem hi with hi | hi
    · cases hi
    · exact addImport_mem hi
  have hcov : ∀ i ∈ c.imports ++ [selectorImport], ∃ j ∈ newFileImports c, j.covers i = true := by
    intro i hi
    have h1 : hasImport (addImport c.imports selectorImport) i = true := by
      rcases List.mem_append.1 hi with hi | hi
      · refine hasImport_mono (addImport_sublist _ _) ?_
        have := addImports_has (xs := c.imports) (is := []) hi
        unfold hasImport
        rw [List.any_eq_true]
        refine ⟨i, hi, ?_⟩
        simp [Imp.covers]
      · rw [List.mem_singleton] at hi
        subst hi
        exact addImports_has (xs := [selectorImport]) (is := c.imports) List.mem_cons_self
    have := hasImport_trans (fun x hx => addImports_has (is := []) hx) h1
    unfold hasImport at this
    rw [List.any_eq_true] at this
    exact this
  have hsame : ∀ x i, UsesName t.builtin f.args x → getImport f.imports x = .ok i →
      ∃ th, provides (written i) = [(x, th)] ∧ menv.get? x = some (thing th) := by
    intro x i hu hg
    obtain ⟨th, h1, h2⟩ := C58_same_partial f.imports x i hg hp.read (by
      intro j hj r hr he
      exact (hp.once j hj r hr).1 (he ▸ hu))
    exact ⟨th, h1, hp.bound x th hu h2⟩
  have hsel : provides (written selectorImport) = [("Selector", selectorThing)] := by decide +kernel
  -- every binding of the new file
  have hbind : ∀ x w, (x, w) ∈ broughtBy thing (newFileImports c) →
      (UsesName t.builtin f.args x ∧ menv.get? x = some w) ∨ (x = "Selector" ∧ w = thing selectorThing) := by
    intro x w hw
    unfold broughtBy provided at hw
    rw [List.mem_map] at hw
    obtain ⟨⟨y, th⟩, hm, he⟩ := hw
    cases he
    rw [List.mem_flatMap] at hm
    obtain ⟨i, hi, hpi⟩ := hm
    rcases hin i hi with hi | rfl
    · obtain ⟨x', hu, hg⟩ := h3 i hi
      obtain ⟨th', h1, h2⟩ := hsame x' i hu hg
      rw [h1, List.mem_singleton] at hpi
      cases hpi
      exact .inl ⟨hu, h2⟩
    · rw [hsel, List.mem_singleton] at hpi
      cases hpi
      exact .inr ⟨rfl, rfl⟩
  have hmem : ∀ i ∈ newFileImports c, ∀ x th, provides (written i) = [(x, th)] →
      (x, thing th) ∈ broughtBy thing (newFileImports c) := by
    intro i hi x th hpi
    unfold broughtBy provided
    refine List.mem_map.2 ⟨(x, th), List.mem_flatMap.2 ⟨i, hi, ?_⟩, rfl⟩
    rw [hpi]
    exact List.mem_cons_self
  refine ⟨?_, ?_, ?_⟩
  · intro x hu
    obtain ⟨i, hi, hg⟩ := h4 x hu
    obtain ⟨th, hpi, hme⟩ := hsame x i hu hg
    have hxs : x ≠ "Selector" := fun h => hp.selector (h ▸ hu)
    refine ⟨?_, by rw [hme]; rfl⟩
    rw [hme]
    apply get?_setAll_const
    · intro w hw
      rcases hbind x w hw with ⟨_, h⟩ | ⟨h, _⟩
      · rw [hme] at h
        exact (Option.some.inj h).symm
      · exact absurd h hxs
    · refine .inr ?_
      obtain ⟨j, hj, hc⟩ := hcov i (List.mem_append_left _ hi)
      unfold Imp.covers at hc
      simp only [Bool.and_eq_true, decide_eq_true_eq, List.all_eq_true] at hc
      obtain ⟨⟨hsrc, hnames⟩, hrens⟩ := hc
      have hj' : provides (written j) = [(x, th)] := by
        obtain ⟨_, hf⟩ := getImport_form hg
        rcases hf with ⟨hn, _⟩ | ⟨k, hk, r, hr, hn, hall⟩
        · have hxj : x ∈ j.names := hnames x (by rw [hn]; exact List.mem_cons_self)
          rcases hin j hj with hjc | rfl
          · obtain ⟨y, hy, hgy⟩ := h3 j hjc
            obtain ⟨_, hfy⟩ := getImport_form hgy
            rcases hfy with ⟨hny, hry⟩ | ⟨k', hk', r', hr', hny, hall'⟩
            · rw [hny, List.mem_singleton] at hxj
              subst hxj
              rw [hg] at hgy
              cases hgy
              exact hpi
            · rw [hny, List.mem_singleton] at hxj
              exact absurd (hxj ▸ hu) (hp.once k' hk' r' (hall' r' hr').1).1
          · have : x ∈ ["Selector"] := hxj
            rw [List.mem_singleton] at this
            exact absurd this hxs
        · have hrj := hrens r hr
          rcases hin j hj with hjc | rfl
          · obtain ⟨y, hy, hgy⟩ := h3 j hjc
            obtain ⟨_, hfy⟩ := getImport_form hgy
            rcases hfy with ⟨_, hry⟩ | ⟨k', hk', r', hr', hny, hall'⟩
            · rw [hry] at hrj
              cases hrj
            · have h1 := (hall' r hrj).2
              have h2 := (hall r hr).2
              rw [h2] at h1
              subst h1
              rw [hg] at hgy
              cases hgy
              exact hpi
          · cases hrj
      exact hmem j hj x th hj'
  · apply get?_setAll_const
    · intro w hw
      rcases hbind _ w hw with ⟨h, _⟩ | ⟨_, h⟩
      · exact absurd h hp.selector
      · exact h
    · refine .inr ?_
      obtain ⟨j, hj, hc⟩ := hcov selectorImport (List.mem_append_right _ List.mem_cons_self)
      rcases hin j hj with hjc | rfl
      · exfalso
        unfold Imp.covers at hc
        simp only [Bool.and_eq_true, decide_eq_true_eq, List.all_eq_true] at hc
        have hS : "Selector" ∈ j.names := hc.1.2 "Selector" List.mem_cons_self
        obtain ⟨y, hy, hgy⟩ := h3 j hjc
        obtain ⟨_, hfy⟩ := getImport_form hgy
        rcases hfy with ⟨hny, _⟩ | ⟨k', hk', r', hr', hny, hall'⟩
        · rw [hny, List.mem_singleton] at hS
          exact hp.selector (hS ▸ hy)
        · rw [hny, List.mem_singleton] at hS
          exact (hp.once k' hk' r' (hall' r' hr').1).2 hS.symm
      · exact hmem _ hj _ _ hsel
  · intro x hx hxs
    apply get?_setAll_absent
    intro hm
    obtain ⟨⟨y, w⟩, he, rfl⟩ := List.mem_map.1 hm
    rcases hbind y w he with ⟨h, _⟩ | ⟨h, _⟩
    · exact hx h
    · exact hxs h

/-! ### Calling the function -/

/-- The names that the default and the annotation of a parameter use. -/
def UsedBy (p : Arg × Option Default) (x : String) : Prop :=
  (∃ v, p.2 = some v ∧ x ∈ v.names) ∨ ∃ ty, p.1.annotation = some ty ∧ x ∈ rootNames (unquoted ty)

/-- What is used about evaluating expressions: the defaults have values in the module the function is in, which depend on the
names in them only, and the annotations have values wherever their names have the values they have in the module, or those of
Python itself. -/
structure Evaluates (t : Tools V) (eval : Expr → Dict String V → Except PyErr V) (thing : Thing → V) (noneV : V)
    (menv : Dict String V) (f : FunctionSource) : Prop where
  names : ∀ p ∈ keywordParams f.args, ∀ v, p.2 = some v → ∀ env env' : Dict String V,
    (∀ x ∈ v.names, env.get? x = env'.get? x) → eval v.src env = eval v.src env'
  defined : ∀ p ∈ keywordParams f.args, ∀ v, p.2 = some v → ∃ r, eval v.src menv = .ok r
  none_ : ∀ env, eval "None" env = .ok noneV
  selector : ∀ env, env.get? "Selector" = some (thing selectorThing) → ∃ r, eval "Selector()" env = .ok r
  annotations : ∀ p ∈ keywordParams f.args, ∀ ty, p.1.annotation = some ty → ∀ env : Dict String V,
    (∀ x ∈ rootNames (unquoted ty), env.get? x = menv.get? x ∨ (t.builtin x = true ∧ env.get? x = t.py.init.get? x)) →
    ∃ r, eval (t.annSrc (unquoted ty)) env = .ok r

/-- No default and no annotation uses the name of a parameter before it, or `s`. -/
def Unshadowed (a : Arguments) : Prop :=
  ∀ pre p post, keywordParams a = pre ++ p :: post → ∀ x, UsedBy p x → x ≠ "s" ∧ x ∉ pre.map (fun q => q.1.name)

/-- The value of a parameter if the function is called without it, and `None` if it has no default. -/
def ownValue (eval : Expr → Dict String V → Except PyErr V) (noneV : V) (menv : Dict String V) (p : Arg × Option Default) :
    Except PyErr V :=
  match p.2 with
  | none => .ok noneV
  | some d => eval d.src menv

/-- The value a parameter has in a call with these keyword arguments. -/
def received (eval : Expr → Dict String V → Except PyErr V) (menv : Dict String V) (kwargs : Dict String V)
    (p : Arg × Option Default) : Option V :=
  match kwargs.get? p.1.name with
  | some v => some v
  | none => p.2.bind (fun d => (eval d.src menv).toOption)

/-- What `inspect` says about the function. -/
def Signature (a : Arguments) (sig : Sig) : Prop :=
  sig.args = (a.posonly ++ a.args).map Arg.name ∧ sig.kwonly = a.kwonly.map Arg.name ∧
    sig.kwonlyDefaults = (a.kwonly.zip a.kwDefaults).filterMap (fun p => p.2.map (fun _ => p.1.name))

theorem newItem_eq_of_nodup {α β : Type} {f : α → β} {l : List α} (h : (l.map f).Nodup) {a b : α} (ha : a ∈ l)
    (hb : b ∈ l) (hab : f a = f b) : a = b := by
  induction l with
  | nil => cases ha
  | cons c l ih =>
    rw [List.map_cons, List.nodup_cons] at h
    rcases List.mem_cons.1 ha with ha | ha <;> rcases List.mem_cons.1 hb with hb | hb
    · rw [ha, hb]
    · exact absurd (List.mem_map.2 ⟨b, hb, by rw [← hab, ha]⟩) h.1
    · exact absurd (List.mem_map.2 ⟨a, ha, by rw [hab, hb]⟩) h.1
    · exact ih h.2 ha hb

theorem assignParams_ok (eval : Expr → Dict String V → Except PyErr V) (ann : Dict String Expr) (P : String → V → Prop)
    (ps : List (String × Expr)) (hn : (ps.map Prod.fst).Nodup) (env : Dict String V)
    (h : ∀ pre x e post, ps = pre ++ (x, e) :: post → ∀ env' : Dict String V,
      (∀ y, y ∉ pre.map Prod.fst → env'.get? y = env.get? y) →
      (∃ v, eval e env' = .ok v ∧ P x v) ∧ ∀ t, ann.get? x = some t → ∃ r, eval t env' = .ok r) :
    ∃ env', assignParams eval ann ps env = .ok env' ∧ (∀ y, y ∉ ps.map Prod.fst → env'.get? y = env.get? y) ∧
      ∀ x ∈ ps.map Prod.fst, ∃ v, P x v ∧ env'.get? x = some v := by
  induction ps generalizing env with
  | nil => exact ⟨env, rfl, fun _ _ => rfl, fun x hx => by cases hx⟩
  | cons p ps ih =>
    obtain ⟨x, e⟩ := p
    rw [List.map_cons, List.nodup_cons] at hn
    obtain ⟨⟨v, hv, hP⟩, ht⟩ := h [] x e ps rfl env (fun _ _ => rfl)
    have hstep : assignParams eval ann ((x, e) :: ps) env = assignParams eval ann ps (env.set x v) := by
      rw [assignParams, hv]
      dsimp only
      cases ha : ann.get? x with
      | none => rfl
      | some t =>
        obtain ⟨r, hr⟩ := ht t ha
        dsimp only
        rw [hr]
    obtain ⟨env', h1, h2, h3⟩ := ih hn.2 (env.set x v) (by
      intro pre x' e' post hps env' henv
      refine h ((x, e) :: pre) x' e' post (by rw [hps]; rfl) env' ?_
      intro y hy
      rw [List.map_cons, List.mem_cons, not_or] at hy
      rw [henv y hy.2, Dict.get?_set_ne _ _ (fun hh => hy.1 hh.symm)])
    refine ⟨env', by rw [hstep, h1], ?_, ?_⟩
    · intro y hy
      rw [List.map_cons, List.mem_cons, not_or] at hy
      rw [h2 y hy.2, Dict.get?_set_ne _ _ (fun hh => hy.1 hh.symm)]
    · intro y hy
      rw [List.map_cons, List.mem_cons] at hy
      rcases hy with rfl | hy
      · refine ⟨v, hP, ?_⟩
        rw [h2 _ hn.1, Dict.get?_set_self]
      · exact h3 y hy

/-- The parameters with what is written for them, if `key` is written for one of them. -/
def givenParams (key : Option (String × Expr)) (a : Arguments) : List (String × Expr) :=
  match key with
  | none => ownParams a
  | some (x, e) => (ownParams a).map (fun p => if p.1 = x then (p.1, e) else p)

/-- The value of a parameter, if `key` has the value `keyV`. -/
def givenValue (eval : Expr → Dict String V → Except PyErr V) (noneV : V) (menv : Dict String V) (key : Option (String × Expr))
    (keyV : V) (p : Arg × Option Default) : Except PyErr V :=
  if key.map Prod.fst = some p.1.name then .ok keyV else ownValue eval noneV menv p

theorem givenParams_eq (key : Option (String × Expr)) (a : Arguments) :
    givenParams key a = (keywordParams a).map (fun p => (p.1.name,
      if key.map Prod.fst = some p.1.name then (key.map Prod.snd).getD "" else (p.2.map Default.src).getD "None")) := by
  unfold givenParams
  split
  · simp [ownParams]
  · next x e =>
    unfold ownParams
    rw [List.map_map]
    apply List.map_congr_left
    intro p _
    simp only [Function.comp_apply, Option.map_some, Option.some.injEq, Option.getD_some]
    by_cases h : p.1.name = x
    · rw [if_pos h, if_pos h.symm]
    · rw [if_neg h, if_neg (fun hh => h hh.symm)]

/-- What the new file binds: the parameters to their values, and nothing but the names that are used, `Selector` and `s`. -/
theorem newFile_values {t : Tools V} {Ok : String → Option Expr → Expr → Prop} {Im : Imp → Prop}
    {eval : Expr → Dict String V → Except PyErr V} {thing : Thing → V} {noneV : V} {menv : Dict String V}
    (law : Lawful t.lang Ok Im) (means : TextMeans t Ok Im eval thing) (f : FunctionSource) (name : String)
    (hname : name ≠ "DataPipeline") (hv : Valid f.args) (hposonly : f.args.posonly = []) (c : Cfg)
    (key : Option (String × Expr)) (keyV : V) (hkey : ∀ x e env, key = some (x, e) → eval e env = .ok keyV)
    (hps : Params c (givenParams key f.args))
    (hann : ∀ p ∈ keywordParams f.args, c.annotations.get? p.1.name = p.1.annotation.map (fun ty => t.annSrc (unquoted ty)))
    (h3 : ∀ i ∈ c.imports, ∃ x, UsesName t.builtin f.args x ∧ getImport f.imports x = .ok i)
    (h4 : ∀ x, UsesName t.builtin f.args x → ∃ i ∈ c.imports, getImport f.imports x = .ok i)
    (hIm : ∀ i ∈ selectorImport :: c.imports, Im i)
    (hOk : ∀ p ∈ keywordParams f.args, Ok p.1.name (p.1.annotation.map (fun ty => t.annSrc (unquoted ty)))
      (if key.map Prod.fst = some p.1.name then (key.map Prod.snd).getD "" else (p.2.map Default.src).getD "None"))
    (himp : PlainImports t.builtin f thing menv) (hev : Evaluates t eval thing noneV menv f) (hshadow : Unshadowed f.args)
    (hb : t.builtin "Selector" = false) :
    ∃ env', (scaffoldFunction t.lang name c none >>= fun text => t.stmts (readLines text) >>= fun ss => loadConfigFile t.py (some ss)) =
        .ok (userDefined t.py env') ∧
      (∀ p ∈ keywordParams f.args, ∃ v, givenValue eval noneV menv key keyV p = .ok v ∧ env'.get? p.1.name = some v) ∧
      (∀ y, y ∉ (keywordParams f.args).map (fun p => p.1.name) → ¬ UsesName t.builtin f.args y → y ≠ "Selector" → y ≠ "s" →
        env'.get? y = t.py.init.get? y) ∧
      ("s" ∉ (keywordParams f.args).map (fun p => p.1.name) → ∃ sel env, eval "Selector()" env = .ok sel ∧
        env.get? "Selector" = some (thing selectorThing) ∧ env'.get? "s" = some sel) := by
  have hpos : f.args.defaults.length ≤ f.args.args.length := by
    have := hv.defaults
    rw [hposonly] at this
    simpa using this
  obtain ⟨hE1, hE2, hE3⟩ := newFile_env himp h3 h4 t.py.init
  have hcfg := newFile_config law means name c (givenParams key f.args) hps hIm (by
    rw [writtenParams_other hname]
    intro p hp
    rw [givenParams_eq] at hp
    obtain ⟨q, hq, rfl⟩ := List.mem_map.1 hp
    dsimp only
    rw [hann q hq]
    exact hOk q hq)
  rw [writtenParams_other hname] at hcfg
  obtain ⟨sel, hsel⟩ := hev.selector _ hE2
  rw [hsel] at hcfg
  dsimp only at hcfg
  have hfst : (keywordParams f.args).map (fun p => p.1.name) = (f.args.args ++ f.args.kwonly).map Arg.name := by
    rw [← keywordParams_fst hv hpos, List.map_map]
    rfl
  have hnames : (givenParams key f.args).map Prod.fst = (f.args.args ++ f.args.kwonly).map Arg.name := by
    rw [givenParams_eq, List.map_map]
    exact hfst
  have hnd : ((givenParams key f.args).map Prod.fst).Nodup := by
    rw [hnames]
    have := hv.names
    rw [hposonly] at this
    simpa using this
  obtain ⟨env', hrun, hothers, hvals⟩ := assignParams_ok eval c.annotations
    (fun x v => ∃ p ∈ keywordParams f.args, p.1.name = x ∧ givenValue eval noneV menv key keyV p = .ok v) (givenParams key f.args) hnd
    ((t.py.init.setAll (broughtBy thing (newFileImports c))).set "s" sel) (by
      intro pre x e post hsplit env henv
      rw [givenParams_eq] at hsplit
      obtain ⟨kpre, krest, hkp, hpre, hrest⟩ := List.map_eq_append_iff.1 hsplit
      obtain ⟨p, kpost, rfl, hp, _⟩ := List.map_eq_cons_iff.1 hrest
      have hmem : p ∈ keywordParams f.args := by rw [hkp]; simp
      have hun := hshadow kpre p kpost hkp
      have hpre' : pre.map Prod.fst = kpre.map (fun q => q.1.name) := by
        rw [← hpre, List.map_map]
        rfl
      have hlook : ∀ y, UsedBy p y → env.get? y = (t.py.init.setAll (broughtBy thing (newFileImports c))).get? y := by
        intro y hy
        obtain ⟨hys, hyp⟩ := hun y hy
        rw [henv y (by rw [hpre']; exact hyp), Dict.get?_set_ne _ _ (fun hh => hys hh.symm)]
      cases hp
      constructor
      · unfold givenValue
        by_cases hkp : key.map Prod.fst = some p.1.name
        · obtain ⟨⟨x, e⟩, hx, _⟩ := Option.map_eq_some_iff.1 hkp
          refine ⟨keyV, ?_, p, hmem, rfl, if_pos hkp⟩
          rw [if_pos hkp, hx]
          exact hkey x e env hx
        · rw [if_neg hkp]
          cases hd : p.2 with
          | none =>
            refine ⟨noneV, ?_, p, hmem, rfl, ?_⟩
            · exact hev.none_ env
            · rw [if_neg hkp]; unfold ownValue; rw [hd]
          | some d =>
            obtain ⟨r, hr⟩ := hev.defined p hmem d hd
            refine ⟨r, ?_, p, hmem, rfl, ?_⟩
            · show eval d.src env = .ok r
              rw [hev.names p hmem d hd env menv, hr]
              intro y hy
              rw [hlook y (.inl ⟨d, hd, hy⟩), (hE1 y (.inl ⟨p, hmem, d, hd, hy⟩)).1]
            · rw [if_neg hkp]
              unfold ownValue
              rw [hd]
              exact hr
      · intro ty hty
        rw [hann p hmem] at hty
        cases ha : p.1.annotation with
        | none => rw [ha] at hty; cases hty
        | some a =>
          rw [ha] at hty
          cases hty
          refine hev.annotations p hmem a ha env ?_
          intro y hy
          rw [hlook y (.inr ⟨a, ha, hy⟩)]
          by_cases hu : UsesName t.builtin f.args y
          · exact .inl (hE1 y hu).1
          · have hby : t.builtin y = true := by
              cases hbb : t.builtin y with
              | true => rfl
              | false => exact absurd (.inr ⟨p, hmem, a, ha, hy, hbb⟩) hu
            refine .inr ⟨hby, hE3 y hu ?_⟩
            intro hys
            rw [hys, hb] at hby
            cases hby)
  rw [hrun] at hcfg
  refine ⟨env', hcfg, ?_, ?_, ?_⟩
  · intro p hp
    have hpn : p.1.name ∈ (f.args.args ++ f.args.kwonly).map Arg.name := by
      rw [← hfst]
      exact List.mem_map.2 ⟨p, hp, rfl⟩
    obtain ⟨v, ⟨q, hq, hqn, hqv⟩, hg⟩ := hvals p.1.name (by rw [hnames]; exact hpn)
    have hqp : q = p := by
      have hnd' : ((keywordParams f.args).map (fun p => p.1.name)).Nodup := by
        rw [hfst, ← hnames]
        exact hnd
      exact newItem_eq_of_nodup hnd' hq hp hqn
    subst hqp
    exact ⟨v, hqv, hg⟩
  · intro y h1 h2 h3 h4
    rw [hothers y (by rw [hnames, ← hfst]; exact h1), Dict.get?_set_ne _ _ (fun hh => h4 hh.symm), hE3 y h2 h3]
  · intro h1
    refine ⟨sel, _, hsel, hE2, ?_⟩
    rw [hothers "s" (by rw [hnames, ← hfst]; exact h1), Dict.get?_set_self]

/-- What the file of a new function binds. -/
theorem newConfig_values {t : Tools V} {Ok : String → Option Expr → Expr → Prop} {Im : Imp → Prop}
    {eval : Expr → Dict String V → Except PyErr V} {thing : Thing → V} {noneV : V} {menv : Dict String V}
    (hset : SetList t.setList) (law : Lawful t.lang Ok Im) (means : TextMeans t Ok Im eval thing) (f : FunctionSource)
    (hname : f.name ≠ "DataPipeline") (hv : Valid f.args) (hposonly : f.args.posonly = []) (c : Cfg)
    (hc : functionCfg t.setList t.builtin t.annSrc false f.args f.imports f.assigns f.module = .ok c)
    (hIm : ∀ i ∈ selectorImport :: c.imports, Im i)
    (hOk : ∀ p ∈ keywordParams f.args, Ok p.1.name (p.1.annotation.map (fun ty => t.annSrc (unquoted ty)))
      ((p.2.map Default.src).getD "None"))
    (himp : PlainImports t.builtin f thing menv) (hev : Evaluates t eval thing noneV menv f) (hshadow : Unshadowed f.args)
    (hb : t.builtin "Selector" = false) :
    ∃ env', newConfig t f = .ok (userDefined t.py env') ∧
      (∀ p ∈ keywordParams f.args, ∃ v, ownValue eval noneV menv p = .ok v ∧ env'.get? p.1.name = some v) ∧
      (∀ y, y ∉ (keywordParams f.args).map (fun p => p.1.name) → ¬ UsesName t.builtin f.args y → y ≠ "Selector" → y ≠ "s" →
        env'.get? y = t.py.init.get? y) ∧
      ("s" ∉ (keywordParams f.args).map (fun p => p.1.name) → ∃ sel env, eval "Selector()" env = .ok sel ∧
        env.get? "Selector" = some (thing selectorThing) ∧ env'.get? "s" = some sel) ∧
      ∀ p ∈ keywordParams f.args, p.1 ∈ f.args.kwonly → p.2 ≠ none := by
  have hpos : f.args.defaults.length ≤ f.args.args.length := by
    have := hv.defaults
    rw [hposonly] at this
    simpa using this
  obtain ⟨hps, hann, h3, h4, h5⟩ := functionCfg_facts hset hv hpos hc himp.unassigned
  obtain ⟨env', h1, h2, h6, h7⟩ := newFile_values law means f f.name hname hv hposonly c none noneV (by simp) hps hann h3 h4 hIm
    (by simpa using hOk) himp hev hshadow hb
  refine ⟨env', ?_, ?_, h6, h7, h5⟩
  · rw [← h1]
    unfold newConfig
    rw [hc]
    rfl
  · intro p hp
    obtain ⟨v, hv, hg⟩ := h2 p hp
    exact ⟨v, by simpa [givenValue] using hv, hg⟩

/-- The names of the parameters, as `inspect` gives them. -/
theorem signature_names {a : Arguments} (hposonly : a.posonly = []) (hlen : a.kwDefaults.length = a.kwonly.length) {sig : Sig}
    (hk : Signature a sig) (h5 : ∀ p ∈ a.kwonly.zip a.kwDefaults, p.2 ≠ none) :
    sig.argNames false = .ok ((a.args ++ a.kwonly).map Arg.name) := by
  obtain ⟨hk1, hk2, hk3⟩ := hk
  rw [hposonly, List.nil_append] at hk1
  have : sig.argNames false = .ok (sig.args ++ (if sig.kwonlyDefaults.isEmpty then [] else sig.kwonly)) := rfl
  rw [this, hk1, hk2, hk3, List.map_append]
  congr 2
  split
  · next he =>
    rw [List.isEmpty_iff, List.filterMap_eq_nil_iff] at he
    cases hkw : a.kwonly with
    | nil => rfl
    | cons x rest =>
      exfalso
      cases hkd : a.kwDefaults with
      | nil => rw [hkw, hkd] at hlen; cases hlen
      | cons b bs =>
        have hz : (x, b) ∈ a.kwonly.zip a.kwDefaults := by rw [hkw, hkd]; exact List.mem_cons_self
        have h1 := he _ hz
        have h2 := h5 _ hz
        cases b with
        | none => exact h2 rfl
        | some b => cases h1
  · rfl

/-- What a parameter has as its value, if the arguments are those values of the file that are among the parameters. -/
theorem received_own {t : Tools V} {eval : Expr → Dict String V → Except PyErr V} {noneV : V} {menv env : Dict String V}
    {p : Arg × Option Default} (hmod : t.py.isModule noneV = false) (hreq : p.2 = none → startsWith p.1.name "__" = false) {v : V}
    (hqv : ownValue eval noneV menv p = .ok v) (hg : env.get? p.1.name = some v) (names : List String) (hn : p.1.name ∈ names) :
    received eval menv ((userDefined t.py env).filterKeys (fun x => decide (x ∈ names))) p = some v := by
  unfold received
  rw [Dict.get?_filterKeys, if_pos (by simpa using hn), get?_userDefined, hg]
  unfold ownValue at hqv
  cases hd : p.2 with
  | none =>
    rw [hd] at hqv
    cases hqv
    rw [hreq hd]
    simp [Option.filter, hmod]
  | some d =>
    rw [hd] at hqv
    dsimp only at hqv
    split
    · next w hw =>
      split at hw
      · cases hw
      · simp only [Option.filter] at hw
        split at hw
        · exact hw ▸ rfl
        · cases hw
    · simp [hqv, Except.toOption]

/-- C91: a function that is new in the definition is called with the values of its own defaults, and with `None` for parameters
without default, if none of its defaults and annotations uses the name of a parameter before it, `s` or `Selector`, and the names
they use are imported once. -/
theorem C91_called_partial {t : Tools V} {Ok : String → Option Expr → Expr → Prop} {Im : Imp → Prop}
    {eval : Expr → Dict String V → Except PyErr V} {thing : Thing → V} {noneV : V} {menv : Dict String V}
    (hset : SetList t.setList) (law : Lawful t.lang Ok Im) (means : TextMeans t Ok Im eval thing) (f : FunctionSource)
    (hname : f.name ≠ "DataPipeline") (hv : Valid f.args) (hposonly : f.args.posonly = []) (c : Cfg)
    (hc : functionCfg t.setList t.builtin t.annSrc false f.args f.imports f.assigns f.module = .ok c)
    (hIm : ∀ i ∈ selectorImport :: c.imports, Im i)
    (hOk : ∀ p ∈ keywordParams f.args, Ok p.1.name (p.1.annotation.map (fun ty => t.annSrc (unquoted ty)))
      ((p.2.map Default.src).getD "None"))
    (himp : PlainImports t.builtin f thing menv) (hev : Evaluates t eval thing noneV menv f) (hshadow : Unshadowed f.args)
    (hb : t.builtin "Selector" = false) (hmod : t.py.isModule noneV = false)
    (hreq : ∀ p ∈ keywordParams f.args, p.2 = none → startsWith p.1.name "__" = false)
    (k : Callable V) (hk : Signature f.args k.sig) :
    ∃ kwargs, newArguments t f k = .ok kwargs ∧ (∀ x ∈ kwargs.keys, ∃ p ∈ keywordParams f.args, p.1.name = x) ∧
      ∀ p ∈ keywordParams f.args, ∃ v, ownValue eval noneV menv p = .ok v ∧ received eval menv kwargs p = some v := by
  have hpos : f.args.defaults.length ≤ f.args.args.length := by
    have := hv.defaults
    rw [hposonly] at this
    simpa using this
  obtain ⟨env', hcfg, hvals, _, _, h5⟩ := newConfig_values hset law means f hname hv hposonly c hc hIm hOk himp hev hshadow hb
  have hfst : (keywordParams f.args).map (fun p => p.1.name) = (f.args.args ++ f.args.kwonly).map Arg.name := by
    rw [← keywordParams_fst hv hpos, List.map_map]
    rfl
  have hargs := signature_names hposonly hv.kwDefaults hk (by
    intro p hp
    refine h5 p (by rw [params_split hpos]; exact List.mem_append_right _ hp) ?_
    exact (List.of_mem_zip hp).1)
  refine ⟨(userDefined t.py env').filterKeys (fun x => decide (x ∈ (f.args.args ++ f.args.kwonly).map Arg.name)), ?_, ?_, ?_⟩
  · unfold newArguments
    rw [hcfg]
    simp only [bind, Except.bind, RM.forFunction, hargs]
    rfl
  · intro x hx
    obtain ⟨v, hg⟩ := Option.isSome_iff_exists.1 ((Dict.mem_keys_iff _ _).1 hx)
    rw [Dict.get?_filterKeys] at hg
    split at hg
    · next hm =>
      rw [decide_eq_true_eq, ← hfst, List.mem_map] at hm
      exact hm
    · cases hg
  · intro p hp
    obtain ⟨v, hqv, hg⟩ := hvals p hp
    refine ⟨v, hqv, received_own hmod (hreq p hp) hqv hg _ ?_⟩
    rw [← hfst]
    exact List.mem_map.2 ⟨p, hp, rfl⟩

end Verif.Props

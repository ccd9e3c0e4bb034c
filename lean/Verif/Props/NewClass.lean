import Verif.Props.NewItem

/-
What new classes and objects are made with: part of C91.
-/

namespace Verif.Props
open Verif.Py Verif.Model

variable {V : Type}

/-- A class without the first parameter of its `__init__`. -/
def withoutSelf (f : FunctionSource) : FunctionSource := { f with args := { f.args with args := f.args.args.tail } }

theorem functionCfg_init (t : Tools V) (f : FunctionSource) {self : Arg} {rest : List Arg} (hf : f.args.args = self :: rest) :
    functionCfg t.setList t.builtin t.annSrc true f.args f.imports f.assigns f.module =
      functionCfg t.setList t.builtin t.annSrc false (withoutSelf f).args f.imports f.assigns f.module := by
  have : dropSelf f.args = .ok (withoutSelf f).args := by
    unfold dropSelf withoutSelf
    rw [hf]
    rfl
  unfold functionCfg
  rw [if_pos rfl, this]
  rfl

/-- What is asked of the source of a class or function so that what is in it means the same in a new config file. -/
structure PlainSource (t : Tools V) (Ok : String → Option Expr → Expr → Prop) (Im : Imp → Prop)
    (eval : Expr → Dict String V → Except PyErr V) (thing : Thing → V) (noneV : V) (menv : Dict String V) (f : FunctionSource)
    (c : Cfg) : Prop where
  valid : Valid f.args
  posonly : f.args.posonly = []
  cfg : functionCfg t.setList t.builtin t.annSrc false f.args f.imports f.assigns f.module = .ok c
  imports : ∀ i ∈ selectorImport :: c.imports, Im i
  plain : PlainImports t.builtin f thing menv
  evaluates : Evaluates t eval thing noneV menv f
  unshadowed : Unshadowed f.args
  required : ∀ p ∈ keywordParams f.args, p.2 = none → startsWith p.1.name "__" = false

/-- What is asked of the tools. -/
structure LawfulTools (t : Tools V) (Ok : String → Option Expr → Expr → Prop) (Im : Imp → Prop)
    (eval : Expr → Dict String V → Except PyErr V) (thing : Thing → V) (noneV : V) : Prop where
  set : SetList t.setList
  lang : Lawful t.lang Ok Im
  means : TextMeans t Ok Im eval thing
  selector : t.builtin "Selector" = false
  none_ : t.py.isModule noneV = false

section
variable {t : Tools V} {Ok : String → Option Expr → Expr → Prop} {Im : Imp → Prop}
  {eval : Expr → Dict String V → Except PyErr V} {thing : Thing → V} {noneV : V} {menv : Dict String V}

theorem keywordParams_names {a : Arguments} (hv : Valid a) (hposonly : a.posonly = []) :
    (keywordParams a).map (fun p => p.1.name) = (a.args ++ a.kwonly).map Arg.name := by
  have hpos : a.defaults.length ≤ a.args.length := by
    have := hv.defaults
    rw [hposonly] at this
    simpa using this
  rw [← keywordParams_fst hv hpos, List.map_map]
  rfl

/-- What the file of a new class binds, and what arguments are found in it. -/
theorem newClass_facts (tools : LawfulTools t Ok Im eval thing noneV) (f : FunctionSource) (hname : f.name ≠ "DataPipeline")
    {self : Arg} {rest : List Arg} (hf : f.args.args = self :: rest) {c : Cfg}
    (src : PlainSource t Ok Im eval thing noneV menv (withoutSelf f) c)
    (hOk : ∀ p ∈ keywordParams (withoutSelf f).args, Ok p.1.name (p.1.annotation.map (fun ty => t.annSrc (unquoted ty)))
      ((p.2.map Default.src).getD "None")) (k : Callable V) (hk : Signature f.args k.sig) :
    ∃ env', newClassConfig t f = .ok (userDefined t.py env') ∧
      k.sig.argNames false = .ok ((f.args.args ++ f.args.kwonly).map Arg.name) ∧
      (∀ p ∈ keywordParams (withoutSelf f).args, ∃ v, ownValue eval noneV menv p = .ok v ∧ env'.get? p.1.name = some v) ∧
      (∀ y, y ∉ (keywordParams (withoutSelf f).args).map (fun p => p.1.name) → ¬ UsesName t.builtin (withoutSelf f).args y →
        y ≠ "Selector" → y ≠ "s" → env'.get? y = t.py.init.get? y) ∧
      ("s" ∉ (keywordParams (withoutSelf f).args).map (fun p => p.1.name) → ∃ sel env, eval "Selector()" env = .ok sel ∧
        env.get? "Selector" = some (thing selectorThing) ∧ env'.get? "s" = some sel) := by
  obtain ⟨env', h1, h2, h3, h4, h5⟩ := newConfig_values tools.set tools.lang tools.means (withoutSelf f) hname src.valid src.posonly c
    src.cfg src.imports hOk src.plain src.evaluates src.unshadowed tools.selector
  refine ⟨env', ?_, ?_, h2, h3, h4⟩
  · rw [← h1]
    unfold newClassConfig newConfig
    rw [functionCfg_init t f hf]
    rfl
  · refine signature_names (a := f.args) src.posonly src.valid.kwDefaults hk ?_
    intro p hp
    have hpos : (withoutSelf f).args.defaults.length ≤ (withoutSelf f).args.args.length := by
      have := src.valid.defaults
      rw [src.posonly] at this
      simpa using this
    exact h5 p (by rw [params_split hpos]; exact List.mem_append_right _ hp) (List.of_mem_zip hp).1

/-- C91 for classes: a class that is new in the definition is instantiated with the values of its own defaults, and with `None`
for parameters without default, if the same holds for its parameters as for those of a function, and what stands for the instance
is called neither `s` nor `Selector` nor as a parameter or anything that defaults and annotations use. -/
theorem C91_class_partial (tools : LawfulTools t Ok Im eval thing noneV) (f : FunctionSource) (hname : f.name ≠ "DataPipeline")
    {self : Arg} {rest : List Arg} (hf : f.args.args = self :: rest) (c : Cfg)
    (src : PlainSource t Ok Im eval thing noneV menv (withoutSelf f) c)
    (hOk : ∀ p ∈ keywordParams (withoutSelf f).args, Ok p.1.name (p.1.annotation.map (fun ty => t.annSrc (unquoted ty)))
      ((p.2.map Default.src).getD "None")) (k : Callable V) (hk : Signature f.args k.sig) (hkind : k.kind = .klass)
    (hself : self.name ∉ (keywordParams (withoutSelf f).args).map (fun p => p.1.name))
    (hs1 : ¬ UsesName t.builtin (withoutSelf f).args self.name) (hs2 : self.name ≠ "Selector") (hs3 : self.name ≠ "s")
    (hs4 : t.py.init.get? self.name = none) (id : Nat) :
    ∃ kwargs, newInstance t f k id = (k.init kwargs).map (fun _ => ⟨id, false, k, kwargs⟩) ∧
      (∀ x ∈ kwargs.keys, ∃ p ∈ keywordParams (withoutSelf f).args, p.1.name = x) ∧
      ∀ p ∈ keywordParams (withoutSelf f).args, ∃ v, ownValue eval noneV menv p = .ok v ∧ received eval menv kwargs p = some v := by
  obtain ⟨env', h1, hargs, h2, h3, _⟩ := newClass_facts tools f hname hf src hOk k hk
  have hnames := keywordParams_names src.valid src.posonly
  have hall : (f.args.args ++ f.args.kwonly).map Arg.name = self.name :: (keywordParams (withoutSelf f).args).map (fun p => p.1.name) := by
    rw [hnames, hf]
    unfold withoutSelf
    rw [hf]
    rfl
  have hno : env'.get? self.name = none := by rw [h3 _ hself hs1 hs2 hs3, hs4]
  refine ⟨(userDefined t.py env').filterKeys (fun x => decide (x ∈ (f.args.args ++ f.args.kwonly).map Arg.name)), ?_, ?_, ?_⟩
  · unfold newInstance
    rw [h1]
    simp only [bind, Except.bind, RM.forFunction, hargs]
    have hhead : k.sig.args.headD "self" = self.name := by
      rw [hk.1, show f.args.posonly = [] from src.posonly, hf]
      rfl
    have hc : Dict.contains ((userDefined t.py env').filterKeys (fun x => decide (x ∈ (f.args.args ++ f.args.kwonly).map Arg.name)))
        self.name = false := by
      unfold Dict.contains
      rw [Dict.get?_filterKeys, get?_userDefined, hno]
      simp
    unfold RM.construct
    rw [hkind]
    dsimp only
    rw [hhead]
    have hv : (Conf.ofDict (userDefined t.py env')).values = userDefined t.py env' := rfl
    rw [hv, hc]
    simp only [Bool.false_eq_true, if_false]
    cases k.init ((userDefined t.py env').filterKeys (fun x => decide (x ∈ (f.args.args ++ f.args.kwonly).map Arg.name))) <;> rfl
  · intro x hx
    obtain ⟨v, hg⟩ := Option.isSome_iff_exists.1 ((Dict.mem_keys_iff _ _).1 hx)
    rw [Dict.get?_filterKeys] at hg
    split at hg
    · next hm =>
      rw [decide_eq_true_eq, hall, List.mem_cons] at hm
      rcases hm with rfl | hm
      · rw [get?_userDefined, hno] at hg
        simp at hg
      · exact List.mem_map.1 hm
    · cases hg
  · intro p hp
    obtain ⟨v, hqv, hg⟩ := h2 p hp
    refine ⟨v, hqv, received_own tools.none_ (src.required p hp) hqv hg _ ?_⟩
    rw [hall]
    exact List.mem_cons_of_mem _ (List.mem_map.2 ⟨p, hp, rfl⟩)

/-- C91 fails for every class whose `__init__` calls the instance `s`: it is given the selector for it as well, which is a
`TypeError`. -/
theorem C91_self_violated (tools : LawfulTools t Ok Im eval thing noneV) (f : FunctionSource) (hname : f.name ≠ "DataPipeline")
    {self : Arg} {rest : List Arg} (hf : f.args.args = self :: rest) (c : Cfg)
    (src : PlainSource t Ok Im eval thing noneV menv (withoutSelf f) c)
    (hOk : ∀ p ∈ keywordParams (withoutSelf f).args, Ok p.1.name (p.1.annotation.map (fun ty => t.annSrc (unquoted ty)))
      ((p.2.map Default.src).getD "None")) (k : Callable V) (hk : Signature f.args k.sig) (hkind : k.kind = .klass)
    (hself : self.name ∉ (keywordParams (withoutSelf f).args).map (fun p => p.1.name)) (hs : self.name = "s")
    (hsel : ∀ env v, eval "Selector()" env = .ok v → t.py.isModule v = false) (id : Nat) :
    newInstance t f k id = .error .typeError := by
  obtain ⟨env', h1, hargs, h2, _, h4⟩ := newClass_facts tools f hname hf src hOk k hk
  obtain ⟨sel, env, he, _, hg⟩ := h4 (hs ▸ hself)
  unfold newInstance
  rw [h1]
  simp only [bind, Except.bind, RM.forFunction, hargs]
  have hhead : k.sig.args.headD "self" = "s" := by
    rw [hk.1, show f.args.posonly = [] from src.posonly, hf]
    exact hs
  have hc : Dict.contains ((userDefined t.py env').filterKeys (fun x => decide (x ∈ (f.args.args ++ f.args.kwonly).map Arg.name)))
      "s" = true := by
    unfold Dict.contains
    rw [Dict.get?_filterKeys, get?_userDefined, hg, if_pos]
    · have : startsWith "s" "__" = false := by decide
      rw [this]
      simp [Option.filter, hsel env sel he]
    · rw [decide_eq_true_eq, hf, ← hs]
      exact List.mem_map.2 ⟨self, by simp, rfl⟩
  unfold RM.construct
  rw [hkind]
  dsimp only
  rw [hhead]
  have hv : (Conf.ofDict (userDefined t.py env')).values = userDefined t.py env' := rfl
  rw [hv, hc]
  rfl

/-! ### Objects -/

theorem scaffoldObject_new (lang : Lang) (name keyAttr nameExpr : String) (c : Cfg) :
    scaffoldObject lang (classTemplate none none) name keyAttr nameExpr c none =
      scaffoldFunction lang "f" ⟨c.values.set keyAttr (some nameExpr), c.annotations, c.imports⟩ none := by
  rw [scaffoldFunction_eq lang (by decide)]
  have hl : loadFile lang none = .ok (⟨[], [], []⟩, .empty) := rfl
  unfold scaffoldObject toFile
  rw [hl]
  rfl

theorem params_set {c : Cfg} {a : Arguments} (hps : Params c (ownParams a)) {x : String} (e : Expr)
    (hx : x ∈ (keywordParams a).map (fun p => p.1.name)) :
    Params ⟨c.values.set x (some e), c.annotations, c.imports⟩ (givenParams (some (x, e)) a) := by
  have hmem : x ∈ (ownParams a).map Prod.fst := by
    unfold ownParams
    rw [List.map_map]
    exact hx
  have hnd : ((ownParams a).map Prod.fst).Nodup := by
    have := c.values.nodup
    rw [hps, List.map_map] at this
    exact this
  have key : ∀ ps : List (String × Expr), (ps.map Prod.fst).Nodup → x ∈ ps.map Prod.fst →
      AList.set (ps.map (fun p => (p.1, some p.2))) x (some e) =
        (ps.map (fun p => if p.1 = x then (p.1, e) else p)).map (fun p => (p.1, some p.2)) := by
    intro ps hn hm
    induction ps with
    | nil => cases hm
    | cons p ps ih =>
      rw [List.map_cons, List.nodup_cons] at hn
      rw [List.map_cons, AList.set, List.map_cons, List.map_cons]
      by_cases h : p.1 = x
      · rw [if_pos h, if_pos h, List.map_map]
        congr 1
        apply List.map_congr_left
        intro q hq
        have : q.1 ≠ x := fun hh => hn.1 (by rw [h, ← hh]; exact List.mem_map.2 ⟨q, hq, rfl⟩)
        simp [this]
      · rw [if_neg h, if_neg h]
        rw [List.map_cons, List.mem_cons] at hm
        rw [ih hn.2 (hm.resolve_left (fun hh => h hh.symm))]
  show AList.set c.values.items x (some e) = _
  rw [hps, key _ hnd hmem]
  rfl

/-- The value a parameter of an object should have: the name of the object for the key attribute, its own default otherwise. -/
def objectValue (eval : Expr → Dict String V → Except PyErr V) (noneV : V) (menv : Dict String V) (keyAttr : String) (nameV : V)
    (p : Arg × Option Default) : Except PyErr V :=
  if p.1.name = keyAttr then .ok nameV else ownValue eval noneV menv p

/-- C91 for objects of specific classes: an object that is new in the definition is initialised with its name for the key
attribute, the values of the defaults of the class for other parameters, and `None` for those without default. -/
theorem C91_object_partial (tools : LawfulTools t Ok Im eval thing noneV) (f : FunctionSource) (name keyAttr nameExpr : String)
    (nameV : V) (hlit : ∀ env, eval nameExpr env = .ok nameV) (hnameV : t.py.isModule nameV = false)
    {self : Arg} {rest : List Arg} (hf : f.args.args = self :: rest) (c : Cfg)
    (src : PlainSource t Ok Im eval thing noneV menv (withoutSelf f) c)
    (hkey : keyAttr ∈ (keywordParams (withoutSelf f).args).map (fun p => p.1.name)) (hkey' : startsWith keyAttr "__" = false)
    (hOk : ∀ p ∈ keywordParams (withoutSelf f).args, Ok p.1.name (p.1.annotation.map (fun ty => t.annSrc (unquoted ty)))
      (if p.1.name = keyAttr then nameExpr else (p.2.map Default.src).getD "None"))
    (k : Callable V) (hk : Signature f.args k.sig) (hkind : k.kind = .specific) (id : Nat) :
    ∃ kwargs, newObject t f name keyAttr nameExpr k id = (k.upd kwargs).map (fun _ => ⟨id, false, k, kwargs⟩) ∧
      (∀ x ∈ kwargs.keys, ∃ p ∈ keywordParams (withoutSelf f).args, p.1.name = x) ∧
      ∀ p ∈ keywordParams (withoutSelf f).args, ∃ v, objectValue eval noneV menv keyAttr nameV p = .ok v ∧
        received eval menv kwargs p = some v := by
  have hnames := keywordParams_names src.valid src.posonly
  have hall : (f.args.args ++ f.args.kwonly).map Arg.name = self.name :: (keywordParams (withoutSelf f).args).map (fun p => p.1.name) := by
    rw [hnames, hf]
    unfold withoutSelf
    rw [hf]
    rfl
  have hpos : (withoutSelf f).args.defaults.length ≤ (withoutSelf f).args.args.length := by
    have := src.valid.defaults
    rw [src.posonly] at this
    simpa using this
  obtain ⟨hps, hann, h3, h4, h5⟩ := functionCfg_facts tools.set src.valid hpos src.cfg src.plain.unassigned
  have hcond : ∀ p : Arg × Option Default, ((some (keyAttr, nameExpr)).map Prod.fst = some p.1.name) ↔ p.1.name = keyAttr := by
    intro p
    simp [eq_comm]
  obtain ⟨env', h1, h2, _, _⟩ := newFile_values tools.lang tools.means (withoutSelf f) "f" (by decide) src.valid src.posonly
    ⟨c.values.set keyAttr (some nameExpr), c.annotations, c.imports⟩ (some (keyAttr, nameExpr)) nameV
    (by intro x e env h; cases h; exact hlit env) (params_set hps nameExpr hkey) hann h3 h4 src.imports
    (by
      intro p hp
      have := hOk p hp
      by_cases h : p.1.name = keyAttr
      · rw [if_pos h] at this
        rw [if_pos ((hcond p).2 h)]
        exact this
      · rw [if_neg h] at this
        rw [if_neg (fun hh => h ((hcond p).1 hh))]
        exact this) src.plain src.evaluates src.unshadowed tools.selector
  have hcfg : newObjectConfig t f name keyAttr nameExpr = .ok (userDefined t.py env') := by
    rw [← h1]
    unfold newObjectConfig
    have hc : functionCfg t.setList t.builtin t.annSrc true f.args f.imports f.assigns f.module = .ok c := by
      rw [functionCfg_init t f hf]
      exact src.cfg
    rw [hc]
    simp only [bind, Except.bind, scaffoldObject_new]
  have hargs : k.sig.argNames false = .ok ((f.args.args ++ f.args.kwonly).map Arg.name) := by
    refine signature_names (a := f.args) src.posonly src.valid.kwDefaults hk ?_
    intro p hp
    exact h5 p (by rw [params_split hpos]; exact List.mem_append_right _ hp) (List.of_mem_zip hp).1
  have hmeth : k.sig.argNames true = .ok ((keywordParams (withoutSelf f).args).map (fun p => p.1.name)) := by
    have ha : k.sig.args = self.name :: rest.map Arg.name := by
      rw [hk.1, show f.args.posonly = [] from src.posonly, hf]
      rfl
    have e1 : k.sig.argNames false = .ok (k.sig.args ++ Sig.argNames.kwonlyNames k.sig) := rfl
    rw [e1, hall, ha] at hargs
    have e2 : k.sig.argNames true = .ok (rest.map Arg.name ++ Sig.argNames.kwonlyNames k.sig) := by
      unfold Sig.argNames
      rw [ha]
    rw [e2]
    simp only [Except.ok.injEq, List.cons_append, List.cons.injEq, true_and] at hargs
    rw [hargs]
  refine ⟨((userDefined t.py env').filterKeys (fun x => decide (x ∈ (f.args.args ++ f.args.kwonly).map Arg.name))).filterKeys
    (fun x => decide (x ∈ (keywordParams (withoutSelf f).args).map (fun p => p.1.name))), ?_, ?_, ?_⟩
  · unfold newObject
    rw [hcfg]
    simp only [bind, Except.bind, RM.forFunction, hargs]
    unfold RM.construct
    rw [hkind]
    simp only [RM.applyConfig, hmeth]
    have hv : (Conf.ofDict (userDefined t.py env')).values = userDefined t.py env' := rfl
    rw [hv]
    cases k.upd _ <;> rfl
  · intro x hx
    obtain ⟨v, hg⟩ := Option.isSome_iff_exists.1 ((Dict.mem_keys_iff _ _).1 hx)
    rw [Dict.get?_filterKeys] at hg
    split at hg
    · next hm =>
      rw [decide_eq_true_eq] at hm
      exact List.mem_map.1 hm
    · cases hg
  · intro p hp
    obtain ⟨v, hqv, hg⟩ := h2 p hp
    have hqv' : objectValue eval noneV menv keyAttr nameV p = .ok v := by
      unfold givenValue at hqv
      unfold objectValue
      by_cases h : p.1.name = keyAttr
      · rw [if_pos ((hcond p).2 h)] at hqv
        rw [if_pos h]
        exact hqv
      · rw [if_neg (fun hh => h ((hcond p).1 hh))] at hqv
        rw [if_neg h]
        exact hqv
    refine ⟨v, hqv', ?_⟩
    have hmem : p.1.name ∈ (keywordParams (withoutSelf f).args).map (fun p => p.1.name) := List.mem_map.2 ⟨p, hp, rfl⟩
    have hsame : ∀ env : Dict String V, received eval menv ((env.filterKeys (fun x => decide (x ∈ (f.args.args ++ f.args.kwonly).map Arg.name))).filterKeys
        (fun x => decide (x ∈ (keywordParams (withoutSelf f).args).map (fun p => p.1.name)))) p =
        received eval menv (env.filterKeys (fun x => decide (x ∈ (f.args.args ++ f.args.kwonly).map Arg.name))) p := by
      intro env
      unfold received
      rw [Dict.get?_filterKeys, if_pos (by simpa using hmem)]
    rw [hsame]
    have hmem' : p.1.name ∈ (f.args.args ++ f.args.kwonly).map Arg.name := by
      rw [hall]
      exact List.mem_cons_of_mem _ hmem
    by_cases h : p.1.name = keyAttr
    · unfold objectValue at hqv'
      rw [if_pos h] at hqv'
      cases hqv'
      unfold received
      rw [Dict.get?_filterKeys, if_pos (by simpa using hmem'), get?_userDefined, hg, h, hkey']
      simp [Option.filter, hnameV]
    · unfold objectValue at hqv'
      rw [if_neg h] at hqv'
      exact received_own tools.none_ (src.required p hp) hqv' hg _ hmem'

end

end Verif.Props

import Verif.Props.FilesToy
import Verif.Model.Always
import Verif.Lemmas.Config

/-
Property theorems about the imports and assignments a specific class asks for: C76.
-/

namespace Verif.Props
open Verif.Py Verif.Model

/-! ### Specification -/

/-- The string is one import, read as `i`. -/
def OneImport (lang : Lang) (s : String) (i : Imp) : Prop :=
  ∃ m n, lang.parse (readLines s) = .ok m ∧ m.imports = [n] ∧ Imp.ofNode n = .ok i

/-- An assignment that is asked for: name, annotation, value. -/
structure Wish where
  name : String
  annotation : Option Expr
  value : Expr
deriving DecidableEq, Repr

/-- The string is one assignment to a name. -/
def OneAssign (lang : Lang) (s : String) (w : Wish) : Prop :=
  ∃ m, lang.parse (readLines s) = .ok m ∧ m.assigns = [paramNode w.name w.annotation w.value]

/-- Two lists are related entry by entry. -/
def Pairwise2 {α β : Type} (R : α → β → Prop) : List α → List β → Prop
  | [], [] => True
  | x :: xs, y :: ys => R x y ∧ Pairwise2 R xs ys
  | _, _ => False

/-- The imports a class asks for: those of its strings, the one of the selector if it gives none. -/
def AsksImports (lang : Lang) : Strs → List Imp → Prop
  | .missing, is => is = [selectorImport]
  | .list xs, is => Pairwise2 (OneImport lang) xs is
  | .tuple xs, is => xs ≠ [] ∧ Pairwise2 (OneImport lang) xs is

/-- The strings given. -/
def stringsOf : Strs → List String
  | .missing => []
  | .list xs => xs
  | .tuple xs => xs

/-- The assignments a class asks for by strings. -/
def AsksAssigns (lang : Lang) : Strs → List Wish → Prop
  | .missing, _ => False
  | .list xs, ws => Pairwise2 (OneAssign lang) xs ws
  | .tuple xs, ws => xs ≠ [] ∧ Pairwise2 (OneAssign lang) xs ws

/-- The names asked for, each once, with the value asked for last. -/
def wished (ws : List Wish) : List (String × Expr) := ws.foldl (fun ps w => withKey ps w.name w.value) []

/-- The annotation asked for last for a name. -/
def wishedAnnotation (ws : List Wish) (x : String) : Option Expr :=
  ((ws.filter (fun w => decide (w.name = x))).filterMap Wish.annotation).getLast?

/-- What is to be assigned: the parameters of the class with the name of the item, then what is asked for and
is no parameter. -/
def wanted (ps : List (String × Expr)) (ws : List Wish) : List (String × Expr) :=
  ps ++ (wished ws).filter (fun p => decide (p.1 ∉ ps.map Prod.fst))

/-- The annotation of what is assigned. -/
def wantedAnnotation (annotations : Dict String Expr) (ws : List Wish) (x : String) : Option Expr :=
  match annotations.get? x with
  | some a => some a
  | none => wishedAnnotation ws x

/-! ### Lemmas -/

theorem mapM_pairwise {α β : Type} {R : α → β → Prop} {f : α → Except PyErr β} (hf : ∀ x y, R x y → f x = .ok y) :
    ∀ {xs : List α} {ys : List β}, Pairwise2 R xs ys → xs.mapM f = .ok ys := by
  intro xs
  induction xs with
  | nil =>
    intro ys h
    cases ys with
    | nil => rfl
    | cons y ys => cases h
  | cons x xs ih =>
    intro ys h
    cases ys with
    | nil => cases h
    | cons y ys =>
      rw [List.mapM_cons, hf x y h.1, ih h.2]
      rfl

theorem ofNode_end {n : ImportNode} {i : Imp} (h : Imp.ofNode n = .ok i) : i.preferBeginning = false := by
  cases n with
  | import_ as => cases h; rfl
  | from_ m l as =>
    cases m with
    | none => cases h
    | some m => cases h; rfl

theorem importOfStr_one {lang : Lang} {s : String} {i : Imp} (h : OneImport lang s i) : importOfStr lang s = .ok i := by
  obtain ⟨m, n, hm, hn, hi⟩ := h
  have his : importsOfStr lang s = .ok [i] := by
    unfold importsOfStr
    rw [hm]
    simp only [bind, Except.bind]
    rw [hn, List.mapM_cons, hi]
    rfl
  have he := ofNode_end hi
  obtain ⟨src, names, renames, b⟩ := i
  dsimp only at he
  subst he
  unfold importOfStr objectImportOfStr moduleImportOfStr
  rw [his]
  cases src <;> rfl

/-- The statement read from a string. -/
def wishAssign (s : String) (w : Wish) : Assign := ⟨.name w.name, some w.value, w.annotation, false, some s⟩

theorem assignOfStr_one {lang : Lang} {s : String} {w : Wish} (h : OneAssign lang s w) :
    assignOfStr lang s = .ok (wishAssign s w) := by
  obtain ⟨m, hm, ha⟩ := h
  unfold assignOfStr
  rw [hm]
  simp only [bind, Except.bind]
  rw [ha, List.mapM_cons]
  unfold paramNode
  cases hw : w.annotation <;> simp [Assign.ofNode, bind, Except.bind, pure, Except.pure, wishAssign, hw]

theorem assigns_pairwise {lang : Lang} : ∀ {xs : List String} {ws : List Wish}, Pairwise2 (OneAssign lang) xs ws →
    ∃ as, xs.mapM (assignOfStr lang) = .ok as ∧ Pairwise2 (fun a w => ∃ s, a = wishAssign s w) as ws := by
  intro xs
  induction xs with
  | nil =>
    intro ws h
    cases ws with
    | nil => exact ⟨[], rfl, trivial⟩
    | cons y ys => cases h
  | cons x xs ih =>
    intro ws h
    cases ws with
    | nil => cases h
    | cons w ws =>
      obtain ⟨as, h1, h2⟩ := ih h.2
      refine ⟨wishAssign x w :: as, ?_, ⟨x, rfl⟩, h2⟩
      rw [List.mapM_cons, assignOfStr_one h.1, h1]
      rfl

theorem AsksImports.read {lang : Lang} {st : Strs} {is : List Imp} (h : AsksImports lang st is) :
    ∃ r, st.read (importOfStr lang) = .ok r ∧ r.getD [selectorImport] = is := by
  cases st with
  | missing => exact ⟨none, rfl, h.symm⟩
  | list xs =>
    refine ⟨some is, ?_, rfl⟩
    simp only [Strs.read]
    rw [mapM_pairwise (R := OneImport lang) (f := importOfStr lang) (fun _ _ h => importOfStr_one h) h]
    rfl
  | tuple xs =>
    refine ⟨some is, ?_, rfl⟩
    obtain ⟨hne, h⟩ := h
    cases xs with
    | nil => exact absurd rfl hne
    | cons x xs =>
      simp only [Strs.read]
      rw [mapM_pairwise (R := OneImport lang) (f := importOfStr lang) (fun _ _ h => importOfStr_one h) h]
      rfl

theorem AsksAssigns.read {lang : Lang} {st : Strs} {ws : List Wish} (h : AsksAssigns lang st ws) :
    ∃ as, st.read (assignOfStr lang) = .ok (some as) ∧ Pairwise2 (fun a w => ∃ s, a = wishAssign s w) as ws := by
  cases st with
  | missing => cases h
  | list xs =>
    obtain ⟨as, h1, h2⟩ := assigns_pairwise h
    refine ⟨as, ?_, h2⟩
    simp only [Strs.read]
    rw [h1]
    rfl
  | tuple xs =>
    obtain ⟨hne, h⟩ := h
    obtain ⟨as, h1, h2⟩ := assigns_pairwise h
    refine ⟨as, ?_, h2⟩
    cases xs with
    | nil => exact absurd rfl hne
    | cons x xs =>
      simp only [Strs.read]
      rw [h1]
      rfl

theorem wishedAnnotation_cons (w : Wish) (ws : List Wish) (x : String) :
    wishedAnnotation (w :: ws) x = match wishedAnnotation ws x with
      | some a => some a
      | none => if w.name = x then w.annotation else none := by
  unfold wishedAnnotation
  by_cases hx : w.name = x
  · rw [List.filter_cons_of_pos (by simpa using hx), List.filterMap_cons]
    cases hw : w.annotation with
    | none =>
      simp only [if_pos hx]
      cases ((ws.filter (fun w => decide (w.name = x))).filterMap Wish.annotation).getLast? <;> rfl
    | some a =>
      simp only [List.getLast?_cons, if_pos hx]
      cases hl : ((ws.filter (fun w => decide (w.name = x))).filterMap Wish.annotation).getLast? <;> simp
  · rw [List.filter_cons_of_neg (by simpa using hx), if_neg hx]
    cases ((ws.filter (fun w => decide (w.name = x))).filterMap Wish.annotation).getLast? <;> rfl

theorem defaultsFrom_wishes {as : List Assign} {ws : List Wish} (h : Pairwise2 (fun a w => ∃ s, a = wishAssign s w) as ws) :
    ∀ (d : Dict String (Option Expr)) (ann : Dict String Expr) (ps : List (String × Expr)),
      d.items = ps.map (fun p => (p.1, some p.2)) → ∃ d' ann', defaultsFrom as d ann = .ok (d', ann') ∧
        d'.items = (ws.foldl (fun ps w => withKey ps w.name w.value) ps).map (fun p => (p.1, some p.2)) ∧
        ∀ x, ann'.get? x = match wishedAnnotation ws x with
          | some a => some a
          | none => ann.get? x := by
  induction as generalizing ws with
  | nil =>
    intro d ann ps hd
    cases ws with
    | cons w ws => cases h
    | nil => exact ⟨d, ann, rfl, hd, fun x => rfl⟩
  | cons a as ih =>
    intro d ann ps hd
    cases ws with
    | nil => cases h
    | cons w ws =>
      obtain ⟨⟨s, rfl⟩, h⟩ := h
      have hset : (d.set w.name (some w.value)).items = (withKey ps w.name w.value).map (fun p => (p.1, some p.2)) := by
        have hn : (ps.map Prod.fst).Nodup := by
          have := d.nodup
          rw [hd, List.map_map] at this
          exact this
        unfold Dict.set
        dsimp only
        rw [hd]
        exact set_withKey hn _ _
      obtain ⟨d', ann', h1, h2, h3⟩ := ih h (d.set w.name (some w.value))
        (ann.setAll ((w.annotation.map (fun e => (w.name, e))).toList)) (withKey ps w.name w.value) hset
      refine ⟨d', ann', ?_, h2, ?_⟩
      · rw [defaultsFrom]
        exact h1
      · intro x
        rw [h3 x, wishedAnnotation_cons]
        cases wishedAnnotation ws x with
        | some a => rfl
        | none =>
          dsimp only
          cases hw : w.annotation with
          | none =>
            by_cases hx : w.name = x <;> simp [hx, Dict.setAll]
          | some a =>
            by_cases hx : w.name = x
            · subst hx
              simp [Dict.setAll, Dict.get?_set]
            · simp [Dict.setAll, Dict.get?_set, hx]

theorem wishes_end {as : List Assign} : ∀ {ws : List Wish}, Pairwise2 (fun a w => ∃ s, a = wishAssign s w) as ws →
    ∀ a ∈ as, a.preferBeginning = false := by
  induction as with
  | nil => intro ws _ a h; cases h
  | cons a as ih =>
    intro ws h b hb
    cases ws with
    | nil => cases h
    | cons w ws =>
      obtain ⟨⟨s, rfl⟩, h⟩ := h
      rcases List.mem_cons.1 hb with rfl | hb
      · rfl
      · exact ih h b hb

theorem nodup_of_items {d : Dict String (Option Expr)} {ps : List (String × Expr)}
    (h : d.items = ps.map (fun p => (p.1, some p.2))) : (ps.map Prod.fst).Nodup := by
  have := d.nodup
  rw [h, List.map_map] at this
  exact this

theorem contains_of_items {d : Dict String (Option Expr)} {ps : List (String × Expr)}
    (h : d.items = ps.map (fun p => (p.1, some p.2))) (k : String) :
    d.contains k = decide (k ∈ ps.map Prod.fst) := by
  have hk : d.keys = ps.map Prod.fst := by
    unfold Dict.keys
    rw [h, List.map_map]
    rfl
  rw [Bool.eq_iff_iff, Dict.contains_iff, hk, decide_eq_true_eq]

theorem specific_with {lang : Lang} {imports assigns : Strs} {imps : List Imp} {ws : List Wish}
    (hi : AsksImports lang imports imps) (ha : AsksAssigns lang assigns ws) (name keyAttr nameExpr : String) (defaults : Cfg)
    (ps : List (String × Expr)) (hps : Params defaults ps) :
    ∃ (values : Dict String (Option Expr)) (annotations : Dict String Expr), values.items =
        (wanted (withKey ps keyAttr nameExpr) ws).map (fun p => (p.1, some p.2)) ∧
      (∀ x, annotations.get? x = wantedAnnotation defaults.annotations ws x) ∧
      ∀ content, scaffoldAsked lang imports assigns name keyAttr nameExpr defaults content =
        writeWith lang false false values annotations
          (fun is => imps.foldl addImport (is ++ defaults.imports)) content := by
  obtain ⟨r, hr, hri⟩ := hi.read
  obtain ⟨as, has, hws⟩ := ha.read
  obtain ⟨d, ann, hd, hdi, hann⟩ := defaultsFrom_wishes hws .empty .empty [] rfl
  have hbeg := wishes_end hws
  have hv := params_withKey hps keyAttr nameExpr
  have hclass : classFile lang imports assigns = .ok ⟨imps, as, []⟩ := by
    unfold classFile
    rw [hr, has, ← hri]
    rfl
  have hf1 : as.filter (fun a => a.preferBeginning) = [] := by
    rw [List.filter_eq_nil_iff]
    intro a h
    simp [hbeg a h]
  have hf2 : as.filter (fun a => !a.preferBeginning) = as := by
    rw [List.filter_eq_self]
    intro a h
    simp [hbeg a h]
  have hadd : ∀ is : List Imp, addAlways ⟨imps, as, []⟩ name
      ⟨defaults.values.set keyAttr (some nameExpr), defaults.annotations, is⟩ =
      .ok (⟨(defaults.values.set keyAttr (some nameExpr)).update
          (d.filterKeys (fun k => !(defaults.values.set keyAttr (some nameExpr)).contains k)),
        defaults.annotations.update (ann.filterKeys (fun k => !defaults.annotations.contains k)),
        imps.foldl addImport is⟩, []) := by
    intro is
    unfold addAlways
    simp only [AList.get?, Option.getD_none, List.append_nil, hf1, hf2, hd, bind, Except.bind, pure, Except.pure]
  refine ⟨(defaults.values.set keyAttr (some nameExpr)).update
      (d.filterKeys (fun k => !(defaults.values.set keyAttr (some nameExpr)).contains k)),
    defaults.annotations.update (ann.filterKeys (fun k => !defaults.annotations.contains k)), ?_, ?_, ?_⟩
  case refine_3 =>
    intro content
    unfold scaffoldAsked scaffoldObject toFile writeWith
    rw [hclass]
    cases content with
    | none =>
      have hl : loadFile lang none = .ok (⟨[], [], []⟩, .empty) := rfl
      rw [hl]
      simp only [bind, Except.bind, pure, Except.pure, hadd, Except.map]
      rfl
    | some text =>
      cases hl : loadFile lang (some text) with
      | error e => rfl
      | ok r =>
        simp only [bind, Except.bind, pure, Except.pure, hadd, Except.map]
        rfl
  case refine_1 =>
    unfold Dict.update
    have hfi : (d.filterKeys (fun k => !(defaults.values.set keyAttr (some nameExpr)).contains k)).items =
        ((wished ws).filter (fun p => decide (p.1 ∉ (withKey ps keyAttr nameExpr).map Prod.fst))).map
          (fun p => (p.1, some p.2)) := by
      unfold Dict.filterKeys
      dsimp only
      rw [hdi, List.filter_map]
      unfold wished
      congr 1
      apply List.filter_congr
      intro p _
      simp only [Function.comp]
      rw [contains_of_items hv]
      simp
    rw [Dict.items_setAll_fresh, hv, hfi]
    · unfold wanted
      rw [List.map_append]
    · exact (d.filterKeys _).nodup
    · intro k hk
      have hk' : k ∈ (d.filterKeys (fun k => !(defaults.values.set keyAttr (some nameExpr)).contains k)).keys := hk
      rw [Dict.keys_filterKeys] at hk'
      have := (List.mem_filter.1 hk').2
      intro hc
      rw [← Dict.contains_iff] at hc
      rw [hc] at this
      cases this
  case refine_2 =>
    intro x
    rw [Dict.get?_update, Dict.get?_filterKeys]
    unfold wantedAnnotation
    cases hx : defaults.annotations.get? x with
    | some a =>
      have hc : defaults.annotations.contains x = true := by
        rw [Dict.contains_iff, Dict.mem_keys_iff, hx]
        rfl
      simp [hc]
    | none =>
      have hc : defaults.annotations.contains x = false := by
        rw [← Bool.not_eq_true, Dict.contains_iff, Dict.mem_keys_iff, hx]
        simp
      have := hann x
      have he : (Dict.empty : Dict String Expr).get? x = none := rfl
      rw [he] at this
      simp only [hc, Bool.not_false, if_true]
      rw [this]
      cases wishedAnnotation ws x <;> rfl

/-! ## C76 -/

/-- C76: if the strings of a class are one import each and one assignment to a name each, and the file begins with
imports only, the file written has all imports asked for and those of the parameters; it has the assignments it had, in
order, and after them those of the parameters and of the names asked for (which are no parameters) that it did not have. -/
theorem C76_file_partial {lang : Lang} {Ok : String → Option Expr → Expr → Prop} {Im : Imp → Prop}
    (law : Lawful lang Ok Im) {imports assigns : Strs} {imps : List Imp} {ws : List Wish}
    (hi : AsksImports lang imports imps) (ha : AsksAssigns lang assigns ws) (name keyAttr nameExpr : String) (defaults : Cfg)
    (ps : List (String × Expr)) (hps : Params defaults ps)
    (content : Option String) (P B : List String) (ins : List ImportNode) (b : Mod)
    (hparts : Parts (linesOf content) P B) (hP : lang.parse P = .ok ⟨ins, []⟩) (hB : lang.parse B = .ok b)
    (hB' : lang.parse (dropLastBlank B) = .ok b)
    (hins : ∀ n ∈ ins ++ b.imports, ∀ i, Imp.ofNode n = .ok i → Im i)
    (hreq : ∀ i ∈ imps ++ defaults.imports, Im i)
    (hok : ∀ p ∈ newParams (wanted (withKey ps keyAttr nameExpr) ws) b,
      Ok p.1 (wantedAnnotation defaults.annotations ws p.1) p.2)
    (text : String) (h : scaffoldAsked lang imports assigns name keyAttr nameExpr defaults content = .ok text) :
    ∃ old new, (ins ++ b.imports).mapM Imp.ofNode = .ok old ∧ ImportsKept old (imps ++ defaults.imports) new ∧
      lang.parse (linesOf (some text)) = .ok ⟨new.map written ++ b.imports,
        b.assigns ++ (newParams (wanted (withKey ps keyAttr nameExpr) ws) b).map
          (fun p => paramNode p.1 (wantedAnnotation defaults.annotations ws p.1) p.2)⟩ := by
  obtain ⟨values, annotations, hv, hann, heq⟩ := specific_with hi ha name keyAttr nameExpr defaults ps hps
  rw [heq content] at h
  unfold writeWith at h
  cases hl : loadFile lang content with
  | error e => rw [hl] at h; cases h
  | ok r =>
    obtain ⟨f, d⟩ := r
    rw [hl] at h
    cases h
    simp only [← hann] at hok ⊢
    have := write_core law false (d := .empty) (imports := imps.foldl addImport (f.imports ++ defaults.imports))
      (required := imps ++ defaults.imports) (annotations := annotations)
      hv hparts hP hB hB' hins hreq hok hl (.inl rfl)
      (by
        intro i hi
        rcases addImports_mem hi with hi | hi
        · rcases List.mem_append.1 hi with hi | hi
          · exact .inl hi
          · exact .inr (List.mem_append_right _ hi)
        · exact .inr (List.mem_append_left _ hi))
      (by
        intro r hr
        rcases List.mem_append.1 hr with hr | hr
        · exact addImports_has hr
        · exact hasImport_mono (addImports_sublist _ _) (by
            unfold hasImport
            rw [List.any_eq_true]
            exact ⟨r, List.mem_append_right _ hr, covers_self r⟩))
    simpa [linesOf] using this

/-- C76: a name asked for has the value asked for last. -/
theorem C76_wished (ws : List Wish) (x : String) (v : Expr) :
    (x, v) ∈ wished ws ↔ ((ws.filter (fun w => decide (w.name = x))).map Wish.value).getLast? = some v := by
  have key : ∀ (ws : List Wish) (ps : List (String × Expr)), (ps.map Prod.fst).Nodup →
      ((x, v) ∈ ws.foldl (fun ps w => withKey ps w.name w.value) ps ↔
        match ((ws.filter (fun w => decide (w.name = x))).map Wish.value).getLast? with
        | some u => u = v
        | none => (x, v) ∈ ps) ∧ ((ws.foldl (fun ps w => withKey ps w.name w.value) ps).map Prod.fst).Nodup := by
    intro ws
    induction ws with
    | nil => intro ps hn; exact ⟨Iff.rfl, hn⟩
    | cons w ws ih =>
      intro ps hn
      have hkeys : (withKey ps w.name w.value).map Prod.fst =
          if w.name ∈ ps.map Prod.fst then ps.map Prod.fst else ps.map Prod.fst ++ [w.name] := by
        unfold withKey
        split
        · rw [List.map_map]
          apply List.map_congr_left
          intro p _
          simp only [Function.comp]
          split
          · rename_i hp; exact hp.symm
          · rfl
        · simp
      have hn' : ((withKey ps w.name w.value).map Prod.fst).Nodup := by
        rw [hkeys]
        split
        · exact hn
        · rename_i hm
          rw [List.nodup_append]
          refine ⟨hn, by simp, ?_⟩
          intro a ha b hb
          rw [List.mem_singleton] at hb
          subst hb
          intro he
          subst he
          exact hm ha
      obtain ⟨h1, h2⟩ := ih (withKey ps w.name w.value) hn'
      refine ⟨?_, h2⟩
      rw [List.foldl_cons, h1]
      have hmem : (x, v) ∈ withKey ps w.name w.value ↔ if w.name = x then w.value = v else (x, v) ∈ ps := by
        unfold withKey
        by_cases hx : w.name = x
        · rw [if_pos hx]
          subst hx
          split
          · rename_i hm
            rw [List.mem_map]
            constructor
            · rintro ⟨p, hp, he⟩
              split at he
              · exact (Prod.mk.inj he).2
              · rename_i hne
                rw [he] at hne
                exact absurd rfl hne
            · intro he
              obtain ⟨p, hp, hpe⟩ := List.mem_map.1 hm
              exact ⟨p, hp, by rw [if_pos hpe, he]⟩
          · rename_i hm
            rw [List.mem_append, List.mem_singleton]
            constructor
            · rintro (h | h)
              · exact absurd (List.mem_map.2 ⟨_, h, rfl⟩) hm
              · exact (Prod.mk.inj h).2.symm
            · intro he
              exact .inr (by rw [he])
        · rw [if_neg hx]
          split
          · rw [List.mem_map]
            constructor
            · rintro ⟨p, hp, he⟩
              split at he
              · exact absurd (Prod.mk.inj he).1 hx
              · rw [← he]; exact hp
            · intro h
              exact ⟨(x, v), h, by rw [if_neg (fun h => hx h.symm)]⟩
          · rw [List.mem_append, List.mem_singleton]
            constructor
            · rintro (h | h)
              · exact h
              · exact absurd (Prod.mk.inj h).1.symm hx
            · exact .inl
      by_cases hx : w.name = x
      · rw [List.filter_cons_of_pos (by simpa using hx), List.map_cons, List.getLast?_cons]
        rw [hmem, if_pos hx]
        cases ((ws.filter (fun w => decide (w.name = x))).map Wish.value).getLast? <;> simp
      · rw [List.filter_cons_of_neg (by simpa using hx), hmem, if_neg hx]
  unfold wished
  rw [(key ws [] (by simp)).1]
  cases ((ws.filter (fun w => decide (w.name = x))).map Wish.value).getLast? <;> simp

theorem mapM_length {α β : Type} {f : α → Except PyErr β} : ∀ {xs : List α} {ys : List β}, xs.mapM f = .ok ys →
    ys.length = xs.length := by
  intro xs
  induction xs with
  | nil => intro ys h; cases h; rfl
  | cons x xs ih =>
    intro ys h
    rw [List.mapM_cons] at h
    cases hx : f x with
    | error e => rw [hx] at h; cases h
    | ok y =>
      rw [hx] at h
      cases hxs : xs.mapM f with
      | error e => rw [hxs] at h; cases h
      | ok zs =>
        rw [hxs] at h
        cases h
        simp [ih hxs]

theorem importOfStr_ok_iff (lang : Lang) (s : String) : (∃ i, importOfStr lang s = .ok i) ↔
    ∃ m n, lang.parse (readLines s) = .ok m ∧ m.imports = [n] ∧ ReadableImport n := by
  constructor
  · rintro ⟨i, h⟩
    unfold importOfStr objectImportOfStr at h
    cases hm : lang.parse (readLines s) with
    | error e => simp [importsOfStr, hm, bind, Except.bind] at h
    | ok m =>
      cases hi : m.imports.mapM Imp.ofNode with
      | error e => simp [importsOfStr, hm, hi, bind, Except.bind] at h
      | ok is =>
        cases his : m.imports with
        | nil =>
          rw [his] at hi
          cases hi
          simp [importsOfStr, hm, his, bind, Except.bind, singleImport, throw, throwThe, MonadExceptOf.throw, pure, Except.pure] at h
        | cons n ns =>
          cases ns with
          | nil =>
            refine ⟨m, n, rfl, his, ?_⟩
            cases n with
            | import_ as => trivial
            | from_ k l as =>
              cases k with
              | none =>
                rw [his] at hi
                cases hi
              | some k => trivial
          | cons n' ns =>
            have hlen : 2 ≤ is.length := by
              have := (mapM_length hi)
              rw [his] at this
              simp at this
              omega
            match is, hlen with
            | a :: b :: cs, _ =>
              simp [importsOfStr, hm, hi, bind, Except.bind, singleImport] at h
  · rintro ⟨m, n, hm, hn, hr⟩
    have : ∃ i, Imp.ofNode n = .ok i := by
      cases n with
      | import_ as => exact ⟨_, rfl⟩
      | from_ k l as =>
        cases k with
        | none => cases hr
        | some k => exact ⟨_, rfl⟩
    obtain ⟨i, hi⟩ := this
    exact ⟨i, importOfStr_one ⟨m, n, hm, hn, hi⟩⟩

theorem assignOfStr_ok_iff (lang : Lang) (s : String) :
    (∃ a r, assignOfStr lang s = .ok a ∧ a.toDefault = .ok r) ↔
      ∃ m n, lang.parse (readLines s) = .ok m ∧ m.assigns = [n] ∧ Readable n := by
  constructor
  · rintro ⟨a, r, h, hr⟩
    unfold assignOfStr at h
    cases hm : lang.parse (readLines s) with
    | error e => simp [hm, bind, Except.bind] at h
    | ok m =>
      cases ha : m.assigns.mapM Assign.ofNode with
      | error e => simp [hm, ha, bind, Except.bind] at h
      | ok as =>
        simp only [hm, ha, bind, Except.bind] at h
        have hlen := mapM_length ha
        cases has : as with
        | nil => rw [has] at h; cases h
        | cons b bs =>
          cases bs with
          | cons c cs => rw [has] at h; cases h
          | nil =>
            rw [has] at h hlen
            cases h
            cases hns : m.assigns with
            | nil => rw [hns] at hlen; cases hlen
            | cons n ns =>
              cases ns with
              | cons _ _ => rw [hns] at hlen; simp at hlen
              | nil =>
                refine ⟨m, n, rfl, hns, (readable_iff n).1 ⟨b, r, ?_, hr⟩⟩
                rw [hns, List.mapM_cons] at ha
                cases hn : Assign.ofNode n with
                | error e => rw [hn] at ha; cases ha
                | ok x =>
                  rw [hn, has] at ha
                  cases ha
                  rfl
  · rintro ⟨m, n, hm, hn, hr⟩
    obtain ⟨a, r, ha, hr⟩ := (readable_iff n).2 hr
    refine ⟨{ a with preferBeginning := false, origStr := some s }, r, ?_, hr⟩
    unfold assignOfStr
    simp only [hm, bind, Except.bind]
    rw [hn, List.mapM_cons, ha]
    rfl

theorem scaffoldObject_ok_iff (lang : Lang) (imps : List Imp) (as : List Assign) (name keyAttr nameExpr : String)
    (defaults : Cfg) (content : Option String) :
    (∃ text, scaffoldObject lang ⟨imps, as, []⟩ name keyAttr nameExpr defaults content = .ok text) ↔
      (∃ r, loadFile lang content = .ok r) ∧ ∀ a ∈ as, a.preferBeginning = false → ∃ r, a.toDefault = .ok r := by
  have hadd : ∀ cfg : Cfg, (∃ r, addAlways ⟨imps, as, []⟩ name cfg = .ok r) ↔
      ∀ a ∈ as, a.preferBeginning = false → ∃ r, a.toDefault = .ok r := by
    intro cfg
    unfold addAlways
    simp only [AList.get?, Option.getD_none, List.append_nil, bind, Except.bind, pure, Except.pure]
    have := defaultsFrom_ok_iff (as.filter (fun a => !a.preferBeginning)) .empty .empty
    have hright : (∀ a ∈ as.filter (fun a => !a.preferBeginning), ∃ r, a.toDefault = .ok r) ↔
        ∀ a ∈ as, a.preferBeginning = false → ∃ r, a.toDefault = .ok r := by
      simp only [List.mem_filter, Bool.not_eq_true']
      exact ⟨fun h a h1 h2 => h a ⟨h1, h2⟩, fun h a h1 => h a h1.1 h1.2⟩
    rw [← hright, ← this]
    cases defaultsFrom (as.filter (fun a => !a.preferBeginning)) .empty .empty with
    | error e => exact ⟨fun ⟨_, h⟩ => by (cases h), fun ⟨_, h⟩ => by (cases h)⟩
    | ok r => exact ⟨fun _ => ⟨_, rfl⟩, fun _ => ⟨_, rfl⟩⟩
  unfold scaffoldObject toFile
  cases content with
  | none =>
    have hl : loadFile lang none = .ok (⟨[], [], []⟩, .empty) := rfl
    rw [hl]
    simp only [bind, Except.bind, pure, Except.pure]
    rw [← hadd ⟨defaults.values.set keyAttr (some nameExpr), defaults.annotations, [] ++ defaults.imports⟩]
    cases addAlways ⟨imps, as, []⟩ name ⟨defaults.values.set keyAttr (some nameExpr), defaults.annotations,
      [] ++ defaults.imports⟩ with
    | error e => exact ⟨fun ⟨_, h⟩ => by (cases h), fun ⟨_, _, h⟩ => by (cases h)⟩
    | ok r => exact ⟨fun _ => ⟨⟨_, rfl⟩, ⟨_, rfl⟩⟩, fun _ => ⟨_, rfl⟩⟩
  | some text =>
    cases hl : loadFile lang (some text) with
    | error e => exact ⟨fun ⟨_, h⟩ => by (cases h), fun ⟨⟨_, h⟩, _⟩ => by (cases h)⟩
    | ok r =>
      simp only [bind, Except.bind, pure, Except.pure]
      rw [← hadd ⟨defaults.values.set keyAttr (some nameExpr), defaults.annotations, r.1.imports ++ defaults.imports⟩]
      cases addAlways ⟨imps, as, []⟩ name ⟨defaults.values.set keyAttr (some nameExpr), defaults.annotations,
        r.1.imports ++ defaults.imports⟩ with
      | error e => exact ⟨fun ⟨_, h⟩ => by (cases h), fun ⟨_, _, h⟩ => by (cases h)⟩
      | ok r => exact ⟨fun _ => ⟨⟨_, rfl⟩, ⟨_, rfl⟩⟩, fun _ => ⟨_, rfl⟩⟩

theorem Strs.read_ok_iff {α : Type} (f : String → Except PyErr α) (st : Strs) :
    (∃ r, st.read f = .ok r) ↔ ∀ s ∈ stringsOf st, ∃ y, f s = .ok y := by
  have hmap : ∀ xs : List String, (∃ r, (xs.mapM f).map some = .ok r) ↔ ∃ ys, xs.mapM f = .ok ys := by
    intro xs
    cases xs.mapM f with
    | error e => exact ⟨fun ⟨_, h⟩ => by (cases h), fun ⟨_, h⟩ => by (cases h)⟩
    | ok ys => exact ⟨fun _ => ⟨_, rfl⟩, fun _ => ⟨_, rfl⟩⟩
  cases st with
  | missing => exact ⟨fun _ s h => by (cases h), fun _ => ⟨_, rfl⟩⟩
  | list xs =>
    simp only [Strs.read, stringsOf]
    rw [hmap, mapM_ok_iff]
  | tuple xs =>
    cases xs with
    | nil => exact ⟨fun _ s h => by (cases h), fun _ => ⟨_, rfl⟩⟩
    | cons x xs =>
      simp only [Strs.read, stringsOf]
      rw [hmap, mapM_ok_iff]

/-- C76: scaffolding an object succeeds exactly if the file can be read, every import string is one import (not
`from . import x`) and every assignment string has one assignment with one target, which is a name or an attribute without
annotation.  Otherwise an error is raised before anything is written. -/
theorem C76_succeeds_iff {lang : Lang} (hnil : lang.parse [] = .ok ⟨[], []⟩) (imports assigns : Strs)
    (name keyAttr nameExpr : String) (defaults : Cfg) (content : Option String) :
    (∃ text, scaffoldAsked lang imports assigns name keyAttr nameExpr defaults content = .ok text) ↔
      (∃ m, lang.parse (linesOf content) = .ok m ∧ (∀ n ∈ m.imports, ReadableImport n) ∧ ∀ n ∈ m.assigns, Readable n) ∧
      (∀ s ∈ stringsOf imports, ∃ m n, lang.parse (readLines s) = .ok m ∧ m.imports = [n] ∧ ReadableImport n) ∧
      (∀ s ∈ stringsOf assigns, ∃ m n, lang.parse (readLines s) = .ok m ∧ m.assigns = [n] ∧ Readable n) := by
  rw [← loadFile_ok_iff hnil]
  simp only [← importOfStr_ok_iff, ← assignOfStr_ok_iff]
  rw [← Strs.read_ok_iff]
  unfold scaffoldAsked
  cases hl : loadFile lang content with
  | error e => exact ⟨fun ⟨_, h⟩ => by (cases h), fun ⟨⟨_, h⟩, _⟩ => by (cases h)⟩
  | ok r =>
    unfold classFile
    cases hi : imports.read (importOfStr lang) with
    | error e => exact ⟨fun ⟨_, h⟩ => by (cases h), fun ⟨_, ⟨_, h⟩, _⟩ => by (cases h)⟩
    | ok is =>
      cases ha : assigns.read (assignOfStr lang) with
      | error e =>
        refine ⟨fun ⟨_, h⟩ => by (cases h), fun ⟨_, _, h⟩ => ?_⟩
        obtain ⟨x, hx⟩ := (Strs.read_ok_iff (assignOfStr lang) assigns).2 (fun s hs => by
          obtain ⟨a, _, h, _⟩ := h s hs
          exact ⟨a, h⟩)
        rw [hx] at ha
        cases ha
      | ok as =>
        simp only [bind, Except.bind, pure, Except.pure, classTemplate]
        rw [scaffoldObject_ok_iff, hl]
        have hass : (∀ a ∈ as.getD [selectorAssign], a.preferBeginning = false → ∃ r, a.toDefault = .ok r) ↔
            ∀ s ∈ stringsOf assigns, ∃ a r, assignOfStr lang s = .ok a ∧ a.toDefault = .ok r := by
          have hlist : ∀ xs : List String, ∀ ys, xs.mapM (assignOfStr lang) = .ok ys →
              ((∀ a ∈ ys, a.preferBeginning = false → ∃ r, a.toDefault = .ok r) ↔
                ∀ s ∈ xs, ∃ a r, assignOfStr lang s = .ok a ∧ a.toDefault = .ok r) := by
            intro xs ys h
            have hm := mapM_ok_mem h
            constructor
            · intro h s hs
              obtain ⟨a, ha, hsa⟩ := hm.2 s hs
              obtain ⟨r, hr⟩ := h a ha (by
                unfold assignOfStr at hsa
                cases hp : lang.parse (readLines s) with
                | error e => simp [hp, bind, Except.bind] at hsa
                | ok m =>
                  cases hq : m.assigns.mapM Assign.ofNode with
                  | error e => simp [hp, hq, bind, Except.bind] at hsa
                  | ok as =>
                    simp only [hp, hq, bind, Except.bind] at hsa
                    match as, hsa with
                    | [b], hsa => cases hsa; rfl)
              exact ⟨a, r, hsa, hr⟩
            · intro h a ha _
              obtain ⟨s, hs, hsa⟩ := hm.1 a ha
              obtain ⟨a', r, h1, h2⟩ := h s hs
              rw [hsa] at h1
              cases h1
              exact ⟨r, h2⟩
          have hsel : (∀ a ∈ [selectorAssign], a.preferBeginning = false → ∃ r, a.toDefault = .ok r) := by
            intro a h hb
            rw [List.mem_singleton] at h
            subst h
            cases hb
          cases assigns with
          | missing => cases ha; exact ⟨fun _ s h => by (cases h), fun _ => hsel⟩
          | list xs =>
            simp only [Strs.read] at ha
            cases hx : xs.mapM (assignOfStr lang) with
            | error e => rw [hx] at ha; cases ha
            | ok ys =>
              rw [hx] at ha
              cases ha
              exact hlist xs ys hx
          | tuple xs =>
            cases xs with
            | nil => cases ha; exact ⟨fun _ s h => by (cases h), fun _ => hsel⟩
            | cons x xs =>
              simp only [Strs.read] at ha
              cases hx : (x :: xs).mapM (assignOfStr lang) with
              | error e => rw [hx] at ha; cases ha
              | ok ys =>
                rw [hx] at ha
                cases ha
                exact hlist (x :: xs) ys hx
        rw [hass]
        exact ⟨fun ⟨h1, h2⟩ => ⟨h1, ⟨_, rfl⟩, h2⟩, fun ⟨h1, _, h2⟩ => ⟨h1, h2⟩⟩

/-- C76: without assignment strings (or with an empty tuple) the class asks for the selector. -/
theorem specific_selector {lang : Lang} {imports assigns : Strs} {imps : List Imp} (hi : AsksImports lang imports imps)
    (ha : assigns = .missing ∨ assigns = .tuple []) (name keyAttr nameExpr : String) (defaults : Cfg) (content : Option String) :
    scaffoldAsked lang imports assigns name keyAttr nameExpr defaults content =
      scaffoldObject lang (classTemplate (some imps) (some (if true then [selectorAssign] else []))) name keyAttr nameExpr
        defaults content := by
  obtain ⟨r, hr, hri⟩ := hi.read
  have hclass : classFile lang imports assigns = .ok ⟨imps, [selectorAssign], []⟩ := by
    unfold classFile
    rw [hr, ← hri]
    rcases ha with rfl | rfl <;> rfl
  have ht : classTemplate (some imps) (some (if true then [selectorAssign] else [])) =
      ⟨imps, if true then [selectorAssign] else [], []⟩ := rfl
  rw [ht, scaffoldObject_eq]
  unfold scaffoldAsked
  rw [hclass]
  cases hl : loadFile lang content with
  | error e => rfl
  | ok r =>
    simp only [bind, Except.bind]
    have := scaffoldObject_eq lang imps true name keyAttr nameExpr defaults content
    rw [hl] at this
    exact this

/-- C76: without assignment strings the file written has the selector before everything else it assigns, if it did not
assign `s`. -/
theorem C76_selector_partial {lang : Lang} {Ok : String → Option Expr → Expr → Prop} {Im : Imp → Prop}
    (law : Lawful lang Ok Im) {imports : Strs} {imps : List Imp}
    (hi : AsksImports lang imports imps) (name keyAttr nameExpr : String) (defaults : Cfg)
    (ps : List (String × Expr)) (hps : Params defaults ps)
    (content : Option String) (P B : List String) (ins : List ImportNode) (b : Mod)
    (hparts : Parts (linesOf content) P B) (hP : lang.parse P = .ok ⟨ins, []⟩) (hB : lang.parse B = .ok b)
    (hB' : lang.parse (dropLastBlank B) = .ok b)
    (hins : ∀ n ∈ ins ++ b.imports, ∀ i, Imp.ofNode n = .ok i → Im i)
    (hreq : ∀ i ∈ imps ++ defaults.imports, Im i)
    (hok : ∀ p ∈ newParams (withKey ps keyAttr nameExpr) b, Ok p.1 (defaults.annotations.get? p.1) p.2)
    (text : String) (h : scaffoldAsked lang imports .missing name keyAttr nameExpr defaults content = .ok text) :
    ∃ old new, (ins ++ b.imports).mapM Imp.ofNode = .ok old ∧ ImportsKept old (imps ++ defaults.imports) new ∧
      lang.parse (linesOf (some text)) = .ok ⟨new.map written ++ b.imports,
        selectorNode b ++ b.assigns ++
          (newParams (withKey ps keyAttr nameExpr) b).map (fun p => paramNode p.1 (defaults.annotations.get? p.1) p.2)⟩ := by
  rw [specific_selector hi (.inl rfl)] at h
  exact C41_object_partial law imps true name keyAttr nameExpr defaults ps hps content P B ins b hparts hP hB hB' hins hreq hok
    text h

/-- C76 fails: if a class asks for imports none of which binds `Selector`, and not for assignments, then every new file
written for it has `s = Selector()` without an import of `Selector`. -/
theorem C76_selector_violated {lang : Lang} {Ok : String → Option Expr → Expr → Prop} {Im : Imp → Prop}
    (law : Lawful lang Ok Im) {imports : Strs} {imps : List Imp}
    (hi : AsksImports lang imports imps) (name keyAttr nameExpr : String) (defaults : Cfg)
    (ps : List (String × Expr)) (hps : Params defaults ps)
    (hreq : ∀ i ∈ imps ++ defaults.imports, Im i)
    (hno : ∀ i ∈ imps ++ defaults.imports, ∀ e ∈ provides (written i), e.1 ≠ "Selector")
    (hok : ∀ p ∈ withKey ps keyAttr nameExpr, Ok p.1 (defaults.annotations.get? p.1) p.2) :
    ∃ text m, scaffoldAsked lang imports .missing name keyAttr nameExpr defaults none = .ok text ∧
      lang.parse (linesOf (some text)) = .ok m ∧ AssignNode.assign [.name "s"] "Selector()" ∈ m.assigns ∧
      ∀ n ∈ m.imports, ∀ e ∈ provides n, e.1 ≠ "Selector" := by
  have hs : ∃ text, scaffoldAsked lang imports .missing name keyAttr nameExpr defaults none = .ok text := by
    rw [specific_selector hi (.inl rfl)]
    exact (scaffoldObject_ok_iff lang imps [selectorAssign] name keyAttr nameExpr defaults none).2 ⟨⟨_, rfl⟩, by
      intro a h hb
      rw [List.mem_singleton] at h
      subst h
      cases hb⟩
  obtain ⟨text, ht⟩ := hs
  have hnew : newParams (withKey ps keyAttr nameExpr) ⟨[], []⟩ = withKey ps keyAttr nameExpr := by
    unfold newParams
    rw [List.filter_eq_self]
    intro p _
    rfl
  obtain ⟨old, new, h1, ⟨_, h3, _⟩, h2⟩ := C76_selector_partial law hi name keyAttr nameExpr defaults ps hps none [] [] [] ⟨[], []⟩
    ⟨rfl, by simp, by simp⟩ law.nil law.nil law.nil (by simp) hreq (by rw [hnew]; exact hok) text ht
  cases h1
  refine ⟨text, _, ht, h2, ?_, ?_⟩
  · simp [selectorNode, assignedNames]
  · intro n hn e he
    rw [List.append_nil, List.mem_map] at hn
    obtain ⟨i, hi', rfl⟩ := hn
    rcases h3 i hi' with h | h
    · cases h
    · exact hno i h e he

/-- C76: a second write gives the same lines, and from then on the same text, under the conditions of C42. -/
theorem C76_twice_partial {lang : Lang} {Ok : String → Option Expr → Expr → Prop} {Im : Imp → Prop}
    (law : Lawful lang Ok Im) {imports assigns : Strs} {imps : List Imp} {ws : List Wish}
    (hi : AsksImports lang imports imps) (ha : AsksAssigns lang assigns ws) (name keyAttr nameExpr : String) (defaults : Cfg)
    (ps : List (String × Expr)) (hps : Params defaults ps)
    (content : Option String) (P B : List String) (ins : List ImportNode) (as : List AssignNode)
    (hparts : Parts (linesOf content) P B) (hP : lang.parse P = .ok ⟨ins, []⟩) (hB : lang.parse B = .ok ⟨[], as⟩)
    (hlast : B.getLast? ≠ some "")
    (hins : ∀ n ∈ ins, Clean n ∧ ∀ i, Imp.ofNode n = .ok i → Im i)
    (hreq : ∀ i ∈ imps ++ defaults.imports, Im i ∧ ∃ n, ReadFrom i n ∧ Clean n)
    (hok : ∀ p ∈ newParams (wanted (withKey ps keyAttr nameExpr) ws) ⟨[], as⟩,
      Ok p.1 (wantedAnnotation defaults.annotations ws p.1) p.2)
    (hfirst : ∀ l, (B ++ ((newParams (wanted (withKey ps keyAttr nameExpr) ws) ⟨[], as⟩).flatMap
      (fun p => lang.source (.name p.1) (wantedAnnotation defaults.annotations ws p.1) (some p.2)))).head? = some l → ¬ Skipped l)
    (text : String) (h : scaffoldAsked lang imports assigns name keyAttr nameExpr defaults content = .ok text) :
    ∃ text2, scaffoldAsked lang imports assigns name keyAttr nameExpr defaults (some text) = .ok text2 ∧
      linesOf (some text2) = linesOf (some text) ∧
      scaffoldAsked lang imports assigns name keyAttr nameExpr defaults (some text2) = .ok text2 := by
  obtain ⟨values, annotations, hv, hann, heq⟩ := specific_with hi ha name keyAttr nameExpr defaults ps hps
  simp only [heq] at h ⊢
  simp only [← hann] at hok hfirst
  refine twice_core law false false (required := imps ++ defaults.imports) hv hparts hP hB hlast
    hins hreq ?_ ?_ hok (fun _ => ?_) (fun _ => hfirst) h
  · intro is i hi
    rcases addImports_mem hi with hi | hi
    · rcases List.mem_append.1 hi with hi | hi
      · exact .inl hi
      · exact .inr (List.mem_append_right _ hi)
    · exact .inr (List.mem_append_left _ hi)
  · intro is r hr
    rcases List.mem_append.1 hr with hr | hr
    · exact addImports_has hr
    · exact hasImport_mono (addImports_sublist _ _) (by
        unfold hasImport
        rw [List.any_eq_true]
        exact ⟨r, List.mem_append_right _ hr, covers_self r⟩)
  · unfold wanted
    intro h0
    exact withKey_ne_nil _ _ _ (List.append_eq_nil_iff.1 h0).1

/-- C76: the lines of the user are kept, under the conditions of C43. -/
theorem C76_lines_partial {lang : Lang} {Ok : String → Option Expr → Expr → Prop} {Im : Imp → Prop}
    (law : Lawful lang Ok Im) {imports assigns : Strs} {imps : List Imp} {ws : List Wish}
    (hi : AsksImports lang imports imps) (ha : AsksAssigns lang assigns ws) (name keyAttr nameExpr : String) (defaults : Cfg)
    (ps : List (String × Expr)) (hps : Params defaults ps) (content : Option String) (m : Mod)
    (hm : lang.parse (linesOf content) = .ok m)
    (hins : ∀ n ∈ m.imports, ∀ i, Imp.ofNode n = .ok i → Im i)
    (hreq : ∀ i ∈ imps ++ defaults.imports, Im i)
    (hok : ∀ p ∈ newParams (wanted (withKey ps keyAttr nameExpr) ws) m,
      Ok p.1 (wantedAnnotation defaults.annotations ws p.1) p.2)
    (text : String) (h : scaffoldAsked lang imports assigns name keyAttr nameExpr defaults content = .ok text) :
    LinesKept (linesOf content) (linesOf (some text)) := by
  obtain ⟨values, annotations, hv, hann, heq⟩ := specific_with hi ha name keyAttr nameExpr defaults ps hps
  rw [heq] at h
  simp only [← hann] at hok
  unfold writeWith at h
  cases hl : loadFile lang content with
  | error e => rw [hl] at h; cases h
  | ok r =>
    obtain ⟨f, d⟩ := r
    rw [hl] at h
    cases h
    refine write_block law false (d := .empty) (imports := imps.foldl addImport (f.imports ++ defaults.imports))
      (required := imps ++ defaults.imports) (annotations := annotations)
      hv hm hins hreq hok hl (.inl rfl) ?_
    intro i hi
    rcases addImports_mem hi with hi | hi
    · rcases List.mem_append.1 hi with hi | hi
      · exact .inl hi
      · exact .inr (List.mem_append_right _ hi)
    · exact .inr (List.mem_append_left _ hi)

/-! ### Examples and counterexamples -/

/-- The parameters of `def __init__(self, name, a=1)`. -/
def toyClass : Cfg := ⟨Dict.ofList [("name", some "None"), ("a", some "1")], .empty, []⟩

/-- The hypotheses of `C76_file_partial`, `C76_twice_partial` and `C76_lines_partial` hold for a class that asks for an
import and two assignments, and a file that has one of them. -/
example : ∃ (content : Option String) (P B : List String) (ins : List ImportNode) (as : List AssignNode) (text : String)
    (imps : List Imp) (ws : List Wish),
    AsksImports toy (.list ["from m import x"]) imps ∧ AsksAssigns toy (.list ["b = x", "c = 2"]) ws ∧
    Params toyClass [("name", "None"), ("a", "1")] ∧ Parts (linesOf content) P B ∧ toy.parse P = .ok ⟨ins, []⟩ ∧
    toy.parse B = .ok ⟨[], as⟩ ∧ as ≠ [] ∧ B.getLast? ≠ some "" ∧
    newParams (wanted (withKey [("name", "None"), ("a", "1")] "name" "'i'") ws) ⟨[], as⟩ = [("name", "'i'"), ("a", "1"), ("c", "2")] ∧
    scaffoldAsked toy (.list ["from m import x"]) (.list ["b = x", "c = 2"]) "i" "name" "'i'" toyClass content = .ok text ∧
    text = "from m import x\n\nb = 5\nname = 'i'\na = 1\nc = 2\n" := by
  refine ⟨some "b = 5\n", [], ["b = 5"], [], [.assign [.name "b"] "5"], _, [⟨some "m", ["x"], [], false⟩],
    [⟨"b", none, "x"⟩, ⟨"c", none, "2"⟩], ?_, ?_, rfl, parts_of_sections (by decide +kernel), rfl, by decide +kernel, by simp,
    by decide, by decide +kernel, by decide +kernel, rfl⟩
  · exact ⟨⟨_, _, (by decide +kernel : toy.parse (readLines "from m import x") =
      .ok ⟨[.from_ (some "m") 0 [("x", none)]], []⟩), rfl, rfl⟩, trivial⟩
  · exact ⟨⟨_, (by decide +kernel : toy.parse (readLines "b = x") = .ok ⟨[], [.assign [.name "b"] "x"]⟩), rfl⟩,
      ⟨_, (by decide +kernel : toy.parse (readLines "c = 2") = .ok ⟨[], [.assign [.name "c"] "2"]⟩), rfl⟩, trivial⟩

/-- C76 fails: an assignment asked for to a name that is a parameter is not written. -/
theorem C76_parameter_violated :
    scaffoldAsked toy (.list []) (.list ["a = 5"]) "i" "name" "'i'" toyClass none = .ok "\n\nname = 'i'\na = 1\n" := by
  decide +kernel

/-- C76 fails: an assignment asked for to an attribute is not written, without an error. -/
theorem C76_attribute_violated :
    scaffoldAsked toy (.list []) (.list ["b = 5", "b.c = 6"]) "i" "name" "'i'" toyClass none =
      .ok "\n\nname = 'i'\na = 1\nb = 5\n" := by
  decide +kernel

/-- C76 fails: of two assignments asked for to one name the first is not written, even if the second needs it. -/
theorem C76_repeated_violated :
    scaffoldAsked toy (.list []) (.list ["b = 5", "b = [b]"]) "i" "name" "'i'" toyClass none =
      .ok "\n\nname = 'i'\na = 1\nb = [b]\n" := by
  decide +kernel

/-- C76 fails: an empty tuple does not ask for nothing, as an empty list does. -/
theorem C76_tuple_violated :
    scaffoldAsked toy (.tuple []) (.tuple []) "i" "name" "'i'" toyClass none =
      .ok "from pyfileconf import Selector\n\ns = Selector()\nname = 'i'\na = 1\n" ∧
    scaffoldAsked toy (.list []) (.list []) "i" "name" "'i'" toyClass none = .ok "\n\nname = 'i'\na = 1\n" := by
  decide +kernel

/-- C76 fails: asking for the assignment of the selector, which is the default, puts it at the end of the file, after the
parameters. -/
theorem C76_end_violated :
    scaffoldAsked toy .missing (.list ["s = Selector()"]) "i" "name" "'i'" toyClass none =
      .ok "from pyfileconf import Selector\n\nname = 'i'\na = 1\ns = Selector()\n" ∧
    scaffoldAsked toy .missing .missing "i" "name" "'i'" toyClass none =
      .ok "from pyfileconf import Selector\n\ns = Selector()\nname = 'i'\na = 1\n" := by
  decide +kernel

/-- The file of `C76_selector_violated` for a class that asks for `import os`. -/
example : scaffoldAsked toy (.list ["import os"]) .missing "i" "name" "'i'" toyClass none =
    .ok "import os\n\ns = Selector()\nname = 'i'\na = 1\n" := by
  decide +kernel

end Verif.Props

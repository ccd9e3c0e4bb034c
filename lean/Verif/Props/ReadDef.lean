import Verif.Model.ReadDef

/-
Property theorems about reading definition files: C69.
-/

namespace Verif.Props
open Verif.Py Verif.Model

variable {V : Type}

/-! ### Specification -/

mutual
/-- What an expression means as a definition: dictionaries with strings as keys, of which the last value of a key counts, and
lists are taken over; in definitions of specific classes so are strings; everything else is kept as it is. -/
inductive Means (specific : Bool) : DExpr → Def Leaf → Prop
  | dict (es : List (Option String × DExpr)) (ds : List (String × Def Leaf)) : MeansEntries specific es ds →
      Means specific (.dict es) (.dict (Dict.ofList ds).items)
  | list (xs : List DExpr) (ds : List (Def Leaf)) : MeansItems specific xs ds → Means specific (.list xs) (.list ds)
  | str (s : String) : Means specific (.str s) (.leaf (if specific then .str s else .other))
  | name (id : String) : Means specific (.name id) (.leaf (.name id))
  | other (parts : List DExpr) : Means specific (.other parts) (.leaf .other)
/-- The entries of a dictionary. -/
inductive MeansEntries (specific : Bool) : List (Option String × DExpr) → List (String × Def Leaf) → Prop
  | nil : MeansEntries specific [] []
  | cons (k : String) (e : DExpr) (d : Def Leaf) (es : List (Option String × DExpr)) (ds : List (String × Def Leaf)) :
      Means specific e d → MeansEntries specific es ds → MeansEntries specific ((some k, e) :: es) ((k, d) :: ds)
/-- The items of a list. -/
inductive MeansItems (specific : Bool) : List DExpr → List (Def Leaf) → Prop
  | nil : MeansItems specific [] []
  | cons (e : DExpr) (d : Def Leaf) (es : List DExpr) (ds : List (Def Leaf)) :
      Means specific e d → MeansItems specific es ds → MeansItems specific (e :: es) (d :: ds)
end

/-- The name an assignment is to, if it is to a single name. -/
def DAssign.target : DAssign → Option String
  | .assign [t] _ => t
  | .assign _ _ => none
  | .ann t _ _ => t

/-- The value that is assigned. -/
def DAssign.value : DAssign → Option DExpr
  | .assign _ v => some v
  | .ann _ _ v => v

/-- All assignments of the file, also those inside of functions and classes. -/
inductive AssignedIn : DAssign → List DStmt → Prop
  | here (a : DAssign) (rest : List DStmt) : AssignedIn a (.assign a :: rest)
  | inside (a : DAssign) (body rest : List DStmt) : AssignedIn a body → AssignedIn a (.block body :: rest)
  | later (a : DAssign) (s : DStmt) (rest : List DStmt) : AssignedIn a rest → AssignedIn a (s :: rest)

/-- All assignments are to a single name. -/
def PlainAssigns (stmts : List DStmt) : Prop := ∀ a, AssignedIn a stmts → (DAssign.target a).isSome = true

/-! ### Lemmas -/

theorem assignedIn_iff (a : DAssign) (stmts : List DStmt) : AssignedIn a stmts ↔ a ∈ DStmt.allAssigns stmts := by
  constructor
  · intro h
    induction h with
    | here rest => simp [DStmt.allAssigns, DStmt.assigns]
    | inside body rest _ ih => simp [DStmt.allAssigns, DStmt.assigns, ih]
    | later s rest _ ih => simp [DStmt.allAssigns, ih]
  · exact aux stmts
where
  aux : ∀ stmts, a ∈ DStmt.allAssigns stmts → AssignedIn a stmts
    | [], h => by rw [DStmt.allAssigns] at h; cases h
    | .assign b :: rest, h => by
      rw [DStmt.allAssigns, DStmt.assigns, List.mem_append, List.mem_singleton] at h
      rcases h with h | h
      · rw [h]
        exact .here b rest
      · exact .later a _ rest (aux rest h)
    | .block body :: rest, h => by
      rw [DStmt.allAssigns, DStmt.assigns, List.mem_append] at h
      rcases h with h | h
      · exact .inside a body rest (aux body h)
      · exact .later a _ rest (aux rest h)
    | .other :: rest, h => by
      rw [DStmt.allAssigns, DStmt.assigns, List.nil_append] at h
      exact .later a _ rest (aux rest h)

theorem ofList_items (ds : List (String × Def Leaf)) :
    (Dict.ofList ds).items = ds.foldl (fun m e => AList.set m e.1 e.2) [] := by
  have key : ∀ (ds : List (String × Def Leaf)) (d : Dict String (Def Leaf)),
      (d.setAll ds).items = ds.foldl (fun m e => AList.set m e.1 e.2) d.items := by
    intro ds
    induction ds with
    | nil => intro d; rfl
    | cons e ds ih => intro d; exact ih (d.set e.1 e.2)
  exact key ds Dict.empty

theorem check_of_target {a : DAssign} (h : (DAssign.target a).isSome = true) : a.check = .ok () := by
  cases a with
  | assign ts v =>
    match ts, h with
    | [], h => cases h
    | [t], _ => rfl
    | _ :: _ :: _, h => cases h
  | ann t n v => rfl

theorem isTo_of_target {a : DAssign} {y : String} (h : DAssign.target a = some y) (x : String) :
    a.isTo x = .ok (decide (y = x)) := by
  cases a with
  | assign ts v =>
    match ts, h with
    | [], h => cases h
    | [t], h =>
      have : t = some y := h
      subst this
      unfold DAssign.isTo
      simp [eq_comm]
    | _ :: _ :: _, h => cases h
  | ann t n v =>
    have : t = some y := h
    subst this
    rfl

theorem checkAll_of_targets (as : List DAssign) (h : ∀ a ∈ as, (DAssign.target a).isSome = true) : checkAll as = .ok () := by
  induction as with
  | nil => rfl
  | cons a as ih =>
    rw [checkAll, check_of_target (h a (by simp))]
    exact ih (fun b hb => h b (by simp [hb]))

theorem assignsTo_of_targets (x : String) (as : List DAssign) (h : ∀ a ∈ as, (DAssign.target a).isSome = true) :
    assignsTo x as = .ok (as.filter (fun a => decide (DAssign.target a = some x))) := by
  induction as with
  | nil => rfl
  | cons a as ih =>
    obtain ⟨y, hy⟩ := Option.isSome_iff_exists.1 (h a (by simp))
    rw [assignsTo, isTo_of_target hy]
    have hc : a.check = .ok () := check_of_target (h a (by simp))
    have hi := ih (fun b hb => h b (by simp [hb]))
    by_cases hyx : y = x
    · rw [List.filter_cons_of_pos (by simp [hy, hyx])]
      simp [hc, hi, hyx, bind, Except.bind, pure, Except.pure]
    · rw [List.filter_cons_of_neg (by simp [hy, hyx])]
      simp [hi, hyx, bind, Except.bind, pure, Except.pure]

/-- Reading a file in which all assignments are to single names. -/
theorem read_plain (specific : Bool) (stmts : List DStmt) (h : PlainAssigns stmts) :
    readDefinition specific (some stmts) =
      match (DStmt.allAssigns stmts).filter (fun a => decide (DAssign.target a = some (definitionName specific))) with
      | [] => if specific then .error .attributeError else .ok (some (.dict []))
      | [a] => a.collection specific
      | _ => .error .valueError := by
  have h' : ∀ a ∈ DStmt.allAssigns stmts, (DAssign.target a).isSome = true := fun a ha => h a ((assignedIn_iff a stmts).2 ha)
  unfold readDefinition assignTo
  simp only [checkAll_of_targets _ h', assignsTo_of_targets _ _ h', bind, Except.bind, pure, Except.pure]
  match (DStmt.allAssigns stmts).filter (fun a => decide (DAssign.target a = some (definitionName specific))) with
  | [] => rfl
  | [a] => rfl
  | _ :: _ :: _ => rfl

mutual
theorem convert_ok (specific : Bool) (e : DExpr) (d : Def Leaf) (h : e.convert specific = .ok d) : Means specific e d := by
  match e, h with
  | .dict es, h =>
    rw [DExpr.convert] at h
    cases he : convertEntries specific [] es with
    | error e => simp [he, bind, Except.bind] at h
    | ok ds =>
      simp [he, bind, Except.bind, pure, Except.pure] at h
      subst h
      obtain ⟨ds', h1, h2⟩ := convertEntries_ok specific [] es ds he
      rw [h2, ← ofList_items]
      exact .dict es ds' h1
  | .list xs, h =>
    rw [DExpr.convert] at h
    cases he : convertItems specific xs with
    | error e => simp [he, bind, Except.bind] at h
    | ok ds =>
      simp [he, bind, Except.bind, pure, Except.pure] at h
      subst h
      exact .list xs ds (convertItems_ok specific xs ds he)
  | .str s, h => rw [DExpr.convert] at h; cases h; exact .str s
  | .name id, h => rw [DExpr.convert] at h; cases h; exact .name id
  | .other parts, h => rw [DExpr.convert] at h; cases h; exact .other parts
theorem convertEntries_ok (specific : Bool) (acc : List (String × Def Leaf)) (es : List (Option String × DExpr))
    (ds : List (String × Def Leaf)) (h : convertEntries specific acc es = .ok ds) :
    ∃ ds', MeansEntries specific es ds' ∧ ds = ds'.foldl (fun m e => AList.set m e.1 e.2) acc := by
  match es, h with
  | [], h => rw [convertEntries] at h; cases h; exact ⟨[], .nil, rfl⟩
  | (none, e) :: rest, h => rw [convertEntries] at h; cases h
  | (some k, e) :: rest, h =>
    rw [convertEntries] at h
    cases he : e.convert specific with
    | error x => simp [he, bind, Except.bind] at h
    | ok d =>
      simp only [he, bind, Except.bind] at h
      obtain ⟨ds', h1, h2⟩ := convertEntries_ok specific _ rest ds h
      exact ⟨(k, d) :: ds', .cons k e d rest ds' (convert_ok specific e d he) h1, h2⟩
theorem convertItems_ok (specific : Bool) (xs : List DExpr) (ds : List (Def Leaf)) (h : convertItems specific xs = .ok ds) :
    MeansItems specific xs ds := by
  match xs, h with
  | [], h => rw [convertItems] at h; cases h; exact .nil
  | e :: rest, h =>
    rw [convertItems] at h
    cases he : e.convert specific with
    | error x => simp [he, bind, Except.bind] at h
    | ok d =>
      simp only [he, bind, Except.bind] at h
      cases hr : convertItems specific rest with
      | error x => simp [hr] at h
      | ok ds' =>
        simp [hr, pure, Except.pure] at h
        subst h
        exact .cons e d rest ds' (convert_ok specific e d he) (convertItems_ok specific rest ds' hr)
end

mutual
theorem convert_means (specific : Bool) (e : DExpr) (d : Def Leaf) (h : Means specific e d) : e.convert specific = .ok d := by
  match e, h with
  | .dict es, .dict _ ds hd =>
    rw [DExpr.convert, convertEntries_means specific es ds hd [], ofList_items]
    rfl
  | .list xs, .list _ ds hd =>
    rw [DExpr.convert, convertItems_means specific xs ds hd]
    rfl
  | .str s, .str _ => rw [DExpr.convert]
  | .name id, .name _ => rw [DExpr.convert]
  | .other parts, .other _ => rw [DExpr.convert]
theorem convertEntries_means (specific : Bool) (es : List (Option String × DExpr)) (ds : List (String × Def Leaf))
    (h : MeansEntries specific es ds) (acc : List (String × Def Leaf)) :
    convertEntries specific acc es = .ok (ds.foldl (fun m e => AList.set m e.1 e.2) acc) := by
  match es, h with
  | [], .nil => rw [convertEntries]; rfl
  | (some k, e) :: rest, .cons _ _ d _ ds' h1 h2 =>
    rw [convertEntries, convert_means specific e d h1]
    exact convertEntries_means specific rest ds' h2 (AList.set acc k d)
theorem convertItems_means (specific : Bool) (xs : List DExpr) (ds : List (Def Leaf)) (h : MeansItems specific xs ds) :
    convertItems specific xs = .ok ds := by
  match xs, h with
  | [], .nil => rw [convertItems]
  | e :: rest, .cons _ d _ ds' h1 h2 =>
    rw [convertItems, convert_means specific e d h1, convertItems_means specific rest ds' h2]
    rfl
end

theorem collection_dict (specific : Bool) (a : DAssign) (es : List (Option String × DExpr)) (ds : List (String × Def Leaf))
    (hp : a.parts = [.dict es]) (hd : MeansEntries specific es ds) :
    a.collection specific = .ok (some (.dict (Dict.ofList ds).items)) := by
  unfold DAssign.collection
  rw [hp, allCollections, DExpr.collections, convert_means specific _ _ (.dict es ds hd), allCollections]
  rfl

/-! ## C69 -/

/-- C69. If all assignments of a file are to single names and one of them, without an annotation, is that of the definition to
a dictionary, then what is read is exactly this dictionary, whatever else is in the file (missing: assignments to attributes,
elements and tuples, see `C69_attribute_violated`, to several names, see `C69_chained_violated`, annotations, see
`C69_annotated_violated`, and `**`, see `C69_unpacked_violated`). -/
theorem C69_once_partial (specific : Bool) (stmts : List DStmt) (hplain : PlainAssigns stmts) (a : DAssign)
    (hone : (DStmt.allAssigns stmts).filter (fun b => decide (DAssign.target b = some (definitionName specific))) = [a])
    (es : List (Option String × DExpr)) (hv : a = .assign [some (definitionName specific)] (.dict es))
    (ds : List (String × Def Leaf)) (hd : MeansEntries specific es ds) :
    readDefinition specific (some stmts) = .ok (some (.dict (Dict.ofList ds).items)) := by
  rw [read_plain specific stmts hplain, hone]
  simp only
  exact collection_dict specific a es ds (by rw [hv]; rfl) hd

/-- C69. A file that does not assign the definition of functions defines nothing, as does no file; if the definition is assigned
several times, this is a `ValueError`. -/
theorem C69_none_or_several (specific : Bool) (stmts : List DStmt) (hplain : PlainAssigns stmts) :
    readDefinition false none = .ok (some (.dict [])) ∧
    ((∀ a, AssignedIn a stmts → DAssign.target a ≠ some "pipeline_dict") →
      readDefinition false (some stmts) = .ok (some (.dict []))) ∧
    (∀ a b l, (DStmt.allAssigns stmts).filter (fun c => decide (DAssign.target c = some (definitionName specific))) =
      a :: b :: l → readDefinition specific (some stmts) = .error .valueError) := by
  refine ⟨rfl, fun h => ?_, fun a b l h => ?_⟩
  · rw [read_plain false stmts hplain]
    have : (DStmt.allAssigns stmts).filter (fun a => decide (DAssign.target a = some (definitionName false))) = [] := by
      rw [List.filter_eq_nil_iff]
      intro a ha
      simpa [definitionName] using h a ((assignedIn_iff a stmts).2 ha)
    rw [this]
    rfl
  · rw [read_plain specific stmts hplain, h]

/-- C69. If a file is read at all, all its assignments are to single names, and either there is none of the definition, and the
definition is empty, or exactly one, and what is read is the only dictionary or list in it that is not inside of another one
(`None`, if there is none). -/
theorem C69_sound (specific : Bool) (stmts : List DStmt) (r : Option (Def Leaf))
    (h : readDefinition specific (some stmts) = .ok r) :
    PlainAssigns stmts ∧
    (((∀ a, AssignedIn a stmts → DAssign.target a ≠ some (definitionName specific)) ∧ specific = false ∧ r = some (.dict [])) ∨
      ∃ a, (DStmt.allAssigns stmts).filter (fun b => decide (DAssign.target b = some (definitionName specific))) = [a] ∧
        allCollections specific a.parts = .ok r.toList) := by
  have hplain : PlainAssigns stmts := by
    have key : ∀ (x : String) (as l : List DAssign), checkAll as = .ok () → assignsTo x as = .ok l →
        ∀ a ∈ as, (DAssign.target a).isSome = true := by
      intro x as
      induction as with
      | nil => intro l _ _ a ha; cases ha
      | cons b as ih =>
        intro l h1 h2 a ha
        rw [checkAll] at h1
        rw [assignsTo] at h2
        cases hb : b.check with
        | error e => simp [hb, bind, Except.bind] at h1
        | ok u =>
          simp only [hb, bind, Except.bind] at h1
          cases ht : b.isTo x with
          | error e => simp [ht, bind, Except.bind] at h2
          | ok t =>
            have h3 : ∃ l', assignsTo x as = .ok l' := by
              cases hl : assignsTo x as with
              | ok l' => exact ⟨l', rfl⟩
              | error e => cases t <;> simp [ht, hl, hb, bind, Except.bind] at h2
            obtain ⟨l', hl'⟩ := h3
            rcases List.mem_cons.1 ha with rfl | ha
            · cases a with
              | assign ts v =>
                match ts, hb, ht with
                | [], hb, _ => cases hb
                | [some t], _, _ => rfl
                | [none], _, ht => cases ht
                | _ :: _ :: _, hb, _ => cases hb
              | ann t n v =>
                cases t with
                | none => cases ht
                | some t => rfl
            · exact ih l' h1 hl' a ha
    intro a ha
    unfold readDefinition assignTo at h
    simp only [bind, Except.bind] at h
    cases h1 : checkAll (DStmt.allAssigns stmts) with
    | error e => simp [h1] at h
    | ok u =>
      simp only [h1] at h
      cases h2 : assignsTo (definitionName specific) (DStmt.allAssigns stmts) with
      | error e => simp [h2] at h
      | ok l => exact key _ _ l h1 h2 a ((assignedIn_iff a stmts).1 ha)
  refine ⟨hplain, ?_⟩
  rw [read_plain specific stmts hplain] at h
  match hf : (DStmt.allAssigns stmts).filter (fun a => decide (DAssign.target a = some (definitionName specific))) with
  | [] =>
    rw [hf] at h
    left
    cases specific with
    | true => cases h
    | false =>
      cases h
      refine ⟨fun a ha => ?_, rfl, rfl⟩
      have := List.filter_eq_nil_iff.1 hf a ((assignedIn_iff a stmts).1 ha)
      simpa using this
  | [a] =>
    rw [hf] at h
    right
    refine ⟨a, rfl, ?_⟩
    simp only at h
    unfold DAssign.collection at h
    cases hc : allCollections specific a.parts with
    | error e => simp [hc, bind, Except.bind] at h
    | ok l =>
      match l, hc with
      | [], hc => simp [hc, bind, Except.bind, pure, Except.pure] at h; subst h; rfl
      | [d], hc => simp [hc, bind, Except.bind, pure, Except.pure] at h; subst h; rfl
      | _ :: _ :: _, hc => simp [hc, bind, Except.bind] at h
  | _ :: _ :: _ => rw [hf] at h; cases h

theorem checkAll_chained (as : List DAssign) (a : DAssign) (ha : a ∈ as) (h : a.check ≠ .ok ()) :
    checkAll as = .error .notImplemented := by
  have hc : ∀ b : DAssign, b.check = .ok () ∨ b.check = .error .notImplemented := by
    intro b
    cases b with
    | assign ts v =>
      match ts with
      | [] => exact .inr rfl
      | [t] => exact .inl rfl
      | _ :: _ :: _ => exact .inr rfl
    | ann t n v => exact .inl rfl
  induction as with
  | nil => cases ha
  | cons b as ih =>
    rw [checkAll]
    rcases hc b with hb | hb
    · rw [hb]
      rcases List.mem_cons.1 ha with rfl | ha
      · exact absurd hb h
      · exact ih ha
    · rw [hb]
      rfl

theorem assignsTo_error (x : String) (as : List DAssign) (h : ∀ a ∈ as, a.check = .ok ()) (e : PyErr)
    (he : assignsTo x as = .error e) : e = .attributeError := by
  induction as with
  | nil => cases he
  | cons b as ih =>
    rw [assignsTo] at he
    have hb := h b (by simp)
    cases ht : b.isTo x with
    | error e' =>
      simp only [ht, bind, Except.bind] at he
      cases he
      cases b with
      | assign ts v =>
        rw [DAssign.isTo] at ht
        split at ht
        · cases ht; rfl
        · cases ht
      | ann t n v =>
        cases t with
        | none => cases ht; rfl
        | some t => cases ht
    | ok t =>
      cases hl : assignsTo x as with
      | error e' =>
        have hee : e' = e := by
          cases t <;> simpa [ht, hb, hl, bind, Except.bind, pure, Except.pure] using he
        exact ih (fun a ha => h a (by simp [ha])) (hee ▸ hl)
      | ok l => cases t <;> simp [ht, hb, hl, bind, Except.bind, pure, Except.pure] at he

/-- C69 fails for a file with an assignment to several names (`a = b = 1`), anywhere in the file: it is rejected with a
`NotImplementedError`, whatever the definition is. -/
theorem C69_chained_violated (specific : Bool) (stmts : List DStmt) (ts : List (Option String)) (v : DExpr)
    (hts : ts.length ≠ 1) (h : AssignedIn (.assign ts v) stmts) :
    readDefinition specific (some stmts) = .error .notImplemented := by
  unfold readDefinition
  simp only [bind, Except.bind]
  rw [checkAll_chained _ _ ((assignedIn_iff _ _).1 h) (by
    match ts, hts with
    | [], _ => exact fun h => by cases h
    | [_], hts => exact absurd rfl hts
    | _ :: _ :: _, _ => exact fun h => by cases h)]

/-- C69 fails for a file with an assignment to an attribute, an element or a tuple, anywhere in the file: it is rejected with an
`AttributeError`, whatever the definition is. -/
theorem C69_attribute_violated (specific : Bool) (stmts : List DStmt) (a : DAssign)
    (hone : ∀ b, AssignedIn b stmts → b.check = .ok ()) (h : AssignedIn a stmts) (ha : DAssign.target a = none) :
    readDefinition specific (some stmts) = .error .attributeError := by
  cases hr : readDefinition specific (some stmts) with
  | ok r =>
    have := (C69_sound specific stmts r hr).1 _ h
    rw [ha] at this
    cases this
  | error e =>
    have h1 : checkAll (DStmt.allAssigns stmts) = .ok () := by
      have : ∀ as : List DAssign, (∀ b ∈ as, b.check = .ok ()) → checkAll as = .ok () := by
        intro as has
        induction as with
        | nil => rfl
        | cons b as ih => rw [checkAll, has b (by simp)]; exact ih (fun c hc => has c (by simp [hc]))
      exact this _ (fun b hb => hone b ((assignedIn_iff b stmts).2 hb))
    cases hl : assignsTo (definitionName specific) (DStmt.allAssigns stmts) with
    | error e' =>
      have := assignsTo_error _ _ (fun b hb => hone b ((assignedIn_iff b stmts).2 hb)) e' hl
      unfold readDefinition assignTo at hr
      simp only [h1, hl, bind, Except.bind] at hr
      cases hr
      rw [this]
    | ok l =>
      exfalso
      have key : ∀ (x : String) (as l : List DAssign), assignsTo x as = .ok l → ∀ b ∈ as, b.check = .ok () →
          (DAssign.target b).isSome = true := by
        intro x as
        induction as with
        | nil => intro l _ b hb; cases hb
        | cons c as ih =>
          intro l hl b hb hbc
          rw [assignsTo] at hl
          cases ht : c.isTo x with
          | error e => simp [ht, bind, Except.bind] at hl
          | ok t =>
            rcases List.mem_cons.1 hb with rfl | hb
            · cases b with
              | assign ts v =>
                match ts, hbc, ht with
                | [], hbc, _ => cases hbc
                | [some t], _, _ => rfl
                | [none], _, ht => cases ht
                | _ :: _ :: _, hbc, _ => cases hbc
              | ann t n v =>
                cases t with
                | none => cases ht
                | some t => rfl
            · cases hl' : assignsTo x as with
              | ok l' => exact ih l' hl' b hb hbc
              | error e =>
                cases t <;> simp [ht, hl', bind, Except.bind] at hl
                cases hcc : c.check <;> simp [hcc] at hl
      have := key _ _ l hl a ((assignedIn_iff a stmts).1 h) (hone a h)
      rw [ha] at this
      cases this

/-! ### Concrete files -/

/-- `pipeline_dict = {'a': [f]}` -/
def toyAssign : DAssign := .assign [some "pipeline_dict"] (.dict [(some "a", .list [.name "f"])])

/-- What it means. -/
def toyMeaning : Def Leaf := .dict [("a", .list [.leaf (.name "f")])]

/-- The hypotheses of `C69_once_partial` are met by a file with further statements. -/
example : PlainAssigns [.other, .assign (.ann (some "x") (.name "int") none), .assign toyAssign] ∧
    (DStmt.allAssigns [.other, .assign (.ann (some "x") (.name "int") none), .assign toyAssign]).filter
      (fun b => decide (DAssign.target b = some (definitionName false))) = [toyAssign] ∧
    MeansEntries false [(some "a", .list [.name "f"])] [("a", .list [.leaf (.name "f")])] := by
  refine ⟨fun a ha => ?_, ?_, ?_⟩
  · rw [assignedIn_iff] at ha
    simp only [DStmt.allAssigns, DStmt.assigns, List.nil_append, List.cons_append, List.mem_cons, List.not_mem_nil, or_false] at ha
    rcases ha with rfl | rfl <;> rfl
  · simp [DStmt.allAssigns, DStmt.assigns, DAssign.target, toyAssign, definitionName]
  · exact .cons _ _ _ _ _ (.list _ _ (.cons _ _ _ _ (.name _) .nil)) .nil

/-- C69 fails for an annotation with a list in it (`pipeline_dict: Callable[[int], str] = {…}`): a `ValueError`; and for an
annotation without a value, and for anything without a dictionary or a list: `None` is read, and loading fails. -/
theorem C69_annotated_violated (resolve : Leaf → Except PyErr (String × Callable V)) :
    readDefinition false (some [.assign (.ann (some "pipeline_dict") (.other [.name "Callable", .list [.name "int"]])
      (some (.dict [])))]) = .error .valueError ∧
    readDefinition false (some [.assign (.ann (some "pipeline_dict") (.name "dict") none)]) = .ok none ∧
    readDefinition false (some [.assign (.assign [some "pipeline_dict"] (.name "other_dict"))]) = .ok none ∧
    loadDefinition resolve false (some [.assign (.assign [some "pipeline_dict"] (.name "other_dict"))]) =
      .error .attributeError := by
  refine ⟨?_, ?_, ?_, ?_⟩ <;> rfl

/-- C69 fails for a dictionary with `**` in it: an `AttributeError`. -/
theorem C69_unpacked_violated :
    readDefinition false (some [.assign (.assign [some "pipeline_dict"]
      (.dict [(none, .name "base"), (some "a", .list [.name "f"])]))]) = .error .attributeError := by
  rfl

/-- C69 fails for a variable of the same name in a function: its value is taken for the definition. -/
theorem C69_nested_violated :
    readDefinition false (some [.block [.assign toyAssign]]) = .ok (some toyMeaning) ∧
    readDefinition false (some [.block [.assign toyAssign], .assign toyAssign]) = .error .valueError := by
  refine ⟨?_, ?_⟩ <;> rfl

/-- C69 fails for a definition made by a call: the dictionary among its arguments is taken for the definition, whatever the call
does with it, and a list for what is no definition; several dictionaries are a `ValueError`. -/
theorem C69_call_violated :
    readDefinition false (some [.assign (.assign [some "pipeline_dict"]
      (.other [.name "without_a", .dict [(some "a", .list [.name "f"])]]))]) = .ok (some toyMeaning) ∧
    readDefinition false (some [.assign (.assign [some "pipeline_dict"]
      (.other [.name "dict", .list [.name "f"]]))]) = .ok (some (.list [.leaf (.name "f")])) ∧
    readDefinition false (some [.assign (.assign [some "pipeline_dict"]
      (.other [.name "merge", .dict [], .dict []]))]) = .error .valueError := by
  refine ⟨?_, ?_, ?_⟩ <;> rfl

/-- C69 fails for specific classes without a file, or with one that does not assign `class_dict`: an `AttributeError`, where
the definition of functions is empty. -/
theorem C69_specific_violated (stmts : List DStmt) (hplain : PlainAssigns stmts)
    (h : ∀ a, AssignedIn a stmts → DAssign.target a ≠ some "class_dict") :
    readDefinition true none = .error .attributeError ∧ readDefinition true (some stmts) = .error .attributeError := by
  refine ⟨rfl, ?_⟩
  rw [read_plain true stmts hplain]
  have : (DStmt.allAssigns stmts).filter (fun a => decide (DAssign.target a = some (definitionName true))) = [] := by
    rw [List.filter_eq_nil_iff]
    intro a ha
    simpa [definitionName] using h a ((assignedIn_iff a stmts).2 ha)
  rw [this]
  rfl

end Verif.Props

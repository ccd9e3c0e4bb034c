import Verif.Props.Listing
import Verif.Props.Reserved
import Verif.Props.ViewType

/-
Property theorems about what is offered for completion for items: C86.
-/

namespace Verif.Props
open Verif.Py Verif.Model

variable {V : Type}

/-! ### Lemmas -/

theorem selected_item {sel : Sel V} {m : String} {r : Registry V} (hm : AList.get? sel m = some r) (hd : DistinctClasses r)
    {p : List String} {k : Callable V} (hl : r.lookup p = .ok (.item k)) (hc : ∀ e ∈ r.specific, e.2.isColl = true) :
    ∃ c q, selCollection sel (m :: p) = .ok (some (c, q)) ∧ (Got.node c).get q = .ok (.node (.item k)) := by
  cases p with
  | nil => cases hl
  | cons x q =>
    rcases selected_of_lookup hm hd hl (by simp) with ⟨_, rfl, hx⟩ | h
    · exfalso
      rw [Registry.lookup] at hl
      cases hf : r.specific.find? (fun e => e.1 = x) with
      | some e =>
        rw [hf] at hl
        have := hc e (List.mem_of_find?_eq_some hf)
        obtain ⟨a, reg⟩ := e
        simp only [Except.ok.injEq] at hl
        rw [hl] at this
        cases this
      | none =>
        obtain ⟨e, he, hex⟩ := List.mem_map.1 hx
        have := List.find?_eq_none.1 hf e he
        simp [hex] at this
    · exact h

theorem selCollection_snoc {sel : Sel V} {m : String} {p : List String} {c : Reg V} {q : List String}
    (h : selCollection sel (m :: p) = .ok (some (c, q))) (x : String) :
    selCollection sel (m :: p ++ [x]) = .ok (some (c, q ++ [x])) := by
  rw [selCollection] at h
  rw [List.cons_append, selCollection]
  cases hm : AList.get? sel m with
  | none => rw [hm] at h; cases h
  | some r =>
    rw [hm] at h
    simp only at h ⊢
    cases p with
    | nil => cases h
    | cons y p =>
      rw [List.cons_append]
      simp only at h ⊢
      by_cases hy : y ∈ r.specific.map Prod.fst
      · rw [if_pos hy] at h ⊢
        cases p with
        | nil => cases h
        | cons z p =>
          rw [List.cons_append]
          simp only at h ⊢
          split at h <;> cases h
          rfl
      · rw [if_neg hy] at h ⊢
        split at h <;> cases h
        rfl

theorem got_below_item {k : Callable V} (q : List String) (x : String) : ∀ {g : Got V}, g.get q = .ok (.node (.item k)) →
    g.get (q ++ [x]) = .error .attributeError := by
  induction q with
  | nil =>
    intro g h
    cases h
    rfl
  | cons y q ih =>
    intro g h
    rw [Got.get] at h
    rw [List.cons_append, Got.get]
    cases hg : g.attr y with
    | error e => rw [hg] at h; cases h
    | ok g' =>
      rw [hg] at h
      exact ih h

/-- Nothing below an item is in the selector. -/
theorem below_item_not_contained {sel : Sel V} {m : String} {r : Registry V} (hm : AList.get? sel m = some r) (hd : DistinctClasses r)
    {p : List String} {k : Callable V} (hl : r.lookup p = .ok (.item k)) (hc : ∀ e ∈ r.specific, e.2.isColl = true) {path : String}
    (hp : (SectionPath.mk path).sections = m :: p) {x : String} (hx : hasChar '.' x = false) :
    selContains sel (path ++ "." ++ x) = .ok false := by
  obtain ⟨c, q, h1, h2⟩ := selected_item hm hd hl hc
  unfold selContains
  rw [sections_snoc hp hx, show m :: (p ++ [x]) = m :: p ++ [x] from rfl, selCollection_snoc h1 x]
  simp only
  rw [got_below_item q x h2]

theorem dirView_item {sel : Sel V} {m : String} {r : Registry V} (hm : AList.get? sel m = some r) (hd : DistinctClasses r)
    {p : List String} {k : Callable V} (hl : r.lookup p = .ok (.item k)) (hc : ∀ e ∈ r.specific, e.2.isColl = true) {path : String}
    (hp : (SectionPath.mk path).sections = m :: p) (other : Got V → List String) :
    dirView other sel path = .ok (pyDir (["type", "item"] ++ pyDir (other (.node (.item k))))) := by
  obtain ⟨c, q, h1, h2⟩ := selected_item hm hd hl hc
  unfold dirView dirForPath
  rw [hp, h1]
  simp only
  rw [h2]

/-- Reading a name that views do not have themselves, from the view of an item. -/
theorem viewGet_below_item {sel : Sel V} {own : Obj V → String → Except PyErr V} {path x : String} {s : VS V} (hx : x ∉ viewNames)
    (hn : selContains sel (path ++ "." ++ x) = .ok false) {o : Obj V} (hr : (realItem path s).1 = .ok (.got (.obj o))) :
    (viewGet sel own path x s).1 = (o.attr own x).map .value := by
  unfold viewGet
  rw [if_neg hx, hn]
  simp only
  rw [M.bind_run]
  cases h : realItem path s with
  | mk r s' =>
    rw [h] at hr
    simp only at hr
    rw [hr]
    simp only
    rw [M.bind_run, M.liftE_run]
    cases o.attr own x <;> rfl

/-- If the item cannot be had, nothing can be read from its view. -/
theorem viewGet_no_item {sel : Sel V} {own : Obj V → String → Except PyErr V} {path x : String} {s : VS V} (hx : x ∉ viewNames)
    (hn : selContains sel (path ++ "." ++ x) = .ok false) {e : PyErr} (hr : (realItem path s).1 = .error e) :
    (viewGet sel own path x s).1 = .error e := by
  unfold viewGet
  rw [if_neg hx, hn]
  simp only
  rw [M.bind_run]
  cases h : realItem path s with
  | mk r s' =>
    rw [h] at hr
    simp only at hr
    rw [hr]

/-- What the real item of the view of an item is. -/
theorem realItem_object [BEq V] {s : VS V} {path m : String} {p : List String} (hv : (SectionPath.mk path).sections = m :: p) {a : AS V}
    (ha : AList.get? s m = some a) (hclean : a.full = "") (hs : a.rs.Reachable) {k : Callable V} (hp : AttrItem a.rs.reg p k)
    (hpart : ∀ o, created a.rs p = some o → (o.isPartial = true ↔ k.kind = .func)) {r : AttrRes V} (hr : (realItem path s).1 = .ok r) :
    ∃ o, r = .got (.obj o) ∧ o.callable = k ∧ (o.isPartial = true ↔ k.kind = .func) := by
  rw [realItem_eq hv hp.sections.1 ha, C25_access_partial a hclean p k hp] at hr
  obtain ⟨g, hg, rfl⟩ := asAttr_got hr
  obtain ⟨o, rfl, h1, h2⟩ := got_object hs hp.registered hpart hg
  exact ⟨o, rfl, h1, h2⟩

/-! ## C86 -/

/-- What is listed for the view of an item: `type`, `item`, and for an object of a specific class what `dir` gives for the object as
it was before it was configured; for a function or a class what `dir` gives for the object that tells where to import it from. -/
theorem C86_item (dirs : Got V → List String) (sel : Sel V) (m : String) (r : Registry V) (hm : AList.get? sel m = some r)
    (hd : DistinctClasses r) (hc : ∀ e ∈ r.specific, e.2.isColl = true) (p : List String) (k : Callable V)
    (hl : r.lookup p = .ok (.item k)) (path : String) (hp : (SectionPath.mk path).sections = m :: p) :
    ∃ l, dirView (dirThing dirs) sel path = .ok l ∧ l.Pairwise (· ≤ ·) ∧ ∀ x, l.count x = once ["type", "item"] x +
      (if k.kind = .specific then (dirs (.node (.item k))).count x
        else once ["default_config", "from_ast_and_imports", "import_statement", "item", "load", "module", "name", "obj_ast",
          "output_name", "repr_cols", "section_path_str"] x) := by
  refine ⟨_, dirView_item hm hd hl hc hp _, pyDir_sorted _, fun x => ?_⟩
  rw [pyDir_count, List.count_append, pyDir_count, count_nodup (by decide)]
  congr 1
  rw [dirThing]
  by_cases hk : k.kind = .specific
  · rw [if_pos hk, if_pos hk]
  · rw [if_neg hk, if_neg hk, count_nodup (by decide)]
    have := subset_iff (x := x) (as := objectViewNames) (bs := ["default_config", "from_ast_and_imports", "import_statement", "item", "load", "module",
      "name", "obj_ast", "output_name", "repr_cols", "section_path_str"]) (by decide) (by decide)
    unfold once
    simp only [this]

/-- The names listed for the view of an object of a specific class can be followed, in every state reached by calls of the manager,
if its attributes are still there after it has been configured and the item can be had at all (missing: functions and classes, below). -/
theorem C86_item_usable_partial [BEq V] (dirs : Got V → List String) (sel : Sel V) (own : Obj V → String → Except PyErr V) (s : VS V)
    (path m : String) (p : List String) (hv : (SectionPath.mk path).sections = m :: p) (a : AS V) (ha : AList.get? s m = some a)
    (hclean : a.full = "") (hs : a.rs.Reachable) (hsel : AList.get? sel m = some a.rs.reg) (hd : DistinctClasses a.rs.reg)
    (hc : ∀ e ∈ a.rs.reg.specific, e.2.isColl = true) (k : Callable V) (hp : AttrItem a.rs.reg p k) (hk : k.kind = .specific)
    (hpart : ∀ o, created a.rs p = some o → o.isPartial = false) (r : AttrRes V) (hr : (realItem path s).1 = .ok r)
    (hkeep : ∀ o x, o.callable = k → x ∈ dirs (.node (.item k)) → ∃ v, own o x = .ok v) (l : List String)
    (hll : dirView (dirThing dirs) sel path = .ok l) (x : String) (hx : x ∈ l) (hdot : hasChar '.' x = false) :
    ((viewGet sel own path x s).1 = .ok .own ∧ x ∈ viewNames) ∨
    ∃ o v, r = .got (.obj o) ∧ own o x = .ok v ∧ (viewGet sel own path x s).1 = .ok (.value v) := by
  by_cases hxv : x ∈ viewNames
  · left
    refine ⟨?_, hxv⟩
    unfold viewGet
    rw [if_pos hxv]
    rfl
  · right
    obtain ⟨o, rfl, h1, h2⟩ := realItem_object hv ha hclean hs hp (fun o ho => by simp [hpart o ho, hk]) hr
    have hnp : o.isPartial = false := by
      cases h : o.isPartial with
      | false => rfl
      | true => have := h2.1 h; rw [hk] at this; cases this
    rw [dirView_item hsel hd hp.registered hc hv] at hll
    cases hll
    rw [pyDir_mem, List.mem_append, pyDir_mem, dirThing, if_pos hk] at hx
    have hmem : x ∈ dirs (.node (.item k)) := by
      rcases hx with h | h
      · exfalso
        apply hxv
        simp only [List.mem_cons, List.not_mem_nil, or_false] at h
        rcases h with rfl | rfl <;> decide
      · exact h
    obtain ⟨v, hov⟩ := hkeep o x h1 hmem
    refine ⟨o, v, rfl, hov, ?_⟩
    rw [viewGet_below_item hxv (below_item_not_contained hsel hd hp.registered hc hv hdot) hr, Obj.attr, if_neg (by simp [hnp]), hov]
    rfl

/-- C86 does not hold for functions: names are listed for the view of every function that cannot be read from it; in every state
reached by calls of the manager. -/
theorem C86_function_violated [BEq V] (dirs : Got V → List String) (sel : Sel V) (own : Obj V → String → Except PyErr V) (s : VS V)
    (path m : String) (p : List String) (hv : (SectionPath.mk path).sections = m :: p) (a : AS V) (ha : AList.get? s m = some a)
    (hclean : a.full = "") (hs : a.rs.Reachable) (hsel : AList.get? sel m = some a.rs.reg) (hd : DistinctClasses a.rs.reg)
    (hc : ∀ e ∈ a.rs.reg.specific, e.2.isColl = true) (k : Callable V) (hp : AttrItem a.rs.reg p k) (hk : k.kind = .func)
    (hpart : ∀ o, created a.rs p = some o → o.isPartial = true) (x : String)
    (hx : x ∈ ["default_config", "from_ast_and_imports", "import_statement", "load", "module", "name", "obj_ast", "output_name",
      "repr_cols"]) :
    (∃ l, dirView (dirThing dirs) sel path = .ok l ∧ x ∈ l) ∧ (∀ v, (viewGet sel own path x s).1 ≠ .ok v) ∧
    (∀ r, (realItem path s).1 = .ok r → (viewGet sel own path x s).1 = .error .attributeError) := by
  have hall : ∀ x ∈ ["default_config", "from_ast_and_imports", "import_statement", "load", "module", "name", "obj_ast", "output_name",
      "repr_cols"], (x ∉ viewNames ∧ hasChar '.' x = false) ∧ x ∉ partialAttrs ∧ x ∈ objectViewNames := by decide +kernel
  obtain ⟨⟨hxv, hxd⟩, hxp, hxo⟩ := hall x hx
  have hn := below_item_not_contained hsel hd hp.registered hc hv hxd
  have hreal : ∀ r, (realItem path s).1 = .ok r → (viewGet sel own path x s).1 = .error .attributeError := by
    intro r hr
    obtain ⟨o, rfl, h1, h2⟩ := realItem_object hv ha hclean hs hp (fun o ho => by simp [hpart o ho, hk]) hr
    rw [viewGet_below_item hxv hn hr, Obj.attr, if_pos ⟨h2.2 hk, hxp⟩]
    rfl
  refine ⟨⟨_, dirView_item hsel hd hp.registered hc hv _, ?_⟩, fun v h => ?_, hreal⟩
  · rw [pyDir_mem, List.mem_append, pyDir_mem, dirThing, hk, if_neg (by decide)]
    exact Or.inr hxo
  · cases hri : (realItem path s).1 with
    | error e => rw [viewGet_no_item hxv hn hri] at h; cases h
    | ok r => rw [hreal r hri] at h; cases h

/-- C86 does not hold for classes: what can be read from the view of a class, an attribute of the object it is configured to make, is
not listed, unless it happens to be called like one of the few names listed for all of them. -/
theorem C86_class_violated [BEq V] (dirs : Got V → List String) (sel : Sel V) (own : Obj V → String → Except PyErr V) (s : VS V)
    (path m : String) (p : List String) (hv : (SectionPath.mk path).sections = m :: p) (a : AS V) (ha : AList.get? s m = some a)
    (hclean : a.full = "") (hs : a.rs.Reachable) (hsel : AList.get? sel m = some a.rs.reg) (hd : DistinctClasses a.rs.reg)
    (hc : ∀ e ∈ a.rs.reg.specific, e.2.isColl = true) (k : Callable V) (hp : AttrItem a.rs.reg p k) (hk : k.kind = .klass)
    (hpart : ∀ o, created a.rs p = some o → o.isPartial = false) (o : Obj V) (hr : (realItem path s).1 = .ok (.got (.obj o)))
    (x : String) (hdot : hasChar '.' x = false) (hxv : x ∉ viewReserved) (v : V) (hov : own o x = .ok v)
    (hx : x ∉ ["default_config", "from_ast_and_imports", "import_statement", "load", "module", "name", "obj_ast", "output_name",
      "repr_cols"]) :
    (∃ l, dirView (dirThing dirs) sel path = .ok l ∧ x ∉ l) ∧ (viewGet sel own path x s).1 = .ok (.value v) := by
  constructor
  · refine ⟨_, dirView_item hsel hd hp.registered hc hv _, ?_⟩
    rw [pyDir_mem, List.mem_append, pyDir_mem, dirThing, hk, if_neg (by decide)]
    rintro (h | h)
    · apply hxv
      simp only [List.mem_cons, List.not_mem_nil, or_false] at h
      rcases h with rfl | rfl <;> decide
    · have hall : ∀ x ∈ objectViewNames, x ∈ viewReserved ∨ x ∈ ["default_config", "from_ast_and_imports", "import_statement", "load",
          "module", "name", "obj_ast", "output_name", "repr_cols"] := by decide +kernel
      rcases hall x h with h | h
      · exact hxv h
      · exact hx h
  · obtain ⟨o', ho, h1, h2⟩ := realItem_object hv ha hclean hs hp (fun o ho => by simp [hpart o ho, hk]) hr
    cases ho
    have hnp : o.isPartial = false := by
      cases h : o.isPartial with
      | false => rfl
      | true => have := h2.1 h; rw [hk] at this; cases this
    rw [viewGet_below_item hxv (below_item_not_contained hsel hd hp.registered hc hv hdot) hr, Obj.attr, if_neg (by simp [hnp]), hov]
    rfl

/-! ### Examples -/

/-- Listings of the demo project: a function, and a class; nothing of them is listed but what is listed for all of them. -/
example : dirView (dirThing fun _ => []) (managersSel (smallManagers demoFunc)) "pm.f" =
      .ok ["default_config", "from_ast_and_imports", "import_statement", "item", "item", "load", "module", "name", "obj_ast",
        "output_name", "repr_cols", "section_path_str", "type"] ∧
    dirView (dirThing fun _ => []) (managersSel (smallManagers demoClass)) "pm.f" =
      dirView (dirThing fun _ => []) (managersSel (smallManagers demoFunc)) "pm.f" := by
  refine ⟨?_, ?_⟩ <;> decide +kernel

/-- Nothing below a function is found in the selector, and its `load` cannot be read. -/
example : let s := smallManagers demoFunc
    selContains (managersSel s) "pm.f.load" = .ok false ∧
    (viewGet (managersSel s) (fun _ _ => .ok 5) "pm.f" "load" s).1.toOption.isNone = true := by
  refine ⟨?_, ?_⟩ <;> decide +kernel

/-- The hypotheses of the theorems about functions and classes are met, and the item can be had. -/
example : (let s := smallManagers demoFunc
    ∃ a, AList.get? s "pm" = some a ∧ a.full = "" ∧ AList.get? (managersSel s) "pm" = some a.rs.reg ∧ a.rs.Reachable ∧
      DistinctClasses a.rs.reg ∧ (∀ e ∈ a.rs.reg.specific, e.2.isColl = true) ∧ AttrItem a.rs.reg ["f"] demoFunc ∧
      created a.rs ["f"] = none ∧ (realItem "pm.f" s).1.toOption.isSome = true) ∧
    (let s := smallManagers demoClass
    ∃ a, AList.get? s "pm" = some a ∧ a.full = "" ∧ AList.get? (managersSel s) "pm" = some a.rs.reg ∧ a.rs.Reachable ∧
      DistinctClasses a.rs.reg ∧ (∀ e ∈ a.rs.reg.specific, e.2.isColl = true) ∧ AttrItem a.rs.reg ["f"] demoClass ∧
      created a.rs ["f"] = none ∧ (realItem "pm.f" s).1.toOption.isSome = true) :=
  ⟨⟨_, rfl, rfl, rfl, smallRunner_reachable _, ⟨by decide, by decide⟩, by decide, smallItem _, rfl, by decide +kernel⟩,
    ⟨_, rfl, rfl, rfl, smallRunner_reachable _, ⟨by decide, by decide⟩, by decide, smallItem _, rfl, by decide +kernel⟩⟩

/-- A registered object of a specific class, whose own names are listed. -/
example (k : Callable Nat) (hk : k.kind = .specific) :
    let r : Registry Nat :=
      { general := .coll false [], specific := [("data", .coll true [("x", .item k)])] }
    r.lookup ["data", "x"] = .ok (.item k) ∧ DistinctClasses r ∧
    dirView (dirThing fun _ => ["cost", "name"]) [("pm", r)] "pm.data.x" = .ok ["cost", "item", "name", "type"] := by
  intro r
  have hl : r.lookup ["data", "x"] = .ok (.item k) := rfl
  have hd : DistinctClasses r := ⟨by simp [r], by simp [r]⟩
  refine ⟨hl, hd, ?_⟩
  rw [dirView_item (sel := [("pm", r)]) (m := "pm") rfl hd hl (fun e he => by rw [List.mem_singleton.1 he]; rfl) (by decide +kernel), dirThing, if_pos hk]
  decide +kernel

end Verif.Props

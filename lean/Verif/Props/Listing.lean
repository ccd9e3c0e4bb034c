import Verif.Model.Listing
import Verif.Props.ItemView
import Verif.Props.Selector

/-
Property theorems about what is offered for completion: C86.
-/

namespace Verif.Props
open Verif.Py Verif.Model

variable {V : Type}

/-! ### Specification -/

/-- There is a section at the path, with the given entries; the last entry with a name counts. -/
inductive SectionAt : Reg V → List String → List (String × Reg V) → Prop
  | here (b : Bool) (items : List (String × Reg V)) : SectionAt (.coll b items) [] items
  | child (b : Bool) (items : List (String × Reg V)) (x : String) (r : Reg V) (p : List String) (inner : List (String × Reg V)) :
      AList.get? items.reverse x = some r → SectionAt r p inner → SectionAt (.coll b items) (x :: p) inner

/-- A manager has a section at the path, or the collection of a specific class. -/
def HasSection (r : Registry V) : List String → List (String × Reg V) → Prop
  | [], _ => False
  | x :: q, inner =>
    if x ∈ r.specific.map Prod.fst then ∃ c, AList.get? r.specific.reverse x = some c ∧ SectionAt c q inner
    else SectionAt r.general (x :: q) inner

/-- How often a name is in a list of different names. -/
def once (names : List String) (x : String) : Nat := if x ∈ names then 1 else 0

/-! ### Lemmas -/

theorem insertName_perm (x : String) (l : List String) : (insertName x l).Perm (x :: l) := by
  induction l with
  | nil => exact .refl _
  | cons y l ih =>
    rw [insertName]
    split
    · exact .refl _
    · exact (ih.cons y).trans (.swap x y l)

theorem pyDir_perm (l : List String) : (pyDir l).Perm l := by
  induction l with
  | nil => exact .refl _
  | cons x l ih => exact (insertName_perm x _).trans (ih.cons x)

theorem pyDir_count (l : List String) (x : String) : (pyDir l).count x = l.count x := (pyDir_perm l).count_eq x

theorem pyDir_mem (l : List String) (x : String) : x ∈ pyDir l ↔ x ∈ l := (pyDir_perm l).mem_iff

theorem pyDir_sorted (l : List String) : (pyDir l).Pairwise (· ≤ ·) := by
  induction l with
  | nil => exact .nil
  | cons x l ih =>
    show (insertName x (pyDir l)).Pairwise (· ≤ ·)
    generalize pyDir l = k at ih
    clear l
    induction k with
    | nil => simp [insertName]
    | cons y k ih' =>
      rw [List.pairwise_cons] at ih
      rw [insertName]
      split
      · next h =>
        rw [List.pairwise_cons]
        refine ⟨fun z hz => ?_, List.pairwise_cons.2 ih⟩
        rcases List.mem_cons.1 hz with rfl | hz
        · exact h
        · exact String.le_trans h (ih.1 z hz)
      · next h =>
        rw [List.pairwise_cons]
        refine ⟨fun z hz => ?_, ih' ih.2⟩
        rcases List.mem_cons.1 ((insertName_perm x k).mem_iff.1 hz) with rfl | hz
        · exact (String.le_total y z).resolve_right h
        · exact ih.1 z hz

theorem nameDict_nodup (items : List (String × Reg V)) : ((Reg.nameDict items).map Prod.fst).Nodup := by
  have : ∀ (items acc : List (String × Reg V)), (acc.map Prod.fst).Nodup →
      ((items.foldl (fun (m : List (String × Reg V)) e => AList.set m e.1 e.2) acc).map Prod.fst).Nodup := by
    intro items
    induction items with
    | nil => exact fun _ h => h
    | cons e items ih => exact fun acc h => ih _ (AList.nodup_set h _ _)
  exact this items [] (by simp)

theorem nameDict_names (items : List (String × Reg V)) (x : String) :
    x ∈ (Reg.nameDict items).map Prod.fst ↔ x ∈ items.map Prod.fst := by
  rw [← AList.get?_isSome_iff, Reg.get?_nameDict, AList.get?_isSome_iff]
  simp

theorem count_nodup {l : List String} (h : l.Nodup) (x : String) : l.count x = once l x := by
  unfold once
  split
  · next hx => exact Nat.le_antisymm (List.nodup_iff_count.1 h x) (List.count_pos_iff.2 hx)
  · next hx => exact List.count_eq_zero.2 hx

theorem dirCollection_count (items : List (String × Reg V)) (x : String) :
    (dirCollection items).count x = once (items.map Prod.fst) x := by
  rw [dirCollection, pyDir_count, count_nodup (nameDict_nodup items)]
  unfold once
  by_cases h : x ∈ items.map Prod.fst
  · rw [if_pos h, if_pos ((nameDict_names items x).2 h)]
  · rw [if_neg h, if_neg (fun hc => h ((nameDict_names items x).1 hc))]

theorem dirCollection_mem (items : List (String × Reg V)) (x : String) : x ∈ dirCollection items ↔ x ∈ items.map Prod.fst := by
  rw [dirCollection, pyDir_mem, nameDict_names]

theorem sectionAt_get {c : Reg V} {p : List String} {inner : List (String × Reg V)} (h : SectionAt c p inner)
    (hp : ∀ x ∈ p, x ∉ collectionReserved) : ∃ b, (Got.node c).get p = .ok (.node (.coll b inner)) := by
  induction h with
  | here b items => exact ⟨b, rfl⟩
  | child b items x r p inner hx _ ih =>
    obtain ⟨b', hb'⟩ := ih (fun y hy => hp y (by simp [hy]))
    refine ⟨b', ?_⟩
    rw [Got.get, got_attr (hp x (by simp)), hx]
    exact hb'

theorem dirForPath_section {sel : Sel V} {m : String} {q : List String} {r : Registry V} (other : Got V → List String)
    (hm : AList.get? sel m = some r) (hg : "_general" ∉ r.specific.map Prod.fst) (hq : ∀ x ∈ q, x ∉ collectionReserved)
    {path : String} (hp : (SectionPath.mk path).sections = m :: q) {inner : List (String × Reg V)} (h : HasSection r q inner) :
    dirForPath other sel path = .ok (dirCollection inner) := by
  unfold dirForPath
  rw [hp]
  cases q with
  | nil => exact absurd h id
  | cons x q =>
    rw [HasSection] at h
    by_cases hx : x ∈ r.specific.map Prod.fst
    · rw [if_pos hx] at h
      obtain ⟨c, hc, hs⟩ := h
      obtain ⟨c', h1, h2⟩ := structure_specific hx
      rw [hc] at h1
      cases h1
      rw [selCollection, hm]
      simp only
      rw [if_pos hx]
      cases q with
      | nil =>
        cases hs
        simp only
        rw [hm]
        simp only
        rw [h2]
      | cons y q =>
        simp only
        rw [h2]
        simp only
        obtain ⟨b, hb⟩ := sectionAt_get hs (fun z hz => hq z (by simp [List.mem_cons.1 hz]))
        rw [hb]
    · rw [if_neg hx] at h
      obtain ⟨b, hb⟩ := sectionAt_get h hq
      rw [selCollection, hm]
      simp only
      rw [if_neg hx, structure_general hg]
      simp only
      rw [hb]

theorem sectionAt_child {c : Reg V} {p : List String} {inner : List (String × Reg V)} (h : SectionAt c p inner) (x : String)
    (hreal : ∀ e ∈ inner, e.2 ≠ .other) : SelRegistered c (p ++ [x]) ↔ x ∈ inner.map Prod.fst := by
  induction h with
  | here b items =>
    rw [List.nil_append]
    have hmem : x ∈ items.map Prod.fst ↔ (AList.get? items.reverse x).isSome = true := by
      rw [AList.get?_isSome_iff]
      simp
    rw [hmem]
    constructor
    · intro h
      cases h with
      | child _ _ _ r _ hr _ => rw [hr]; rfl
    · intro h
      cases hr : AList.get? items.reverse x with
      | none => rw [hr] at h; cases h
      | some r =>
        refine .child b items x r [] hr ?_
        have hin : (x, r) ∈ items := by simpa using AList.mem_of_get? hr
        cases r with
        | item k => exact .item k
        | coll b items => exact .coll b items
        | other => exact absurd rfl (hreal _ hin)
  | child b items y r p inner hy _ ih =>
    rw [← ih hreal]
    constructor
    · intro h
      cases h with
      | child _ _ _ r' _ hr h' =>
        rw [hy] at hr
        cases hr
        exact h'
    · exact fun h => .child b items y r _ hy h

theorem hasSection_child {r : Registry V} {q : List String} {inner : List (String × Reg V)} (h : HasSection r q inner) (x : String)
    (hreal : ∀ e ∈ inner, e.2 ≠ .other) : HasItem r (q ++ [x]) ↔ x ∈ inner.map Prod.fst := by
  cases q with
  | nil => exact absurd h id
  | cons y q =>
    rw [HasSection] at h
    rw [List.cons_append, HasItem]
    by_cases hy : y ∈ r.specific.map Prod.fst
    · rw [if_pos hy] at h ⊢
      obtain ⟨c, hc, hs⟩ := h
      rw [← sectionAt_child hs x hreal]
      constructor
      · rintro (h | ⟨c', hc', h⟩)
        · simp at h
        · rw [hc] at hc'
          cases hc'
          exact h
      · exact fun h => Or.inr ⟨c, hc, h⟩
    · rw [if_neg hy] at h ⊢
      exact sectionAt_child h x hreal

theorem sections_snoc {path m x : String} {q : List String} (hp : (SectionPath.mk path).sections = m :: q)
    (hx : hasChar '.' x = false) : (SectionPath.mk (path ++ "." ++ x)).sections = m :: (q ++ [x]) := by
  have hd := SectionPath.hasDot_sections (SectionPath.mk path)
  rw [hp] at hd
  have hj : path ++ "." ++ x = pathOf m (q ++ [x]) := by
    rw [show pathOf m (q ++ [x]) = pathOf m q ++ "." ++ x by simp [pathOf], pathOf_split path m q hp]
  rw [hj]
  refine sections_pathOf m _ (hd m (by simp)) (fun y hy => ?_)
  rcases List.mem_append.1 hy with h | h
  · exact hd y (by simp [h])
  · rw [List.mem_singleton] at h
    rw [h, hx]

theorem dirRegistrar_mem (items : List (String × Reg V)) (x : String) :
    x ∈ dirRegistrar items ↔ x ∈ registrarExposed ∨ x ∈ items.map Prod.fst := by
  rw [dirRegistrar, pyDir_mem, List.mem_append, List.mem_filter, dirCollection_mem]
  simp only [decide_eq_true_eq]
  constructor
  · rintro (h | h)
    · exact Or.inl h
    · exact Or.inr h.1
  · rintro (h | h)
    · exact Or.inl h
    · by_cases hx : x ∈ registrarExposed
      · exact Or.inl hx
      · exact Or.inr ⟨h, hx⟩

/-! ## C86 -/

/-- What is listed for the view of a section: `type`, `item`, and every name that is registered in the section once, in
alphabetical order. -/
theorem C86_section (other : Got V → List String) (sel : Sel V) (m : String) (q : List String) (r : Registry V)
    (hm : AList.get? sel m = some r) (hg : "_general" ∉ r.specific.map Prod.fst) (hq : ∀ x ∈ q, x ∉ collectionReserved)
    (path : String) (hp : (SectionPath.mk path).sections = m :: q) (inner : List (String × Reg V)) (h : HasSection r q inner) :
    ∃ l, dirView other sel path = .ok l ∧ l.Pairwise (· ≤ ·) ∧
      ∀ x, l.count x = once ["type", "item"] x + once (inner.map Prod.fst) x := by
  refine ⟨pyDir (["type", "item"] ++ dirCollection inner), ?_, pyDir_sorted _, fun x => ?_⟩
  · unfold dirView
    rw [dirForPath_section other hm hg hq hp h]
  · rw [pyDir_count, List.count_append, dirCollection_count, count_nodup (by decide)]

/-- The names listed for the view of a section are those that can be followed to a view; for names that are not attributes of
collections or of views (missing: those, below), and sections of items and sections. -/
theorem C86_usable_partial (other : Got V → List String) (sel : Sel V) (real : RealAttr) (m : String) (q : List String)
    (r : Registry V) (hm : AList.get? sel m = some r) (hg : "_general" ∉ r.specific.map Prod.fst)
    (hq : ∀ x ∈ q, x ∉ collectionReserved) (path : String) (hp : (SectionPath.mk path).sections = m :: q)
    (inner : List (String × Reg V)) (h : HasSection r q inner) (hreal : ∀ e ∈ inner, e.2 ≠ .other) (l : List String)
    (hl : dirView other sel path = .ok l) (x : String) (hxc : x ∉ collectionReserved) (hxv : x ∉ viewReserved)
    (hxd : hasChar '.' x = false) :
    x ∈ l ↔ SelView.attr sel real (.view path) x = .ok (.view (path ++ "." ++ x)) := by
  obtain ⟨l', h1, _, h3⟩ := C86_section other sel m q r hm hg hq path hp inner h
  rw [hl] at h1
  cases h1
  have hty : x ∉ ["type", "item"] := fun hc => hxv (by
    simp only [List.mem_cons, List.not_mem_nil, or_false] at hc
    rcases hc with rfl | rfl <;> decide)
  have hmem : x ∈ l ↔ x ∈ inner.map Prod.fst := by
    have := h3 x
    rw [show once ["type", "item"] x = 0 from if_neg hty, Nat.zero_add] at this
    rw [← List.count_pos_iff, this]
    unfold once
    split <;> simp_all
  rw [hmem, ← hasSection_child h x hreal, SelView.attr, if_neg hxv]
  have hq' : ∀ y ∈ q ++ [x], y ∉ collectionReserved := by
    intro y hy
    rcases List.mem_append.1 hy with h | h
    · exact hq y h
    · rw [List.mem_singleton] at h
      rw [h]
      exact hxc
  rcases C52_contains_partial sel m (q ++ [x]) r hm hg hq' _ (sections_snoc hp hxd) with ⟨h1, h2⟩ | ⟨h1, h2⟩
  · rw [h1]
    exact ⟨fun _ => rfl, fun _ => h2⟩
  · rw [h1]
    simp only
    refine ⟨fun h => absurd h h2, fun h => ?_⟩
    split at h <;> cases h

/-- What is listed for the view of a manager: names of its methods, of its classes, and what the definition has at the top. -/
theorem C86_manager (other : Got V → List String) (sel : Sel V) (m : String) (r : Registry V) (hm : AList.get? sel m = some r)
    (path : String) (hp : (SectionPath.mk path).sections = [m]) (b : Bool) (items : List (String × Reg V))
    (hgen : r.general = .coll b items) :
    ∃ l, dirView other sel path = .ok l ∧ l.Pairwise (· ≤ ·) ∧ ∀ x, x ∈ l ↔
      x ∈ ["type", "item", "name", "run", "run_product", "run_product_gen", "get", "update", "load", "reload", "refresh", "reset"] ∨
      x ∈ r.specific.map Prod.fst ∨ (x ∈ items.map Prod.fst ∧ x ≠ "scaffold_config" ∧ x ≠ "basepath") := by
  unfold dirView dirForPath
  rw [hp, selCollection, hm]
  simp only
  rw [hm]
  simp only
  rw [dirManager, hgen]
  simp only
  refine ⟨_, rfl, pyDir_sorted _, fun x => ?_⟩
  rw [pyDir_mem, List.mem_append, pyDir_mem, List.mem_append, List.mem_filter, dirRegistrar_mem]
  simp only [decide_eq_true_eq, List.mem_append, not_or, managerExposed, managerSkips, registrarExposed, List.mem_cons,
    List.not_mem_nil, or_false]
  grind

/-- The names of specific classes are listed at least twice for their manager. -/
theorem C86_twice_violated (classNames : List String) (r : Registry V) (hc : r.specific.map Prod.fst = classNames) (l : List String)
    (hl : dirManager classNames (some r) = .ok l) (x : String) (hx : x ∈ classNames) : 2 ≤ l.count x := by
  rw [dirManager] at hl
  split at hl
  · cases hl
    rw [pyDir_count, List.count_append, List.count_append, List.count_append, hc, List.count_cons]
    have : 1 ≤ classNames.count x := List.count_pos_iff.2 hx
    omega
  · cases hl

/-- A manager that has not been loaded cannot be listed: a `TypeError`, although the code means to list its methods then. -/
theorem C86_unloaded_violated (classNames : List String) :
    dirManager classNames (none : Option (Registry V)) = .error .typeError := rfl

/-- Names of methods of collections can be followed from every section although they are not listed. -/
theorem C86_unlisted_violated (other : Got V → List String) (sel : Sel V) (real : RealAttr) (m : String) (q : List String)
    (r : Registry V) (hm : AList.get? sel m = some r) (hg : "_general" ∉ r.specific.map Prod.fst)
    (hq : ∀ x ∈ q, x ∉ collectionReserved) (path : String) (hp : (SectionPath.mk path).sections = m :: q)
    (inner : List (String × Reg V)) (h : HasSection r q inner) (x : String) (hx : x ∈ collectionMethods)
    (hn : x ∉ inner.map Prod.fst) :
    (∃ l, dirView other sel path = .ok l ∧ x ∉ l) ∧
    SelView.attr sel real (.view path) x = .ok (.view (path ++ "." ++ x)) := by
  have hxv : x ∉ viewReserved := (by decide : ∀ x ∈ collectionMethods, x ∉ viewReserved) x hx
  have hxc : x ∈ collectionReserved := (by decide : ∀ x ∈ collectionMethods, x ∈ collectionReserved) x hx
  have hxd : hasChar '.' x = false := (by decide +kernel : ∀ x ∈ collectionMethods, hasChar '.' x = false) x hx
  have hty : x ∉ ["type", "item"] := (by decide : ∀ x ∈ collectionMethods, x ∉ ["type", "item"]) x hx
  constructor
  · obtain ⟨l, h1, _, h3⟩ := C86_section other sel m q r hm hg hq path hp inner h
    refine ⟨l, h1, ?_⟩
    rw [← List.count_eq_zero, h3, once, once, if_neg hty, if_neg hn]
  · rw [SelView.attr, if_neg hxv]
    have hin : selContains sel (path ++ "." ++ x) = .ok true := by
      unfold selContains
      rw [sections_snoc hp hxd]
      have hget : ∀ {c : Reg V} {p : List String}, SectionAt c p inner → (∀ y ∈ p, y ∉ collectionReserved) →
          (Got.node c).get (p ++ [x]) = .ok .callable := by
        intro c p hs
        induction hs with
        | here b items =>
          intro _
          rw [List.nil_append, Got.get, Got.attr, if_pos hxc, if_pos (Or.inl hx)]
          rfl
        | child b items y r p inner hy _ ih =>
          intro hp'
          rw [List.cons_append, Got.get, got_attr (hp' y (by simp)), hy]
          exact ih ‹_› ‹_› (fun z hz => hp' z (by simp [hz]))
      cases q with
      | nil => exact absurd h id
      | cons y q =>
        rw [HasSection] at h
        rw [List.cons_append, selCollection, hm]
        simp only
        by_cases hy : y ∈ r.specific.map Prod.fst
        · rw [if_pos hy] at h ⊢
          obtain ⟨c, hc, hs⟩ := h
          obtain ⟨c', h1, h2⟩ := structure_specific hy
          rw [hc] at h1
          cases h1
          have := hget hs (fun z hz => hq z (by simp [hz]))
          cases q with
          | nil =>
            simp only [List.nil_append] at this ⊢
            rw [h2]
            simp only
            rw [this]
            rfl
          | cons z q =>
            simp only [List.cons_append] at this ⊢
            rw [h2]
            simp only
            rw [this]
            rfl
        · rw [if_neg hy] at h ⊢
          rw [structure_general hg]
          simp only
          have := hget h hq
          rw [List.cons_append] at this
          rw [this]
          rfl
    rw [hin]

/-- What is listed for a selector: `get_type` and the active managers. -/
theorem C86_selector (managers : List String) (x : String) :
    x ∈ dirSelector managers ↔ x = "get_type" ∨ x ∈ managers := by
  rw [dirSelector, pyDir_mem, List.mem_cons]

/-- The methods listed for the view of a manager cannot be used through it: reading one is an `AttributeError`, for every
manager in which no access is under way and in which nothing has the empty name. -/
theorem C86_methods_violated (other : Got V → List String) (sel : Sel V) (own : Obj V → String → Except PyErr V) (s : VS V) (m : String)
    (a : AS V) (ha : AList.get? s m = some a) (hclean : a.full = "") (hm : AList.get? sel m = some a.rs.reg)
    (hdot : hasChar '.' m = false) (hg : "_general" ∉ a.rs.reg.specific.map Prod.fst) (b : Bool) (items : List (String × Reg V))
    (hgen : a.rs.reg.general = .coll b items) (hempty : a.rs.reg.lookup [""] = .error .attributeError) (x : String)
    (hx : x ∈ ["run", "run_product", "run_product_gen", "update", "load", "reload", "refresh", "reset"])
    (hn : ¬ HasItem a.rs.reg [x]) :
    (∃ l, dirView other sel m = .ok l ∧ x ∈ l) ∧ (viewGet sel own m x s).1 = .error .attributeError := by
  have hp : (SectionPath.mk m).sections = [m] := split_plain hdot
  have hall : ∀ x ∈ ["run", "run_product", "run_product_gen", "update", "load", "reload", "refresh", "reset"],
      (x ∉ viewNames ∧ x ∉ collectionReserved) ∧ hasChar '.' x = false ∧ x ∈ ["type", "item", "name", "run", "run_product",
        "run_product_gen", "get", "update", "load", "reload", "refresh", "reset"] := by decide +kernel
  obtain ⟨⟨hxv, hxc⟩, hxd, hxl⟩ := hall x hx
  constructor
  · obtain ⟨l, h1, _, h3⟩ := C86_manager other sel m _ hm m hp b items hgen
    refine ⟨l, h1, (h3 x).2 (Or.inl hxl)⟩
  · unfold viewGet
    rw [if_neg hxv]
    have hs := sections_snoc hp hxd
    rcases C52_contains_partial sel m ([] ++ [x]) _ hm hg (fun y hy => by
        rw [List.nil_append, List.mem_singleton] at hy
        rw [hy]
        exact hxc) _ hs with ⟨_, h2⟩ | ⟨h1, _⟩
    · exact absurd h2 hn
    · rw [h1]
      simp only
      have hreal : (realItem m s).1 = .error .attributeError := by
        unfold realItem
        rw [hp]
        simp only
        have hb : belowManager [] = [""] := by decide +kernel
        rw [hb]
        unfold VM.on
        rw [ha]
        simp only
        show (AM.access [""] a).1 = _
        have he := C25_after_failed_access a hclean "" (by decide) (by decide) (by
          rw [show split '.' "" = [""] from by decide +kernel]
          exact hempty)
        rw [he.1]
      rw [M.bind_run]
      cases hri : realItem m s with
      | mk r s' =>
        rw [hri] at hreal
        simp only at hreal
        rw [hreal]

/-! ### Examples -/

/-- Listings of the demo project: a section (with an item called like an attribute of views), a collection of a specific class,
and a manager (in which the name of the class is listed twice). -/
example : dirView (fun _ => []) demoSel "p.a" = .ok ["f", "item", "item", "type"] ∧
    dirView (fun _ => []) demoSel "p.data" = .ok ["d", "item", "type"] ∧
    dirView (fun _ => []) demoSel "p" = .ok ["a", "data", "data", "get", "item", "load", "name", "refresh", "reload", "reset",
      "run", "run_product", "run_product_gen", "type", "update"] := by
  refine ⟨?_, ?_, ?_⟩ <;> decide +kernel

/-- The hypotheses of the theorems about sections and managers are met. -/
example : ∃ r : Registry Nat, AList.get? demoSel "p" = some r ∧ "_general" ∉ r.specific.map Prod.fst ∧
    HasSection r ["a"] [("f", .item selCallable), ("item", .item selCallable)] ∧
    HasSection r ["data"] [("d", .item selCallable)] :=
  ⟨_, rfl, by decide, by
    rw [HasSection, if_neg (by decide)]
    exact .child _ _ _ _ _ _ rfl (.here _ _), by
    rw [HasSection, if_pos (by decide)]
    exact ⟨_, rfl, .here _ _⟩⟩

example : let s := smallManagers demoFunc
    ∃ a, AList.get? s "pm" = some a ∧ a.full = "" ∧ AList.get? (managersSel s) "pm" = some a.rs.reg ∧
      a.rs.reg.lookup [""] = .error .attributeError ∧ ¬ HasItem a.rs.reg ["run"] ∧
      (viewGet (managersSel s) (fun _ _ => .ok 5) "pm" "run" s).1.toOption.isNone = true := by
  refine ⟨_, rfl, rfl, rfl, rfl, fun h => ?_, by decide +kernel⟩
  rw [HasItem, if_neg (by decide)] at h
  cases h with
  | child _ _ _ _ _ hr _ => cases hr

end Verif.Props

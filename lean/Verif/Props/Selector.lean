import Verif.Model.Selector
import Verif.Lemmas.SectionPath
import Verif.Lemmas.RegTree

/-
Property theorems about the selector and item views: C52.
-/

namespace Verif.Props
open Verif.Py Verif.Model

variable {V : Type}

/-! ### Specification -/

/-- There is an item or a collection at the path; the last item with a name counts. -/
inductive SelRegistered : Reg V → List String → Prop
  | item (k : Callable V) : SelRegistered (.item k) []
  | coll (b : Bool) (items : List (String × Reg V)) : SelRegistered (.coll b items) []
  | child (b : Bool) (items : List (String × Reg V)) (x : String) (r : Reg V) (p : List String) :
      AList.get? items.reverse x = some r → SelRegistered r p → SelRegistered (.coll b items) (x :: p)

/-- A manager has something at the path: itself, the collection of a specific class, or something in a collection. -/
def HasItem (r : Registry V) : List String → Prop
  | [] => True
  | x :: q =>
    if x ∈ r.specific.map Prod.fst then q = [] ∨ ∃ c, AList.get? r.specific.reverse x = some c ∧ SelRegistered c q
    else SelRegistered r.general (x :: q)

/-! ### Lemmas -/

theorem got_attr {b : Bool} {items : List (String × Reg V)} {x : String} (hx : x ∉ collectionReserved) :
    (Got.node (.coll b items)).attr x = match AList.get? items.reverse x with
      | some r => .ok (.node r)
      | none => .error .attributeError := by
  rw [Got.attr, if_neg hx, Reg.get?_nameDict]
  cases AList.get? items.reverse x <;> rfl

theorem got_get (c : Reg V) (p : List String) (hp : ∀ x ∈ p, x ∉ collectionReserved) :
    (∃ r, (Got.node c).get p = .ok (.node r) ∧ ((Got.node r).counts = true ↔ SelRegistered c p)) ∨
      ((Got.node c).get p = .error .attributeError ∧ ¬ SelRegistered c p) := by
  induction p generalizing c with
  | nil =>
    refine Or.inl ⟨c, rfl, ?_⟩
    cases c with
    | item k => exact ⟨fun _ => .item k, fun _ => rfl⟩
    | coll b items => exact ⟨fun _ => .coll b items, fun _ => rfl⟩
    | other => exact ⟨fun h => by simp [Got.counts] at h, fun h => by cases h⟩
  | cons x p ih =>
    cases c with
    | item k => exact Or.inr ⟨rfl, fun h => by cases h⟩
    | other => exact Or.inr ⟨rfl, fun h => by cases h⟩
    | coll b items =>
      rw [Got.get, got_attr (hp x (by simp))]
      cases hx : AList.get? items.reverse x with
      | none =>
        refine Or.inr ⟨rfl, fun h => ?_⟩
        cases h with
        | child _ _ _ r _ hr _ =>
          rw [hx] at hr
          cases hr
      | some r =>
        simp only
        have hiff : SelRegistered (.coll b items) (x :: p) ↔ SelRegistered r p := by
          constructor
          · intro h
            cases h with
            | child _ _ _ r' _ hr h' =>
              rw [hx] at hr
              cases hr
              exact h'
          · exact fun h => .child b items x r p hx h
        rw [hiff]
        exact ih r (fun y hy => hp y (by simp [hy]))

theorem structure_general {r : Registry V} (h : "_general" ∉ r.specific.map Prod.fst) :
    AList.get? (Reg.nameDict (("_general", r.general) :: r.specific)) "_general" = some r.general := by
  rw [Reg.get?_nameDict, List.reverse_cons]
  have : ∀ l : List (String × Reg V), "_general" ∉ l.map Prod.fst →
      AList.get? (l ++ [("_general", r.general)]) "_general" = some r.general := by
    intro l
    induction l with
    | nil => intro _; simp [AList.get?]
    | cons e l ih =>
      intro hl
      simp only [List.map_cons, List.mem_cons, not_or] at hl
      rw [List.cons_append]
      obtain ⟨a, b⟩ := e
      rw [AList.get?, if_neg (fun h => hl.1 h.symm)]
      exact ih hl.2
  apply this
  simpa using h

theorem structure_specific {r : Registry V} {x : String} (hx : x ∈ r.specific.map Prod.fst) :
    ∃ c, AList.get? r.specific.reverse x = some c ∧
      AList.get? (Reg.nameDict (("_general", r.general) :: r.specific)) x = some c := by
  rw [Reg.get?_nameDict, List.reverse_cons]
  have : ∀ l : List (String × Reg V), x ∈ l.map Prod.fst →
      ∃ c, AList.get? l x = some c ∧ AList.get? (l ++ [("_general", r.general)]) x = some c := by
    intro l
    induction l with
    | nil => intro h; simp at h
    | cons e l ih =>
      intro hl
      obtain ⟨a, b⟩ := e
      by_cases ha : a = x
      · exact ⟨b, by simp [AList.get?, ha], by simp [AList.get?, ha]⟩
      · simp only [List.map_cons, List.mem_cons] at hl
        rcases hl with hl | hl
        · exact absurd hl.symm ha
        · obtain ⟨c, h1, h2⟩ := ih hl
          exact ⟨c, by simp [AList.get?, ha, h1], by simp [AList.get?, ha, h2]⟩
  apply this
  simpa using hx

/-! ## C52 -/

/-- A path is in the selector iff it is registered; for a manager that is there, and a path without names of attributes of
collections. -/
theorem C52_contains_partial (sel : Sel V) (m : String) (q : List String) (r : Registry V) (hm : AList.get? sel m = some r)
    (hg : "_general" ∉ r.specific.map Prod.fst) (hq : ∀ x ∈ q, x ∉ collectionReserved) (path : String)
    (hp : (SectionPath.mk path).sections = m :: q) :
    (selContains sel path = .ok true ∧ HasItem r q) ∨ (selContains sel path = .ok false ∧ ¬ HasItem r q) := by
  have fin : ∀ (c : Reg V) (p : List String), (∀ x ∈ p, x ∉ collectionReserved) →
      selCollection sel (m :: q) = .ok (some (c, p)) → (HasItem r q ↔ SelRegistered c p) →
      (selContains sel path = .ok true ∧ HasItem r q) ∨ (selContains sel path = .ok false ∧ ¬ HasItem r q) := by
    intro c p hpr hc hiff
    unfold selContains
    rw [hp, hc]
    simp only
    rw [hiff]
    rcases got_get c p hpr with ⟨r', h1, h2⟩ | ⟨h1, h2⟩
    · rw [h1]
      simp only
      by_cases h : SelRegistered c p
      · exact Or.inl ⟨by rw [h2.2 h], h⟩
      · refine Or.inr ⟨?_, h⟩
        rw [Bool.eq_false_iff.2 (fun hh => h (h2.1 hh))]
    · rw [h1]
      exact Or.inr ⟨rfl, h2⟩
  cases q with
  | nil =>
    left
    unfold selContains
    rw [hp, selCollection, hm]
    exact ⟨rfl, trivial⟩
  | cons x q' =>
    by_cases hx : x ∈ r.specific.map Prod.fst
    · cases q' with
      | nil =>
        left
        unfold selContains
        rw [hp, selCollection, hm]
        simp only
        rw [if_pos hx]
        exact ⟨rfl, by rw [HasItem, if_pos hx]; exact Or.inl rfl⟩
      | cons y q' =>
        obtain ⟨c, h1, h2⟩ := structure_specific hx
        refine fin c (y :: q') (fun z hz => hq z (by simp [List.mem_cons.1 hz])) ?_ ?_
        · rw [selCollection, hm]
          simp only
          rw [if_pos hx, h2]
        · rw [HasItem, if_pos hx]
          constructor
          · rintro (h | ⟨c', hc', h⟩)
            · cases h
            · rw [h1] at hc'
              cases hc'
              exact h
          · exact fun h => Or.inr ⟨c, h1, h⟩
    · refine fin r.general (x :: q') hq ?_ ?_
      · rw [selCollection, hm]
        simp only
        rw [if_neg hx, structure_general hg]
      · rw [HasItem, if_neg hx]

/-- A path in a manager that is not there raises, it is not just missing. -/
theorem C52_unknown_violated (sel : Sel V) (m : String) (q : List String) (hm : AList.get? sel m = none) (path : String)
    (hp : (SectionPath.mk path).sections = m :: q) : selContains sel path = .error .keyError := by
  unfold selContains
  rw [hp, selCollection, hm]

/-- The methods of collections count as registered, in every manager. -/
theorem C52_methods_violated (sel : Sel V) (m : String) (r : Registry V) (hm : AList.get? sel m = some r)
    (hg : "_general" ∉ r.specific.map Prod.fst) (b : Bool) (items : List (String × Reg V)) (hc : r.general = .coll b items)
    (x : String) (hx : x ∈ collectionMethods) (hs : x ∉ r.specific.map Prod.fst) (path : String)
    (hp : (SectionPath.mk path).sections = [m, x]) : selContains sel path = .ok true := by
  have hres : x ∈ collectionReserved := by
    have : ∀ y ∈ collectionMethods, y ∈ collectionReserved := by decide
    exact this x hx
  unfold selContains
  rw [hp, selCollection, hm]
  simp only
  rw [if_neg hs, structure_general hg]
  simp only [hc]
  rw [Got.get, Got.attr, if_pos hres, if_pos (Or.inl hx)]
  rfl

/-- C52. Of the attributes every collection has, the methods count as registered and the others do not; the class of a
collection counts only if the collection is of one class. -/
theorem C52_attributes (sel : Sel V) (m : String) (r : Registry V) (hm : AList.get? sel m = some r)
    (hg : "_general" ∉ r.specific.map Prod.fst) (x : String) (hx : x ∈ collectionReserved) (path : String) :
    (∀ b items, r.general = .coll b items → x ∉ r.specific.map Prod.fst → (SectionPath.mk path).sections = [m, x] →
      selContains sel path = .ok (decide (x ∈ collectionMethods ∨ (x = "klass" ∧ b = true)))) ∧
    (∀ y b items, y ∈ r.specific.map Prod.fst → AList.get? (Reg.nameDict (("_general", r.general) :: r.specific)) y =
        some (.coll b items) → (SectionPath.mk path).sections = [m, y, x] →
      selContains sel path = .ok (decide (x ∈ collectionMethods ∨ (x = "klass" ∧ b = true)))) := by
  have fin : ∀ (b : Bool) (items : List (String × Reg V)),
      (match (Got.node (Reg.coll b items)).get [x] with
      | .error .attributeError => (.ok false : Except PyErr Bool)
      | .error e => .error e
      | .ok g => .ok g.counts) = .ok (decide (x ∈ collectionMethods ∨ (x = "klass" ∧ b = true))) := by
    intro b items
    rw [Got.get, Got.attr, if_pos hx]
    by_cases h : x ∈ collectionMethods ∨ (x = "klass" ∧ b = true)
    · rw [if_pos h, decide_eq_true h]
      rfl
    · rw [if_neg h, decide_eq_false h]
      rfl
  refine ⟨?_, ?_⟩
  · intro b items hc hs hp
    unfold selContains
    rw [hp, selCollection, hm]
    simp only
    rw [if_neg hs, structure_general hg]
    simp only [hc]
    exact fin b items
  · intro y b items hy hc hp
    unfold selContains
    rw [hp, selCollection, hm]
    simp only
    rw [if_pos hy, hc]
    exact fin b items

/-! ### Views -/

/-- A path and further sections. -/
def pathOf (p : String) (xs : List String) : String := xs.foldl (fun p x => p ++ "." ++ x) p

theorem pathOf_join (p : String) (xs : List String) : pathOf p xs = join '.' (p :: xs) := by
  induction xs generalizing p with
  | nil => simp [pathOf, join, joinL]
  | cons x xs ih =>
    show pathOf (p ++ "." ++ x) xs = _
    rw [ih, ← String.toList_inj, join, join, String.toList_ofList, String.toList_ofList]
    have : ".".toList = ['.'] := rfl
    cases xs with
    | nil => simp [joinL, this]
    | cons y ys => simp [joinL, this]

theorem pathOf_split (path m : String) (q : List String) (h : (SectionPath.mk path).sections = m :: q) : pathOf m q = path := by
  rw [pathOf_join, ← h]
  exact join_split '.' path

theorem walk_foreign (sel : Sel V) (real : RealAttr) (p : String) (xs : List String) (v : SelView)
    (h : SelView.walk sel real (.foreign p) xs = .ok v) : ∃ p', v = .foreign p' := by
  induction xs generalizing p with
  | nil => cases h; exact ⟨p, rfl⟩
  | cons x xs ih =>
    rw [SelView.walk, SelView.attr] at h
    cases hr : real (p ++ "." ++ x) with
    | error e => rw [hr] at h; cases h
    | ok _ => rw [hr] at h; exact ih _ h

theorem walk_view (sel : Sel V) (real : RealAttr) (p p' : String) (xs : List String)
    (h : SelView.walk sel real (.view p) xs = .ok (.view p')) :
    p' = pathOf p xs ∧ (xs ≠ [] → selContains sel p' = .ok true) := by
  induction xs generalizing p with
  | nil => cases h; exact ⟨rfl, fun h => absurd rfl h⟩
  | cons x xs ih =>
    rw [SelView.walk, SelView.attr] at h
    split at h
    · cases h
    · next v' hv =>
      split at hv
      · cases hv
        obtain ⟨_, h'⟩ := walk_foreign sel real _ xs _ h
        cases h'
      · split at hv
        · cases hv
        · next hc =>
          cases hv
          obtain ⟨h1, h2⟩ := ih _ h
          refine ⟨h1, fun _ => ?_⟩
          cases xs with
          | nil =>
            rw [h1]
            exact hc
          | cons y ys => exact h2 (by simp)
        · split at hv
          · cases hv
          · cases hv
            obtain ⟨_, h'⟩ := walk_foreign sel real _ xs _ h
            cases h'

/-- A view obtained from a path has that path, and the path is in the selector; whatever real objects do. -/
theorem C52_same_path (sel : Sel V) (real : RealAttr) (path p : String) (h : viewOfPath sel real path = .ok (.view p)) :
    p = path ∧ selContains sel path = .ok true := by
  unfold viewOfPath at h
  simp only at h
  split at h
  · cases h
  · next hl =>
    cases hs : (SectionPath.mk path).sections with
    | nil => rw [hs] at hl; simp at hl
    | cons m q =>
      rw [hs, SelView.walk, SelView.attr] at h
      split at h
      · cases h
      · next v hv =>
        split at hv
        · cases hv
          obtain ⟨_, h'⟩ := walk_foreign sel real _ q _ h
          cases h'
        · cases hv
          obtain ⟨h1, h2⟩ := walk_view sel real m p q h
          rw [pathOf_split path m q hs] at h1
          subst h1
          refine ⟨rfl, h2 ?_⟩
          rintro rfl
          rw [hs] at hl
          simp at hl

/-- The path a view, or something else, was found under. -/
def under : SelView → Option String
  | .selector => none
  | .view p => some p
  | .foreign p => some p

theorem attr_under (sel : Sel V) (real : RealAttr) (v v' : SelView) (x : String) (h : v.attr sel real x = .ok v') :
    under v' = some (match under v with | none => x | some p => p ++ "." ++ x) := by
  unfold SelView.attr at h
  cases v with
  | selector =>
    simp only at h
    split at h <;> cases h <;> rfl
  | view p =>
    simp only at h
    split at h
    · cases h; rfl
    · split at h
      · cases h
      · cases h; rfl
      · split at h <;> cases h; rfl
  | foreign p =>
    simp only at h
    split at h <;> cases h; rfl

theorem walk_under (sel : Sel V) (real : RealAttr) (p : String) (xs : List String) (v v' : SelView) (hv : under v = some p)
    (h : v.walk sel real xs = .ok v') : under v' = some (pathOf p xs) := by
  induction xs generalizing p v with
  | nil => cases h; exact hv
  | cons x xs ih =>
    rw [SelView.walk] at h
    split at h
    · cases h
    · next w hw => exact ih (p ++ "." ++ x) w (by rw [attr_under sel real v w x hw, hv]) h

/-- What is found for a path, a view or something else, is found under exactly that path. -/
theorem C52_under (sel : Sel V) (real : RealAttr) (path : String) (v : SelView) (h : viewOfPath sel real path = .ok v) :
    v = .view path ∨ v = .foreign path := by
  unfold viewOfPath at h
  simp only at h
  split at h
  · cases h
  · next hl =>
    cases hs : (SectionPath.mk path).sections with
    | nil => rw [hs] at hl; simp at hl
    | cons m q =>
      rw [hs, SelView.walk] at h
      split at h
      · cases h
      · next w hw =>
        have := walk_under sel real m q w v (attr_under sel real .selector w m hw) h
        rw [pathOf_split path m q hs] at this
        cases v with
        | selector => cases this
        | view p => cases this; exact .inl rfl
        | foreign p => cases this; exact .inr rfl

theorem registered_prefix {c : Reg V} {p q : List String} (h : SelRegistered c (p ++ q)) : SelRegistered c p := by
  induction p generalizing c with
  | nil =>
    cases h with
    | item k => exact .item k
    | coll b items => exact .coll b items
    | child b items x r p hx hr => exact .coll b items
  | cons x p ih =>
    cases h with
    | child b items _ r _ hx hr => exact .child b items x r p hx (ih hr)

theorem hasItem_prefix {r : Registry V} {p q : List String} (h : HasItem r (p ++ q)) : HasItem r p := by
  cases p with
  | nil => trivial
  | cons x p =>
    rw [List.cons_append, HasItem] at h
    rw [HasItem]
    split at h
    · next hx =>
      rw [if_pos hx]
      rcases h with h | ⟨c, hc, h⟩
      · left
        exact (List.append_eq_nil_iff.1 h).1
      · right
        exact ⟨c, hc, registered_prefix h⟩
    · next hx =>
      rw [if_neg hx]
      exact registered_prefix (p := x :: p) h

theorem sections_pathOf (m : String) (q : List String) (hm : hasChar '.' m = false) (hq : ∀ x ∈ q, hasChar '.' x = false) :
    (SectionPath.mk (pathOf m q)).sections = m :: q := by
  rw [pathOf_join]
  exact split_join '.' (by simp) (by simpa using ⟨hm, hq⟩)

theorem walk_registered (sel : Sel V) (real : RealAttr) (m : String) (done rest : List String) (r : Registry V)
    (hm : AList.get? sel m = some r) (hg : "_general" ∉ r.specific.map Prod.fst)
    (hd : ∀ x ∈ m :: (done ++ rest), hasChar '.' x = false)
    (hq : ∀ x ∈ done ++ rest, x ∉ collectionReserved) (hv : ∀ x ∈ rest, x ∉ viewReserved) (h : HasItem r (done ++ rest)) :
    SelView.walk sel real (.view (pathOf m done)) rest = .ok (.view (pathOf m (done ++ rest))) := by
  induction rest generalizing done with
  | nil => simp [SelView.walk]
  | cons x rest ih =>
    have e : done ++ x :: rest = (done ++ [x]) ++ rest := by simp
    have hp : pathOf m done ++ "." ++ x = pathOf m (done ++ [x]) := by simp [pathOf]
    have hin : selContains sel (pathOf m (done ++ [x])) = .ok true := by
      have hs := sections_pathOf m (done ++ [x]) (hd m (by simp)) (fun y hy => hd y (by rw [e]; simp at hy ⊢; grind))
      rcases C52_contains_partial sel m (done ++ [x]) r hm hg (fun y hy => hq y (by rw [e]; simp at hy ⊢; grind)) _ hs with h1 | h1
      · exact h1.1
      · rw [e] at h
        exact absurd (hasItem_prefix h) h1.2
    rw [SelView.walk, SelView.attr, if_neg (hv x (by simp)), hp, hin]
    simp only
    rw [e]
    exact ih (done ++ [x]) (by rw [← e]; exact hd) (by rw [← e]; exact hq) (fun y hy => hv y (by simp [hy])) (by rw [← e]; exact h)

/-- A registered path gives the view with that path, if its sections are not the names of attributes. -/
theorem C52_registered_partial (sel : Sel V) (real : RealAttr) (m : String) (q : List String) (hne : q ≠ []) (r : Registry V)
    (hm : AList.get? sel m = some r) (hg : "_general" ∉ r.specific.map Prod.fst) (hq : ∀ x ∈ q, x ∉ collectionReserved)
    (hv : ∀ x ∈ q, x ∉ viewReserved) (hms : m ∉ selectorReserved) (path : String)
    (hp : (SectionPath.mk path).sections = m :: q) (h : HasItem r q) :
    viewOfPath sel real path = .ok (.view path) := by
  have hd := SectionPath.hasDot_sections (SectionPath.mk path)
  rw [hp] at hd
  unfold viewOfPath
  simp only
  rw [hp, if_neg (by cases q with
    | nil => exact absurd rfl hne
    | cons x q => simp), SelView.walk, SelView.attr, if_neg hms]
  have := walk_registered sel real m [] q r hm hg hd hq hv h
  simp only [List.nil_append] at this
  rw [pathOf_split path m q hp] at this
  exact this

/-- Two views are equal iff they have the same path, and then have the same hash. -/
theorem C52_equal (p q : String) : (viewEq p (some q) = true ↔ p = q) ∧ viewEq p none = false ∧
    ∀ (H : Type) (hash : String → H), viewEq p (some q) = true → viewHash hash p = viewHash hash q := by
  refine ⟨by simp [viewEq], rfl, ?_⟩
  intro H hash h
  have : p = q := by simpa [viewEq] using h
  rw [this]

/-- A selector can be made iff all managers have been loaded. -/
theorem C52_selector (ms : List (String × Option (Registry V))) :
    ((∃ sel, newSelector ms = .ok sel) ↔ ∀ e ∈ ms, e.2 ≠ none) ∧
    ∀ sel, newSelector ms = .ok sel → sel.map (fun e => (e.1, some e.2)) = ms := by
  induction ms with
  | nil => exact ⟨by simp [newSelector], fun sel h => by cases h; rfl⟩
  | cons e ms ih =>
    obtain ⟨name, r⟩ := e
    cases r with
    | none => exact ⟨by simp [newSelector], fun sel h => by cases h⟩
    | some r =>
      rw [newSelector]
      cases hh : newSelector ms with
      | error e =>
        simp only [reduceCtorEq, exists_false, false_iff, List.mem_cons, false_implies, implies_true, and_true]
        intro h
        obtain ⟨sel, hs⟩ := ih.1.2 (fun e he => h e (Or.inr he))
        rw [hh] at hs
        cases hs
      | ok sel =>
        constructor
        · refine ⟨fun _ => ?_, fun _ => ⟨_, rfl⟩⟩
          intro e he
          rcases List.mem_cons.1 he with rfl | he
          · simp
          · exact ih.1.1 ⟨sel, hh⟩ e he
        · intro sel' h
          cases h
          simp [ih.2 sel hh]

/-- Making a selector fails with an `AttributeError` only. -/
theorem C52_unloaded_error (ms : List (String × Option (Registry V))) (e : PyErr) :
    newSelector ms = .error e ↔ e = .attributeError ∧ ∃ m ∈ ms, m.2 = none := by
  induction ms with
  | nil => simp [newSelector]
  | cons m ms ih =>
    obtain ⟨name, r⟩ := m
    cases r with
    | none =>
      rw [newSelector]
      exact ⟨fun h => by cases h; exact ⟨rfl, _, List.mem_cons_self, rfl⟩, fun h => by rw [h.1]⟩
    | some r =>
      rw [newSelector]
      cases hh : newSelector ms with
      | error e' => rw [hh] at ih; simpa using ih
      | ok sel => rw [hh] at ih; simpa using ih

example : newSelector [("p", some (⟨[], .coll false []⟩ : Registry Nat)), ("q", none)] = .error .attributeError := rfl

/-- A manager that has not been loaded makes every use of a selector fail, also for other managers. -/
theorem C52_unloaded_violated (ms ms' : List (String × Option (Registry V))) (name : String) (sel : Sel V) :
    newSelector (ms ++ (name, none) :: ms') ≠ .ok sel := by
  intro h
  exact (C52_selector _).1.1 ⟨sel, h⟩ (name, none) (by simp) rfl

/-! ### Examples -/

def selCallable : Callable Nat := ⟨.func, ⟨["a"], [], []⟩, fun _ => .ok 0, fun _ => .ok (), fun _ => .ok (), fun _ => .ok 0⟩

def demoSel : Sel Nat := [("p", ⟨[("data", .coll true [("d", .item selCallable)])],
  .coll false [("a", .coll false [("f", .item selCallable), ("item", .item selCallable)])]⟩)]

example : selContains demoSel "p.data.d" = .ok true ∧ selContains demoSel "p.a.f" = .ok true ∧
    selContains demoSel "p.a.g" = .ok false ∧ selContains demoSel "p.a.f.x" = .ok false := by
  refine ⟨?_, ?_, ?_, ?_⟩ <;> decide +kernel

/-- What is registered under the name of an attribute of views is in the selector, but cannot be viewed. -/
theorem C52_shadow_violated (real : RealAttr) : selContains demoSel "p.a.item" = .ok true ∧
    viewOfPath demoSel real "p.a.item" = .ok (.foreign "p.a.item") := by
  have h1 : selContains demoSel "p.a" = .ok true := by decide +kernel
  refine ⟨by decide +kernel, ?_⟩
  have hs : (SectionPath.mk "p.a.item").sections = ["p", "a", "item"] := by decide +kernel
  unfold viewOfPath
  simp only
  rw [hs, if_neg (by decide), SelView.walk, SelView.attr, if_neg (by decide)]
  simp only
  rw [SelView.walk, SelView.attr, if_neg (by decide)]
  have e : "p" ++ "." ++ "a" = "p.a" := by decide +kernel
  rw [e, h1]
  simp only
  rw [SelView.walk, SelView.attr, if_pos (by decide)]
  have e : "p.a" ++ "." ++ "item" = "p.a.item" := by decide +kernel
  rw [e]
  rfl

end Verif.Props

import Verif.Model.Definition
import Verif.Lemmas.RegTree
import Verif.Props.Runner

/-
Property theorems about nested definitions, collections and registrars: C36-C40.
-/

namespace Verif.Props
open Verif.Py Verif.Model

variable {V L : Type}

/-! ## C36 -/

/-! ### Specification -/

/-- Neither a dictionary nor a list. -/
def Def.isLeaf : Def L → Bool
  | .leaf _ => true
  | _ => false

/-- The last one with a name. -/
def lastNamed {α : Type} : List (String × α) → String → Option α
  | [], _ => none
  | (y, a) :: es, x => (lastNamed es x).or (if y = x then some a else none)

/-- An entry of a dictionary inside a list: an item has its own name, a section that of its key. -/
def innerEntry (nameOf : L → String) : String × Def L → String × Def L
  | (_, .leaf a) => (nameOf a, .leaf a)
  | e => e

/-- What a definition has directly inside, by name.  Items are in lists; a dictionary inside a list
belongs to the list. -/
def entriesOf (nameOf : L → String) : Def L → List (String × Def L)
  | .dict es => es.filter (fun e => !Def.isLeaf e.2)
  | .list xs => xs.flatMap (fun
    | .leaf a => [(nameOf a, .leaf a)]
    | .dict es => es.map (innerEntry nameOf)
    | .list _ => [])
  | .leaf _ => []

/-- What is at a path of a definition. -/
def definedAt (nameOf : L → String) : Def L → List String → Option (Def L)
  | d, [] => some d
  | d, x :: p => match lastNamed (entriesOf nameOf d) x with
    | none => none
    | some d' => definedAt nameOf d' p

/-- What is found for a part of a definition: for an item the item, for a section a collection. -/
def FoundAs (resolve : L → Except PyErr (String × Callable V)) (specific : Bool) : Def L → Reg V → Prop
  | .leaf a, r => ∃ n k, resolve a = .ok (n, k) ∧ r = .item k
  | .dict es, r => ∃ items, fromDict resolve specific es = .ok items ∧ r = .coll specific items
  | .list xs, r => ∃ items, fromList resolve specific xs = .ok items ∧ r = .coll specific items

/-- The name of a leaf. -/
def leafName (resolve : L → Except PyErr (String × Callable V)) (a : L) : String :=
  match resolve a with
  | .ok (n, _) => n
  | .error _ => ""

/-! ### Lemmas -/

namespace Defn

/-- The same names in the same order, each with what is found for it. -/
inductive Matches (resolve : L → Except PyErr (String × Callable V)) (specific : Bool) :
    List (String × Def L) → List (String × Reg V) → Prop
  | nil : Matches resolve specific [] []
  | cons {x d r es items} : FoundAs resolve specific d r → Matches resolve specific es items →
      Matches resolve specific ((x, d) :: es) ((x, r) :: items)

theorem Matches.append {resolve : L → Except PyErr (String × Callable V)} {sp : Bool} {es es' : List (String × Def L)}
    {is is' : List (String × Reg V)} (h : Matches resolve sp es is) (h' : Matches resolve sp es' is') :
    Matches resolve sp (es ++ es') (is ++ is') := by
  induction h with
  | nil => exact h'
  | cons hf _ ih => exact .cons hf ih

theorem matches_dict {resolve : L → Except PyErr (String × Callable V)} {sp : Bool} (es : List (String × Def L))
    {items : List (String × Reg V)} (h : fromDict resolve sp es = .ok items) :
    Matches resolve sp (entriesOf (leafName resolve) (.dict es)) items := by
  simp only [entriesOf]
  induction es generalizing items with
  | nil => unfold fromDict at h; cases h; exact .nil
  | cons e es ih =>
    obtain ⟨k, d⟩ := e
    cases d with
    | dict inner =>
      unfold fromDict at h
      cases h1 : fromDict resolve sp inner with
      | error e => rw [h1] at h; cases h
      | ok a =>
        cases h2 : fromDict resolve sp es with
        | error e => rw [h1, h2] at h; cases h
        | ok b =>
          rw [h1, h2] at h
          cases h
          exact .cons ⟨a, h1, rfl⟩ (ih h2)
    | list inner =>
      unfold fromDict at h
      cases h1 : fromList resolve sp inner with
      | error e => rw [h1] at h; cases h
      | ok a =>
        cases h2 : fromDict resolve sp es with
        | error e => rw [h1, h2] at h; cases h
        | ok b =>
          rw [h1, h2] at h
          cases h
          exact .cons ⟨a, h1, rfl⟩ (ih h2)
    | leaf a =>
      unfold fromDict at h
      exact ih h

theorem matches_inner {resolve : L → Except PyErr (String × Callable V)} {sp : Bool} (es : List (String × Def L))
    {items : List (String × Reg V)} (h : fromInner resolve sp es = .ok items) :
    Matches resolve sp (es.map (innerEntry (leafName resolve))) items := by
  induction es generalizing items with
  | nil => unfold fromInner at h; cases h; exact .nil
  | cons e es ih =>
    obtain ⟨k, d⟩ := e
    rw [List.map_cons]
    cases d with
    | dict inner =>
      unfold fromInner at h
      cases h1 : fromDict resolve sp inner with
      | error e => rw [h1] at h; cases h
      | ok a =>
        cases h2 : fromInner resolve sp es with
        | error e => rw [h1, h2] at h; cases h
        | ok b =>
          rw [h1, h2] at h
          cases h
          exact .cons ⟨a, h1, rfl⟩ (ih h2)
    | list inner =>
      unfold fromInner at h
      cases h1 : fromList resolve sp inner with
      | error e => rw [h1] at h; cases h
      | ok a =>
        cases h2 : fromInner resolve sp es with
        | error e => rw [h1, h2] at h; cases h
        | ok b =>
          rw [h1, h2] at h
          cases h
          exact .cons ⟨a, h1, rfl⟩ (ih h2)
    | leaf a =>
      unfold fromInner at h
      cases h1 : resolve a with
      | error e => rw [h1] at h; cases h
      | ok c =>
        obtain ⟨n, c⟩ := c
        cases h2 : fromInner resolve sp es with
        | error e => rw [h1, h2] at h; cases h
        | ok b =>
          rw [h1, h2] at h
          cases h
          have : innerEntry (leafName resolve) (k, .leaf a) = (n, .leaf a) := by
            simp only [innerEntry, leafName, h1]
          rw [this]
          exact .cons ⟨n, c, h1, rfl⟩ (ih h2)

theorem matches_list {resolve : L → Except PyErr (String × Callable V)} {sp : Bool} (xs : List (Def L))
    {items : List (String × Reg V)} (h : fromList resolve sp xs = .ok items) :
    Matches resolve sp (entriesOf (leafName resolve) (.list xs)) items := by
  simp only [entriesOf]
  induction xs generalizing items with
  | nil => unfold fromList at h; cases h; exact .nil
  | cons d xs ih =>
    rw [List.flatMap_cons]
    cases d with
    | dict inner =>
      unfold fromList at h
      cases h1 : fromInner resolve sp inner with
      | error e => rw [h1] at h; cases h
      | ok a =>
        cases h2 : fromList resolve sp xs with
        | error e => rw [h1, h2] at h; cases h
        | ok b =>
          rw [h1, h2] at h
          cases h
          exact (matches_inner inner h1).append (ih h2)
    | list inner => unfold fromList at h; cases h
    | leaf a =>
      unfold fromList at h
      cases h1 : resolve a with
      | error e => rw [h1] at h; cases h
      | ok c =>
        obtain ⟨n, c⟩ := c
        cases h2 : fromList resolve sp xs with
        | error e => rw [h1, h2] at h; cases h
        | ok b =>
          rw [h1, h2] at h
          cases h
          have : leafName resolve a = n := by unfold leafName; rw [h1]
          simp only [this]
          exact .cons ⟨n, c, h1, rfl⟩ (ih h2)

theorem get?_nameDict_last (items : List (String × Reg V)) (x : String) :
    AList.get? (Reg.nameDict items) x = lastNamed items x := by
  rw [Reg.get?_nameDict]
  have : ∀ (l m : List (String × Reg V)), AList.get? (l ++ m) x = (AList.get? l x).or (AList.get? m x) := by
    intro l m
    induction l with
    | nil => simp [AList.get?]
    | cons f l ihl =>
      obtain ⟨y, v⟩ := f
      simp only [List.cons_append, AList.get?]
      split
      · rfl
      · exact ihl
  induction items with
  | nil => rfl
  | cons e items ih =>
    obtain ⟨y, v⟩ := e
    rw [List.reverse_cons, this, ih]
    simp [AList.get?, lastNamed]

theorem Matches.last {resolve : L → Except PyErr (String × Callable V)} {sp : Bool} {es : List (String × Def L)}
    {items : List (String × Reg V)} (h : Matches resolve sp es items) (x : String) :
    match lastNamed es x with
    | none => lastNamed items x = none
    | some d => ∃ r, lastNamed items x = some r ∧ FoundAs resolve sp d r := by
  induction h with
  | nil => rfl
  | cons hf hm ih =>
    unfold lastNamed
    revert ih
    rename_i y d r es items
    cases lastNamed es x with
    | some d' =>
      rintro ⟨r', e1, e2⟩
      rw [e1]
      exact ⟨r', rfl, e2⟩
    | none =>
      intro e
      simp only at e
      rw [e]
      simp only [Option.none_or]
      split
      · rename_i h
        split at h
        · cases h
        · rename_i hne; rw [if_neg hne]
      · rename_i h
        split at h
        · rename_i heq
          cases h
          rw [if_pos heq]
          exact ⟨r, rfl, hf⟩
        · cases h

theorem FoundAs.matches {resolve : L → Except PyErr (String × Callable V)} {sp : Bool} {d : Def L} {r : Reg V}
    (h : FoundAs resolve sp d r) : (∃ k, r = .item k ∧ entriesOf (leafName resolve) d = []) ∨
      ∃ items, r = .coll sp items ∧ Matches resolve sp (entriesOf (leafName resolve) d) items := by
  cases d with
  | leaf a =>
    obtain ⟨n, k, _, h⟩ := h
    exact .inl ⟨k, h, rfl⟩
  | dict es =>
    obtain ⟨items, h1, h2⟩ := h
    exact .inr ⟨items, h2, matches_dict es h1⟩
  | list xs =>
    obtain ⟨items, h1, h2⟩ := h
    exact .inr ⟨items, h2, matches_list xs h1⟩

theorem walk_found {resolve : L → Except PyErr (String × Callable V)} {sp : Bool} (p : List String) :
    ∀ (res : List String) (d : Def L) (r : Reg V), FoundAs resolve sp d r → (∀ x ∈ p, x ∉ res) →
      (∀ x ∈ p, x ∉ collectionReserved) →
      match definedAt (leafName resolve) d p with
      | none => r.walk res p = .error .attributeError
      | some d' => ∃ r', r.walk res p = .ok r' ∧ FoundAs resolve sp d' r' := by
  induction p with
  | nil => intro res d r h _ _; exact ⟨r, rfl, h⟩
  | cons x p ih =>
    intro res d r h hres hcoll
    unfold definedAt
    rcases FoundAs.matches h with ⟨k, rfl, he⟩ | ⟨items, rfl, hm⟩
    · rw [he]
      rfl
    · have hl := hm.last x
      cases hx : lastNamed (entriesOf (leafName resolve) d) x with
      | none =>
        rw [hx] at hl
        simp only at hl ⊢
        unfold Reg.walk Reg.attr
        simp only
        rw [if_neg (hres x List.mem_cons_self), get?_nameDict_last, hl]
      | some d' =>
        rw [hx] at hl
        simp only at hl ⊢
        obtain ⟨r', e1, e2⟩ := hl
        have := ih collectionReserved d' r' e2 (fun y hy => hcoll y (List.mem_cons_of_mem _ hy))
          (fun y hy => hcoll y (List.mem_cons_of_mem _ hy))
        have hw : Reg.walk res (.coll sp items) (x :: p) = r'.walk collectionReserved p := by
          rw [Reg.walk]
          unfold Reg.attr
          simp only
          rw [if_neg (hres x List.mem_cons_self), get?_nameDict_last, e1]
        rw [hw]
        exact this

end Defn

/-! ### Theorems -/

/-- C36 (missing: names that are attributes of a collection, and items that are directly in a
dictionary, see below).  For every definition that loads: a path finds the item or section the
definition has there, the last one of several with the same name, and a path the definition does
not have is not found. -/
theorem C36_found_partial (resolve : L → Except PyErr (String × Callable V)) (specific : Bool)
    (es : List (String × Def L)) (r : Reg V) (h : Reg.fromDefinition resolve specific es = .ok r)
    (p : List String) (hp : ∀ x ∈ p, x ∉ registrarReserved) :
    match definedAt (leafName resolve) (.dict es) p with
    | none => r.walk registrarReserved p = .error .attributeError
    | some d => ∃ r', r.walk registrarReserved p = .ok r' ∧ FoundAs resolve specific d r' := by
  refine Defn.walk_found p registrarReserved (.dict es) r ?_ hp ?_
  · unfold Reg.fromDefinition at h
    cases h1 : fromDict resolve specific es with
    | error e => rw [h1] at h; cases h
    | ok items => rw [h1] at h; cases h; exact ⟨items, h1, rfl⟩
  · intro x hx hc
    exact hp x hx (List.mem_append_right _ hc)

/-- C36 in the runner, for the general definition: its items are found unless a specific class has
the same name (see C40). -/
theorem C36_lookup_partial (resolve : L → Except PyErr (String × Callable V)) (es : List (String × Def L))
    (r : Registry V) (h : Reg.fromDefinition resolve false es = .ok r.general) (p : List String) (hne : p ≠ [])
    (hp : ∀ x ∈ p, x ∉ registrarReserved) (hs : ∀ e ∈ r.specific, p.head? ≠ some e.1) :
    match definedAt (leafName resolve) (.dict es) p with
    | none => r.lookup p = .error .attributeError
    | some d => ∃ r', r.lookup p = .ok r' ∧ FoundAs resolve false d r' := by
  have := C36_found_partial resolve false es r.general h p hp
  cases p with
  | nil => exact absurd rfl hne
  | cons x p =>
    have hf : r.specific.find? (fun e => e.1 = x) = none := by
      rw [List.find?_eq_none]
      intro e he hx
      exact hs e he (by simpa using (of_decide_eq_true hx).symm)
    have hl : r.lookup (x :: p) = match r.general.walk registrarReserved (x :: p) with
        | .ok .other => .error .attributeError
        | res => res := by
      unfold Registry.lookup
      simp only
      rw [hf]
      rfl
    rw [hl]
    revert this
    cases definedAt (leafName resolve) (.dict es) (x :: p) with
    | none => intro h; simp only at h ⊢; rw [h]
    | some d =>
      rintro ⟨r', e1, e2⟩
      simp only
      rw [e1]
      refine ⟨r', ?_, e2⟩
      cases d with
      | leaf a => obtain ⟨_, _, _, rfl⟩ := e2; rfl
      | dict es => obtain ⟨_, _, rfl⟩ := e2; rfl
      | list xs => obtain ⟨_, _, rfl⟩ := e2; rfl

/-- Non-vacuity: sections in sections, a section in a list, and a name given twice. -/
def demoDefinition : List (String × Def String) :=
  [("a", .dict [("b", .list [.leaf "f", .leaf "g", .dict [("c", .list [.leaf "h"])]])]),
   ("d", .list [.leaf "f", .leaf "f!"])]

/-- A function that returns a number. -/
def demoConst (n : Nat) : Callable Nat :=
  ⟨.func, ⟨[], [], []⟩, fun _ => .ok n, fun _ => .ok (), fun _ => .ok (), fun _ => .ok 0⟩

/-- `f` and `f!` have the same name. -/
def demoResolve (s : String) : Except PyErr (String × Callable Nat) :=
  if s = "f!" then .ok ("f", demoConst 2) else .ok (s, demoConst 1)

example : ∃ r, Reg.fromDefinition demoResolve false demoDefinition = .ok r
    ∧ r.walk registrarReserved ["a", "b", "g"] = .ok (.item (demoConst 1))
    ∧ r.walk registrarReserved ["a", "b", "c", "h"] = .ok (.item (demoConst 1))
    ∧ r.walk registrarReserved ["d", "f"] = .ok (.item (demoConst 2))
    ∧ r.walk registrarReserved ["a", "c"] = .error .attributeError :=
  ⟨.coll false [("a", .coll false [("b", .coll false [("f", .item (demoConst 1)), ("g", .item (demoConst 1)),
      ("c", .coll false [("h", .item (demoConst 1))])])]),
      ("d", .coll false [("f", .item (demoConst 1)), ("f", .item (demoConst 2))])],
    by simp [Reg.fromDefinition, demoDefinition, fromDict, fromList, fromInner, demoResolve] <;> rfl, rfl, rfl, rfl, rfl⟩

/-- C36: a list inside a list cannot be registered: a `TypeError` among specific classes, an `AttributeError` elsewhere. -/
theorem C36_list_in_list_violated (resolve : L → Except PyErr (String × Callable V)) (specific : Bool) (x : String)
    (ys rest : List (Def L)) (es : List (String × Def L)) :
    Reg.fromDefinition resolve specific ((x, .list (.list ys :: rest)) :: es) =
      .error (if specific then .typeError else .attributeError) := by
  unfold Reg.fromDefinition
  simp only [fromDict, fromList, bind, Except.bind]

/-- C36 fails for what is directly in a dictionary: it is left out without an error. -/
theorem C36_leaf_violated : ∃ r, Reg.fromDefinition demoResolve false [("f", .leaf "f")] = .ok r
    ∧ ∀ x p, x ∉ registrarReserved → r.walk registrarReserved (x :: p) = .error .attributeError := by
  refine ⟨.coll false [], by simp [Reg.fromDefinition, fromDict] <;> rfl, fun x p hx => ?_⟩
  unfold Reg.walk Reg.attr
  simp only
  rw [if_neg hx]
  rfl

/-- C36 fails for a section with the name of an attribute of collections. -/
theorem C36_reserved_violated : ∃ r, Reg.fromDefinition demoResolve false [("items", .list [.leaf "f"])] = .ok r
    ∧ (definedAt (leafName demoResolve) (.dict [("items", .list [.leaf "f"])]) ["items", "f"]).isSome = true
    ∧ r.walk registrarReserved ["items", "f"] = .error .attributeError :=
  ⟨.coll false [("items", .coll false [("f", .item (demoConst 1))])],
    by simp [Reg.fromDefinition, fromDict, fromList, demoResolve] <;> rfl, rfl, rfl⟩

/-! ## C37 -/

/-! ### Specification -/

/-- What is at a path of dictionary keys. -/
def keyedAt : Def L → List String → Option (Def L)
  | d, [] => some d
  | .dict es, x :: p => match es.lookup x with
    | none => none
    | some d => keyedAt d p
  | _, _ :: _ => none

/-- The entries of the list a section has or would have. -/
def listed : Option (Def L) → List (Def L)
  | some (.list xs) => xs
  | _ => []

/-- Adding is possible: what exists on the way is a dictionary, what exists at the end is a list. -/
def CanAdd (es : List (String × Def L)) (p : List String) : Prop :=
  (∀ q, q <+: p → q ≠ p → ∀ d, keyedAt (.dict es) q = some d → ∃ inner, d = .dict inner)
    ∧ ∀ d, keyedAt (.dict es) p = some d → ∃ xs, d = .list xs

/-! ### Lemmas -/

namespace Defn

theorem lookup_eq {α : Type} (es : List (String × α)) (x : String) : es.lookup x = AList.get? es x := by
  induction es with
  | nil => rfl
  | cons e es ih =>
    obtain ⟨y, v⟩ := e
    rw [List.lookup_cons, AList.get?, ih]
    by_cases h : y = x
    · rw [if_pos h, h]; simp
    · rw [if_neg h]
      have : (x == y) = false := by simpa using fun e => h e.symm
      rw [this]

theorem keyedAt_cons (es : List (String × Def L)) (x : String) (p : List String) :
    keyedAt (.dict es) (x :: p) = match AList.get? es x with
      | none => none
      | some d => keyedAt d p := by
  rw [keyedAt, lookup_eq]

theorem keyedAt_nondict {d : Def L} (h : ∀ es, d ≠ .dict es) (x : String) (p : List String) :
    keyedAt d (x :: p) = none := by
  cases d with
  | dict es => exact absurd rfl (h es)
  | list xs => rfl
  | leaf a => rfl

theorem keyedAt_empty (q : List String) (h : q ≠ []) : keyedAt (.dict ([] : List (String × Def L))) q = none := by
  cases q with
  | nil => exact absurd rfl h
  | cons x q => rfl

end Defn

/-! ### Theorems -/

/-- C37: for every definition and path, adding an item succeeds exactly when no other thing than a
section is in the way. -/
theorem C37_succeeds_iff (item : L) (p : List String) (hp : p ≠ []) (es : List (String × Def L)) :
    (addItem item es p).1 = .ok () ↔ CanAdd es p := by
  induction p generalizing es with
  | nil => exact absurd rfl hp
  | cons x p ih =>
    cases p with
    | nil =>
      unfold addItem CanAdd
      have hq : ∀ q, q <+: [x] → q ≠ [x] → q = [] := by
        intro q h1 h2
        obtain ⟨t, ht⟩ := h1
        cases q with
        | nil => rfl
        | cons y q =>
          rw [List.cons_append] at ht
          injection ht with h3 h4
          have := List.append_eq_nil_iff.1 h4
          rw [this.1, h3] at h2
          exact absurd rfl h2
      have h1 : ∀ q, q <+: [x] → q ≠ [x] → ∀ d, keyedAt (.dict es) q = some d → ∃ inner, d = .dict inner := by
        intro q h1 h2 d hd
        rw [hq q h1 h2] at hd
        cases hd
        exact ⟨es, rfl⟩
      rw [Defn.keyedAt_cons]
      cases hx : AList.get? es x with
      | none => exact ⟨fun _ => ⟨h1, fun d hd => by cases hd⟩, fun _ => rfl⟩
      | some d =>
        cases d with
        | list xs => exact ⟨fun _ => ⟨h1, fun d hd => by cases hd; exact ⟨xs, rfl⟩⟩, fun _ => rfl⟩
        | dict inner =>
          refine ⟨fun h => (by cases h), fun h => ?_⟩
          obtain ⟨xs, h⟩ := h.2 _ rfl
          cases h
        | leaf a =>
          refine ⟨fun h => (by cases h), fun h => ?_⟩
          obtain ⟨xs, h⟩ := h.2 _ rfl
          cases h
    | cons y p =>
      have hcan : ∀ inner, AList.get? es x = some (.dict inner) → (CanAdd es (x :: y :: p) ↔ CanAdd inner (y :: p)) := by
        intro inner hx
        constructor
        · rintro ⟨h1, h2⟩
          refine ⟨fun q hq hne d hd => ?_, fun d hd => h2 d ?_⟩
          · refine h1 (x :: q) ?_ ?_ d ?_
            · obtain ⟨t, ht⟩ := hq; exact ⟨t, by rw [List.cons_append, ht]⟩
            · intro h; injection h with _ h; exact hne h
            · rw [Defn.keyedAt_cons, hx]; exact hd
          · rw [Defn.keyedAt_cons, hx]; exact hd
        · rintro ⟨h1, h2⟩
          refine ⟨fun q hq hne d hd => ?_, fun d hd => h2 d ?_⟩
          · cases q with
            | nil => cases hd; exact ⟨es, rfl⟩
            | cons z q =>
              obtain ⟨t, ht⟩ := hq
              rw [List.cons_append] at ht
              injection ht with hz ht
              rw [hz, Defn.keyedAt_cons, hx] at hd
              exact h1 q ⟨t, ht⟩ (fun h => hne (by rw [hz, h])) d hd
          · rw [Defn.keyedAt_cons, hx] at hd; exact hd
      unfold addItem
      cases hx : AList.get? es x with
      | none =>
        simp only
        refine ⟨fun _ => ?_, fun _ => (ih (by simp) []).2 ?_⟩
        · refine ⟨fun q hq hne d hd => ?_, fun d hd => ?_⟩
          · cases q with
            | nil => cases hd; exact ⟨es, rfl⟩
            | cons z q =>
              obtain ⟨t, ht⟩ := hq
              rw [List.cons_append] at ht
              injection ht with hz ht
              rw [hz, Defn.keyedAt_cons, hx] at hd
              cases hd
          · rw [Defn.keyedAt_cons, hx] at hd; cases hd
        · refine ⟨fun q hq hne d hd => ?_, fun d hd => ?_⟩
          · cases q with
            | nil => cases hd; exact ⟨[], rfl⟩
            | cons z q => cases hd
          · cases hd
      | some d =>
        cases d with
        | dict inner =>
          simp only
          rw [hcan inner hx]
          exact ih (by simp) inner
        | list xs =>
          refine ⟨fun h => (by cases h), fun h => ?_⟩
          obtain ⟨inner, h⟩ := h.1 [x] ⟨y :: p, rfl⟩ (by simp) (.list xs) (by rw [Defn.keyedAt_cons, hx]; rfl)
          cases h
        | leaf a =>
          refine ⟨fun h => (by cases h), fun h => ?_⟩
          obtain ⟨inner, h⟩ := h.1 [x] ⟨y :: p, rfl⟩ (by simp) (.leaf a) (by rw [Defn.keyedAt_cons, hx]; rfl)
          cases h

/-- C37: if it fails, the definition is what it was. -/
theorem C37_failure (item : L) (p : List String) (es : List (String × Def L)) (e : PyErr)
    (h : (addItem item es p).1 = .error e) : (addItem item es p).2 = es := by
  have hset : ∀ (es : List (String × Def L)) (x : String) (v : Def L), AList.get? es x = some v →
      AList.set es x v = es := by
    intro es x v
    induction es with
    | nil => intro h; cases h
    | cons f es ih =>
      obtain ⟨y, w⟩ := f
      unfold AList.get? AList.set
      split
      · rename_i hy
        intro h
        cases h
        rfl
      · intro h
        rw [ih h]
  induction p generalizing es with
  | nil => cases h
  | cons x p ih =>
    cases p with
    | nil =>
      revert h
      unfold addItem
      cases AList.get? es x with
      | none => intro h; cases h
      | some d => cases d <;> intro h <;> first | rfl | cases h
    | cons y p =>
      revert h
      unfold addItem
      cases hx : AList.get? es x with
      | none =>
        simp only
        intro h
        have hc : CanAdd ([] : List (String × Def L)) (y :: p) := by
          refine ⟨fun q hq hne d hd => ?_, fun d hd => by cases hd⟩
          cases q with
          | nil => cases hd; exact ⟨[], rfl⟩
          | cons z q => cases hd
        rw [(C37_succeeds_iff item (y :: p) (by simp) []).2 hc] at h
        cases h
      | some d =>
        cases d with
        | dict inner =>
          simp only
          intro h
          rw [ih inner h]
          exact hset es x _ hx
        | list xs => intro _; rfl
        | leaf a => intro _; rfl

/-- C37: if it succeeds, the item is the last entry of the section. -/
theorem C37_added (item : L) (p : List String) (hp : p ≠ []) (es : List (String × Def L))
    (h : (addItem item es p).1 = .ok ()) :
    keyedAt (.dict (addItem item es p).2) p = some (.list (listed (keyedAt (.dict es) p) ++ [.leaf item])) := by
  induction p generalizing es with
  | nil => exact absurd rfl hp
  | cons x p ih =>
    cases p with
    | nil =>
      revert h
      rw [Defn.keyedAt_cons, Defn.keyedAt_cons]
      unfold addItem
      cases AList.get? es x with
      | none => intro _; simp [AList.get?_set, keyedAt, listed]
      | some d =>
        cases d with
        | list xs => intro _; simp [AList.get?_set, keyedAt, listed]
        | dict _ => intro h; cases h
        | leaf _ => intro h; cases h
    | cons y p =>
      revert h
      rw [Defn.keyedAt_cons, Defn.keyedAt_cons es]
      unfold addItem
      cases hx : AList.get? es x with
      | none =>
        simp only [AList.get?_set, if_true]
        intro h
        rw [ih (by simp) [] h]
        rfl
      | some d =>
        cases d with
        | dict inner =>
          simp only [AList.get?_set, if_true]
          intro h
          exact ih (by simp) inner h
        | list xs => intro h; cases h
        | leaf a => intro h; cases h

/-- C37: everything that is not on the way to the section is what it was. -/
theorem C37_others (item : L) (p : List String) (es : List (String × Def L)) (q : List String)
    (hq : ¬ q <+: p) : keyedAt (.dict (addItem item es p).2) q = keyedAt (.dict es) q := by
  induction p generalizing es q with
  | nil => rfl
  | cons x p ih =>
    cases q with
    | nil => exact absurd (List.nil_prefix) hq
    | cons z q =>
      have hne : x ≠ z ∨ ¬ q <+: p := by
        by_cases hxz : x = z
        · refine .inr fun h => hq ?_
          obtain ⟨t, ht⟩ := h
          exact ⟨t, by rw [List.cons_append, ht, hxz]⟩
        · exact .inl hxz
      cases p with
      | nil =>
        rw [Defn.keyedAt_cons, Defn.keyedAt_cons]
        unfold addItem
        cases hx : AList.get? es x with
        | none =>
          simp only [AList.get?_set]
          by_cases hxz : x = z
          · cases hxz
            rw [if_pos rfl, hx]
            cases q with
            | nil => exact absurd List.nil_prefix (hne.resolve_left (fun h => h rfl))
            | cons w q => rfl
          · rw [if_neg hxz]
        | some d =>
          cases d with
          | list xs =>
            simp only [AList.get?_set]
            by_cases hxz : x = z
            · cases hxz
              rw [if_pos rfl, hx]
              cases q with
              | nil => exact absurd List.nil_prefix (hne.resolve_left (fun h => h rfl))
              | cons w q => rfl
            · rw [if_neg hxz]
          | dict _ => rfl
          | leaf _ => rfl
      | cons y p =>
        rw [Defn.keyedAt_cons, Defn.keyedAt_cons]
        unfold addItem
        cases hx : AList.get? es x with
        | none =>
          simp only [AList.get?_set]
          by_cases hxz : x = z
          · cases hxz
            have hq' := hne.resolve_left (fun h => h rfl)
            rw [if_pos rfl, hx]
            simp only
            rw [ih [] q hq']
            cases q with
            | nil => exact absurd List.nil_prefix hq'
            | cons w q => rfl
          · rw [if_neg hxz]
        | some d =>
          cases d with
          | dict inner =>
            simp only [AList.get?_set]
            by_cases hxz : x = z
            · cases hxz
              rw [if_pos rfl, hx]
              exact ih inner q (hne.resolve_left (fun h => h rfl))
            · rw [if_neg hxz]
          | list xs => rfl
          | leaf a => rfl

/-- C37: the sections on the way keep their entries in their order; the only new entry is the next
section on the way, if it was missing. -/
theorem C37_on_the_way (item : L) (q : List String) (x : String) (p : List String) (es : List (String × Def L))
    (h : (addItem item es (q ++ x :: p)).1 = .ok ()) :
    ∃ inner', keyedAt (.dict (addItem item es (q ++ x :: p)).2) q = some (.dict inner')
      ∧ ((keyedAt (.dict es) q = none ∧ inner'.map Prod.fst = [x])
        ∨ ∃ inner, keyedAt (.dict es) q = some (.dict inner)
          ∧ inner'.map Prod.fst = if x ∈ inner.map Prod.fst then inner.map Prod.fst else inner.map Prod.fst ++ [x]) := by
  induction q generalizing es with
  | nil =>
    refine ⟨_, rfl, .inr ⟨es, rfl, ?_⟩⟩
    revert h
    rw [List.nil_append]
    cases p with
    | nil =>
      unfold addItem
      cases AList.get? es x with
      | none => intro _; exact AList.keys_set _ _ _
      | some d =>
        cases d with
        | list xs => intro _; exact AList.keys_set _ _ _
        | dict _ => intro h; cases h
        | leaf _ => intro h; cases h
    | cons y p =>
      unfold addItem
      cases AList.get? es x with
      | none => intro _; exact AList.keys_set _ _ _
      | some d =>
        cases d with
        | dict _ => intro _; exact AList.keys_set _ _ _
        | list xs => intro h; cases h
        | leaf _ => intro h; cases h
  | cons z q ih =>
    have hr : ∃ y r, q ++ x :: p = y :: r := by
      cases q with
      | nil => exact ⟨x, p, rfl⟩
      | cons y q => exact ⟨y, q ++ x :: p, rfl⟩
    obtain ⟨y, r, hr⟩ := hr
    rw [List.cons_append, hr] at h ⊢
    rw [hr] at ih
    rw [Defn.keyedAt_cons, Defn.keyedAt_cons es]
    revert h
    unfold addItem
    cases hx : AList.get? es z with
    | none =>
      simp only [AList.get?_set, if_true]
      intro h
      obtain ⟨inner', e1, e2⟩ := ih [] h
      refine ⟨inner', e1, .inl ⟨trivial, ?_⟩⟩
      rcases e2 with ⟨_, e2⟩ | ⟨inner, e2, e3⟩
      · exact e2
      · cases q with
        | nil => cases e2; simpa using e3
        | cons w q => cases e2
    | some d =>
      cases d with
      | dict inner =>
        simp only [AList.get?_set, if_true]
        intro h
        exact ih inner h
      | list xs => intro h; cases h
      | leaf a => intro h; cases h

/-- Non-vacuity: an item in a section that exists, in one that does not, and in something that is
not a list. -/
example : (addItem "z" demoDefinition ["a", "b"]).1 = .ok () ∧ (addItem "z" demoDefinition ["a", "x", "y"]).1 = .ok ()
    ∧ (addItem "z" demoDefinition ["a"]).1 = .error .valueError
    ∧ (addItem "z" demoDefinition ["d", "x"]).1 = .error .typeError := ⟨rfl, rfl, rfl, rfl⟩

/-! ## C39 -/

namespace Defn

theorem lastNamed_snoc {α : Type} (items : List (String × α)) (y : String) (v : α) (x : String) :
    lastNamed (items ++ [(y, v)]) x = if y = x then some v else lastNamed items x := by
  induction items with
  | nil => simp [lastNamed]
  | cons e items ih =>
    obtain ⟨z, w⟩ := e
    simp only [List.cons_append, lastNamed, ih]
    split <;> rfl

theorem lastNamed_none {α : Type} (items : List (String × α)) (x : String) :
    lastNamed items x = none ↔ items.all (fun f => decide (f.1 ≠ x)) = true := by
  induction items with
  | nil => simp [lastNamed]
  | cons e items ih =>
    obtain ⟨z, w⟩ := e
    simp only [lastNamed, List.all_cons, Bool.and_eq_true, ← ih, Option.or_eq_none_iff]
    by_cases h : z = x <;> simp [h]

theorem lastNamed_replaceLast (items : List (String × Reg V)) (x : String) (n : Reg V) (z : String)
    (h : (lastNamed items x).isSome = true) :
    lastNamed (Reg.replaceLast items x n) z = if z = x then some n else lastNamed items z := by
  induction items with
  | nil => cases h
  | cons e items ih =>
    obtain ⟨y, w⟩ := e
    unfold Reg.replaceLast
    by_cases hl : lastNamed items x = none
    · have hall := (lastNamed_none items x).1 hl
      have hy : y = x := by
        simp only [lastNamed, hl, Option.none_or] at h
        split at h
        · assumption
        · cases h
      rw [if_pos ⟨hy, hall⟩]
      simp only [lastNamed]
      by_cases hz : z = x
      · rw [if_pos hz, hz, hl]; simp [hy]
      · have : ¬ y = z := fun e => hz (by rw [← e, hy])
        rw [if_neg hz, if_neg this, if_neg this]
    · have hall : ¬ items.all (fun f => decide (f.1 ≠ x)) = true := fun h => hl ((lastNamed_none items x).2 h)
      rw [if_neg (fun h => hall h.2)]
      simp only [lastNamed]
      rw [ih (Option.isSome_iff_ne_none.2 hl)]
      by_cases hz : z = x
      · rw [if_pos hz, if_pos hz]; rfl
      · rw [if_neg hz, if_neg hz]

theorem keys_replaceLast (items : List (String × Reg V)) (x : String) (n : Reg V) :
    (Reg.replaceLast items x n).map Prod.fst = items.map Prod.fst := by
  induction items with
  | nil => rfl
  | cons e items ih =>
    unfold Reg.replaceLast
    split
    · rfl
    · rw [List.map_cons, ih]; rfl

/-- One step in a collection. -/
theorem walk_coll {res : List String} {b : Bool} {items : List (String × Reg V)} {x : String} {p : List String}
    (hx : x ∉ res) : (Reg.coll b items).walk res (x :: p) = match lastNamed items x with
      | some n => n.walk collectionReserved p
      | none => .error .attributeError := by
  rw [Reg.walk]
  unfold Reg.attr
  simp only
  rw [if_neg hx, get?_nameDict_last]
  cases lastNamed items x <;> rfl

/-- One step of registering. -/
theorem setAt_cons {res : List String} {sp b : Bool} {value : String × Reg V} {items : List (String × Reg V)}
    {x : String} {p : List String} (hx : x ∉ res) :
    (Reg.coll b items).setAt res sp value (x :: p) = match lastNamed items x with
      | some n => ((n.setAt collectionReserved sp value p).1,
          .coll b (Reg.replaceLast items x (n.setAt collectionReserved sp value p).2))
      | none => (((Reg.coll sp []).setAt collectionReserved sp value p).1,
          .coll b (items ++ [(x, ((Reg.coll sp []).setAt collectionReserved sp value p).2)])) := by
  rw [Reg.setAt]
  simp only
  rw [if_neg hx, get?_nameDict_last]
  cases lastNamed items x <;> rfl

/-- What is found below what was registered. -/
theorem walk_setAt {sp : Bool} {value : String × Reg V} (p : List String) :
    ∀ (res : List String) (n : Reg V), (∀ x ∈ p, x ∉ res) → (∀ x ∈ p, x ∉ collectionReserved) →
    (p = [] → value.1 ∉ res) → value.1 ∉ collectionReserved → (n.setAt res sp value p).1 = .ok () → ∀ q,
    (n.setAt res sp value p).2.walk res (p ++ value.1 :: q) = value.2.walk collectionReserved q := by
  induction p with
  | nil =>
    intro res n _ _ hv _ h q
    cases n with
    | coll b items =>
      simp only [Reg.setAt, List.nil_append]
      rw [walk_coll (hv rfl), lastNamed_snoc, if_pos rfl]
    | item k => cases h
    | other => cases h
  | cons x p ih =>
    intro res n hres hcoll _ hv h q
    have hx := hres x List.mem_cons_self
    have hp : ∀ y ∈ p, y ∉ collectionReserved := fun y hy => hcoll y (List.mem_cons_of_mem _ hy)
    cases n with
    | item k => cases h
    | other => cases h
    | coll b items =>
      rw [setAt_cons hx] at h ⊢
      rw [List.cons_append]
      cases hl : lastNamed items x with
      | some n =>
        rw [hl] at h
        simp only at h ⊢
        rw [walk_coll hx, lastNamed_replaceLast _ _ _ _ (by rw [hl]; rfl), if_pos rfl]
        exact ih _ n hp hp (fun _ => hv) hv h q
      | none =>
        rw [hl] at h
        simp only at h ⊢
        rw [walk_coll hx, lastNamed_snoc, if_pos rfl]
        exact ih _ _ hp hp (fun _ => hv) hv h q

/-- Paths that are neither on the way nor below what was registered. -/
theorem walk_setAt_other {sp : Bool} {value : String × Reg V} (p : List String) :
    ∀ (res : List String) (n : Reg V), (∀ x ∈ p, x ∉ res) → (∀ x ∈ p, x ∉ collectionReserved) →
    ∀ q, (∀ x ∈ q, x ∉ res) → (∀ x ∈ q, x ∉ collectionReserved) → ¬ q <+: p → ¬ (p ++ [value.1]) <+: q →
      (n.setAt res sp value p).2.walk res q = n.walk res q := by
  induction p with
  | nil =>
    intro res n _ _ q hq _ h1 h2
    cases q with
    | nil => exact absurd List.nil_prefix h1
    | cons y q =>
      cases n with
      | item k => rfl
      | other => rfl
      | coll b items =>
        have hy := hq y List.mem_cons_self
        have hne : ¬ value.1 = y := fun e => h2 ⟨q, by rw [e]; rfl⟩
        simp only [Reg.setAt]
        rw [walk_coll hy, walk_coll hy, lastNamed_snoc, if_neg hne]
  | cons x p ih =>
    intro res n hres hcoll q hq hqc h1 h2
    have hx := hres x List.mem_cons_self
    have hp : ∀ y ∈ p, y ∉ collectionReserved := fun y hy => hcoll y (List.mem_cons_of_mem _ hy)
    cases q with
    | nil => exact absurd List.nil_prefix h1
    | cons y q =>
      have hy := hq y List.mem_cons_self
      have hqc' : ∀ z ∈ q, z ∉ collectionReserved := fun z hz => hqc z (List.mem_cons_of_mem _ hz)
      cases n with
      | item k => rfl
      | other => rfl
      | coll b items =>
        rw [setAt_cons hx]
        by_cases hxy : x = y
        · cases hxy
          have h1' : ¬ q <+: p := fun h => h1 ((List.prefix_cons_inj x).2 h)
          have h2' : ¬ (p ++ [value.1]) <+: q := fun h => h2 ((List.prefix_cons_inj x).2 h)
          cases hl : lastNamed items x with
          | some n =>
            simp only
            rw [walk_coll hx, walk_coll hx, lastNamed_replaceLast _ _ _ _ (by rw [hl]; rfl), if_pos rfl, hl]
            exact ih _ n hp hp q hqc' hqc' h1' h2'
          | none =>
            simp only
            rw [walk_coll hx, walk_coll hx, lastNamed_snoc, if_pos rfl, hl]
            simp only
            rw [ih _ _ hp hp q hqc' hqc' h1' h2']
            cases q with
            | nil => exact absurd List.nil_prefix h1'
            | cons z q => rw [walk_coll (hqc' z List.mem_cons_self)]; rfl
        · cases hl : lastNamed items x with
          | some n =>
            simp only
            rw [walk_coll hy, walk_coll hy, lastNamed_replaceLast _ _ _ _ (by rw [hl]; rfl), if_neg (fun e => hxy e.symm)]
          | none =>
            simp only
            rw [walk_coll hy, walk_coll hy, lastNamed_snoc, if_neg hxy]

/-- Sections on the way. -/
theorem walk_setAt_way {sp : Bool} {value : String × Reg V} (q : List String) :
    ∀ (res : List String) (n : Reg V) (p : List String), (∀ x ∈ q ++ p, x ∉ res) → (∀ x ∈ q ++ p, x ∉ collectionReserved) →
    (n.setAt res sp value (q ++ p)).1 = .ok () →
    ∃ b items', (n.setAt res sp value (q ++ p)).2.walk res q = .ok (.coll b items')
      ∧ ((n.walk res q = .error .attributeError ∧ items'.map Prod.fst = [(p ++ [value.1]).headD ""])
        ∨ ∃ items, n.walk res q = .ok (.coll b items)
          ∧ (items'.map Prod.fst = items.map Prod.fst ++ [(p ++ [value.1]).headD ""]
            ∨ items'.map Prod.fst = items.map Prod.fst ∧ p ≠ [] ∧ (p ++ [value.1]).headD "" ∈ items.map Prod.fst)) := by
  have hmem : ∀ (items : List (String × Reg V)) (x : String) (n : Reg V), lastNamed items x = some n →
      x ∈ items.map Prod.fst := by
    intro items x n h
    induction items with
    | nil => cases h
    | cons e items ih =>
      obtain ⟨y, w⟩ := e
      by_cases hy : y = x
      · rw [hy]; exact List.mem_cons_self
      · simp only [lastNamed, if_neg hy, Option.or_none] at h
        exact List.mem_cons_of_mem _ (ih h)
  induction q with
  | nil =>
    intro res n p hres _ h
    cases n with
    | item k => cases p <;> cases h
    | other => cases p <;> cases h
    | coll b items =>
      cases p with
      | nil => exact ⟨b, items ++ [value], rfl, .inr ⟨items, rfl, .inl (by simp)⟩⟩
      | cons x p =>
        rw [List.nil_append, setAt_cons (hres x List.mem_cons_self)]
        cases hl : lastNamed items x with
        | some n =>
          refine ⟨b, _, rfl, .inr ⟨items, rfl, .inr ⟨keys_replaceLast _ _ _, by simp, ?_⟩⟩⟩
          exact hmem items x n hl
        | none => exact ⟨b, _, rfl, .inr ⟨items, rfl, .inl (by simp)⟩⟩
  | cons x q ih =>
    intro res n p hres hcoll h
    have hx := hres x List.mem_cons_self
    have hp : ∀ y ∈ q ++ p, y ∉ collectionReserved := fun y hy => hcoll y (List.mem_cons_of_mem _ hy)
    cases n with
    | item k => cases h
    | other => cases h
    | coll b items =>
      rw [List.cons_append, setAt_cons hx] at h ⊢
      cases hl : lastNamed items x with
      | some n =>
        rw [hl] at h
        simp only at h ⊢
        rw [walk_coll hx, walk_coll hx, lastNamed_replaceLast _ _ _ _ (by rw [hl]; rfl), if_pos rfl, hl]
        exact ih _ n p hp hp h
      | none =>
        rw [hl] at h
        simp only at h ⊢
        rw [walk_coll hx, walk_coll hx, lastNamed_snoc, if_pos rfl, hl]
        obtain ⟨b', items', e1, e2⟩ := ih _ (.coll sp []) p hp hp h
        refine ⟨b', items', e1, .inl ⟨rfl, ?_⟩⟩
        rcases e2 with ⟨_, e2⟩ | ⟨items'', e2, e3⟩
        · exact e2
        · cases q with
          | nil =>
            cases e2
            rcases e3 with e3 | ⟨_, _, e3⟩
            · exact e3
            · cases e3
          | cons z q =>
            rw [walk_coll (hp z List.mem_cons_self)] at e2
            cases e2

/-- When registering succeeds. -/
theorem setAt_ok_iff {sp : Bool} {value : String × Reg V} (p : List String) :
    ∀ (res : List String) (n : Reg V), (∀ x ∈ p, x ∉ res) → (∀ x ∈ p, x ∉ collectionReserved) →
    ((n.setAt res sp value p).1 = .ok () ↔ ∀ q, q <+: p → ∀ r, n.walk res q = .ok r → ∃ b items, r = .coll b items) := by
  induction p with
  | nil =>
    intro res n _ _
    have h0 : ∀ q, q <+: [] → q = ([] : List String) := fun q h => List.prefix_nil.1 h
    cases n with
    | item k =>
      refine ⟨fun h => (by cases h), fun h => ?_⟩
      obtain ⟨_, _, h⟩ := h [] List.nil_prefix _ rfl
      cases h
    | other =>
      refine ⟨fun h => (by cases h), fun h => ?_⟩
      obtain ⟨_, _, h⟩ := h [] List.nil_prefix _ rfl
      cases h
    | coll b items =>
      refine ⟨fun _ q hq r hr => ?_, fun _ => rfl⟩
      rw [h0 q hq] at hr
      cases hr
      exact ⟨b, items, rfl⟩
  | cons x p ih =>
    intro res n hres hcoll
    have hx := hres x List.mem_cons_self
    have hp : ∀ y ∈ p, y ∉ collectionReserved := fun y hy => hcoll y (List.mem_cons_of_mem _ hy)
    cases n with
    | item k =>
      refine ⟨fun h => (by cases h), fun h => ?_⟩
      obtain ⟨_, _, h⟩ := h [] List.nil_prefix _ rfl
      cases h
    | other =>
      refine ⟨fun h => (by cases h), fun h => ?_⟩
      obtain ⟨_, _, h⟩ := h [] List.nil_prefix _ rfl
      cases h
    | coll b items =>
      rw [setAt_cons hx]
      cases hl : lastNamed items x with
      | some n =>
        simp only
        rw [ih _ n hp hp]
        constructor
        · intro h q hq r hr
          cases q with
          | nil => cases hr; exact ⟨b, items, rfl⟩
          | cons y q =>
            obtain ⟨rfl, hq'⟩ := List.cons_prefix_cons.1 hq
            rw [walk_coll hx, hl] at hr
            exact h q hq' r hr
        · intro h q hq r hr
          refine h (x :: q) ((List.prefix_cons_inj x).2 hq) r ?_
          rw [walk_coll hx, hl]
          exact hr
      | none =>
        simp only
        refine ⟨fun _ q hq r hr => ?_, fun _ => (ih _ _ hp hp).2 fun q hq r hr => ?_⟩
        · cases q with
          | nil => cases hr; exact ⟨b, items, rfl⟩
          | cons y q =>
            obtain ⟨rfl, hq⟩ := List.cons_prefix_cons.1 hq
            rw [walk_coll hx, hl] at hr
            cases hr
        · cases q with
          | nil => cases hr; exact ⟨sp, [], rfl⟩
          | cons y q =>
            have := hp y (hq.mem List.mem_cons_self)
            rw [walk_coll this] at hr
            cases hr

theorem replaceLast_self (items : List (String × Reg V)) (x : String) (n : Reg V) (h : lastNamed items x = some n) :
    Reg.replaceLast items x n = items := by
  induction items with
  | nil => rfl
  | cons e items ih =>
    obtain ⟨y, w⟩ := e
    unfold Reg.replaceLast
    by_cases hl : lastNamed items x = none
    · simp only [lastNamed, hl, Option.none_or] at h
      split at h
      · cases h
        rename_i hy
        rw [if_pos ⟨hy, (lastNamed_none items x).1 hl⟩]
      · cases h
    · rw [if_neg (fun h => hl ((lastNamed_none items x).2 h.2))]
      rw [ih]
      simp only [lastNamed] at h
      cases hl' : lastNamed items x with
      | none => exact absurd hl' hl
      | some w' => rw [hl'] at h; exact h

/-- Registering that fails changes nothing. -/
theorem setAt_failure {sp : Bool} {value : String × Reg V} (p : List String) :
    ∀ (res : List String) (n : Reg V) (e : PyErr), (n.setAt res sp value p).1 = .error e →
      (∀ x ∈ p, x ∉ collectionReserved) → (n.setAt res sp value p).2 = n := by
  induction p with
  | nil =>
    intro res n e h _
    cases n with
    | item k => rfl
    | other => rfl
    | coll b items => cases h
  | cons x p ih =>
    intro res n e h hcoll
    have hp : ∀ y ∈ p, y ∉ collectionReserved := fun y hy => hcoll y (List.mem_cons_of_mem _ hy)
    cases n with
    | item k => rfl
    | other => rfl
    | coll b items =>
      by_cases hx : x ∈ res
      · simp only [Reg.setAt]
        rw [if_pos hx]
      · rw [setAt_cons hx] at h ⊢
        cases hl : lastNamed items x with
        | some n =>
          rw [hl] at h
          simp only at h ⊢
          rw [ih _ n e h hp, replaceLast_self _ _ _ hl]
        | none =>
          rw [hl] at h
          simp only at h
          have := (setAt_ok_iff (sp := sp) (value := value) p collectionReserved (.coll sp []) hp hp).2 (by
            intro q hq r hr
            cases q with
            | nil => cases hr; exact ⟨sp, [], rfl⟩
            | cons y q =>
              rw [walk_coll (hp y (hq.mem List.mem_cons_self))] at hr
              cases hr)
          rw [this] at h
          cases h

theorem lookup_general {r : Registry V} {x : String} {q : List String} (h : ∀ e ∈ r.specific, x ≠ e.1) :
    r.lookup (x :: q) = match r.general.walk registrarReserved (x :: q) with
      | .ok .other => .error .attributeError
      | res => res := by
  have hf : r.specific.find? (fun e => e.1 = x) = none := by
    rw [List.find?_eq_none]
    intro e he hx
    exact h e he (of_decide_eq_true hx).symm
  unfold Registry.lookup
  simp only
  rw [hf]
  rfl

theorem find?_get? {α : Type} (l : List (String × α)) (x : String) :
    l.find? (fun e => e.1 = x) = (AList.get? l x).map (fun v => (x, v)) := by
  induction l with
  | nil => rfl
  | cons e l ih =>
    obtain ⟨y, w⟩ := e
    rw [List.find?_cons, AList.get?]
    by_cases h : y = x
    · simp [h]
    · simp only [h, decide_false, if_neg, not_false_eq_true]
      exact ih

theorem lookup_specific {r : Registry V} {c : String} {reg : Reg V} {q : List String}
    (h : AList.get? r.specific c = some reg) : r.lookup (c :: q) = reg.walk registrarReserved q := by
  unfold Registry.lookup
  simp only
  rw [find?_get?, h]
  simp only [Option.map_some]
  cases q <;> rfl

theorem alist_set_self {α : Type} (es : List (String × α)) (x : String) (v : α) (h : AList.get? es x = some v) :
    AList.set es x v = es := by
  induction es with
  | nil => cases h
  | cons f es ih =>
    obtain ⟨y, w⟩ := f
    unfold AList.get? at h
    unfold AList.set
    split at h
    · rename_i hy
      cases h
      rw [if_pos hy, hy]
    · rename_i hy
      rw [if_neg hy, ih h]

end Defn

/-! ### Specification -/

/-- The section of a registrar: the name of the specific class, nothing for the general one. -/
def registrarPath : Option String → List String
  | none => []
  | some c => [c]

/-- The registrar is the one that paths starting with `p` belong to. -/
def RegistrarFor (r : Registry V) : Option String → List String → Prop
  | none, p => (∃ b items, r.general = .coll b items) ∧ ∃ x p', p = x :: p' ∧ ∀ e ∈ r.specific, x ≠ e.1
  | some c, _ => c ∈ r.specific.map Prod.fst

/-- No name is that of an attribute of registrars and collections. -/
def PlainNames (p : List String) : Prop := ∀ x ∈ p, x ∉ registrarReserved

/-- What is found below a registrar. -/
def inRegistrar (r : Registry V) : Option String → List String → Except PyErr (Reg V)
  | none, q => r.general.walk registrarReserved q
  | some c, q => r.lookup (c :: q)

/-- The names in a collection. -/
def namesIn (items : List (String × Reg V)) : List String := items.map Prod.fst

namespace Defn

theorem plain_coll {p : List String} (h : PlainNames p) : ∀ x ∈ p, x ∉ collectionReserved :=
  fun x hx hc => h x hx (List.mem_append_right _ hc)

theorem set_specific_of {r : Registry V} {c : String} {reg : Reg V} (h : AList.get? r.specific c = some reg)
    (p : List String) (value : String × Reg V) :
    r.set (some c) p value = ((reg.setAt registrarReserved true value p).1,
      { r with specific := AList.set r.specific c (reg.setAt registrarReserved true value p).2 }) := by
  unfold Registry.set
  simp only
  rw [h]

theorem get?_of_mem_keys {α : Type} {l : List (String × α)} {c : String} (h : c ∈ l.map Prod.fst) :
    ∃ v, AList.get? l c = some v := by
  have := (AList.get?_isSome_iff l c).2 h
  exact Option.isSome_iff_exists.1 this

theorem wrap_other {res res' : Except PyErr (Reg V)} (h : res = res') :
    (match (generalizing := false) res with | .ok .other => (.error .attributeError : Except PyErr (Reg V)) | x => x)
      = match (generalizing := false) res' with | .ok .other => .error .attributeError | x => x := by rw [h]

end Defn

/-! ### Theorems -/

/-- C39 (here and below missing: names that are attributes of collections, see
`C39_reserved_violated`): a newly registered item is found at its path. -/
theorem C39_found_partial (r : Registry V) (reg : Option String) (p : List String) (name : String) (k : Callable V)
    (hr : RegistrarFor r reg p) (hp : PlainNames (p ++ [name])) (h : (r.set reg p (name, .item k)).1 = .ok ()) :
    (r.set reg p (name, .item k)).2.lookup (registrarPath reg ++ p ++ [name]) = .ok (.item k) := by
  have hp' : PlainNames p := fun x hx => hp x (List.mem_append_left _ hx)
  have hn : name ∉ registrarReserved := hp name (by simp)
  have hnc : name ∉ collectionReserved := fun hc => hn (List.mem_append_right _ hc)
  cases reg with
  | none =>
    obtain ⟨_, x, p', rfl, hx⟩ := hr
    have := Defn.walk_setAt (sp := false) (value := (name, .item k)) (x :: p') registrarReserved r.general hp'
      (Defn.plain_coll hp') (fun _ => hn) hnc h []
    rw [registrarPath, List.nil_append, List.cons_append, Defn.lookup_general (r := (r.set none (x :: p') (name, .item k)).2) hx]
    rw [List.cons_append] at this
    simp only [Registry.set]
    rw [this]
    rfl
  | some c =>
    obtain ⟨g, hg⟩ := Defn.get?_of_mem_keys hr
    rw [Defn.set_specific_of hg] at h ⊢
    rw [registrarPath, List.append_assoc, List.singleton_append,
      Defn.lookup_specific (reg := (g.setAt registrarReserved true (name, .item k) p).2) (by simp [AList.get?_set])]
    exact Defn.walk_setAt (sp := true) (value := (name, .item k)) p registrarReserved g hp'
      (Defn.plain_coll hp') (fun _ => hn) hnc h []

/-- C39: every path that is not on the way to the item and does not go through its name finds what it
found before. -/
theorem C39_kept_partial (r : Registry V) (reg : Option String) (p : List String) (name : String) (k : Callable V)
    (hr : RegistrarFor r reg p) (hp : PlainNames p) (q : List String) (hq : PlainNames q)
    (h1 : ¬ q <+: registrarPath reg ++ p) (h2 : ¬ (registrarPath reg ++ p ++ [name]) <+: q) :
    (r.set reg p (name, .item k)).2.lookup q = r.lookup q := by
  cases q with
  | nil => exact absurd List.nil_prefix h1
  | cons y q =>
    cases reg with
    | none =>
      by_cases hy : ∀ e ∈ r.specific, y ≠ e.1
      · rw [Defn.lookup_general (r := (r.set none p (name, .item k)).2) hy, Defn.lookup_general hy]
        refine Defn.wrap_other ?_
        exact Defn.walk_setAt_other (sp := false) (value := (name, .item k)) p registrarReserved r.general hp
          (Defn.plain_coll hp) (y :: q) hq (Defn.plain_coll hq) h1 h2
      · have : ∃ e ∈ r.specific, y = e.1 := by
          apply Classical.byContradiction
          intro hne
          exact hy fun e he h => hne ⟨e, he, h⟩
        obtain ⟨e, he, rfl⟩ := this
        obtain ⟨g, hg⟩ := Defn.get?_of_mem_keys (List.mem_map_of_mem (f := Prod.fst) he)
        rw [Defn.lookup_specific (r := (r.set none p (name, .item k)).2) hg, Defn.lookup_specific hg]
    | some c =>
      obtain ⟨g, hg⟩ := Defn.get?_of_mem_keys hr
      rw [Defn.set_specific_of hg]
      by_cases hy : c = y
      · cases hy
        rw [Defn.lookup_specific (reg := (g.setAt registrarReserved true (name, .item k) p).2) (by simp [AList.get?_set]),
          Defn.lookup_specific hg]
        have hq' : PlainNames q := fun x hx => hq x (List.mem_cons_of_mem _ hx)
        refine Defn.walk_setAt_other (sp := true) (value := (name, .item k)) p registrarReserved g hp
          (Defn.plain_coll hp) q hq' (Defn.plain_coll hq') ?_ ?_
        · exact fun h => h1 ((List.prefix_cons_inj _).2 h)
        · exact fun h => h2 ((List.prefix_cons_inj _).2 h)
      · cases hg' : AList.get? r.specific y with
        | some g' =>
          rw [Defn.lookup_specific hg', Defn.lookup_specific (reg := g') (by simp [AList.get?_set, hy, hg'])]
        | none =>
          have hne : ∀ e ∈ r.specific, y ≠ e.1 := by
            intro e he h
            exact (AList.get?_eq_none_iff _ _).1 hg' (h ▸ List.mem_map_of_mem (f := Prod.fst) he)
          have hne' : ∀ e ∈ AList.set r.specific c (g.setAt registrarReserved true (name, .item k) p).2, y ≠ e.1 := by
            intro e he h
            have hm := List.mem_map_of_mem (f := Prod.fst) he
            rw [AList.keys_set, if_pos (show c ∈ r.specific.map Prod.fst from hr)] at hm
            exact (AList.get?_eq_none_iff _ _).1 hg' (h ▸ hm)
          rw [Defn.lookup_general hne, Defn.lookup_general hne']

/-- C39: the sections on the way exist afterwards; those that existed keep their items, with at most
one more: the next section on the way, or the item. -/
theorem C39_sections_partial (r : Registry V) (reg : Option String) (q p : List String) (name : String) (k : Callable V)
    (hr : RegistrarFor r reg (q ++ p)) (hp : PlainNames (q ++ p)) (hne : registrarPath reg ++ q ≠ [])
    (h : (r.set reg (q ++ p) (name, .item k)).1 = .ok ()) :
    ∃ b items', (r.set reg (q ++ p) (name, .item k)).2.lookup (registrarPath reg ++ q) = .ok (.coll b items')
      ∧ ((r.lookup (registrarPath reg ++ q) = .error .attributeError ∧ namesIn items' = [(p ++ [name]).headD ""])
        ∨ ∃ items, r.lookup (registrarPath reg ++ q) = .ok (.coll b items)
          ∧ (namesIn items' = namesIn items ++ [(p ++ [name]).headD ""]
            ∨ namesIn items' = namesIn items ∧ p ≠ [] ∧ (p ++ [name]).headD "" ∈ namesIn items)) := by
  cases reg with
  | none =>
    obtain ⟨_, x, p', hx1, hx⟩ := hr
    cases q with
    | nil => exact absurd rfl hne
    | cons y q =>
      have : y = x := by injection hx1
      subst this
      obtain ⟨b, items', e1, e2⟩ := Defn.walk_setAt_way (sp := false) (value := (name, .item k)) (y :: q) registrarReserved
        r.general p hp (Defn.plain_coll hp) h
      refine ⟨b, items', ?_, ?_⟩
      · rw [registrarPath, List.nil_append, Defn.lookup_general (r := (r.set none (y :: q ++ p) (name, .item k)).2) hx]
        simp only [Registry.set]
        rw [e1]
      · rw [registrarPath, List.nil_append, Defn.lookup_general hx]
        rcases e2 with ⟨e2, e3⟩ | ⟨items, e2, e3⟩
        · rw [e2]; exact .inl ⟨rfl, e3⟩
        · rw [e2]; exact .inr ⟨items, rfl, e3⟩
  | some c =>
    obtain ⟨g, hg⟩ := Defn.get?_of_mem_keys hr
    rw [Defn.set_specific_of hg] at h ⊢
    rw [registrarPath, List.singleton_append, Defn.lookup_specific hg,
      Defn.lookup_specific (reg := (g.setAt registrarReserved true (name, .item k) (q ++ p)).2) (by simp [AList.get?_set])]
    exact Defn.walk_setAt_way (sp := true) (value := (name, .item k)) q registrarReserved g p hp (Defn.plain_coll hp) h

/-- C39: registering succeeds exactly when what exists on the way are sections. -/
theorem C39_succeeds_iff_partial (r : Registry V) (reg : Option String) (p : List String) (name : String) (k : Callable V)
    (hr : RegistrarFor r reg p) (hp : PlainNames p) :
    (r.set reg p (name, .item k)).1 = .ok () ↔
      ∀ q, q <+: p → ∀ n, inRegistrar r reg q = .ok n → ∃ b items, n = .coll b items := by
  cases reg with
  | none =>
    exact Defn.setAt_ok_iff (sp := false) (value := (name, .item k)) p registrarReserved r.general hp (Defn.plain_coll hp)
  | some c =>
    obtain ⟨g, hg⟩ := Defn.get?_of_mem_keys hr
    rw [Defn.set_specific_of hg]
    refine (Defn.setAt_ok_iff (sp := true) (value := (name, .item k)) p registrarReserved g hp (Defn.plain_coll hp)).trans ?_
    simp only [inRegistrar]
    constructor
    · intro h q hq n hn
      rw [Defn.lookup_specific hg] at hn
      exact h q hq n hn
    · intro h q hq n hn
      refine h q hq n ?_
      rw [Defn.lookup_specific hg]
      exact hn

/-- C39: if registering fails, nothing has changed. -/
theorem C39_failure_partial (r : Registry V) (reg : Option String) (p : List String) (value : String × Reg V) (e : PyErr)
    (hp : PlainNames p) (h : (r.set reg p value).1 = .error e) : (r.set reg p value).2 = r := by
  cases reg with
  | none =>
    simp only [Registry.set] at h ⊢
    rw [Defn.setAt_failure p registrarReserved r.general e h (Defn.plain_coll hp)]
  | some c =>
    cases hg : AList.get? r.specific c with
    | none => unfold Registry.set; simp only; rw [hg]
    | some g =>
      rw [Defn.set_specific_of hg] at h ⊢
      simp only at h ⊢
      rw [Defn.setAt_failure p registrarReserved g e h (Defn.plain_coll hp), Defn.alist_set_self _ _ _ hg]

/-- Non-vacuity: a registry with a specific class; an item in an existing section and one in a new
section. -/
def demoRegistry : Registry Nat where
  specific := [("cls", .coll true [("s", .coll true [("x", .item (demoConst 1))])])]
  general := .coll false [("a", .coll false [("f", .item (demoConst 1))])]

example : RegistrarFor demoRegistry none ["a", "b"] ∧ RegistrarFor demoRegistry (some "cls") ["s"]
    ∧ PlainNames ["a", "b", "g"] ∧ (demoRegistry.set none ["a", "b"] ("g", .item (demoConst 2))).1 = .ok ()
    ∧ (demoRegistry.set (some "cls") ["s"] ("y", .item (demoConst 2))).1 = .ok ()
    ∧ (demoRegistry.set none ["a", "f"] ("g", .item (demoConst 2))).1 = .error .attributeError
    ∧ (demoRegistry.set none ["a", "b"] ("g", .item (demoConst 2))).2.lookup ["a", "b", "g"] = .ok (.item (demoConst 2))
    ∧ (demoRegistry.set none ["a", "b"] ("g", .item (demoConst 2))).2.lookup ["a", "f"] = .ok (.item (demoConst 1)) :=
  ⟨⟨⟨_, _, rfl⟩, "a", _, rfl, by decide +kernel⟩, by unfold RegistrarFor; decide +kernel, by unfold PlainNames; decide +kernel, rfl, rfl, rfl, rfl, rfl⟩

/-- C39 does not hold for the path of an item with the same name: it finds the new item. -/
theorem C39_shadow_violated : demoRegistry.lookup ["a", "f"] = .ok (.item (demoConst 1))
    ∧ (demoRegistry.set none ["a"] ("f", .item (demoConst 2))).1 = .ok ()
    ∧ ∃ k, (demoRegistry.set none ["a"] ("f", .item (demoConst 2))).2.lookup ["a", "f"] = .ok (.item k)
      ∧ k.app .empty = .ok 2 ∧ (demoConst 1).app .empty = .ok 1 :=
  ⟨rfl, rfl, _, rfl, rfl, rfl⟩

/-- C39 does not hold for an item with the name of an attribute of collections. -/
theorem C39_reserved_violated : (demoRegistry.set none ["a"] ("name", .item (demoConst 2))).1 = .ok ()
    ∧ (demoRegistry.set none ["a"] ("name", .item (demoConst 2))).2.lookup ["a", "name"] = .error .attributeError :=
  ⟨rfl, rfl⟩

/-! ## C40 -/

/-- C40: if loading succeeds, the names of the specific classes are distinct and none of them is a
name in the general definition. -/
theorem C40_names (r : Registry V) (b : Bool) (items : List (String × Reg V)) (hg : r.general = .coll b items)
    (h : validateRegistrars r = .ok ()) :
    (r.specific.map Prod.fst).Nodup ∧ ∀ c ∈ r.specific.map Prod.fst, c ∉ items.map Prod.fst := by
  have hlen : ∀ (n : Nat) (l : List String), l.length = n → l.eraseDups.length ≤ l.length
      ∧ (l.eraseDups.length = l.length → l.Nodup) := by
    intro n
    induction n using Nat.strongRecOn with
    | ind n ih =>
      intro l hl
      cases l with
      | nil => exact ⟨Nat.le_refl _, fun _ => List.nodup_nil⟩
      | cons a l =>
        rw [List.eraseDups_cons]
        have hf : (l.filter (fun b => !b == a)).length ≤ l.length := List.length_filter_le _ _
        have := ih _ (by rw [← hl, List.length_cons]; omega) (l.filter (fun b => !b == a)) rfl
        refine ⟨by simp only [List.length_cons]; omega, fun he => ?_⟩
        simp only [List.length_cons] at he
        have h1 : (l.filter (fun b => !b == a)).length = l.length := by omega
        have h2 := List.length_filter_eq_length_iff.1 h1
        have h3 : l.filter (fun b => !b == a) = l := List.filter_eq_self.2 h2
        rw [h3] at this he
        refine List.nodup_cons.2 ⟨fun ha => ?_, this.2 (by omega)⟩
        have := h2 a ha
        simp at this
  unfold validateRegistrars at h
  rw [hg] at h
  simp only at h
  split at h
  · cases h
  · rename_i h1
    split at h
    · cases h
    · rename_i h2
      refine ⟨(hlen _ _ rfl).2 (Classical.not_not.1 h2), fun c hc hi => h1 ?_⟩
      obtain ⟨e, he, rfl⟩ := List.mem_map.1 hc
      rw [List.any_eq_true]
      refine ⟨e, he, decide_eq_true ?_⟩
      unfold generalNames
      simp only [List.mem_append, List.mem_filter, decide_eq_true_eq]
      by_cases hx : e.1 ∈ ["scaffold_config", "get", "basepath", "name"]
      · exact .inl hx
      · refine .inr ⟨?_, hx⟩
        have : (AList.get? (Reg.nameDict items) e.1).isSome = true := by
          rw [Defn.get?_nameDict_last, Option.isSome_iff_ne_none]
          intro hn
          have hall := (Defn.lastNamed_none items e.1).1 hn
          obtain ⟨f, hf, hfe⟩ := List.mem_map.1 hi
          have := List.all_eq_true.1 hall f hf
          simp [hfe] at this
        exact (AList.get?_isSome_iff _ _).1 this

/-- C40: so a path resolves in exactly one registrar: a path that starts with the name of a specific
class in the registrar of that class, any path that the general registrar knows in the general one. -/
theorem C40_resolves (r : Registry V) (b : Bool) (items : List (String × Reg V)) (hg : r.general = .coll b items)
    (h : validateRegistrars r = .ok ()) :
    (∀ c reg p, (c, reg) ∈ r.specific → r.lookup (c :: p) = reg.walk registrarReserved p
      ∧ (c ∉ registrarReserved → r.general.walk registrarReserved (c :: p) = .error .attributeError))
    ∧ ∀ x n p, (x, n) ∈ items → x ∉ registrarReserved →
      r.lookup (x :: p) = match r.general.walk registrarReserved (x :: p) with
        | .ok .other => .error .attributeError
        | res => res := by
  obtain ⟨hnd, hdis⟩ := C40_names r b items hg h
  refine ⟨fun c reg p hc => ⟨?_, fun hcr => ?_⟩, fun x n p hx _ => ?_⟩
  · exact Defn.lookup_specific (AList.get?_of_mem hnd hc)
  · have hn : lastNamed items c = none := by
      rw [Defn.lastNamed_none]
      rw [List.all_eq_true]
      intro f hf
      refine decide_eq_true fun e => ?_
      exact hdis c (List.mem_map_of_mem (f := Prod.fst) hc) (e ▸ List.mem_map_of_mem (f := Prod.fst) hf)
    rw [hg, Defn.walk_coll hcr, hn]
  · refine Defn.lookup_general fun e he hxe => ?_
    exact hdis e.1 (List.mem_map_of_mem (f := Prod.fst) he) (hxe ▸ List.mem_map_of_mem (f := Prod.fst) hx)

/-- Non-vacuity, and that a clash of either kind is refused. -/
example : validateRegistrars demoRegistry = .ok ()
    ∧ validateRegistrars { demoRegistry with specific := [("a", .coll true [])] } = .error .valueError
    ∧ validateRegistrars { demoRegistry with specific := [("c", .coll true []), ("c", .coll true [])] }
      = .error .valueError := by decide +kernel

end Verif.Props

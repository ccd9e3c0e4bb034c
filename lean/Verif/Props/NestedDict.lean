import Verif.Model.NestedDict

/-
C105: the nested dictionary of a collection has what is registered.
-/

namespace Verif.Props
open Verif.Py Verif.Model

variable {I : Type}

/-- `e` is the last of the entries with the name `x`. -/
def LastNamed (es : List (CollEntry I)) (x : String) (e : CollEntry I) : Prop :=
  ∃ before after, es = before ++ e :: after ∧ e.key = x ∧ ∀ e' ∈ after, e'.key ≠ x

/-- `e` is what is registered under the path. -/
inductive Under : List (CollEntry I) → List String → CollEntry I → Prop
  | here (es : List (CollEntry I)) (x : String) (e : CollEntry I) : LastNamed es x e → Under es [x] e
  | inside (es : List (CollEntry I)) (x n : String) (inner : List (CollEntry I)) (p : List String) (e : CollEntry I) :
      LastNamed es x (.coll n inner) → Under inner p e → Under es (x :: p) e

/-- The attribute `name` of every item is the name under which it is registered. -/
inductive PlainEntry : CollEntry I → Prop
  | item (k : String) (i : I) : PlainEntry (.item k (.ok k) i)
  | coll (n : String) (es : List (CollEntry I)) : (∀ e ∈ es, PlainEntry e) → PlainEntry (.coll n es)

/-! ### Lemmas -/

/-- The last entry with a name. -/
def lastOf (es : List (CollEntry I)) (x : String) : Option (CollEntry I) := es.reverse.find? (fun e => decide (e.key = x))

theorem lastOf_iff (es : List (CollEntry I)) (x : String) (e : CollEntry I) : lastOf es x = some e ↔ LastNamed es x e := by
  unfold lastOf LastNamed
  rw [List.find?_eq_some_iff_append]
  constructor
  · rintro ⟨h, as, bs, heq, hall⟩
    refine ⟨bs.reverse, as.reverse, ?_, by simpa using h, ?_⟩
    · have := congrArg List.reverse heq
      simpa using this
    · intro e' he'
      simpa using hall e' (List.mem_reverse.1 he')
  · rintro ⟨before, after, heq, hk, hall⟩
    refine ⟨by simpa using hk, after.reverse, before.reverse, by rw [heq]; simp, ?_⟩
    intro e' he'
    simpa using hall e' (List.mem_reverse.1 he')

theorem lastOf_cons (e : CollEntry I) (es : List (CollEntry I)) (x : String) :
    lastOf (e :: es) x = match lastOf es x with
      | some e' => some e'
      | none => if e.key = x then some e else none := by
  unfold lastOf
  rw [List.reverse_cons, List.find?_append]
  cases List.find? (fun e => decide (e.key = x)) es.reverse with
  | some e' => rfl
  | none => by_cases h : e.key = x <;> simp [h]

theorem nameMap_from (es : List (CollEntry I)) (m : List (String × CollEntry I)) (x : String) :
    AList.get? (es.foldl (fun m e => AList.set m e.key e) m) x = match lastOf es x with
      | some e => some e
      | none => AList.get? m x := by
  induction es generalizing m with
  | nil => rfl
  | cons e es ih =>
    rw [List.foldl_cons, ih, lastOf_cons, AList.get?_set]
    cases lastOf es x with
    | some e' => rfl
    | none => by_cases h : e.key = x <;> simp [h]

theorem nameMap_get? (es : List (CollEntry I)) (x : String) : AList.get? (CollEntry.nameMap es) x = lastOf es x := by
  unfold CollEntry.nameMap
  rw [nameMap_from]
  cases lastOf es x <;> rfl

mutual
theorem value_plain : (e : CollEntry I) → PlainEntry e → ∃ n, CollEntry.value e = .ok n
  | .item _ _ i, _ => ⟨.item i, by rw [CollEntry.value]⟩
  | .coll _ es, h => by
    obtain ⟨d, hd⟩ := toNested_plain es (by cases h; assumption) []
    exact ⟨.dict d, by rw [CollEntry.value, hd]; rfl⟩
theorem toNested_plain : (es : List (CollEntry I)) → (∀ e ∈ es, PlainEntry e) → ∀ out, ∃ d, CollEntry.toNested out es = .ok d
  | [], _, out => ⟨out, by rw [CollEntry.toNested]⟩
  | e :: es, h, out => by
    obtain ⟨v, hv⟩ := value_plain e (h e List.mem_cons_self)
    have hn : CollEntry.name e = .ok e.key := by cases h e List.mem_cons_self <;> rfl
    obtain ⟨d, hd⟩ := toNested_plain es (fun e' he' => h e' (List.mem_cons_of_mem _ he')) (AList.set out e.key v)
    exact ⟨d, by rw [CollEntry.toNested, hv, hn]; exact hd⟩
end

theorem toNested_get? {es : List (CollEntry I)} (hn : ∀ e ∈ es, PlainEntry e) {out d : List (String × Nested I)}
    (h : CollEntry.toNested out es = .ok d) (x : String) :
    AList.get? d x = match lastOf es x with
      | some e => (CollEntry.value e).toOption
      | none => AList.get? out x := by
  induction es generalizing out with
  | nil =>
    rw [CollEntry.toNested] at h
    cases h
    rfl
  | cons e es ih =>
    have hk : CollEntry.name e = .ok e.key := by cases hn e List.mem_cons_self <;> rfl
    obtain ⟨v, hv⟩ := value_plain e (hn e List.mem_cons_self)
    rw [CollEntry.toNested, hv, hk] at h
    rw [ih (fun e' he' => hn e' (List.mem_cons_of_mem _ he')) h, lastOf_cons, AList.get?_set]
    cases lastOf es x with
    | some e' => rfl
    | none => by_cases h' : e.key = x <;> simp [h', hv, Except.toOption]

theorem LastNamed.mem {es : List (CollEntry I)} {x : String} {e : CollEntry I} (h : LastNamed es x e) : e ∈ es := by
  obtain ⟨b, a, rfl, _⟩ := h
  simp

/-! ### Property theorems -/

/-- If the names of the items are those under which they are registered, the nested dictionary can be made, and following keys in it
gives exactly what is registered under the path: an item itself, a section its own nested dictionary. -/
theorem C105_nested_partial (es : List (CollEntry I)) (h : ∀ e ∈ es, PlainEntry e) :
    ∃ d, CollEntry.toNested [] es = .ok d ∧
      ∀ x p n, (Nested.dict d).at? (x :: p) = some n ↔ ∃ e, Under es (x :: p) e ∧ CollEntry.value e = .ok n := by
  obtain ⟨d, hd⟩ := toNested_plain es h []
  refine ⟨d, hd, ?_⟩
  intro x p
  induction p generalizing es d x with
  | nil =>
    intro n
    rw [Nested.at?, toNested_get? h hd]
    constructor
    · intro hn
      cases hl : lastOf es x with
      | none => rw [hl] at hn; simp [AList.get?] at hn
      | some e =>
        rw [hl] at hn
        obtain ⟨v, hv⟩ := value_plain e (h e ((lastOf_iff es x e).1 hl).mem)
        simp only [hv] at hn
        simp only [Except.toOption, Nested.at?, Option.some.injEq] at hn
        exact ⟨e, .here es x e ((lastOf_iff es x e).1 hl), by rw [hv, hn]⟩
    · rintro ⟨e, hu, hv⟩
      cases hu with
      | here _ _ _ hl =>
        rw [(lastOf_iff es x e).2 hl]
        simp [hv, Except.toOption, Nested.at?]
      | inside _ _ _ _ _ _ _ hu => cases hu
  | cons y p ih =>
    intro n
    rw [Nested.at?, toNested_get? h hd]
    constructor
    · intro hn
      cases hl : lastOf es x with
      | none => rw [hl] at hn; simp [AList.get?] at hn
      | some e =>
        rw [hl] at hn
        have hm := ((lastOf_iff es x e).1 hl).mem
        cases e with
        | item k nm i =>
          simp only at hn
          rw [CollEntry.value] at hn
          simp [Except.toOption, Nested.at?] at hn
        | coll nm inner =>
          have hi : ∀ e ∈ inner, PlainEntry e := by cases h _ hm; assumption
          obtain ⟨d', hd'⟩ := toNested_plain inner hi []
          simp only at hn
          rw [CollEntry.value, hd'] at hn
          obtain ⟨e, hu, hv⟩ := (ih inner hi d' hd' y n).1 hn
          exact ⟨e, .inside es x nm inner (y :: p) e ((lastOf_iff es x _).1 hl) hu, hv⟩
    · rintro ⟨e, hu, hv⟩
      cases hu with
      | inside _ _ nm inner _ _ hl hu =>
        have hi : ∀ e ∈ inner, PlainEntry e := by cases h _ hl.mem; assumption
        obtain ⟨d', hd'⟩ := toNested_plain inner hi []
        rw [(lastOf_iff es x _).2 hl]
        simp only
        rw [CollEntry.value, hd']
        exact (ih inner hi d' hd' y n).2 ⟨e, hu, hv⟩

/-- Looking up a path in a collection gives the same, unless a name in it is that of an attribute of collections. -/
theorem C105_lookup (nm : String) (es : List (CollEntry I)) (x : String) (p : List String) (hr : ∀ y ∈ x :: p, y ∉ collectionReserved)
    (e : CollEntry I) : CollEntry.get (.coll nm es) (x :: p) = .ok (some e) ↔ Under es (x :: p) e := by
  induction p generalizing nm es x with
  | nil =>
    rw [CollEntry.get, if_neg (hr x List.mem_cons_self), nameMap_get?]
    constructor
    · intro h
      cases hl : lastOf es x with
      | none => rw [hl] at h; cases h
      | some e' =>
        rw [hl] at h
        simp only [CollEntry.get, Except.ok.injEq, Option.some.injEq] at h
        subst h
        exact .here es x e' ((lastOf_iff es x e').1 hl)
    · intro h
      cases h with
      | here _ _ _ hl => rw [(lastOf_iff es x e).2 hl]; simp [CollEntry.get]
      | inside _ _ _ _ _ _ _ hu => cases hu
  | cons y p ih =>
    rw [CollEntry.get, if_neg (hr x List.mem_cons_self), nameMap_get?]
    have hr' : ∀ z ∈ y :: p, z ∉ collectionReserved := fun z hz => hr z (List.mem_cons_of_mem _ hz)
    constructor
    · intro h
      cases hl : lastOf es x with
      | none => rw [hl] at h; cases h
      | some e' =>
        rw [hl] at h
        cases e' with
        | item k n i => simp [CollEntry.get] at h
        | coll n inner => exact .inside es x n inner (y :: p) e ((lastOf_iff es x _).1 hl) ((ih n inner y hr').1 h)
    · intro h
      cases h with
      | inside _ _ n inner _ _ hl hu =>
        rw [(lastOf_iff es x _).2 hl]
        exact (ih n inner y hr').2 hu

/-- C105 fails if an item has no attribute `name`, as it may be for classes with another `key_attr`: there is no nested dictionary at
all, whatever else is registered. -/
theorem C105_unnamed_violated (before after : List (CollEntry I)) (k : String) (er : PyErr) (i : I) (out : List (String × Nested I)) :
    ∃ er', CollEntry.toNested out (before ++ .item k (.error er) i :: after) = .error er' := by
  induction before generalizing out with
  | nil => exact ⟨er, by rw [List.nil_append, CollEntry.toNested, CollEntry.value]; rfl⟩
  | cons e before ih =>
    rw [List.cons_append, CollEntry.toNested]
    cases CollEntry.value e with
    | error er' => exact ⟨er', rfl⟩
    | ok v => cases CollEntry.name e with
      | error er' => exact ⟨er', rfl⟩
      | ok n => exact ih (AList.set out n v)

/-- C105 fails for items with a name of their own such as those called `DataPipeline`: they all have the same attribute `name`, and
only the last is in the nested dictionary, under that name. -/
theorem C105_own_name_violated (a b : String) (hab : a ≠ b) (i j : I) (n nm : String)
    (ha : a ∉ collectionReserved) (hb : b ∉ collectionReserved) :
    CollEntry.toNested [] [.item a (.ok n) i, .item b (.ok n) j] = .ok [(n, .item j)] ∧
    CollEntry.get (.coll nm [.item a (.ok n) i, .item b (.ok n) j]) [a] = .ok (some (.item a (.ok n) i)) ∧
    CollEntry.get (.coll nm [.item a (.ok n) i, .item b (.ok n) j]) [b] = .ok (some (.item b (.ok n) j)) := by
  refine ⟨?_, ?_, ?_⟩
  · simp [CollEntry.toNested, CollEntry.value, CollEntry.name, AList.set, bind, Except.bind]
  · refine (C105_lookup nm _ a [] (by simpa using ha) _).2 (.here _ _ _ ⟨[], [.item b (.ok n) j], rfl, rfl, ?_⟩)
    intro e he
    rw [List.mem_singleton] at he
    subst he
    exact Ne.symm hab
  · refine (C105_lookup nm _ b [] (by simpa using hb) _).2 (.here _ _ _ ⟨[.item a (.ok n) i], [], rfl, rfl, ?_⟩)
    intro e he
    cases he

/-- C105 fails for names of attributes of collections: the nested dictionary has what is registered, the lookup gives the
attribute. -/
theorem C105_reserved_violated (x : String) (hx : x ∈ collectionReserved) (i : I) (nm : String) :
    CollEntry.toNested [] [.item x (.ok x) i] = .ok [(x, .item i)] ∧
    CollEntry.get (.coll nm [.item x (.ok x) i]) [x] = .ok none := by
  refine ⟨by simp [CollEntry.toNested, CollEntry.value, CollEntry.name, AList.set, bind, Except.bind], ?_⟩
  rw [CollEntry.get, if_pos hx]

/-! ### Examples -/

/-- Two sections, one with the same name as before it. -/
def demoEntries : List (CollEntry Nat) :=
  [.coll "a" [.item "f" (.ok "f") 1, .item "g" (.ok "g") 2], .item "h" (.ok "h") 3, .coll "a" [.item "f" (.ok "f") 4]]

example : ∀ e ∈ demoEntries, PlainEntry e := by
  intro e he
  simp only [demoEntries, List.mem_cons, List.not_mem_nil, or_false] at he
  rcases he with rfl | rfl | rfl
  · refine .coll _ _ (fun e he => ?_)
    simp only [List.mem_cons, List.not_mem_nil, or_false] at he
    rcases he with rfl | rfl <;> exact .item _ _
  · exact .item _ _
  · refine .coll _ _ (fun e he => ?_)
    rw [List.mem_singleton] at he
    subst he
    exact .item _ _

example : Under demoEntries ["a", "f"] (.item "f" (.ok "f") 4) :=
  .inside _ _ "a" [.item "f" (.ok "f") 4] _ _ ⟨[_, _], [], rfl, rfl, by simp⟩ (.here _ _ _ ⟨[], [], rfl, rfl, by simp⟩)

example : CollEntry.toNested [] demoEntries = .ok [("a", .dict [("f", .item 4)]), ("h", .item 3)] := by
  simp [demoEntries, CollEntry.toNested, CollEntry.value, CollEntry.name, AList.set, bind, Except.bind, pure, Except.pure]

example : "get" ∈ collectionReserved := by decide

end Verif.Props

import Verif.Model.EmptyObj
import Verif.Props.Definition

/-
Property theorems about the objects of specific classes that are made from names: C83.
-/

namespace Verif.Props
open Verif.Py Verif.Model

variable {V O : Type}

/-! ### Specification -/

/-- The parameters of a function as Python accepts them. -/
structure ValidSig (s : InitSig V) : Prop where
  nodup : (s.args ++ s.kwonly).Nodup
  defaults : s.defaults.length ≤ s.args.length
  posonly : s.posonly ≤ s.args.length
  kw : ∀ e ∈ s.kwonlyDefaults, e.1 ∈ s.kwonly

/-- The default of a parameter: the defaults are those of the last positional parameters. -/
def defaultOf (s : InitSig V) (x : String) : Option V :=
  (AList.get? (s.args.reverse.zip s.defaults.reverse) x).or (AList.get? s.kwonlyDefaults x)

/-- A class with an ordinary `__init__`: the object is called `self`, everything else can be given by name, and if there are
keyword-only parameters (other than the name) one of them has a default. -/
structure OrdinaryInit (s : InitSig V) (keyAttr : String) (params : List String) : Prop where
  valid : ValidSig s
  args : ∃ rest, s.args = "self" :: rest ∧ params = rest ++ s.kwonly
  posonly : s.posonly ≤ 1
  kwonly : s.kwonlyDefaults ≠ [] ∨ ∀ k ∈ s.kwonly, k = keyAttr

/-- What an object is made with: its name, and otherwise defaults or `None`. -/
def emptyArgs (s : InitSig V) (noneV item : V) (keyAttr : String) (params : List String) : List (String × V) :=
  params.map (fun x => (x, if x = keyAttr then item else (defaultOf s x).getD noneV))

/-- `o` is what `__init__` makes with a name, and has the name as its attribute. -/
structure KeepsName (k : Klass V O) (noneV : V) (ofStr : String → V) (asStr : V → Option String) (keyAttr : String)
    (params : List String) (entry : String) (o : O) : Prop where
  made : k.init (emptyArgs k.sig noneV (ofStr entry) keyAttr params) Dict.empty = .ok o
  named : ∃ v, k.attr o keyAttr = .ok v ∧ asStr v = some entry

mutual
/-- The names in a definition. -/
def wordsIn {L : Type} : Def L → List L
  | .leaf a => [a]
  | .dict es => wordsInDict es
  | .list xs => wordsInList xs
/-- The names in the values of a dictionary. -/
def wordsInDict {L : Type} : List (String × Def L) → List L
  | [] => []
  | (_, d) :: es => wordsIn d ++ wordsInDict es
/-- The names in the elements of a list. -/
def wordsInList {L : Type} : List (Def L) → List L
  | [] => []
  | d :: xs => wordsIn d ++ wordsInList xs
end

mutual
/-- No list is directly inside a list. -/
def NoNestedList {L : Type} : Def L → Bool
  | .leaf _ => true
  | .dict es => NoNestedDict es
  | .list xs => NoNestedElems xs
/-- The same for the values of a dictionary. -/
def NoNestedDict {L : Type} : List (String × Def L) → Bool
  | [] => true
  | (_, d) :: es => NoNestedList d && NoNestedDict es
/-- The same for the elements of a list. -/
def NoNestedElems {L : Type} : List (Def L) → Bool
  | [] => true
  | .list _ :: _ => false
  | .dict es :: xs => NoNestedDict es && NoNestedElems xs
  | .leaf _ :: xs => NoNestedElems xs
end

/-! ### Lemmas -/

namespace EmptyObj

section
variable {L : Type} {resolve : L → Except PyErr (String × Callable V)} {sp : Bool}

mutual
theorem fromDict_loads : (es : List (String × Def L)) → (∀ a ∈ wordsInDict es, ∃ r, resolve a = .ok r) →
    NoNestedDict es = true → ∃ items, fromDict resolve sp es = .ok items
  | [], _, _ => ⟨[], by unfold fromDict; rfl⟩
  | (k, .dict es) :: rest, h, hn => by
    simp only [NoNestedDict, NoNestedList, Bool.and_eq_true] at hn
    simp only [wordsInDict, wordsIn, List.mem_append] at h
    obtain ⟨a, ha⟩ := fromDict_loads es (fun x hx => h x (.inl hx)) hn.1
    obtain ⟨b, hb⟩ := fromDict_loads rest (fun x hx => h x (.inr hx)) hn.2
    exact ⟨_, by unfold fromDict; rw [ha, hb]; rfl⟩
  | (k, .list xs) :: rest, h, hn => by
    simp only [NoNestedDict, NoNestedList, Bool.and_eq_true] at hn
    simp only [wordsInDict, wordsIn, List.mem_append] at h
    obtain ⟨a, ha⟩ := fromList_loads xs (fun x hx => h x (.inl hx)) hn.1
    obtain ⟨b, hb⟩ := fromDict_loads rest (fun x hx => h x (.inr hx)) hn.2
    exact ⟨_, by unfold fromDict; rw [ha, hb]; rfl⟩
  | (k, .leaf a) :: rest, h, hn => by
    simp only [NoNestedDict, NoNestedList, Bool.and_eq_true] at hn
    simp only [wordsInDict, wordsIn, List.mem_append] at h
    obtain ⟨b, hb⟩ := fromDict_loads rest (fun x hx => h x (.inr hx)) hn.2
    exact ⟨_, by unfold fromDict; exact hb⟩
theorem fromList_loads : (xs : List (Def L)) → (∀ a ∈ wordsInList xs, ∃ r, resolve a = .ok r) →
    NoNestedElems xs = true → ∃ items, fromList resolve sp xs = .ok items
  | [], _, _ => ⟨[], by unfold fromList; rfl⟩
  | .dict es :: rest, h, hn => by
    simp only [NoNestedElems, Bool.and_eq_true] at hn
    simp only [wordsInList, wordsIn, List.mem_append] at h
    obtain ⟨a, ha⟩ := fromInner_loads es (fun x hx => h x (.inl hx)) hn.1
    obtain ⟨b, hb⟩ := fromList_loads rest (fun x hx => h x (.inr hx)) hn.2
    exact ⟨_, by unfold fromList; rw [ha, hb]; rfl⟩
  | .list xs :: rest, h, hn => by simp [NoNestedElems] at hn
  | .leaf a :: rest, h, hn => by
    simp only [NoNestedElems] at hn
    simp only [wordsInList, wordsIn, List.mem_append] at h
    obtain ⟨⟨n, k⟩, ha⟩ := h a (.inl List.mem_cons_self)
    obtain ⟨b, hb⟩ := fromList_loads rest (fun x hx => h x (.inr hx)) hn
    exact ⟨_, by unfold fromList; rw [ha]; simp only [bind, Except.bind]; rw [hb]; rfl⟩
theorem fromInner_loads : (es : List (String × Def L)) → (∀ a ∈ wordsInDict es, ∃ r, resolve a = .ok r) →
    NoNestedDict es = true → ∃ items, fromInner resolve sp es = .ok items
  | [], _, _ => ⟨[], by unfold fromInner; rfl⟩
  | (k, .dict es) :: rest, h, hn => by
    simp only [NoNestedDict, NoNestedList, Bool.and_eq_true] at hn
    simp only [wordsInDict, wordsIn, List.mem_append] at h
    obtain ⟨a, ha⟩ := fromDict_loads es (fun x hx => h x (.inl hx)) hn.1
    obtain ⟨b, hb⟩ := fromInner_loads rest (fun x hx => h x (.inr hx)) hn.2
    exact ⟨_, by unfold fromInner; rw [ha, hb]; rfl⟩
  | (k, .list xs) :: rest, h, hn => by
    simp only [NoNestedDict, NoNestedList, Bool.and_eq_true] at hn
    simp only [wordsInDict, wordsIn, List.mem_append] at h
    obtain ⟨a, ha⟩ := fromList_loads xs (fun x hx => h x (.inl hx)) hn.1
    obtain ⟨b, hb⟩ := fromInner_loads rest (fun x hx => h x (.inr hx)) hn.2
    exact ⟨_, by unfold fromInner; rw [ha, hb]; rfl⟩
  | (k, .leaf a) :: rest, h, hn => by
    simp only [NoNestedDict, NoNestedList, Bool.and_eq_true] at hn
    simp only [wordsInDict, wordsIn, List.mem_append] at h
    obtain ⟨⟨n, k⟩, ha⟩ := h a (.inl List.mem_cons_self)
    obtain ⟨b, hb⟩ := fromInner_loads rest (fun x hx => h x (.inr hx)) hn.2
    exact ⟨_, by unfold fromInner; rw [ha]; simp only [bind, Except.bind]; rw [hb]; rfl⟩
end

theorem wordsIn_of_mem {es : List (String × Def L)} {e : String × Def L} (h : e ∈ es) : ∀ a ∈ wordsIn e.2, a ∈ wordsInDict es := by
  induction es with
  | nil => cases h
  | cons e' es ih =>
    intro a ha
    unfold wordsInDict
    rcases List.mem_cons.1 h with rfl | h
    · exact List.mem_append_left _ ha
    · exact List.mem_append_right _ (ih h a ha)

theorem wordsIn_of_elem {xs : List (Def L)} {d : Def L} (h : d ∈ xs) : ∀ a ∈ wordsIn d, a ∈ wordsInList xs := by
  induction xs with
  | nil => cases h
  | cons e' es ih =>
    intro a ha
    unfold wordsInList
    rcases List.mem_cons.1 h with rfl | h
    · exact List.mem_append_left _ ha
    · exact List.mem_append_right _ (ih h a ha)

theorem wordsIn_entries {nameOf : L → String} {d : Def L} {e : String × Def L} (h : e ∈ entriesOf nameOf d) :
    ∀ a ∈ wordsIn e.2, a ∈ wordsIn d := by
  intro a ha
  cases d with
  | leaf _ => cases h
  | dict es =>
    rw [wordsIn]
    exact wordsIn_of_mem (List.mem_filter.1 h).1 a ha
  | list xs =>
    rw [wordsIn]
    obtain ⟨x, hx, he⟩ := List.mem_flatMap.1 h
    refine wordsIn_of_elem hx a ?_
    cases x with
    | leaf b =>
      simp only [List.mem_singleton] at he
      subst he
      exact ha
    | list _ => cases he
    | dict es =>
      obtain ⟨⟨k, d⟩, he', rfl⟩ := List.mem_map.1 he
      rw [wordsIn]
      refine wordsIn_of_mem he' a ?_
      cases d <;> exact ha

theorem entriesOf_congr {f g : L → String} {d : Def L} (h : ∀ a ∈ wordsIn d, f a = g a) : entriesOf f d = entriesOf g d := by
  cases d with
  | leaf _ => rfl
  | dict es => rfl
  | list xs =>
    rw [wordsIn] at h
    unfold entriesOf
    simp only
    induction xs with
    | nil => rfl
    | cons x xs ih =>
      unfold wordsInList at h
      simp only [List.flatMap_cons]
      rw [ih (fun a ha => h a (List.mem_append_right _ ha))]
      congr 1
      cases x with
      | leaf b =>
        simp only
        rw [h b (List.mem_append_left _ (by rw [wordsIn]; exact List.mem_cons_self))]
      | list _ => rfl
      | dict es =>
        refine List.map_congr_left (fun e he => ?_)
        obtain ⟨k, d⟩ := e
        cases d with
        | leaf b =>
          unfold innerEntry
          simp only
          rw [h b (List.mem_append_left _ (by
            rw [wordsIn]
            exact wordsIn_of_mem he b (by rw [wordsIn]; exact List.mem_cons_self)))]
        | dict _ => rfl
        | list _ => rfl

theorem mem_of_lastNamed {α : Type} {es : List (String × α)} {x : String} {a : α} (h : lastNamed es x = some a) : (x, a) ∈ es := by
  induction es with
  | nil => cases h
  | cons e es ih =>
    obtain ⟨y, b⟩ := e
    unfold lastNamed at h
    cases hl : lastNamed es x with
    | some c =>
      rw [hl] at h
      cases h
      exact List.mem_cons_of_mem _ (ih hl)
    | none =>
      rw [hl] at h
      simp only [Option.none_or] at h
      split at h
      · rename_i e; cases h; subst e; exact List.mem_cons_self
      · cases h

theorem definedAt_congr {f g : L → String} (p : List String) {d : Def L} (h : ∀ a ∈ wordsIn d, f a = g a) :
    definedAt f d p = definedAt g d p := by
  induction p generalizing d with
  | nil => rfl
  | cons x p ih =>
    unfold definedAt
    rw [entriesOf_congr h]
    cases hl : lastNamed (entriesOf g d) x with
    | none => rfl
    | some d' => exact ih (fun a ha => h a (wordsIn_entries (mem_of_lastNamed hl) a ha))

theorem wordsIn_definedAt {f : L → String} (p : List String) {d d' : Def L} (h : definedAt f d p = some d') :
    ∀ a ∈ wordsIn d', a ∈ wordsIn d := by
  induction p generalizing d with
  | nil => cases h; exact fun _ => id
  | cons x p ih =>
    unfold definedAt at h
    cases hl : lastNamed (entriesOf f d) x with
    | none => rw [hl] at h; cases h
    | some e =>
      rw [hl] at h
      intro a ha
      exact wordsIn_entries (mem_of_lastNamed hl) a (ih h a ha)

end

theorem zip_short {α β : Type} (xs ys : List α) (l : List β) (h : l.length ≤ xs.length) : (xs ++ ys).zip l = xs.zip l := by
  induction xs generalizing l with
  | nil => cases l with
    | nil => simp
    | cons _ _ => exact absurd h (by simp)
  | cons x xs ih => cases l with
    | nil => simp
    | cons b l => simp only [List.cons_append, List.zip_cons_cons]; rw [ih l (by simpa using h)]

theorem get?_append {K W : Type} [DecidableEq K] (a b : List (K × W)) (x : K) :
    AList.get? (a ++ b) x = (AList.get? a x).or (AList.get? b x) := by
  induction a with
  | nil => simp [AList.get?]
  | cons e a ih =>
    obtain ⟨k, v⟩ := e
    simp only [List.cons_append, AList.get?]
    split
    · simp
    · exact ih

theorem zip_defaults (args : List String) (ds : List V) (hn : args.Nodup) (hl : ds.length ≤ args.length) :
    args.zip (List.replicate (args.length - ds.length) none ++ ds.map some) =
      args.map (fun x => (x, AList.get? (args.reverse.zip ds.reverse) x)) := by
  induction args generalizing ds with
  | nil => simp
  | cons a as ih =>
    rw [List.nodup_cons] at hn
    have keys : ∀ (l : List V), a ∉ (as.reverse.zip l).map Prod.fst := by
      intro l hm
      obtain ⟨e, he, rfl⟩ := List.mem_map.1 hm
      exact hn.1 (List.mem_reverse.1 (List.of_mem_zip (a := e.1) (b := e.2) he).1)
    by_cases h : ds.length ≤ as.length
    · have e : (a :: as).length - ds.length = (as.length - ds.length) + 1 := by simp only [List.length_cons]; omega
      rw [e, List.replicate_succ, List.cons_append, List.zip_cons_cons, ih ds hn.2 h, List.map_cons, List.reverse_cons,
        zip_short _ _ _ (by simpa using h), (AList.get?_eq_none_iff _ _).2 (keys _)]
    · cases ds with
      | nil => exact absurd (Nat.zero_le _) h
      | cons v ds =>
        have hlen : ds.length = as.length := by simp only [List.length_cons] at h hl; omega
        have e : (a :: as).length - (v :: ds).length = 0 := by simp [hlen]
        have i := ih ds hn.2 (by omega)
        rw [hlen, Nat.sub_self, List.replicate_zero, List.nil_append] at i
        have ez : (as.reverse ++ [a]).zip (ds.reverse ++ [v]) = as.reverse.zip ds.reverse ++ [(a, v)] := by
          rw [List.zip_append (by simp [hlen])]; rfl
        rw [e, List.replicate_zero, List.nil_append, List.map_cons, List.zip_cons_cons, i, List.map_cons, List.reverse_cons,
          List.reverse_cons, ez]
        congr 1
        · rw [get?_append, (AList.get?_eq_none_iff _ _).2 (keys _)]
          simp [AList.get?]
        · refine List.map_congr_left (fun x hx => ?_)
          have : a ≠ x := fun e => hn.1 (e ▸ hx)
          rw [get?_append]
          simp [AList.get?, this]

section
variable {s : InitSig V} (h : ValidSig s)
include h

theorem default_arg {x : String} (hx : x ∈ s.args) :
    defaultOf s x = AList.get? (s.args.reverse.zip s.defaults.reverse) x := by
  unfold defaultOf
  rw [(AList.get?_eq_none_iff s.kwonlyDefaults x).2, Option.or_none]
  intro hm
  obtain ⟨e, he, rfl⟩ := List.mem_map.1 hm
  exact (List.nodup_append.1 h.nodup).2.2 _ hx _ (h.kw e he) rfl

theorem default_kw {x : String} (hx : x ∈ s.kwonly) : defaultOf s x = AList.get? s.kwonlyDefaults x := by
  unfold defaultOf
  rw [(AList.get?_eq_none_iff (s.args.reverse.zip s.defaults.reverse) x).2, Option.none_or]
  intro hm
  obtain ⟨e, he, rfl⟩ := List.mem_map.1 hm
  exact (List.nodup_append.1 h.nodup).2.2 _ (List.mem_reverse.1 (List.of_mem_zip (a := e.1) (b := e.2) he).1) _ hx rfl

theorem zip_options : s.args.zip (List.replicate (s.args.length - s.defaults.length) none ++ s.defaults.map some) =
    s.args.map (fun x => (x, defaultOf s x)) := by
  rw [zip_defaults s.args s.defaults (List.nodup_append.1 h.nodup).1 h.defaults]
  exact List.map_congr_left (fun x hx => by rw [default_arg h hx])

theorem params_eq {x : String} {rest : List String} (ha : s.args = x :: rest) :
    s.params = (rest ++ s.kwonly).map (fun x => (x, defaultOf s x)) := by
  unfold InitSig.params
  rw [zip_options h, ha, List.map_cons, List.map_append]
  show rest.map _ ++ _ = _
  congr 1
  exact List.map_congr_left (fun x hx => by rw [default_kw h hx])

theorem argDict_eq (noneV : V) : s.argDict noneV = .ok (Dict.ofList
    ((s.args ++ if s.kwonlyDefaults.isEmpty then [] else s.kwonly).map (fun x => (x, (defaultOf s x).getD noneV)))) := by
  unfold InitSig.argDict
  have hlen : (List.replicate (s.args.length - s.defaults.length) noneV ++ s.defaults).length = s.args.length := by
    have := h.defaults
    simp only [List.length_append, List.length_replicate]
    omega
  have hz : s.args.zip (List.replicate (s.args.length - s.defaults.length) noneV ++ s.defaults) =
      s.args.map (fun x => (x, (defaultOf s x).getD noneV)) := by
    have := congrArg (List.map (fun (e : String × Option V) => (e.1, e.2.getD noneV))) (zip_options h)
    rw [List.map_map] at this
    rw [show (fun x => (x, (defaultOf s x).getD noneV)) = (fun (e : String × Option V) => (e.1, e.2.getD noneV)) ∘
      (fun x => (x, defaultOf s x)) from rfl, ← this, show (fun (e : String × Option V) => (e.1, e.2.getD noneV)) = Prod.map id (fun o => o.getD noneV) from rfl,
      ← List.zip_map_right]
    congr 1
    rw [List.map_append, List.map_replicate, List.map_map]
    congr 1
    exact (List.map_id'' (fun _ => rfl) _).symm
  simp only [hlen, ne_eq, not_true_eq_false, if_false, hz, List.map_append]
  congr 3
  split
  · rfl
  · exact List.map_congr_left (fun x hx => by rw [default_kw h hx])

/-- What `class_function_args_as_dict` has for a name. -/
theorem classArgs_eq (noneV : V) : ∃ d, s.classArgs noneV = .ok d ∧ ∀ x, d.get? x =
    if x ≠ "self" ∧ (x ∈ s.args ∨ (x ∈ s.kwonly ∧ s.kwonlyDefaults ≠ [])) then some ((defaultOf s x).getD noneV) else none := by
  unfold InitSig.classArgs
  rw [argDict_eq h]
  refine ⟨_, rfl, fun x => ?_⟩
  have get_map : ∀ (l : List String) (f : String → V), AList.get? (l.map (fun x => (x, f x))) x =
      if x ∈ l then some (f x) else none := by
    intro l f
    induction l with
    | nil => simp [AList.get?]
    | cons a l ih =>
      simp only [List.map_cons, AList.get?, ih, List.mem_cons]
      by_cases e : a = x
      · simp [e]
      · have e' : x ≠ a := fun h => e h.symm
        simp [e, e']
  have hsub : ((s.args ++ if s.kwonlyDefaults.isEmpty then [] else s.kwonly)).Nodup := by
    split
    · simpa using (List.nodup_append.1 h.nodup).1
    · exact h.nodup
  rw [Dict.get?_filterKeys]
  unfold Dict.ofList
  rw [Dict.get?_setAll_of_nodup _ (by rw [List.map_map]; exact (List.map_id'' (fun _ => rfl) _).symm ▸ hsub), get_map]
  have e0 : (Dict.empty : Dict String V).get? x = none := rfl
  rw [e0, Option.or_none]
  have hm : (x ∈ s.args ++ if s.kwonlyDefaults.isEmpty then [] else s.kwonly) ↔
      (x ∈ s.args ∨ (x ∈ s.kwonly ∧ s.kwonlyDefaults ≠ [])) := by
    rw [List.mem_append]
    cases hk : s.kwonlyDefaults with
    | nil => simp
    | cons a l => simp
  by_cases hs : x = "self"
  · simp [hs]
  · simp only [hs, ne_eq, not_false_eq_true, decide_true, if_true, true_and, hm]

end

theorem bindParams_ok (named : List String) (d : Dict String V) (ps : List (String × Option V)) (f : String → V)
    (h : ∀ e ∈ ps, (if e.1 ∈ named then (d.get? e.1).or e.2 else e.2) = some (f e.1)) :
    InitSig.bindParams named d ps = .ok (ps.map (fun e => (e.1, f e.1))) := by
  induction ps with
  | nil => rfl
  | cons e ps ih =>
    obtain ⟨x, o⟩ := e
    unfold InitSig.bindParams
    have := h (x, o) List.mem_cons_self
    simp only at this
    rw [this, ih (fun e he => h e (List.mem_cons_of_mem _ he))]
    rfl

theorem bindParams_some {named : List String} {d : Dict String V} {ps : List (String × Option V)} {r : List (String × V)}
    (h : InitSig.bindParams named d ps = .ok r) :
    ∀ e ∈ ps, (if e.1 ∈ named then (d.get? e.1).or e.2 else e.2) ≠ none := by
  induction ps generalizing r with
  | nil => intro e he; cases he
  | cons e ps ih =>
    obtain ⟨x, o⟩ := e
    unfold InitSig.bindParams at h
    intro e he
    cases hx : (if x ∈ named then (d.get? x).or o else o) with
    | none => rw [hx] at h; cases h
    | some v =>
      rw [hx] at h
      simp only at h
      cases hr : InitSig.bindParams named d ps with
      | error _ => rw [hr] at h; cases h
      | ok r' =>
        rcases List.mem_cons.1 he with rfl | he
        · rw [hx]; simp
        · exact ih hr e he

theorem byName_eq {s : InitSig V} {keyAttr : String} {params : List String} (h : OrdinaryInit s keyAttr params) :
    s.byName = params := by
  obtain ⟨rest, e, rfl⟩ := h.args
  have : max 1 s.posonly = 1 := by have := h.posonly; omega
  unfold InitSig.byName
  rw [this, e]
  rfl

end EmptyObj

/-! ### Theorems -/

/-- C83: an object of a class with an ordinary `__init__` is made with its name, and with the default of every other parameter,
or `None` for those that have none. -/
theorem C83_made (k : Klass V O) (noneV item : V) (keyAttr : String) (params : List String)
    (h : OrdinaryInit k.sig keyAttr params) (hk : keyAttr ∈ params ∨ (k.sig.varkw = true ∧ keyAttr ≠ "self")) :
    ∃ extra, k.makeEmpty noneV keyAttr item = k.init
        (emptyArgs k.sig noneV item keyAttr params) extra ∧
      ∀ x, extra.get? x = if x = keyAttr ∧ keyAttr ∉ params then some item else none := by
  obtain ⟨rest, e1, rfl⟩ := h.args
  have hself : "self" ∉ rest ++ k.sig.kwonly := by
    have := h.valid.nodup
    rw [e1, List.cons_append, List.nodup_cons] at this
    exact this.1
  have hks : keyAttr ≠ "self" := by
    rcases hk with hk | hk
    · exact fun e => hself (e ▸ hk)
    · exact hk.2
  obtain ⟨d, hd, hget⟩ := EmptyObj.classArgs_eq h.valid noneV
  have hget' : ∀ x, (d.set keyAttr item).get? x = if x = keyAttr then some item else
      if x ∈ rest ++ k.sig.kwonly then some ((defaultOf k.sig x).getD noneV) else none := by
    intro x
    rw [Dict.get?_set, hget]
    by_cases hx : keyAttr = x
    · simp [hx]
    · have hx' : x ≠ keyAttr := fun e => hx e.symm
      rw [if_neg hx, if_neg hx']
      by_cases hxs : x = "self"
      · subst hxs
        simp [hself]
      · by_cases hxr : x ∈ rest
        · simp [hxs, hxr, e1]
        · by_cases hxk : x ∈ k.sig.kwonly
          · have : k.sig.kwonlyDefaults ≠ [] := h.kwonly.resolve_right (fun ha => hx' (ha x hxk))
            simp [hxs, hxk, this]
          · simp [hxs, hxr, hxk, e1]
  have hkeys : ∀ x, x ∈ (d.set keyAttr item).keys ↔ x = keyAttr ∨ x ∈ rest ++ k.sig.kwonly := by
    intro x
    rw [Dict.mem_keys_iff, hget']
    by_cases hx : x = keyAttr
    · simp [hx]
    · by_cases hp : x ∈ rest ++ k.sig.kwonly
      · rw [if_neg hx, if_pos hp]; simp [hp]
      · rw [if_neg hx, if_neg hp]; simp [hx, hp]
  refine ⟨(d.set keyAttr item).filterKeys (fun x => decide (x ∉ k.sig.byName)), ?_, fun x => ?_⟩
  · unfold Klass.makeEmpty
    rw [hd]
    have hb : k.sig.bind (d.set keyAttr item) = .ok ((rest ++ k.sig.kwonly).map
        (fun x => (x, if x = keyAttr then item else (defaultOf k.sig x).getD noneV)),
        (d.set keyAttr item).filterKeys (fun x => decide (x ∉ k.sig.byName))) := by
      unfold InitSig.bind
      rw [if_neg (by rw [e1]; simp), if_neg, if_neg]
      · rw [EmptyObj.params_eq h.valid e1, EmptyObj.bindParams_ok _ _ _
          (fun x => if x = keyAttr then item else (defaultOf k.sig x).getD noneV)]
        · rw [List.map_map]; rfl
        · intro e he
          obtain ⟨x, hx, rfl⟩ := List.mem_map.1 he
          rw [EmptyObj.byName_eq h, if_pos hx, hget']
          by_cases hxk : x = keyAttr
          · simp [hxk]
          · rw [if_neg hxk, if_pos hx, if_neg hxk]; rfl
      · intro ⟨hv, ha⟩
        obtain ⟨x, hx, hn⟩ := List.any_eq_true.1 ha
        have hn := of_decide_eq_true hn
        rw [EmptyObj.byName_eq h] at hn
        rcases (hkeys x).1 hx with rfl | hx
        · rcases hk with hk | hk
          · exact hn hk
          · rw [hk.1] at hv; cases hv
        · exact hn hx
      · intro ⟨_, x, hx, hm⟩
        rw [e1] at hx
        cases hx
        rcases (hkeys _).1 hm with e | e
        · exact hks e.symm
        · exact hself e
    show (do let (bound, extra) ← k.sig.bind (d.set keyAttr item); k.init bound extra) = _
    rw [hb]
    rfl
  · rw [Dict.get?_filterKeys, hget', EmptyObj.byName_eq h]
    by_cases hp : x ∈ rest ++ k.sig.kwonly
    · have hnot : ¬(x = keyAttr ∧ keyAttr ∉ rest ++ k.sig.kwonly) := fun ⟨e, hn⟩ => hn (e ▸ hp)
      rw [if_neg hnot, if_neg (by rw [decide_eq_true_eq]; exact fun h => h hp)]
    · rw [if_pos (decide_eq_true hp), if_neg hp]
      by_cases hx : x = keyAttr
      · subst hx; rw [if_pos rfl, if_pos ⟨rfl, hp⟩]
      · rw [if_neg hx, if_neg (fun e => hx e.1)]

/-- C83, for classes without `**kwargs`: for exactly which classes Python accepts the call. -/
theorem C83_accepted_iff (s : InitSig V) (noneV item : V) (keyAttr first : String) (rest : List String) (hs : ValidSig s)
    (ha : s.args = first :: rest) (hv : s.varkw = false) :
    (∃ d r, s.classArgs noneV = .ok d ∧ s.bind (d.set keyAttr item) = .ok r) ↔
      OrdinaryInit s keyAttr (rest ++ s.kwonly) ∧ keyAttr ∈ rest ++ s.kwonly := by
  obtain ⟨d, hd, hget⟩ := EmptyObj.classArgs_eq hs noneV
  have hnd := hs.nodup
  rw [ha, List.cons_append, List.nodup_cons] at hnd
  constructor
  · intro ⟨d', r, hd', hb⟩
    rw [hd] at hd'
    cases hd'
    unfold InitSig.bind at hb
    rw [if_neg (by rw [ha]; simp)] at hb
    split at hb
    · cases hb
    · rename_i h0
      split at hb
      · cases hb
      · rename_i h1
        have hall : ∀ x ∈ (d.set keyAttr item).keys, x ∈ s.byName := by
          intro x hx
          refine Classical.byContradiction (fun hn => h1 ⟨hv, List.any_eq_true.2 ⟨x, hx, decide_eq_true hn⟩⟩)
        have hby : ∀ x ∈ s.byName, x ∈ rest ++ s.kwonly := by
          intro x hx
          unfold InitSig.byName at hx
          rw [ha] at hx
          rcases List.mem_append.1 hx with hx | hx
          · have : max 1 s.posonly = (max 1 s.posonly - 1) + 1 := by omega
            rw [this, List.drop_succ_cons] at hx
            exact List.mem_append_left _ (List.mem_of_mem_drop hx)
          · exact List.mem_append_right _ hx
        have hmem : ∀ x, x ≠ "self" → (x ∈ s.args ∨ (x ∈ s.kwonly ∧ s.kwonlyDefaults ≠ [])) → x ∈ s.byName := by
          intro x hx hm
          refine hall x ?_
          have hg := hget x
          rw [if_pos ⟨hx, hm⟩] at hg
          rw [Dict.mem_keys_iff, Dict.get?_set, hg]
          split <;> rfl
        have hfirst : first = "self" := by
          refine Classical.byContradiction (fun hf => ?_)
          exact hnd.1 (hby _ (hmem first hf (.inl (by rw [ha]; exact List.mem_cons_self))))
        subst hfirst
        have hkey : keyAttr ∈ rest ++ s.kwonly := by
          refine hby _ (hall _ ?_)
          rw [Dict.mem_keys_iff, Dict.get?_set_self]; rfl
        refine ⟨⟨hs, ⟨rest, ha, rfl⟩, ?_, ?_⟩, hkey⟩
        · refine Classical.byContradiction (fun hp => ?_)
          have hp : 2 ≤ s.posonly := by omega
          have hpl := hs.posonly
          rw [ha, List.length_cons] at hpl
          cases rest with
          | nil => simp only [List.length_nil] at hpl; omega
          | cons y rest =>
            have hy : y ≠ "self" := fun e => hnd.1 (e ▸ by simp)
            have := hmem y hy (.inl (by rw [ha]; simp))
            unfold InitSig.byName at this
            rw [ha] at this
            have hmax : max 1 s.posonly = (s.posonly - 2) + 1 + 1 := by omega
            rw [hmax, List.drop_succ_cons, List.drop_succ_cons] at this
            have hnd2 := hnd.2
            rw [List.cons_append, List.nodup_cons] at hnd2
            rcases List.mem_append.1 this with h | h
            · exact hnd2.1 (List.mem_append_left _ (List.mem_of_mem_drop h))
            · exact hnd2.1 (List.mem_append_right _ h)
        · refine Classical.byContradiction (fun hn => ?_)
          rw [not_or] at hn
          obtain ⟨hd0, hx⟩ := hn
          have hd0 : s.kwonlyDefaults = [] := Classical.byContradiction hd0
          simp only [Classical.not_forall] at hx
          obtain ⟨x, hxk, hxn⟩ := hx
          cases hbp : InitSig.bindParams s.byName (d.set keyAttr item) s.params with
          | error e => rw [hbp] at hb; cases hb
          | ok b =>
            have := EmptyObj.bindParams_some hbp (x, defaultOf s x) (by
              rw [EmptyObj.params_eq hs ha]
              exact List.mem_map.2 ⟨x, List.mem_append_right _ hxk, rfl⟩)
            have hdef : defaultOf s x = none := by rw [EmptyObj.default_kw hs hxk, hd0]; rfl
            have hxa : x ∉ s.args := fun hm => (List.nodup_append.1 hs.nodup).2.2 _ hm _ hxk rfl
            have hg : (d.set keyAttr item).get? x = none := by
              rw [Dict.get?_set, if_neg (fun e => hxn e.symm), hget, if_neg]
              rintro ⟨_, hm | hm⟩
              · exact hxa hm
              · exact hm.2 hd0
            simp only [hg, hdef] at this
            simp at this
  · intro ⟨ho, hk⟩
    obtain ⟨extra, h1, _⟩ := C83_made (O := List (String × V) × Dict String V) ⟨s, fun b e => .ok (b, e), fun _ _ => .error .attributeError⟩
      noneV item keyAttr _ ho (.inl hk)
    cases hb : s.bind (d.set keyAttr item) with
    | ok r => exact ⟨d, r, hd, hb⟩
    | error e =>
      unfold Klass.makeEmpty at h1
      simp only [hd] at h1
      have h1' : (do let (bound, extra) ← s.bind (d.set keyAttr item); (.ok (bound, extra) : Except PyErr _)) = _ := h1
      rw [hb] at h1'
      cases h1'

theorem EmptyObj.resolve_keeps {k : Klass V O} {noneV : V} {ofStr : String → V} {asStr : V → Option String} {keyAttr : String}
    {params : List String} (h : OrdinaryInit k.sig keyAttr params) (hk : keyAttr ∈ params) {entry : String} {o : O}
    (ho : KeepsName k noneV ofStr asStr keyAttr params entry o) (item : O → Callable V) :
    k.resolve noneV ofStr asStr keyAttr item entry = .ok (entry, item o) := by
  obtain ⟨extra, h1, h2⟩ := C83_made k noneV (ofStr entry) keyAttr params h (.inl hk)
  have he : extra = Dict.empty := by
    refine Dict.ext_items ?_
    cases hi : extra.items with
    | nil => rfl
    | cons e l =>
      have := (Dict.mem_items_iff extra e.1 e.2).1 (by rw [hi]; exact List.mem_cons_self)
      rw [h2, if_neg (fun h => h.2 hk)] at this
      cases this
  subst he
  rw [ho.made] at h1
  obtain ⟨v, hv, hs⟩ := ho.named
  unfold Klass.resolve
  rw [h1]
  show (do match asStr (← k.attr o keyAttr) with
    | some name => return (name, item o)
    | none => .error .typeError : Except PyErr _) = _
  rw [hv]
  show (match asStr v with
    | some name => (.ok (name, item o) : Except PyErr _)
    | none => .error .typeError) = _
  rw [hs]

/-- C83 (missing: classes that cannot be made without values or change the name, see `C83_none_violated` and
`C83_renamed_violated`, those with another `__init__`, see `C83_accepted_iff`, and names of attributes of collections, C36): the
dictionary of a class whose objects can be made and keep their names can be loaded, and each of its names is found at its path,
as an object made with that name. -/
theorem C83_found_partial (k : Klass V O) (noneV : V) (ofStr : String → V) (asStr : V → Option String) (keyAttr : String)
    (params : List String) (item : O → Callable V) (es : List (String × Def String)) (h : OrdinaryInit k.sig keyAttr params)
    (hk : keyAttr ∈ params) (hn : NoNestedList (.dict es) = true)
    (hc : ∀ x ∈ wordsIn (.dict es), ∃ o, KeepsName k noneV ofStr asStr keyAttr params x o) :
    ∃ r, Reg.fromDefinition (k.resolve noneV ofStr asStr keyAttr item) true es = .ok r ∧
      ∀ p, (∀ x ∈ p, x ∉ registrarReserved) → match definedAt id (.dict es) p with
        | none => r.walk registrarReserved p = .error .attributeError
        | some (.leaf x) => ∃ o, KeepsName k noneV ofStr asStr keyAttr params x o ∧
            r.walk registrarReserved p = .ok (.item (item o))
        | some _ => ∃ items, r.walk registrarReserved p = .ok (.coll true items) := by
  have hres : ∀ x ∈ wordsIn (.dict es), ∃ o, KeepsName k noneV ofStr asStr keyAttr params x o ∧
      k.resolve noneV ofStr asStr keyAttr item x = .ok (x, item o) := by
    intro x hx
    obtain ⟨o, ho⟩ := hc x hx
    exact ⟨o, ho, EmptyObj.resolve_keeps h hk ho item⟩
  have hw : wordsIn (.dict es) = wordsInDict es := by rw [wordsIn]
  rw [NoNestedList] at hn
  obtain ⟨items, hi⟩ := EmptyObj.fromDict_loads (sp := true) (resolve := k.resolve noneV ofStr asStr keyAttr item) es
    (fun x hx => by obtain ⟨o, _, ho⟩ := hres x (hw ▸ hx); exact ⟨_, ho⟩) hn
  have hd : Reg.fromDefinition (k.resolve noneV ofStr asStr keyAttr item) true es = .ok (.coll true items) := by
    unfold Reg.fromDefinition
    rw [hi]
    rfl
  refine ⟨_, hd, fun p hp => ?_⟩
  have := C36_found_partial _ true es _ hd p hp
  rw [EmptyObj.definedAt_congr (g := id) p (fun x hx => by
    obtain ⟨o, _, ho⟩ := hres x hx
    unfold leafName
    rw [ho]; rfl)] at this
  cases hat : definedAt id (.dict es) p with
  | none => rw [hat] at this; exact this
  | some d =>
    rw [hat] at this
    simp only at this
    obtain ⟨r', h1, h2⟩ := this
    cases d with
    | leaf x =>
      obtain ⟨n, c, e1, e2⟩ := h2
      obtain ⟨o, ho, e3⟩ := hres x (EmptyObj.wordsIn_definedAt p hat x (by rw [wordsIn]; exact List.mem_cons_self))
      rw [e3] at e1
      cases e1
      exact ⟨o, ho, by rw [h1, e2]⟩
    | dict es' => obtain ⟨items, _, e⟩ := h2; exact ⟨items, by rw [h1, e]⟩
    | list xs => obtain ⟨items, _, e⟩ := h2; exact ⟨items, by rw [h1, e]⟩

/-! ### Examples and counterexamples -/

/-- `def __init__(self, name, size=...)`; the values are strings, `"None"` for `None`. -/
def demoInit : InitSig String := ⟨0, ["self", "name", "size"], ["1"], [], [], false, false⟩

/-- A class that keeps what it is given. -/
def keepingClass : Klass String (List (String × String)) where
  sig := demoInit
  init := fun b _ => .ok b
  attr := fun o x => match AList.get? o x with
    | some v => .ok v
    | none => .error .attributeError

/-- A class that keeps its name in lower case. -/
def loweringClass : Klass String (List (String × String)) :=
  { keepingClass with attr := fun o x => match AList.get? o x with
    | some v => .ok (if v = "A" then "a" else v)
    | none => .error .attributeError }

/-- A class that needs a size. -/
def demandingClass : Klass String (List (String × String)) :=
  { keepingClass with
    sig := ⟨0, ["self", "name", "size"], [], [], [], false, false⟩
    init := fun b _ => if AList.get? b "size" = some "None" then .error .typeError else .ok b }

/-- What is registered for an object. -/
def demoRegistered (o : List (String × String)) : Callable String where
  kind := .specific
  sig := ⟨["self", "name", "size"], [], []⟩
  app := fun _ => .error .typeError
  init := fun _ => .ok ()
  upd := fun _ => .ok ()
  exec := fun _ => .ok (((AList.get? o "name").getD "") ++ "/" ++ ((AList.get? o "size").getD ""))

/-- `class_dict = {'data': ['A', 'b']}` -/
def demoClassDict : List (String × Def String) := [("data", .list [.leaf "A", .leaf "b"])]

theorem demoInit_ordinary (ds : List String) (h : ds.length ≤ 3) :
    OrdinaryInit (⟨0, ["self", "name", "size"], ds, [], [], false, false⟩ : InitSig String) "name" ["name", "size"] :=
  ⟨⟨by simp, h, Nat.zero_le _, by simp⟩, ⟨["name", "size"], rfl, rfl⟩, Nat.zero_le _, .inr (by simp)⟩

/-- The hypotheses of `C83_found_partial` and what they give. -/
example : OrdinaryInit keepingClass.sig "name" ["name", "size"] ∧ "name" ∈ ["name", "size"] ∧
    NoNestedList (.dict demoClassDict) = true ∧
    (∀ x ∈ wordsIn (.dict demoClassDict), ∃ o, KeepsName keepingClass "None" id some "name" ["name", "size"] x o) ∧
    definedAt id (.dict demoClassDict) ["data", "A"] = some (.leaf "A") ∧
    emptyArgs keepingClass.sig "None" "A" "name" ["name", "size"] = [("name", "A"), ("size", "1")] := by
  refine ⟨demoInit_ordinary _ (by decide), by decide, by decide +kernel, ?_, rfl, by decide +kernel⟩
  intro x hx
  simp only [wordsIn, demoClassDict, wordsInDict, wordsInList] at hx
  refine ⟨_, rfl, x, ?_, rfl⟩
  show (match AList.get? (emptyArgs keepingClass.sig "None" x "name" ["name", "size"]) "name" with
    | some v => (.ok v : Except PyErr String) | none => .error .attributeError) = _
  simp [emptyArgs, AList.get?]

/-- C83 fails for a class that changes its name: the entry `A` is not found, but `a` is. -/
theorem C83_renamed_violated : ∃ r,
    Reg.fromDefinition (loweringClass.resolve "None" id some "name" demoRegistered) true demoClassDict = .ok r ∧
    definedAt id (.dict demoClassDict) ["data", "A"] = some (.leaf "A") ∧
    r.walk registrarReserved ["data", "A"] = .error .attributeError ∧
    definedAt id (.dict demoClassDict) ["data", "a"] = none ∧
    ∃ k, r.walk registrarReserved ["data", "a"] = .ok (.item k) := by
  have hA : loweringClass.resolve "None" id some "name" demoRegistered "A" =
    .ok ("a", demoRegistered [("name", "A"), ("size", "1")]) := rfl
  have hb : loweringClass.resolve "None" id some "name" demoRegistered "b" =
    .ok ("b", demoRegistered [("name", "b"), ("size", "1")]) := rfl
  have hd : Reg.fromDefinition (loweringClass.resolve "None" id some "name" demoRegistered) true demoClassDict =
      .ok (.coll true [("data", .coll true [("a", .item (demoRegistered [("name", "A"), ("size", "1")])),
        ("b", .item (demoRegistered [("name", "b"), ("size", "1")]))])]) := by
    unfold Reg.fromDefinition demoClassDict
    rw [fromDict, fromDict, fromList, hA]
    simp only [bind, Except.bind]
    rw [fromList, hb]
    simp only [bind, Except.bind]
    rw [fromList]
    rfl
  exact ⟨_, hd, rfl, rfl, rfl, _, rfl⟩

/-- C83 fails for a class that cannot be made without a value: no dictionary with a name in a list can be loaded, although
`klass(name='A', size='1')` works. -/
theorem C83_none_violated :
    (∀ x, (demandingClass.resolve "None" id some "name" demoRegistered x).toOption.isSome = false) ∧
    demandingClass.sig.bind (Dict.ofList [("name", "A"), ("size", "1")]) = .ok ([("name", "A"), ("size", "1")], Dict.empty) ∧
    (demandingClass.init [("name", "A"), ("size", "1")] Dict.empty).toOption.isSome = true := by
  refine ⟨fun x => ?_, ?_, by decide +kernel⟩
  · obtain ⟨extra, h, _⟩ := C83_made demandingClass "None" x "name" ["name", "size"] (demoInit_ordinary _ (by decide)) (.inl (by decide))
    have : demandingClass.makeEmpty "None" "name" x = .error .typeError := by
      rw [h]
      simp [demandingClass, keepingClass, emptyArgs, AList.get?, defaultOf]
    unfold Klass.resolve
    simp only [id, this]
    rfl
  · rfl

/-- C83 fails for a class with a keyword-only parameter if none has a default, and for one whose first parameter is not called
`self`: nothing can be made from a name, although the call with the parameter would work. -/
theorem C83_init_violated :
    (∀ item : String, ∀ s ∈ [(⟨0, ["self", "name"], [], ["size"], [], false, false⟩ : InitSig String),
        ⟨0, ["this", "name", "size"], ["1"], [], [], false, false⟩],
      ¬∃ d r, s.classArgs "None" = .ok d ∧ s.bind (d.set "name" item) = .ok r) ∧
    (∀ s ∈ [(⟨0, ["self", "name"], [], ["size"], [], false, false⟩ : InitSig String),
        ⟨0, ["this", "name", "size"], ["1"], [], [], false, false⟩],
      s.bind (Dict.ofList [("name", "A"), ("size", "1")]) = .ok ([("name", "A"), ("size", "1")], Dict.empty)) := by
  constructor
  · intro item s hs
    simp only [List.mem_cons, List.not_mem_nil, or_false] at hs
    rcases hs with rfl | rfl
    · rw [C83_accepted_iff _ "None" item "name" "self" ["name"] ⟨by decide, by decide, by decide, by simp⟩ rfl rfl]
      intro ⟨h, _⟩
      rcases h.kwonly with h | h
      · exact h rfl
      · exact absurd (h "size" (by simp)) (by decide)
    · rw [C83_accepted_iff _ "None" item "name" "this" ["name", "size"] ⟨by decide, by decide, by decide, by simp⟩ rfl rfl]
      intro ⟨h, _⟩
      obtain ⟨rest, h, _⟩ := h.args
      simp at h
  · intro s hs
    simp only [List.mem_cons, List.not_mem_nil, or_false] at hs
    rcases hs with rfl | rfl <;> rfl

end Verif.Props

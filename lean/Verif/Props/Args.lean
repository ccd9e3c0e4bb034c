import Verif.Model.Args
import Verif.Props.Imports

/-
Property theorems about the parameters of functions: C59, C60.
-/

namespace Verif.Props
open Verif.Py Verif.Model

/-! ### Specification -/

/-- The defaults of a signature as Python has them: the last default belongs to the last positional parameter, and so
on; positional-only parameters come first. -/
def positionalDefaults (a : Arguments) : List (Arg × Option Default) :=
  ((a.posonly ++ a.args).reverse.zipIdx.map (fun p => (p.1, a.defaults.reverse[p.2]?))).reverse

/-- The parameters that a caller may pass by keyword, with their defaults. -/
def keywordParams (a : Arguments) : List (Arg × Option Default) :=
  (positionalDefaults a).drop a.posonly.length ++ a.kwonly.zip a.kwDefaults

/-- What Python's parser makes sure of. -/
structure Valid (a : Arguments) : Prop where
  defaults : a.defaults.length ≤ a.posonly.length + a.args.length
  kwDefaults : a.kwDefaults.length = a.kwonly.length
  names : ((a.posonly ++ a.args ++ a.kwonly).map Arg.name).Nodup

/-- Types of Python itself, and what `list(set(xs))` does. -/
structure SetList (setList : List String → List String) : Prop where
  nodup : ∀ xs, (setList xs).Nodup
  mem : ∀ xs x, x ∈ setList xs ↔ x ∈ xs

mutual
/-- Annotations of names, attributes of names, subscripts, tuples, lists and strings. -/
def SimpleAnn : Ann → Prop
  | .name _ => True
  | .elts items => SimpleAnns items
  | .index value => SimpleAnn value
  | .subscript value slice => SimpleAnn value ∧ SimpleAnn slice
  | .attribute (.name _) _ => True
  | .attribute _ _ => False
  | .str _ => True
  | .other => False
def SimpleAnns : List Ann → Prop
  | [] => True
  | a :: as => SimpleAnn a ∧ SimpleAnns as
end

mutual
/-- The names an annotation begins with. -/
def rootNames : Ann → List String
  | .name id => [id]
  | .elts items => rootNamesList items
  | .index value => rootNames value
  | .subscript value slice => rootNames value ++ rootNames slice
  | .attribute value _ => rootNames value
  | .str s => [s]
  | .other => []
def rootNamesList : List Ann → List String
  | [] => []
  | a :: as => rootNames a ++ rootNamesList as
end

/-! ### Lemmas -/

theorem zipIdx_reverse_defaults (ps : List Arg) (ds : List Default) (h : ds.length ≤ ps.length) :
    (ps.reverse.zipIdx.map (fun p => (p.1, ds.reverse[p.2]?))).reverse =
      ps.zip (List.replicate (ps.length - ds.length) none ++ ds.map some) := by
  apply List.ext_getElem?
  intro i
  by_cases hi : i < ps.length
  · have h1 : ps.length - 1 - i < ps.length := by omega
    rw [List.getElem?_reverse (by simpa using hi)]
    simp only [List.getElem?_map, List.getElem?_zipIdx, List.length_map, List.length_zipIdx, List.length_reverse]
    rw [List.getElem?_reverse h1]
    have e : ps.length - 1 - (ps.length - 1 - i) = i := by omega
    rw [e, List.getElem?_eq_getElem hi]
    refine Eq.trans rfl (List.getElem?_zip_eq_some (z := (ps[i], ds.reverse[0 + (ps.length - 1 - i)]?)).2
      ⟨List.getElem?_eq_getElem hi, ?_⟩).symm
    · simp only [Nat.zero_add]
      by_cases hd : i < ps.length - ds.length
      · rw [List.getElem?_append_left (by simpa using hd), List.getElem?_replicate, if_pos hd]
        congr 1
        rw [eq_comm, List.getElem?_eq_none_iff]
        simp
        omega
      · rw [List.getElem?_append_right (by simpa using hd)]
        simp only [List.length_replicate, List.getElem?_map]
        have hlt : i - (ps.length - ds.length) < ds.length := by omega
        rw [List.getElem?_reverse (by omega)]
        have e2 : ds.length - 1 - (ps.length - 1 - i) = i - (ps.length - ds.length) := by omega
        rw [e2, List.getElem?_eq_getElem hlt]
        rfl
  · rw [List.getElem?_eq_none (by simpa using hi), List.getElem?_eq_none]
    simp
    omega

theorem addArgs_fst (ps : List (Arg × Option Default)) (d : Dict String (Option Default)) (ann : Dict String Ann)
    (h : (d.keys ++ ps.map (fun p => p.1.name)).Nodup) :
    (addArgs ps d ann).1.items = d.items ++ ps.map (fun p => (p.1.name, p.2)) := by
  have hset : ∀ (l : List (String × Option Default)) (k : String) (v : Option Default), k ∉ l.map Prod.fst →
      AList.set l k v = l ++ [(k, v)] := by
    intro l k v
    induction l with
    | nil => intro _; rfl
    | cons e l ih =>
      intro hk
      rw [List.map_cons, List.mem_cons, not_or] at hk
      rw [AList.set, if_neg (fun he => hk.1 he.symm), ih hk.2]
      rfl
  induction ps generalizing d ann with
  | nil => simp [addArgs]
  | cons p ps ih =>
    obtain ⟨a, v⟩ := p
    rw [addArgs]
    have hk : a.name ∉ d.keys := by
      rw [List.nodup_append] at h
      intro hm
      exact h.2.2 _ hm a.name (by simp) rfl
    have hitems : (d.set a.name v).items = d.items ++ [(a.name, v)] := hset d.items a.name v hk
    rw [ih]
    · rw [hitems]
      simp
    · unfold Dict.keys
      rw [hitems]
      unfold Dict.keys at h
      simpa using h

/-- The annotations of parameters. -/
theorem addArgs_snd (ps : List (Arg × Option Default)) (d : Dict String (Option Default)) (ann : Dict String Ann) (k : String) :
    (addArgs ps d ann).2.get? k = match (ps.reverse.find? (fun p => decide (p.1.name = k) && p.1.annotation.isSome)) with
      | some p => p.1.annotation.map Ann.unquote
      | none => ann.get? k := by
  induction ps generalizing d ann with
  | nil => rfl
  | cons p ps ih =>
    obtain ⟨a, v⟩ := p
    rw [addArgs, ih, List.reverse_cons, List.find?_append]
    cases hf : ps.reverse.find? (fun p => decide (p.1.name = k) && p.1.annotation.isSome) with
    | some q => rfl
    | none =>
      simp only [Option.none_or, List.find?_cons, List.find?_nil]
      cases ha : a.annotation with
      | none => simp
      | some t =>
        by_cases hk : a.name = k
        · simp [hk, Dict.get?_set_self, ha]
        · simp [hk, Dict.get?_set_ne]

theorem argDicts_eq {a : Arguments} (hv : Valid a) :
    argDicts a = if a.args.length < a.defaults.length then .error .assertionError
      else .ok (addArgs (a.kwonly.zip a.kwDefaults)
        (addArgs (a.args.zip ((List.replicate (a.args.length - a.defaults.length) noneDefault ++ a.defaults).map some))
          .empty .empty).1
        (addArgs (a.args.zip ((List.replicate (a.args.length - a.defaults.length) noneDefault ++ a.defaults).map some))
          .empty .empty).2) := by
  unfold argDicts
  dsimp only
  by_cases h : a.args.length < a.defaults.length
  · rw [if_pos h, if_pos]
    simp
    omega
  · rw [if_neg h, if_neg, if_neg]
    · rw [hv.kwDefaults]; omega
    · simp
      omega

/-- The parameters taken from a signature. -/
theorem params_split {a : Arguments} (h : a.defaults.length ≤ a.args.length) :
    keywordParams a = a.args.zip (List.replicate (a.args.length - a.defaults.length) none ++ a.defaults.map some) ++
      a.kwonly.zip a.kwDefaults := by
  unfold keywordParams positionalDefaults
  rw [zipIdx_reverse_defaults _ _ (by simp; omega)]
  congr 1
  have e : List.replicate ((a.posonly ++ a.args).length - a.defaults.length) (none : Option Default) =
      List.replicate a.posonly.length none ++ List.replicate (a.args.length - a.defaults.length) none := by
    rw [List.replicate_append_replicate]
    congr 1
    simp
    omega
  rw [e, List.append_assoc, List.zip_append (by simp), List.drop_append_of_le_length (by simp)]
  simp

/-! ## C59 -/

/-- The value a parameter is scaffolded with. -/
def scaffolded (a : Arguments) (p : Arg × Option Default) : String × Option Default :=
  (p.1.name, if p.1.name ∈ a.args.map Arg.name then some (p.2.getD ⟨"None", []⟩) else p.2)

/-- C59. If no positional-only parameter has a default, the dictionary has exactly the parameters that can be passed by
keyword, in order, each with its own default; ordinary parameters without default have `None`. (Keyword-only parameters
without default have no value at all, see `C59_required_violated`.) -/
theorem C59_defaults_partial (a : Arguments) (hv : Valid a) (hpos : a.defaults.length ≤ a.args.length) :
    ∃ d ann, argDicts a = .ok (d, ann) ∧ d.items = (keywordParams a).map (scaffolded a) := by
  rw [argDicts_eq hv, if_neg (by omega)]
  refine ⟨_, _, rfl, ?_⟩
  have hn := hv.names
  rw [List.append_assoc, List.map_append, List.nodup_append] at hn
  have hn2 := hn.2.1
  rw [List.map_append] at hn2
  have hlen : (List.replicate (a.args.length - a.defaults.length) noneDefault ++ a.defaults).length = a.args.length := by
    simp; omega
  have hm1 : ∀ vs : List (Option Default), vs.length = a.args.length →
      (a.args.zip vs).map (fun p => p.1.name) = a.args.map Arg.name := by
    intro vs hvs
    have : (a.args.zip vs).map (fun p => p.1.name) = ((a.args.zip vs).map Prod.fst).map Arg.name := by
      rw [List.map_map]; rfl
    rw [this, List.map_fst_zip (by omega)]
  have hm2 : (a.kwonly.zip a.kwDefaults).map (fun p => p.1.name) = a.kwonly.map Arg.name := by
    have : (a.kwonly.zip a.kwDefaults).map (fun p => p.1.name) = ((a.kwonly.zip a.kwDefaults).map Prod.fst).map Arg.name := by
      rw [List.map_map]; rfl
    rw [this, List.map_fst_zip (by rw [hv.kwDefaults]; omega)]
  have h1 := addArgs_fst (a.args.zip ((List.replicate (a.args.length - a.defaults.length) noneDefault ++ a.defaults).map some))
    .empty .empty (by
      rw [hm1 _ (by simpa using hlen)]
      have e : (Dict.empty : Dict String (Option Default)).keys = [] := rfl
      rw [e, List.nil_append]
      exact (List.nodup_append.1 hn2).1)
  rw [addArgs_fst _ _ _ (by
    unfold Dict.keys
    rw [h1, List.map_append, List.map_map]
    have e : ((Dict.empty : Dict String (Option Default)).items.map Prod.fst) = [] := rfl
    rw [e, List.nil_append, hm2]
    have := hm1 _ (by simpa using hlen : ((List.replicate (a.args.length - a.defaults.length) noneDefault ++ a.defaults).map
      some).length = a.args.length)
    have h3 : (a.args.zip ((List.replicate (a.args.length - a.defaults.length) noneDefault ++ a.defaults).map some)).map
      (Prod.fst ∘ fun p => (p.1.name, p.2)) = a.args.map Arg.name := this
    rw [h3]
    exact hn2), h1, params_split hpos]
  refine Eq.trans ?_ List.map_append.symm
  congr 1
  · have e : (Dict.empty : Dict String (Option Default)).items = [] := rfl
    rw [e, List.nil_append]
    have hvals : (List.replicate (a.args.length - a.defaults.length) noneDefault ++ a.defaults).map some =
        (List.replicate (a.args.length - a.defaults.length) none ++ a.defaults.map some).map
          (fun v : Option Default => some (v.getD ⟨"None", []⟩)) := by
      simp [noneDefault]
    rw [hvals, List.zip_map_right, List.map_map]
    apply List.map_congr_left
    intro p hp
    have hpm : p.1.name ∈ a.args.map Arg.name := by
      have := (List.of_mem_zip hp).1
      exact List.mem_map_of_mem this
    simp [scaffolded, hpm]
  · apply List.map_congr_left
    intro p hp
    have hpk : p.1.name ∉ a.args.map Arg.name := by
      intro hm
      have := (List.of_mem_zip hp).1
      exact (List.nodup_append.1 hn2).2.2 _ hm _ (List.mem_map_of_mem this) rfl
    simp [scaffolded, hpk]

/-- C59 fails for signatures with a default on a positional-only parameter: they are not accepted. -/
theorem C59_posonly_violated (a : Arguments) (hv : Valid a) : (∃ e, argDicts a = .error e) ↔
    a.args.length < a.defaults.length := by
  rw [argDicts_eq hv]
  constructor
  · rintro ⟨e, h⟩
    by_cases hl : a.args.length < a.defaults.length
    · exact hl
    · rw [if_neg hl] at h; cases h
  · intro h
    rw [if_pos h]
    exact ⟨_, rfl⟩

/-- `def f(a, b: int = 2, *, c=3)` and `def f(a=1, /, b=2)`. -/
example : Valid ⟨[], [⟨"a", none⟩, ⟨"b", some (.name "int")⟩], [⟨"2", []⟩], [⟨"c", none⟩], [some ⟨"3", []⟩]⟩ ∧
    Valid ⟨[⟨"a", none⟩], [⟨"b", none⟩], [⟨"1", []⟩, ⟨"2", []⟩], [], []⟩ ∧
    (argDicts ⟨[], [⟨"a", none⟩, ⟨"b", some (.name "int")⟩], [⟨"2", []⟩], [⟨"c", none⟩], [some ⟨"3", []⟩]⟩).map (fun r => r.1.items) =
      .ok [("a", some ⟨"None", []⟩), ("b", some ⟨"2", []⟩), ("c", some ⟨"3", []⟩)] :=
  ⟨⟨by simp, rfl, by decide⟩, ⟨by simp, rfl, by decide⟩, rfl⟩

/-- C59 fails for classes with `def __init__(self, /, a)`: the first ordinary parameter is taken away instead of
`self`. -/
theorem C59_self_violated :
    ∃ a b : Arguments, Valid a ∧ dropSelf a = .ok b ∧ (keywordParams a).map (fun p => p.1.name) = ["a", "b"] ∧
      (argDicts b).map (fun r => r.1.keys) = .ok ["b"] :=
  ⟨⟨[⟨"self", none⟩], [⟨"a", none⟩, ⟨"b", none⟩], [], [], []⟩, ⟨[⟨"self", none⟩], [⟨"b", none⟩], [], [], []⟩,
    ⟨by simp, rfl, by decide⟩, rfl, by decide +kernel, by rfl⟩

/-! ## C60 -/

theorem simple_ann_aux : (∀ a : Ann, (SimpleAnn a → annNames a = .ok (rootNames a)) ∧ ((∃ r, annNames a = .ok r) → SimpleAnn a)) ∧
    ∀ as : List Ann, (SimpleAnns as → annsNames as = .ok (rootNamesList as)) ∧ ((∃ r, annsNames as = .ok r) → SimpleAnns as) := by
  have hboth : ∀ n : Nat, (∀ a : Ann, sizeOf a < n → (SimpleAnn a → annNames a = .ok (rootNames a)) ∧
      ((∃ r, annNames a = .ok r) → SimpleAnn a)) ∧
      ∀ as : List Ann, sizeOf as < n → (SimpleAnns as → annsNames as = .ok (rootNamesList as)) ∧
        ((∃ r, annsNames as = .ok r) → SimpleAnns as) := by
    intro n
    induction n with
    | zero => exact ⟨fun _ h => by omega, fun _ h => by omega⟩
    | succ n ih =>
      constructor
      · intro a ha
        cases a with
        | name id => exact ⟨fun _ => by simp [annNames, rootNames], fun _ => by simp [SimpleAnn]⟩
        | elts items =>
          have := ih.2 items (by simp at ha; omega)
          simpa [annNames, rootNames, SimpleAnn] using this
        | index v =>
          have := ih.1 v (by simp at ha; omega)
          simpa [annNames, rootNames, SimpleAnn] using this
        | subscript v s =>
          have h1 := ih.1 v (by simp at ha; omega)
          have h2 := ih.1 s (by simp at ha; omega)
          constructor
          · intro h
            rw [SimpleAnn] at h
            rw [annNames, h1.1 h.1, h2.1 h.2, rootNames]
            rfl
          · rintro ⟨r, h⟩
            rw [annNames] at h
            rw [SimpleAnn]
            cases hv : annNames v with
            | error e => rw [hv] at h; cases h
            | ok x =>
              rw [hv] at h
              cases hs : annNames s with
              | error e => rw [hs] at h; cases h
              | ok y => exact ⟨h1.2 ⟨x, hv⟩, h2.2 ⟨y, hs⟩⟩
        | «attribute» v attr =>
          cases v with
          | name id => exact ⟨fun _ => by simp [annNames, rootNames], fun _ => by simp [SimpleAnn]⟩
          | _ =>
            refine ⟨fun h => ?_, fun ⟨r, h⟩ => ?_⟩
            · simp [SimpleAnn] at h
            · simp [annNames] at h
        | str s => exact ⟨fun _ => by simp [annNames, rootNames], fun _ => by simp [SimpleAnn]⟩
        | other =>
          refine ⟨fun h => ?_, fun ⟨r, h⟩ => ?_⟩
          · simp [SimpleAnn] at h
          · simp [annNames] at h
      · intro as has
        cases as with
        | nil => exact ⟨fun _ => by simp [annsNames, rootNamesList], fun _ => by simp [SimpleAnns]⟩
        | cons a as =>
          have h1 := ih.1 a (by simp at has; omega)
          have h2 := ih.2 as (by simp at has; omega)
          constructor
          · intro h
            rw [SimpleAnns] at h
            rw [annsNames, h1.1 h.1, h2.1 h.2, rootNamesList]
            rfl
          · rintro ⟨r, h⟩
            rw [annsNames] at h
            rw [SimpleAnns]
            cases hv : annNames a with
            | error e => rw [hv] at h; cases h
            | ok x =>
              rw [hv] at h
              cases hs : annsNames as with
              | error e => rw [hs] at h; cases h
              | ok y => exact ⟨h1.2 ⟨x, hv⟩, h2.2 ⟨y, hs⟩⟩
  exact ⟨fun a => (hboth (sizeOf a + 1)).1 a (by omega), fun as => (hboth (sizeOf as + 1)).2 as (by omega)⟩

theorem annsNames_ok_iff (as : List Ann) (r : List String) :
    annsNames as = .ok r ↔ SimpleAnns as ∧ r = rootNamesList as := by
  obtain ⟨h1, h2⟩ := simple_ann_aux.2 as
  constructor
  · intro h
    have hs := h2 ⟨r, h⟩
    rw [h1 hs] at h
    cases h
    exact ⟨hs, rfl⟩
  · rintro ⟨hs, rfl⟩
    exact h1 hs

theorem defaultNames_ok_iff (ps : List (String × Option Default)) (r : List String) :
    defaultNames ps = .ok r ↔ (∀ p ∈ ps, p.2 ≠ none) ∧ r = ps.flatMap (fun p => (p.2.map Default.names).getD []) := by
  induction ps generalizing r with
  | nil => simp [defaultNames, eq_comm]
  | cons p ps ih =>
    obtain ⟨k, v⟩ := p
    cases v with
    | none => simp [defaultNames]
    | some v =>
      rw [defaultNames]
      constructor
      · intro h
        cases hd : defaultNames ps with
        | error e => rw [hd] at h; cases h
        | ok y =>
          rw [hd] at h
          cases h
          obtain ⟨h1, h2⟩ := (ih y).1 hd
          subst h2
          refine ⟨?_, rfl⟩
          intro q hq
          rcases List.mem_cons.1 hq with rfl | hq
          · simp
          · exact h1 q hq
      · rintro ⟨h1, rfl⟩
        rw [(ih _).2 ⟨fun q hq => h1 q (List.mem_cons_of_mem _ hq), rfl⟩]
        rfl

/-- The names that the scaffolded file needs: those in defaults, and those in annotations that are no types of Python
itself. -/
def NeededName (builtin : String → Bool) (d : Dict String (Option Default)) (ann : Dict String Ann) (x : String) : Prop :=
  (∃ v, some v ∈ d.values ∧ x ∈ v.names) ∨ (x ∈ rootNamesList ann.values ∧ builtin x = false)

theorem mem_externalNames {setList : List String → List String} (hs : SetList setList) {builtin : String → Bool}
    {d : Dict String (Option Default)} {ann : Dict String Ann} {r : List String} :
    externalNames setList builtin d ann = .ok r →
      (∀ v ∈ d.values, v ≠ none) ∧ SimpleAnns ann.values ∧ r.Nodup ∧ ∀ x, x ∈ r ↔ NeededName builtin d ann x := by
  intro h
  unfold externalNames at h
  cases hx : defaultNames d.items with
  | error e => rw [hx] at h; cases h
  | ok x =>
    rw [hx] at h
    cases hy : annsNames ann.values with
    | error e => rw [hy] at h; cases h
    | ok y =>
      rw [hy] at h
      cases h
      obtain ⟨h1, rfl⟩ := (defaultNames_ok_iff _ _).1 hx
      obtain ⟨h2, rfl⟩ := (annsNames_ok_iff _ _).1 hy
      refine ⟨?_, h2, hs.nodup _, ?_⟩
      · intro v hv
        unfold Dict.values at hv
        obtain ⟨p, hp, rfl⟩ := List.mem_map.1 hv
        exact h1 p hp
      · intro z
        rw [hs.mem, List.mem_append, hs.mem, List.mem_filter, hs.mem]
        unfold NeededName
        have : (z ∈ d.items.flatMap (fun p => (p.2.map Default.names).getD [])) ↔ ∃ v, some v ∈ d.values ∧ z ∈ v.names := by
          rw [List.mem_flatMap]
          constructor
          · rintro ⟨p, hp, hz⟩
            cases hv : p.2 with
            | none => rw [hv] at hz; cases hz
            | some v =>
              rw [hv] at hz
              exact ⟨v, List.mem_map.2 ⟨p, hp, hv⟩, hz⟩
          · rintro ⟨v, hv, hz⟩
            unfold Dict.values at hv
            obtain ⟨p, hp, hpv⟩ := List.mem_map.1 hv
            exact ⟨p, hp, by rw [hpv]; exact hz⟩
        rw [this]
        simp

theorem mapM_except_ok_iff {α β : Type} (f : α → Except PyErr β) (xs : List α) :
    (∃ ys, xs.mapM f = .ok ys) ↔ ∀ x ∈ xs, ∃ y, f x = .ok y := by
  induction xs with
  | nil => exact ⟨fun _ _ h => by (cases h), fun _ => ⟨[], rfl⟩⟩
  | cons x xs ih =>
    rw [List.mapM_cons]
    constructor
    · rintro ⟨ys, h⟩ w hw
      cases hx : f x with
      | error e => rw [hx] at h; cases h
      | ok y =>
        rw [hx] at h
        cases hxs : xs.mapM f with
        | error e => rw [hxs] at h; cases h
        | ok zs =>
          rcases List.mem_cons.1 hw with rfl | hw
          · exact ⟨y, hx⟩
          · exact ih.1 ⟨zs, hxs⟩ w hw
    · intro h
      obtain ⟨y, hy⟩ := h x List.mem_cons_self
      obtain ⟨ys, hys⟩ := ih.2 (fun w hw => h w (List.mem_cons_of_mem _ hw))
      rw [hy, hys]
      exact ⟨_, rfl⟩

/-- C60. Taking the imports for a signature succeeds exactly if every default is there, every annotation is simple, and
every needed name is mentioned by an import of the module the function is in. -/
theorem C60_succeeds_iff {setList : List String → List String} (hs : SetList setList) (builtin : String → Bool) (a : Arguments)
    (imports : List Imp) (assigns : List Assign) (module : String) (d : Dict String (Option Default)) (ann : Dict String Ann)
    (ha : argDicts a = .ok (d, ann)) :
    (∃ is, argImports setList builtin a imports assigns module = .ok is) ↔
      (∀ v ∈ d.values, v ≠ none) ∧ SimpleAnns ann.values ∧
        ∀ x, NeededName builtin d ann x → ∃ i ∈ imports, mentions i x := by
  have hlook : ∀ x, (∃ i, getImport imports x = .ok i) ↔ ∃ i ∈ imports, mentions i x := C58_found_iff imports
  constructor
  · rintro ⟨is, h⟩
    unfold argImports at h
    rw [ha] at h
    simp only [bind, Except.bind] at h
    cases hx : externalNames setList builtin d ann with
    | error e => rw [hx] at h; cases h
    | ok names =>
      rw [hx] at h
      obtain ⟨h1, h2, _, h4⟩ := mem_externalNames hs hx
      refine ⟨h1, h2, ?_⟩
      intro x hxn
      rw [← hlook]
      dsimp only at h
      cases hm : names.mapM (getImport imports) with
      | error e => rw [hm] at h; cases h
      | ok js => exact (mapM_except_ok_iff _ _).1 ⟨js, hm⟩ x ((h4 x).2 hxn)
  · rintro ⟨h1, h2, h3⟩
    have e1 : ∃ x, defaultNames d.items = .ok x := by
      refine ⟨_, (defaultNames_ok_iff _ _).2 ⟨?_, rfl⟩⟩
      intro p hp
      exact h1 p.2 (List.mem_map_of_mem hp)
    have e2 : ∃ y, annsNames ann.values = .ok y := ⟨_, (annsNames_ok_iff _ _).2 ⟨h2, rfl⟩⟩
    obtain ⟨x, hx⟩ := e1
    obtain ⟨y, hy⟩ := e2
    have hext : externalNames setList builtin d ann =
        .ok (setList (setList x ++ (setList y).filter (fun n => !builtin n))) := by
      unfold externalNames
      rw [hx, hy]
      rfl
    obtain ⟨_, _, _, h4⟩ := mem_externalNames hs hext
    obtain ⟨js, hjs⟩ := (mapM_except_ok_iff (getImport imports) _).2 (fun z hz => (hlook z).2 (h3 z ((h4 z).1 hz)))
    unfold argImports
    rw [ha]
    simp only [bind, Except.bind]
    rw [hext]
    dsimp only
    rw [hjs]
    exact ⟨_, rfl⟩

theorem mapM_ok_get {α β : Type} {f : α → Except PyErr β} {xs : List α} {ys : List β} (h : xs.mapM f = .ok ys) :
    (∀ y ∈ ys, ∃ x ∈ xs, f x = .ok y) ∧ ∀ x ∈ xs, ∃ y ∈ ys, f x = .ok y := by
  induction xs generalizing ys with
  | nil =>
    cases h
    simp
  | cons x xs ih =>
    rw [List.mapM_cons] at h
    cases hx : f x with
    | error e => rw [hx] at h; cases h
    | ok y =>
      rw [hx] at h
      cases hxs : xs.mapM f with
      | error e => rw [hxs] at h; cases h
      | ok zs =>
        rw [hxs] at h
        cases h
        obtain ⟨h1, h2⟩ := ih hxs
        constructor
        · intro z hz
          rcases List.mem_cons.1 hz with rfl | hz
          · exact ⟨x, List.mem_cons_self, hx⟩
          · obtain ⟨w, hw, he⟩ := h1 z hz
            exact ⟨w, List.mem_cons_of_mem _ hw, he⟩
        · intro w hw
          rcases List.mem_cons.1 hw with rfl | hw
          · exact ⟨y, List.mem_cons_self, hx⟩
          · obtain ⟨z, hz, he⟩ := h2 w hw
            exact ⟨z, List.mem_cons_of_mem _ hz, he⟩

/-- C60. If it succeeds, the imports bind exactly the needed names. -/
theorem C60_binds {setList : List String → List String} (hs : SetList setList) (builtin : String → Bool) (a : Arguments)
    (imports : List Imp) (assigns : List Assign) (module : String) (d : Dict String (Option Default)) (ann : Dict String Ann)
    (ha : argDicts a = .ok (d, ann)) (is : List Imp) (h : argImports setList builtin a imports assigns module = .ok is) (x : String) :
    (∃ i ∈ is, ∃ t, provides (written i) = [(x, t)]) ↔ NeededName builtin d ann x := by
  unfold argImports at h
  rw [ha] at h
  simp only [bind, Except.bind] at h
  cases hx : externalNames setList builtin d ann with
  | error e => rw [hx] at h; cases h
  | ok names =>
    rw [hx] at h
    dsimp only at h
    obtain ⟨_, _, _, h4⟩ := mem_externalNames hs hx
    cases hm : names.mapM (getImport imports) with
    | error e => rw [hm] at h; cases h
    | ok js =>
      rw [hm] at h
      cases h
      obtain ⟨g1, g2⟩ := mapM_ok_get hm
      rw [← h4]
      constructor
      · rintro ⟨i, hi, t, ht⟩
        rcases List.mem_append.1 hi with hi | hi
        · obtain ⟨n, hn, rfl⟩ := List.mem_map.1 hi
          have hn2 := (List.mem_filter.1 hn).1
          have : provides (written ⟨some module, [n], [], false⟩) = [(n, .member 0 (some module) n)] := by
            simp [written, provides, asName]
          rw [this] at ht
          cases ht
          exact hn2
        · obtain ⟨n, hn, hg⟩ := g1 i hi
          obtain ⟨t', ht'⟩ := C58_binds imports n i hg
          rw [ht'] at ht
          cases ht
          exact hn
      · intro hn
        obtain ⟨i, hi, hg⟩ := g2 x hn
        obtain ⟨t, ht⟩ := C58_binds imports x i hg
        exact ⟨i, List.mem_append_right _ hi, t, ht⟩

/-- C60 fails for functions whose default is a name assigned in the module: `A = 1` and `def f(a=A)`. They are found,
but then looked for among the imports. -/
theorem C60_assigned_violated {setList : List String → List String} (hs : SetList setList) (builtin : String → Bool) :
    ∃ (a : Arguments) (assigns : List Assign), Valid a ∧ containsVarname assigns "A" = true ∧
      ∀ module, ¬ ∃ is, argImports setList builtin a [] assigns module = .ok is := by
  refine ⟨⟨[], [⟨"a", none⟩], [⟨"A", ["A"]⟩], [], []⟩, [⟨.name "A", some "1", none, false, none⟩], ⟨by simp, rfl, by decide⟩,
    by decide, ?_⟩
  intro module h
  have := ((C60_succeeds_iff hs builtin _ [] _ module ((Dict.empty).set "a" (some ⟨"A", ["A"]⟩)) .empty rfl).1 h).2.2 "A"
    (.inl ⟨⟨"A", ["A"]⟩, by decide, by simp⟩)
  obtain ⟨i, hi, _⟩ := this
  cases hi

/-- C60 fails for functions whose default is a type of Python itself: `def f(a=int)`. -/
theorem C60_builtin_violated {setList : List String → List String} (hs : SetList setList) (builtin : String → Bool)
    (hb : builtin "int" = true) :
    ∃ a : Arguments, Valid a ∧
      (∃ is, argImports setList builtin { a with defaults := [], args := [⟨"a", some (.name "int")⟩] } [] [] "m" = .ok is) ∧
      ¬ ∃ is, argImports setList builtin a [] [] "m" = .ok is := by
  refine ⟨⟨[], [⟨"a", none⟩], [⟨"int", ["int"]⟩], [], []⟩, ⟨by simp, rfl, by decide⟩, ?_, ?_⟩
  · refine (C60_succeeds_iff hs builtin _ [] [] "m" ((Dict.empty).set "a" (some noneDefault))
      ((Dict.empty).set "a" (.name "int")) rfl).2 ⟨?_, ?_, ?_⟩
    · intro v hv
      have : v = some noneDefault := by simpa [Dict.values, Dict.set, Dict.empty, AList.set] using hv
      subst this
      simp
    · simp [Dict.values, Dict.set, Dict.empty, AList.set, SimpleAnns, SimpleAnn]
    · rintro x (⟨v, hv, hx⟩ | ⟨hx, hbx⟩)
      · have : v = noneDefault := by simpa [Dict.values, Dict.set, Dict.empty, AList.set] using hv
        subst this
        cases hx
      · have : x = "int" := by
          simpa [Dict.values, Dict.set, Dict.empty, AList.set, rootNamesList, rootNames] using hx
        subst this
        rw [hb] at hbx
        cases hbx
  · intro h
    have := ((C60_succeeds_iff hs builtin _ [] _ "m" ((Dict.empty).set "a" (some ⟨"int", ["int"]⟩)) .empty rfl).1 h).2.2 "int"
      (.inl ⟨⟨"int", ["int"]⟩, by decide, by simp⟩)
    obtain ⟨i, hi, _⟩ := this
    cases hi

/-- C59 fails for a keyword-only parameter without default, whatever the rest: nothing is scaffolded. -/
theorem C59_required_violated {setList : List String → List String} (hs : SetList setList) (builtin : String → Bool)
    (a : Arguments) (hv : Valid a) (i : Nat) (hi : a.kwDefaults[i]? = some none)
    (imports : List Imp) (assigns : List Assign) (module : String) :
    ¬ ∃ is, argImports setList builtin a imports assigns module = .ok is := by
  intro h
  by_cases hpos : a.defaults.length ≤ a.args.length
  · obtain ⟨d, ann, ha, hd⟩ := C59_defaults_partial a hv hpos
    have h1 := ((C60_succeeds_iff hs builtin a imports assigns module d ann ha).1 h).1
    have hlt : i < a.kwonly.length := by
      rw [← hv.kwDefaults]
      exact (List.getElem?_eq_some_iff.1 hi).1
    have hmem : (a.kwonly[i], none) ∈ a.kwonly.zip a.kwDefaults := by
      apply List.mem_of_getElem? (i := i)
      rw [List.getElem?_zip_eq_some]
      exact ⟨List.getElem?_eq_getElem hlt, hi⟩
    have hname : a.kwonly[i].name ∉ a.args.map Arg.name := by
      intro hm
      have hn := hv.names
      rw [List.append_assoc, List.map_append, List.nodup_append] at hn
      have hn2 := hn.2.1
      rw [List.map_append, List.nodup_append] at hn2
      exact hn2.2.2 _ hm _ (List.mem_map_of_mem (List.getElem_mem hlt)) rfl
    have : (none : Option Default) ∈ d.values := by
      unfold Dict.values
      rw [hd]
      refine List.mem_map.2 ⟨(a.kwonly[i].name, none), List.mem_map.2 ⟨(a.kwonly[i], none), ?_, ?_⟩, rfl⟩
      · unfold keywordParams
        exact List.mem_append_right _ hmem
      · simp [scaffolded, hname]
    exact h1 _ this rfl
  · obtain ⟨e, he⟩ := (C59_posonly_violated a hv).2 (by omega)
    obtain ⟨is, h⟩ := h
    unfold argImports at h
    rw [he] at h
    cases h

theorem defaultNames_none (ps : List (String × Option Default)) (h : none ∈ ps.map Prod.snd) :
    defaultNames ps = .error .attributeError := by
  induction ps with
  | nil => cases h
  | cons e ps ih =>
    obtain ⟨x, v⟩ := e
    cases v with
    | none => rfl
    | some v =>
      simp only [List.map_cons, List.mem_cons] at h
      rcases h with h | h
      · cases h
      · rw [defaultNames, ih h]
        rfl

/-- C59: the exception is an `AttributeError`, for functions without positional-only parameters that have defaults. -/
theorem C59_required_error {setList : List String → List String} (builtin : String → Bool)
    (a : Arguments) (hv : Valid a) (hpos : a.defaults.length ≤ a.args.length) (i : Nat) (hi : a.kwDefaults[i]? = some none)
    (imports : List Imp) (assigns : List Assign) (module : String) :
    argImports setList builtin a imports assigns module = .error .attributeError := by
  obtain ⟨d, ann, ha, hd⟩ := C59_defaults_partial a hv hpos
  have hlt : i < a.kwonly.length := by
    rw [← hv.kwDefaults]
    exact (List.getElem?_eq_some_iff.1 hi).1
  have hmem : (a.kwonly[i], none) ∈ a.kwonly.zip a.kwDefaults := by
    apply List.mem_of_getElem? (i := i)
    rw [List.getElem?_zip_eq_some]
    exact ⟨List.getElem?_eq_getElem hlt, hi⟩
  have hname : a.kwonly[i].name ∉ a.args.map Arg.name := by
    intro hm
    have hn := hv.names
    rw [List.append_assoc, List.map_append, List.nodup_append] at hn
    have hn2 := hn.2.1
    rw [List.map_append, List.nodup_append] at hn2
    exact hn2.2.2 _ hm _ (List.mem_map_of_mem (List.getElem_mem hlt)) rfl
  have hnone : (none : Option Default) ∈ d.items.map Prod.snd := by
    rw [hd]
    refine List.mem_map.2 ⟨(a.kwonly[i].name, none), List.mem_map.2 ⟨(a.kwonly[i], none), ?_, ?_⟩, rfl⟩
    · unfold keywordParams
      exact List.mem_append_right _ hmem
    · simp [scaffolded, hname]
  unfold argImports
  rw [ha]
  show (externalNames setList builtin d ann >>= _) = _
  unfold externalNames
  rw [defaultNames_none _ hnone]
  rfl

/-- C59 and C60 together: what a function or class is scaffolded with. -/
theorem C59_config_partial {setList : List String → List String} (hs : SetList setList) (builtin : String → Bool)
    (annSrc : Ann → Expr) (a : Arguments) (hv : Valid a) (imports : List Imp) (assigns : List Assign) (module : String)
    (hpos : a.defaults.length ≤ a.args.length) (c : Cfg)
    (h : functionCfg setList builtin annSrc false a imports assigns module = .ok c) :
    c.values.items = (keywordParams a).map (fun p => (p.1.name, some ((p.2.map Default.src).getD "None"))) ∧
      ∀ p ∈ keywordParams a, ∀ v, p.2 = some v → ∀ x ∈ v.names, ∃ i ∈ c.imports, ∃ t, provides (written i) = [(x, t)] := by
  obtain ⟨d, ann, ha, hd⟩ := C59_defaults_partial a hv hpos
  unfold functionCfg at h
  simp only [Bool.false_eq_true, if_false, pure, Except.pure, bind, Except.bind] at h
  cases hi : argImports setList builtin a imports assigns module with
  | error e => rw [hi] at h; cases h
  | ok is =>
    rw [hi, ha] at h
    dsimp only at h
    cases h
    have hnone := ((C60_succeeds_iff hs builtin a imports assigns module d ann ha).1 ⟨is, hi⟩).1
    have hitem : ∀ p ∈ keywordParams a, scaffolded a p = (p.1.name, some (p.2.getD ⟨"None", []⟩)) := by
      intro p hp
      have hm : (scaffolded a p).2 ∈ d.values := by
        unfold Dict.values
        rw [hd]
        exact List.mem_map_of_mem (List.mem_map_of_mem hp)
      have := hnone _ hm
      unfold scaffolded at this ⊢
      split
      · rfl
      · next hna =>
        rw [if_neg hna] at this
        cases hv : p.2 with
        | none => rw [hv] at this; exact absurd rfl this
        | some v => rfl
    constructor
    · show d.items.map (fun e => (e.1, e.2.map Default.src)) = _
      rw [hd, List.map_map]
      apply List.map_congr_left
      intro p hp
      simp only [Function.comp, hitem p hp]
      cases p.2 <;> rfl
    · intro p hp v hpv x hx
      refine (C60_binds hs builtin a imports assigns module d ann ha is hi x).2 (.inl ⟨v, ?_, hx⟩)
      unfold Dict.values
      rw [hd]
      refine List.mem_map.2 ⟨_, List.mem_map_of_mem hp, ?_⟩
      rw [hitem p hp, hpv]
      rfl

/-- Distinct elements, first ones first. -/
def distinct : List String → List String
  | [] => []
  | x :: xs => x :: (distinct xs).filter (fun y => y != x)

theorem distinct_setList : SetList distinct where
  nodup := by
    intro xs
    induction xs with
    | nil => exact List.nodup_nil
    | cons x xs ih =>
      rw [distinct, List.nodup_cons]
      exact ⟨fun h => by simp at h, ih.filter _⟩
  mem := by
    intro xs
    induction xs with
    | nil => intro x; rfl
    | cons x xs ih =>
      intro y
      rw [distinct, List.mem_cons, List.mem_filter, ih, List.mem_cons]
      by_cases hy : y = x <;> simp [hy]

/-- `from m import A, B`, `import t` and `def f(a: Optional[int], b: t.C = A(B))` with `Optional` imported too. -/
example :
    (argImports distinct (fun x => x == "int")
      ⟨[], [⟨"a", some (.subscript (.name "Optional") (.name "int"))⟩, ⟨"b", some (.attribute (.name "t") "C")⟩],
        [⟨"A(B)", ["A", "B"]⟩], [], []⟩
      [⟨some "m", ["A", "B"], [], false⟩, ⟨none, ["t"], [], false⟩, ⟨some "typing", ["Optional"], [], false⟩] [] "mod").map
      (fun is => is.map written) =
      .ok (List.map written [⟨some "m", ["A"], [], false⟩, ⟨some "m", ["B"], [], false⟩, ⟨some "typing", ["Optional"], [], false⟩,
        ⟨none, ["t"], [], false⟩]) := by
  decide +kernel

/-! ### Annotations -/

/-- An annotation without quotes around it. -/
def unquoted : Ann → Ann
  | .str s => .name s
  | a => a

theorem addArgs_ann_mem {ps : List (Arg × Option Default)} {d : Dict String (Option Default)} {ann : Dict String Ann}
    (hn : (ps.map (fun p => p.1.name)).Nodup) {p : Arg × Option Default} (hp : p ∈ ps) :
    (addArgs ps d ann).2.get? p.1.name = match p.1.annotation with
      | some t => some (unquoted t)
      | none => ann.get? p.1.name := by
  have hu : ∀ q ∈ ps, q.1.name = p.1.name → q = p := by
    clear d ann
    induction ps with
    | nil => cases hp
    | cons x ps ih =>
      rw [List.map_cons, List.nodup_cons] at hn
      intro q hq e
      rcases List.mem_cons.1 hp with h1 | h1 <;> rcases List.mem_cons.1 hq with h2 | h2
      · rw [h1, h2]
      · subst h1
        exact absurd (List.mem_map.2 ⟨q, h2, e⟩) hn.1
      · subst h2
        exact absurd (List.mem_map.2 ⟨p, h1, e.symm⟩) hn.1
      · exact ih hn.2 h1 q h2 e
  rw [addArgs_snd]
  cases hf : ps.reverse.find? (fun q => decide (q.1.name = p.1.name) && q.1.annotation.isSome) with
  | some q =>
    have hq := List.find?_some hf
    have hm := List.mem_of_find?_eq_some hf
    simp only [Bool.and_eq_true, decide_eq_true_eq] at hq
    have e := hu q (by simpa using hm) hq.1
    subst e
    cases ha : q.1.annotation with
    | none => rw [ha] at hq; simp at hq
    | some t =>
      simp only [ha, Option.map_some]
      cases t <;> rfl
  | none =>
    rw [List.find?_eq_none] at hf
    have := hf p (by simpa using hp)
    cases ha : p.1.annotation with
    | none => rfl
    | some t => rw [ha] at this; simp at this

theorem addArgs_ann_not_mem {ps : List (Arg × Option Default)} {d : Dict String (Option Default)} {ann : Dict String Ann}
    {k : String} (hk : k ∉ ps.map (fun p => p.1.name)) : (addArgs ps d ann).2.get? k = ann.get? k := by
  rw [addArgs_snd]
  have : ps.reverse.find? (fun q => decide (q.1.name = k) && q.1.annotation.isSome) = none := by
    rw [List.find?_eq_none]
    intro q hq
    simp only [Bool.and_eq_true, decide_eq_true_eq, not_and]
    intro e
    exact absurd (List.mem_map.2 ⟨q, by simpa using hq, e⟩) hk
  rw [this]

/-- C59. The annotations that are written are those of the parameters, without the quotes around them; a parameter without
an annotation gets none, and nothing else does. -/
theorem C59_annotations {a : Arguments} (hv : Valid a) {d : Dict String (Option Default)} {ann : Dict String Ann}
    (h : argDicts a = .ok (d, ann)) :
    (∀ x ∈ a.args ++ a.kwonly, ann.get? x.name = x.annotation.map unquoted) ∧
    (∀ k, k ∉ (a.args ++ a.kwonly).map Arg.name → ann.get? k = none) := by
  rw [argDicts_eq hv] at h
  split at h
  · cases h
  · next hlt =>
    injection h with h
    have hn := hv.names
    rw [List.append_assoc, List.map_append] at hn
    have hn2 := (List.nodup_append.1 hn).2.1
    rw [List.map_append] at hn2
    generalize hvs : (List.replicate (a.args.length - a.defaults.length) noneDefault ++ a.defaults).map some = vs at h
    have hlen : a.args.length ≤ vs.length := by
      rw [← hvs]
      simp
      omega
    have hm1 : (a.args.zip vs).map (fun p => p.1.name) = a.args.map Arg.name := by
      have : (a.args.zip vs).map (fun p => p.1.name) = ((a.args.zip vs).map Prod.fst).map Arg.name := by
        rw [List.map_map]; rfl
      rw [this, List.map_fst_zip hlen]
    have hm2 : (a.kwonly.zip a.kwDefaults).map (fun p => p.1.name) = a.kwonly.map Arg.name := by
      have : (a.kwonly.zip a.kwDefaults).map (fun p => p.1.name) = ((a.kwonly.zip a.kwDefaults).map Prod.fst).map Arg.name := by
        rw [List.map_map]; rfl
      rw [this, List.map_fst_zip (by rw [hv.kwDefaults]; omega)]
    have hann : ann = (addArgs (a.kwonly.zip a.kwDefaults) (addArgs (a.args.zip vs) .empty .empty).1
        (addArgs (a.args.zip vs) .empty .empty).2).2 := by rw [h]
    have hempty : ∀ k, (Dict.empty : Dict String Ann).get? k = none := fun _ => rfl
    refine ⟨?_, ?_⟩
    · intro x hx
      rw [hann]
      rcases List.mem_append.1 hx with h1 | h1
      · rw [addArgs_ann_not_mem (by
          rw [hm2]
          intro hm
          exact (List.nodup_append.1 hn2).2.2 _ (List.mem_map_of_mem h1) _ hm rfl)]
        rw [← List.map_fst_zip hlen] at h1
        obtain ⟨p, hp, e⟩ := List.mem_map.1 h1
        subst e
        rw [addArgs_ann_mem (by rw [hm1]; exact (List.nodup_append.1 hn2).1) hp]
        cases p.1.annotation <;> rfl
      · have hno : x.name ∉ (a.args.zip vs).map (fun p => p.1.name) := by
          rw [hm1]
          intro hm
          exact (List.nodup_append.1 hn2).2.2 _ hm _ (List.mem_map_of_mem h1) rfl
        rw [← List.map_fst_zip (show a.kwonly.length ≤ a.kwDefaults.length by rw [hv.kwDefaults]; omega)] at h1
        obtain ⟨p, hp, e⟩ := List.mem_map.1 h1
        subst e
        rw [addArgs_ann_mem (by rw [hm2]; exact (List.nodup_append.1 hn2).2.1) hp]
        cases p.1.annotation with
        | none => exact addArgs_ann_not_mem hno
        | some t => rfl
    · intro k hk
      rw [List.map_append, List.mem_append, not_or] at hk
      rw [hann, addArgs_ann_not_mem (by rw [hm2]; exact hk.2), addArgs_ann_not_mem (by rw [hm1]; exact hk.1)]
      rfl

/-- `def f(a: "A", b, *, c: int = 1)` -/
example : (argDicts ⟨[], [⟨"a", some (.str "A")⟩, ⟨"b", none⟩], [], [⟨"c", some (.name "int")⟩], [some ⟨"1", []⟩]⟩).map
    (fun r => (r.2.get? "a", r.2.get? "b", r.2.get? "c")) = .ok (some (Ann.name "A"), none, some (Ann.name "int")) := by
  rfl

end Verif.Props

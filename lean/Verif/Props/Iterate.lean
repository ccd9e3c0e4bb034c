import Verif.Model.Iterate
import Verif.Props.Runner

/-
Property theorems about products of updates: C31; about lazy and eager runs: C34; about
batches: C35.
-/

namespace Verif.Props
open Verif.Py Verif.Model

variable {V : Type}

/-! ## C31 -/

/-! ### Specification -/

/-- The distinct paths, in the order of their first appearance. -/
def firstAppearance {α : Type} [DecidableEq α] : List α → List α
  | [] => []
  | p :: ps => p :: (firstAppearance ps).filter (fun q => decide (q ≠ p))

/-- The updates for a path, in the given order. -/
def updatesFor (us : List (Upd V)) (p : String) : List (Upd V) :=
  us.filter (fun u => decide (u.path = some (.str p)))

/-- The number of ways to choose one of each. -/
def ways {α : Type} (xss : List (List α)) : Nat := (xss.map List.length).foldr (· * ·) 1

/-- The `i`-th choice in lexicographic order, the last position varying fastest. -/
def choiceAt {α : Type} : List (List α) → Nat → List (Option α)
  | [], _ => []
  | xs :: xss, i => xs[i / ways xss]? :: choiceAt xss (i % ways xss)

/-! ### Lemmas -/

theorem ways_cons {α : Type} (xs : List α) (xss : List (List α)) : ways (xs :: xss) = xs.length * ways xss := rfl

theorem product_length {α : Type} (xss : List (List α)) : (product xss).length = ways xss := by
  induction xss with
  | nil => rfl
  | cons xs xss ih =>
    rw [ways_cons]
    simp only [product]
    rw [List.length_flatMap]
    simp only [List.length_map, ih]
    induction xs with
    | nil => simp
    | cons x xs ihx => simpa [Nat.succ_mul, Nat.add_comm] using ihx

theorem getElem?_flatMap_const {α β : Type} (n : Nat) (f : α → List β) (hf : ∀ x, (f x).length = n)
    (xs : List α) (i : Nat) (hi : i < xs.length * n) :
    (xs.flatMap f)[i]? = (xs[i / n]?).bind (fun x => (f x)[i % n]?) := by
  induction xs generalizing i with
  | nil => simp at hi
  | cons x xs ih =>
    have hn : 0 < n := by
      rcases Nat.eq_zero_or_pos n with h | h
      · subst h; simp at hi
      · exact h
    rw [List.flatMap_cons]
    by_cases h : i < n
    · rw [List.getElem?_append_left (by rw [hf]; exact h), Nat.div_eq_of_lt h, Nat.mod_eq_of_lt h]
      simp
    · have h' : n ≤ i := by omega
      rw [List.getElem?_append_right (by rw [hf]; exact h'), hf, ih]
      · have : i / n = (i - n) / n + 1 := by
          rw [Nat.div_eq_sub_div hn h']
        rw [this, List.getElem?_cons_succ, ← Nat.mod_eq_sub_mod h']
      · rw [List.length_cons, Nat.succ_mul] at hi; omega

theorem product_get {α : Type} (xss : List (List α)) (i : Nat) (hi : i < ways xss) :
    ((product xss)[i]?).map (fun c => c.map some) = some (choiceAt xss i) := by
  induction xss generalizing i with
  | nil =>
    have : i = 0 := by simp [ways] at hi; exact hi
    subst this
    rfl
  | cons xs xss ih =>
    have hw : 0 < ways xss := by
      rcases Nat.eq_zero_or_pos (ways xss) with h | h
      · rw [ways_cons, h] at hi; simp at hi
      · exact h
    rw [ways_cons] at hi
    simp only [product, choiceAt]
    rw [getElem?_flatMap_const (ways xss) _ (by intro x; simp [product_length]) xs i hi]
    have hi' : i / ways xss < xs.length := Nat.div_lt_of_lt_mul (by rw [Nat.mul_comm]; exact hi)
    rw [List.getElem?_eq_getElem hi']
    simp only [Option.bind_some, List.getElem?_map]
    have := ih (i % ways xss) (Nat.mod_lt _ hw)
    cases hc : (product xss)[i % ways xss]? with
    | none => rw [hc] at this; simp at this
    | some c => rw [hc] at this; simp at this; simp [this]

/-- One of each. -/
inductive OneOfEach {α : Type} : List α → List (List α) → Prop where
  | nil : OneOfEach [] []
  | cons (x : α) (xs : List α) (c : List α) (xss : List (List α)) :
    x ∈ xs → OneOfEach c xss → OneOfEach (x :: c) (xs :: xss)

theorem mem_product {α : Type} (xss : List (List α)) (c : List α) : c ∈ product xss ↔ OneOfEach c xss := by
  induction xss generalizing c with
  | nil =>
    simp only [product, List.mem_singleton]
    constructor
    · rintro rfl; exact .nil
    · intro h; cases h; rfl
  | cons xs xss ih =>
    simp only [product, List.mem_flatMap, List.mem_map]
    constructor
    · rintro ⟨x, hx, c', hc', rfl⟩; exact .cons _ _ _ _ hx ((ih c').1 hc')
    · intro h
      cases h with
      | cons x _ c' _ hx hc => exact ⟨x, hx, c', (ih c').2 hc, rfl⟩

/-- The paths of the updates, if all have one. -/
def pathsOf : List (Upd V) → Except PyErr (List String)
  | [] => .ok []
  | u :: us => match u.path with
    | some (.str s) => (pathsOf us).map (s :: ·)
    | some _ => .error .typeError
    | none => .error .keyError

theorem groupByPath_error (us : List (Upd V)) (e : PyErr) (h : pathsOf us = .error e)
    (acc : Dict String (List (Upd V))) : groupByPath acc us = .error e := by
  induction us generalizing acc with
  | nil => cases h
  | cons u us ih =>
    unfold pathsOf at h
    unfold groupByPath Upd.pathStr
    cases hp : u.path with
    | none => rw [hp] at h; cases h; rfl
    | some x =>
      rw [hp] at h
      cases x with
      | str s =>
        simp only at h ⊢
        cases hps : pathsOf us with
        | error e' => rw [hps] at h; simp only [Except.map] at h; cases h; exact ih hps _
        | ok ps => rw [hps] at h; cases h
      | view s => cases h; rfl
      | path s => cases h; rfl
      | other => cases h; rfl

theorem filter_firstAppearance_nodup {α : Type} [DecidableEq α] (ps : List α) : (firstAppearance ps).Nodup := by
  induction ps with
  | nil => simp [firstAppearance]
  | cons p ps ih =>
    unfold firstAppearance
    rw [List.nodup_cons]
    exact ⟨by simp, ih.filter _⟩

theorem mem_firstAppearance {α : Type} [DecidableEq α] (ps : List α) (p : α) : p ∈ firstAppearance ps ↔ p ∈ ps := by
  induction ps with
  | nil => simp [firstAppearance]
  | cons q ps ih =>
    unfold firstAppearance
    simp only [List.mem_cons, List.mem_filter, ih, decide_eq_true_eq]
    by_cases h : p = q <;> simp [h]

theorem groupByPath_spec (us : List (Upd V)) (ps : List String) (h : pathsOf us = .ok ps)
    (acc : Dict String (List (Upd V))) :
    ∃ g, groupByPath acc us = .ok g ∧
      g.keys = acc.keys ++ (firstAppearance ps).filter (fun p => decide (p ∉ acc.keys)) ∧
      ∀ p ∈ g.keys, g.get? p = some ((acc.get? p).getD [] ++ updatesFor us p) := by
  induction us generalizing acc ps with
  | nil =>
    cases h
    refine ⟨acc, rfl, by simp [firstAppearance], ?_⟩
    intro p hp
    rw [Dict.mem_keys_iff] at hp
    cases hg : acc.get? p with
    | none => rw [hg] at hp; cases hp
    | some v => simp [updatesFor]
  | cons u us ih =>
    unfold pathsOf at h
    cases hp : u.path with
    | none => rw [hp] at h; cases h
    | some x =>
      rw [hp] at h
      cases x with
      | view s => cases h
      | path s => cases h
      | other => cases h
      | str sp =>
        simp only at h
        cases hps : pathsOf us with
        | error e => rw [hps] at h; cases h
        | ok ps' =>
          rw [hps] at h
          simp only [Except.map, Except.ok.injEq] at h
          subst h
          obtain ⟨g, hg, hk, hv⟩ := ih ps' hps (acc.set sp ((acc.get? sp).getD [] ++ [u]))
          have hpath : u.pathStr = .ok sp := by unfold Upd.pathStr; rw [hp]
          refine ⟨g, ?_, ?_, ?_⟩
          · unfold groupByPath
            rw [hpath]
            exact hg
          · rw [hk, Dict.keys_set]
            rw [show firstAppearance (sp :: ps') =
              sp :: (firstAppearance ps').filter (fun q => decide (q ≠ sp)) from rfl]
            by_cases hm : sp ∈ acc.keys
            · rw [if_pos hm]
              rw [List.filter_cons, if_neg (by simp [hm]), List.filter_filter]
              congr 1
              apply List.filter_congr
              intro q _
              by_cases hq : q = sp
              · subst hq; simp [hm]
              · simp [hq]
            · rw [if_neg hm]
              rw [List.filter_cons, if_pos (by simp [hm]), List.filter_filter, List.append_assoc,
                List.singleton_append]
              congr 2
              apply List.filter_congr
              intro q _
              simp [Bool.and_comm]
          · intro p hpk
            rw [hv p hpk, Dict.get?_set]
            unfold updatesFor
            by_cases hq : sp = p
            · subst hq
              rw [if_pos rfl, List.filter_cons, if_pos (by simp [hp])]
              simp
            · rw [if_neg hq, List.filter_cons, if_neg (by
                simp only [hp, decide_eq_true_eq, Option.some.injEq, PathLike.str.injEq]
                exact hq)]

theorem Dict.values_eq_map {K W : Type} [DecidableEq K] (d : Dict K W) (f : K → W)
    (h : ∀ k ∈ d.keys, d.get? k = some (f k)) : d.values = d.keys.map f := by
  unfold Dict.values Dict.keys
  rw [List.map_map]
  apply List.map_congr_left
  intro e he
  have h1 := (Dict.mem_items_iff d e.1 e.2).1 he
  have h2 := h e.1 (List.mem_map.2 ⟨e, he, rfl⟩)
  rw [h1] at h2
  exact Option.some.inj h2

/-! ### Theorems -/

/-- C31: the cases are the choices of one update for every distinct path (in the order of first
appearance, the updates for each path in the given order), all of them, each once, in
lexicographic order with the last path varying fastest. -/
theorem C31_product (us : List (Upd V)) (ps : List String) (h : pathsOf us = .ok ps) :
    ∃ cases, getConfigProduct us = .ok cases ∧
      cases.length = ways ((firstAppearance ps).map (updatesFor us)) ∧
      ∀ i < cases.length,
        (cases[i]?).map (fun c => c.map some) = some (choiceAt ((firstAppearance ps).map (updatesFor us)) i) := by
  obtain ⟨g, hg, hk, hv⟩ := groupByPath_spec us ps h Dict.empty
  have hkeys : g.keys = firstAppearance ps := by
    rw [hk]
    simp [Dict.keys, Dict.empty]
  have hvals : g.values = (firstAppearance ps).map (updatesFor us) := by
    rw [← hkeys]
    apply Dict.values_eq_map
    intro k hk'
    rw [hv k hk']
    simp
  refine ⟨product g.values, ?_, ?_, ?_⟩
  · unfold getConfigProduct; rw [hg]
  · rw [product_length, hvals]
  · intro i hi
    rw [product_length] at hi
    rw [product_get _ _ hi, hvals]

/-- C31: a list of updates is one of the cases exactly if it has one of the given updates for
each distinct path, in the order of first appearance. -/
theorem C31_members (us : List (Upd V)) (ps : List String) (h : pathsOf us = .ok ps)
    (cases : List (List (Upd V))) (hc : getConfigProduct us = .ok cases) (c : List (Upd V)) :
    c ∈ cases ↔ c.map (fun u => u.path) = (firstAppearance ps).map (fun p => some (.str p)) ∧ ∀ u ∈ c, u ∈ us := by
  obtain ⟨g, hg, hk, hv⟩ := groupByPath_spec us ps h Dict.empty
  have hkeys : g.keys = firstAppearance ps := by
    rw [hk]
    simp [Dict.keys, Dict.empty]
  have hvals : g.values = (firstAppearance ps).map (updatesFor us) := by
    rw [← hkeys]
    apply Dict.values_eq_map
    intro k hk'
    rw [hv k hk']
    simp
  unfold getConfigProduct at hc
  rw [hg] at hc
  simp only [Except.ok.injEq] at hc
  subst hc
  rw [mem_product, hvals]
  generalize firstAppearance ps = qs
  induction qs generalizing c with
  | nil =>
    constructor
    · intro h; cases h; simp
    · rintro ⟨h, _⟩
      cases c with
      | nil => exact .nil
      | cons _ _ => simp at h
  | cons q qs ih =>
    constructor
    · intro h
      cases h with
      | cons x _ c' _ hx hc =>
        obtain ⟨h1, h2⟩ := (ih c').1 hc
        simp only [updatesFor, List.mem_filter, decide_eq_true_eq] at hx
        refine ⟨by simp [h1, hx.2], ?_⟩
        intro u hu
        rcases List.mem_cons.1 hu with h | h
        · subst h; exact hx.1
        · exact h2 u h
    · rintro ⟨h1, h2⟩
      cases c with
      | nil => simp at h1
      | cons x c' =>
        simp only [List.map_cons, List.cons.injEq] at h1
        refine .cons _ _ _ _ ?_ ((ih c').2 ⟨h1.2, fun u hu => h2 u (List.mem_cons_of_mem _ hu)⟩)
        simp only [updatesFor, List.mem_filter, decide_eq_true_eq]
        exact ⟨h2 x List.mem_cons_self, h1.1⟩

/-- C31, the error: an update without a path is a `KeyError`. -/
theorem C31_missing_path (us : List (Upd V)) (h : pathsOf us = .error .keyError) :
    getConfigProduct us = .error .keyError := by
  unfold getConfigProduct
  rw [groupByPath_error us _ h]

/-- Two updates for `abc` and two for `def`. -/
def demoUpdates : List (Upd Nat) :=
  [⟨some (.str "abc"), none, none, Dict.ofList [("a", 10)]⟩,
   ⟨some (.str "def"), none, none, Dict.ofList [("a", 1)]⟩,
   ⟨some (.str "abc"), none, none, Dict.ofList [("a", 20)]⟩,
   ⟨some (.str "def"), none, none, Dict.ofList [("a", 2)]⟩]

example : pathsOf demoUpdates = .ok ["abc", "def", "abc", "def"] := rfl

example : firstAppearance ["abc", "def", "abc", "def"] = ["abc", "def"] := by decide +kernel

example : (getConfigProduct demoUpdates).toOption.map (fun cs => cs.map (fun c => c.map (fun u => u.kw.items))) =
    some [[[("a", 10)], [("a", 1)]], [[("a", 10)], [("a", 2)]], [[("a", 20)], [("a", 1)]],
      [[("a", 20)], [("a", 2)]]] := by decide +kernel

example : pathsOf ([⟨none, none, none, Dict.empty⟩] : List (Upd Nat)) = .error .keyError := rfl

/-! ## C34 -/

section
variable [BEq V]

/-- C34: cases rejected by `should_run` are neither applied nor run: the run is the run of the
other cases. -/
theorem C34_rejected (h : IterHooks V) (shouldRun : List (Upd V) → Bool) (collect : Bool) (r : IRunner V)
    (cases : List (List (Upd V))) :
    r.run h shouldRun collect cases = r.run h (fun _ => true) collect (cases.filter shouldRun) := by
  induction cases with
  | nil => rfl
  | cons c cs ih =>
    rw [show r.run h shouldRun collect (c :: cs) = if !shouldRun c then r.run h shouldRun collect cs else do
        let res ← IRunner.runCase h r c
        let rest ← r.run h shouldRun collect cs
        return if collect then (c, res) :: rest else rest from rfl]
    by_cases hc : shouldRun c = true
    · rw [List.filter_cons, if_pos hc]
      simp only [hc]
      rw [ih]
      rfl
    · rw [List.filter_cons, if_neg hc, ← ih]
      simp only [hc]
      rfl

/-- C34: not collecting only drops the results: the same exception or none, and the same side
effects. -/
theorem C34_uncollected (h : IterHooks V) (shouldRun : List (Upd V) → Bool) (r : IRunner V)
    (cases : List (List (Upd V))) (s : IState V) :
    r.run h shouldRun false cases s =
      ((r.run h shouldRun true cases s).1.map (fun _ => []), (r.run h shouldRun true cases s).2) := by
  induction cases generalizing s with
  | nil => rfl
  | cons c cs ih =>
    unfold IRunner.run
    by_cases hc : shouldRun c = true
    · simp only [hc]
      rw [if_neg (by decide), if_neg (by decide), M.bind_run, M.bind_run]
      cases hr : IRunner.runCase h r c s with
      | mk a t =>
        cases a with
        | error e => rfl
        | ok res =>
          simp only
          rw [M.bind_run, M.bind_run, ih t]
          cases hr' : IRunner.run h shouldRun true r cs t with
          | mk b u => cases b <;> rfl
    · simp only [hc]
      exact ih s

/-- C34: consuming the generator gives the same pairs and side effects as the eager run of the
cases it has gone through; the others were not touched. -/
theorem C34_lazy_prefix (h : IterHooks V) (shouldRun : List (Upd V) → Bool) (r : IRunner V) (n : Nat)
    (cases : List (List (Upd V))) :
    r.consume h shouldRun n cases =
      r.run h (fun _ => true) true ((cases.filter shouldRun).take n) := by
  have key : ∀ (cases : List (List (Upd V))),
      r.genNext h shouldRun cases = (match cases.filter shouldRun with
        | [] => pure none
        | c :: _ => do
          let res ← IRunner.runCase h r c
          pure (some ((c, res), (cases.dropWhile (fun c => !shouldRun c)).tail))) ∧
      (cases.dropWhile (fun c => !shouldRun c)).tail.filter shouldRun = (cases.filter shouldRun).tail := by
    intro cases
    induction cases with
    | nil => exact ⟨rfl, rfl⟩
    | cons c cs ih =>
      unfold IRunner.genNext
      by_cases hc : shouldRun c = true
      · simp only [hc]
        rw [List.filter_cons, if_pos hc]
        simp [hc]
      · rw [List.filter_cons, if_neg hc, List.dropWhile_cons]
        simp only [hc]
        exact ih
  induction n generalizing cases with
  | zero => rfl
  | succ n ih =>
    obtain ⟨h1, h2⟩ := key cases
    unfold IRunner.consume
    rw [h1]
    cases hf : cases.filter shouldRun with
    | nil => rfl
    | cons c cs =>
      rw [hf] at h2
      rw [List.take_succ_cons]
      unfold IRunner.run
      simp only [bind_assoc, pure_bind]
      rw [if_neg (by decide)]
      refine congrArg (fun f => IRunner.runCase h r c >>= f) (funext fun res => ?_)
      rw [ih, h2]
      rfl

/-- C34: consuming the generator to its end is the eager run. -/
theorem C34_lazy (h : IterHooks V) (shouldRun : List (Upd V) → Bool) (r : IRunner V) (n : Nat)
    (cases : List (List (Upd V))) (hn : (cases.filter shouldRun).length ≤ n) :
    r.consume h shouldRun n cases = r.run h shouldRun true cases := by
  rw [C34_lazy_prefix, List.take_of_length_le hn, ← C34_rejected]

end

/-! ## C35 -/

/-! ### Specification -/

/-- The full section path an update is for: the base in front of the path; a view of an item
counts without its manager if `strip` is set. -/
def targetOf (base : Option String) (strip : Bool) : PathLike → Option (List String)
  | .str s => some (baseSections base ++ split '.' s)
  | .path sp => some (baseSections base ++ split '.' sp.pathStr)
  | .view s => some (baseSections base ++ if strip then
      (match (split '.' s).tail with
        | [] => [""]
        | q => q)
      else split '.' s)
  | .other => none
where
  /-- The sections of the base. -/
  baseSections : Option String → List String
    | none => []
    | some b => split '.' b

/-- The keywords of an update that are values. -/
def valuesOf (u : Upd V) : Dict String V :=
  u.kw.filterKeys (fun k => decide (k ≠ "section_path_str" ∧ k ≠ "pyfileconf_persist"))

/-- The path in the manager; `""` if only the manager is named. -/
def restOf : List String → List String
  | [] => [""]
  | p => p

/-- What one update does to the managers: the manager named first in the path gets an update
of the item given by the rest of the path, and the others stay as they are. -/
inductive Applied [BEq V] (base : Option String) (strip : Bool) (u : Upd V) (s : Mgrs V) :
    Except PyErr Unit → Mgrs V → Prop where
  | update (x : PathLike) (m : String) (p : List String) (g : Mgr V) (t : Mgrs V) :
    u.path = some x → targetOf base strip x = some (m :: p) → s.get? m = some g →
    "self" ∉ u.kw.keys → "d_" ∉ u.kw.keys →
    (∀ m', m' ≠ m → t.get? m' = s.get? m') →
    t.get? m = some { g with ms := { g.ms with
      rs := g.ms.rs.step (.update u.d (some (restOf p)) (u.persist.getD true) (valuesOf u)) } } →
    Applied base strip u s (RM.update u.d (some (restOf p)) (u.persist.getD true) (valuesOf u) g.ms.rs).1 t
  | badKeyword (x : PathLike) (m : String) (p : List String) (g : Mgr V) (t : Mgrs V) :
    u.path = some x → targetOf base strip x = some (m :: p) → s.get? m = some g →
    "self" ∈ u.kw.keys ∨ "d_" ∈ u.kw.keys → (∀ m', t.get? m' = s.get? m') →
    Applied base strip u s (.error .typeError) t
  | noPath : u.path = none → Applied base strip u s (.error .keyError) s
  | notPath (x : PathLike) : u.path = some x → targetOf base strip x = none →
    Applied base strip u s (.error .valueError) s
  | noManager (x : PathLike) (m : String) (p : List String) :
    u.path = some x → targetOf base strip x = some (m :: p) → s.get? m = none →
    Applied base strip u s (.error .noManager) s

/-- The updates one after the other, up to the first that fails. -/
inductive AppliedAll [BEq V] (base : Option String) (strip : Bool) :
    List (Upd V) → Mgrs V → Except PyErr Unit → Mgrs V → Prop where
  | nil (s : Mgrs V) : AppliedAll base strip [] s (.ok ()) s
  | next (u : Upd V) (us : List (Upd V)) (s t t' : Mgrs V) (r : Except PyErr Unit) :
    Applied base strip u s (.ok ()) t → AppliedAll base strip us t r t' →
    AppliedAll base strip (u :: us) s r t'
  | fails (u : Upd V) (us : List (Upd V)) (s t : Mgrs V) (e : PyErr) :
    Applied base strip u s (.error e) t → AppliedAll base strip (u :: us) s (.error e) t

/-! ### Lemmas -/

theorem split_join' {xs : List String} (h : xs ≠ []) (hx : ∀ x ∈ xs, hasChar '.' x = false) :
    split '.' (join '.' xs) = xs := split_join '.' h hx

theorem joinSP_sections (a b : SectionPath) : (SectionPath.joinSP a b).sections = a.sections ++ b.sections := by
  unfold SectionPath.joinSP SectionPath.fromSectionStrList SectionPath.sections
  apply split_join'
  · intro h; exact split_ne_nil '.' a.pathStr (List.append_eq_nil_iff.1 h).1
  · intro x hx
    rcases List.mem_append.1 hx with h | h
    · exact hasChar_of_mem_split '.' _ x h
    · exact hasChar_of_mem_split '.' _ x h

theorem tail_sections (a : SectionPath) : (SectionPath.tail a).sections = restOf a.sections.tail := by
  unfold SectionPath.tail SectionPath.fromSectionStrList SectionPath.sections
  rw [List.drop_one]
  cases h : (split '.' a.pathStr).tail with
  | nil => rfl
  | cons x xs =>
    apply split_join'
    · simp
    · intro y hy
      apply hasChar_of_mem_split '.' a.pathStr
      apply List.mem_of_mem_tail
      rw [h]
      exact hy

theorem sectionPath_target (base : Option String) (strip : Bool) (x : PathLike) :
    match targetOf base strip x with
    | none => SectionPath.fromAmbiguous x strip base = .error .valueError
    | some q => ∃ sp, SectionPath.fromAmbiguous x strip base = .ok sp ∧ sp.sections = q := by
  have key : ∀ r : SectionPath, ∃ sp : SectionPath, (match base with
      | none => (Except.ok r : Except PyErr SectionPath)
      | some b => .ok (SectionPath.joinSP ⟨b⟩ r)) = .ok sp ∧
        sp.sections = targetOf.baseSections base ++ r.sections := by
    intro r
    cases base with
    | none => exact ⟨r, rfl, rfl⟩
    | some b => exact ⟨_, rfl, joinSP_sections _ _⟩
  cases x with
  | other => rfl
  | str s => exact key ⟨s⟩
  | path sp => exact key sp
  | view s =>
    cases strip with
    | false => exact key ⟨s⟩
    | true =>
      obtain ⟨sp, h1, h2⟩ := key (SectionPath.tail ⟨s⟩)
      refine ⟨sp, h1, ?_⟩
      rw [h2, tail_sections]
      rfl

theorem targetOf_ne_nil {base : Option String} {strip : Bool} {x : PathLike} : targetOf base strip x ≠ some [] := by
  intro h
  have := sectionPath_target base strip x
  rw [h] at this
  obtain ⟨sp, _, h2⟩ := this
  exact split_ne_nil '.' _ h2

theorem applied_update1 [BEq V] (base : Option String) (strip : Bool) (u : Upd V) (s : Mgrs V) :
    Applied base strip u s (BM.update1 base strip u s).1 (BM.update1 base strip u s).2 := by
  unfold BM.update1
  rw [M.bind_run, M.liftE_run]
  unfold BM.sectionPath
  cases hx : u.path with
  | none => exact .noPath hx
  | some x =>
    simp only
    have hst := sectionPath_target base strip x
    cases ht : targetOf base strip x with
    | none =>
      rw [ht] at hst
      rw [hst]
      exact .notPath x hx ht
    | some q =>
      rw [ht] at hst
      obtain ⟨sp, h1, h2⟩ := hst
      rw [h1]
      simp only
      cases q with
      | nil => exact absurd ht targetOf_ne_nil
      | cons m p =>
        unfold BM.onManager
        rw [h2]
        simp only [List.headD_cons]
        cases hg : s.get? m with
        | none => exact .noManager x m p hx ht hg
        | some g =>
          simp only
          have hrel : BM.relative sp = restOf p := by
            unfold BM.relative
            rw [tail_sections, h2]
            rfl
          by_cases hk : u.kw.contains "self" = true ∨ u.kw.contains "d_" = true
          · have hb : BM.updateOn (BM.relative sp) u g.ms = (.error .typeError, g.ms) := by
              unfold BM.updateOn
              rw [if_pos hk]
              rfl
            rw [hb]
            refine .badKeyword x m p g _ hx ht hg ?_ ?_
            · simpa [Dict.contains_iff] using hk
            · intro m'
              rw [Dict.get?_set]
              split
              · rename_i hm; rw [← hm, hg]
              · rfl
          · have hb : BM.updateOn (BM.relative sp) u g.ms =
                ((RM.update u.d (some (restOf p)) (u.persist.getD true) (valuesOf u) g.ms.rs).1,
                  { g.ms with rs := (RM.update u.d (some (restOf p)) (u.persist.getD true) (valuesOf u) g.ms.rs).2 }) := by
              unfold BM.updateOn
              rw [if_neg hk, hrel]
              have : u.kw.filterKeys (fun k => decide (k ∉ ["section_path_str", "pyfileconf_persist"])) =
                  valuesOf u := by
                unfold valuesOf
                refine congrArg (fun f => Dict.filterKeys u.kw f) (funext fun k => ?_)
                simp
              simp only [this]
              cases u.persist <;> rfl
            rw [hb]
            have hk' : "self" ∉ u.kw.keys ∧ "d_" ∉ u.kw.keys := by
              simpa [Dict.contains_iff] using hk
            refine .update x m p g _ hx ht hg hk'.1 hk'.2 ?_ ?_
            · intro m' hm'
              rw [Dict.get?_set_ne _ _ (Ne.symm hm')]
            · rw [Dict.get?_set_self]
              rfl

/-! ### Theorems -/

/-- C35: a batch update applies each of its updates in order to the manager named by its path;
the first failing one stops the batch, with the earlier ones applied and the later ones not. -/
theorem C35_batch [BEq V] (base : Option String) (strip : Bool) (us : List (Upd V)) (s : Mgrs V) :
    AppliedAll base strip us s (BM.update base strip (fun _ => []) us s).1
      (BM.update base strip (fun _ => []) us s).2 := by
  unfold BM.update
  rw [List.nil_append]
  induction us generalizing s with
  | nil => exact .nil s
  | cons u us ih =>
    unfold BM.updates
    rw [M.bind_run]
    have h1 := applied_update1 base strip u s
    cases h : BM.update1 base strip u s with
    | mk r t =>
      rw [h] at h1
      cases r with
      | error e => exact .fails u us s t e h1
      | ok a => exact .next u us s t _ _ h1 (ih t)

/-- C35, `update_batch`: the paths are those of the manager itself. -/
theorem C35_update_batch [BEq V] (name : String) (us : List (Upd V)) (s : Mgrs V) :
    AppliedAll (some name) true us s (BM.updateBatch name (fun _ => []) us s).1
      (BM.updateBatch name (fun _ => []) us s).2 :=
  C35_batch (some name) true us s

/-- Two managers, `one` and `two`, each with the project of `Verif/Props/Runner.lean`. -/
def demoMgrs : Mgrs Nat :=
  Dict.ofList [("one", ⟨⟨false, false⟩, ⟨demoRunner demoFunc, []⟩⟩), ("two", ⟨⟨false, false⟩, ⟨demoRunner demoFunc, []⟩⟩)]

/-- The value of `c` in the config of `main.data.func` of a manager. -/
def demoC (s : Mgrs Nat) (m : String) : Option Nat :=
  (s.get? m).bind (fun g => match ownConfig g.ms.rs.cm demoPath with
    | .ok c => c.values.get? "c"
    | .error _ => none)

/-- An update of `main.data.func` of `one`, one of `two`, one of a manager that does not exist,
and one more of `one`. -/
def demoBatch : List (Upd Nat) :=
  [⟨some (.str "one.main.data.func"), none, none, Dict.ofList [("c", 1)]⟩,
   ⟨some (.view "two.main.data.func"), none, none, Dict.ofList [("c", 2)]⟩,
   ⟨some (.str "three.main.data.func"), none, none, Dict.ofList [("c", 3)]⟩,
   ⟨some (.str "one.main.data.func"), none, none, Dict.ofList [("c", 4)]⟩]

/-- The first two are applied, the third fails, the fourth is not applied. -/
example : (demoC demoMgrs "one", demoC demoMgrs "two") = (some 0, some 0) ∧
    (BM.update none false (fun _ => []) demoBatch demoMgrs).1 = .error .noManager ∧
    demoC (BM.update none false (fun _ => []) demoBatch demoMgrs).2 "one" = some 1 ∧
    demoC (BM.update none false (fun _ => []) demoBatch demoMgrs).2 "two" = some 2 := by
  decide +kernel

/-- C35 fails for `update_batch` with a view of an item of another manager: called on `one` with a
view of an item of `two`, it updates the item of `one` with that path. -/
theorem C35_foreign_view_violated :
    ∃ u : Upd Nat, u.path = some (.view "two.main.data.func") ∧
      (BM.updateBatch "one" (fun _ => []) [u] demoMgrs).1 = .ok () ∧
      demoC (BM.updateBatch "one" (fun _ => []) [u] demoMgrs).2 "one" = some 2 ∧
      demoC (BM.updateBatch "one" (fun _ => []) [u] demoMgrs).2 "two" = some 0 :=
  ⟨⟨some (.view "two.main.data.func"), none, none, Dict.ofList [("c", 2)]⟩, rfl, by decide +kernel⟩

/-- A runner of `main.data.func` with three cases; the second is rejected. -/
def demoIter : IRunner Nat where
  runItems := [⟨"one.main.data.func"⟩]
  base := none
  strip := false
  cases := [1, 2, 3].map (fun n => [⟨some (.str "one.main.data.func"), none, none, Dict.ofList [("c", n)]⟩])
  defaults := Dict.ofList [("one.main.data.func", Dict.ofList [("a", 2), ("b", 3), ("c", 0)])]

/-- The results of numbers. -/
def demoResult : IRes Nat → Option Nat
  | .single (some (.one v)) => some v
  | _ => none

/-- All but the second case. -/
def demoShould (c : List (Upd Nat)) : Bool := !c.any (fun u => u.kw.get? "c" == some 2)

/-- Eager and lazy runs of it: two results. -/
example :
    (demoIter.run IterHooks.none demoShould true demoIter.cases ⟨demoMgrs, none⟩).1.toOption.map
      (fun rs => rs.map (fun r => demoResult r.2)) = some [some 231, some 233] ∧
    (demoIter.consume IterHooks.none demoShould 2 demoIter.cases ⟨demoMgrs, none⟩).1.toOption.map
      (fun rs => rs.map (fun r => demoResult r.2)) = some [some 231, some 233] := by
  decide +kernel

end Verif.Props

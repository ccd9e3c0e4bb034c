import Verif.Model.ProductPaths
import Verif.Props.Iterate

/-
C31 for section paths of every form: strings, section paths and item views.
-/

namespace Verif.Props
open Verif.Py Verif.Model

variable {V : Type}

/-! ## Specification -/

/-- The keys of the updates, numbered from `i`. -/
def keysFrom (copied : Nat → PathLike → Except PyErr Nat) : Nat → List (Upd V) → Except PyErr (List PathKey)
  | _, [] => .ok []
  | i, u :: us => do
    let k ← pathKey copied i u.path
    let ks ← keysFrom copied (i + 1) us
    return k :: ks

/-- The copies of the updates with a key, in the given order. -/
def copiesFor (us : List (Upd V)) (ks : List PathKey) (k : PathKey) : List (Upd V) :=
  ((us.zip ks).filter (fun e => decide (e.2 = k))).map (fun e => copyPath e.1)

/-- The same update with its path as a section path instead of a string. -/
def asSectionPath (u : Upd V) : Upd V :=
  match u.path with
  | some (.str s) => { u with path := some (.path ⟨s⟩) }
  | _ => u

/-- The path of the update is a view. -/
def ByView (u : Upd V) : Prop := ∃ s, u.path = some (.view s)

/-! ## Lemmas -/

theorem groupByKey_spec (copied : Nat → PathLike → Except PyErr Nat) (us : List (Upd V)) (i : Nat) (ks : List PathKey)
    (h : keysFrom copied i us = .ok ks) (acc : Dict PathKey (List (Upd V))) :
    ∃ g, groupByKey copied i acc us = .ok g ∧
      g.keys = acc.keys ++ (firstAppearance ks).filter (fun k => decide (k ∉ acc.keys)) ∧
      ∀ k ∈ g.keys, g.get? k = some ((acc.get? k).getD [] ++ copiesFor us ks k) := by
  induction us generalizing i acc ks with
  | nil =>
    cases h
    refine ⟨acc, rfl, by simp [firstAppearance], ?_⟩
    intro p hp
    rw [Dict.mem_keys_iff] at hp
    cases hg : acc.get? p with
    | none => rw [hg] at hp; cases hp
    | some v => simp [copiesFor]
  | cons u us ih =>
    unfold keysFrom at h
    cases hp : pathKey copied i u.path with
    | error e => rw [hp] at h; cases h
    | ok key =>
      rw [hp] at h
      cases hks : keysFrom copied (i + 1) us with
      | error e => rw [hks] at h; cases h
      | ok ks' =>
        rw [hks] at h
        cases h
        obtain ⟨g, hg, hk, hv⟩ := ih (i + 1) ks' hks (acc.set key ((acc.get? key).getD [] ++ [copyPath u]))
        refine ⟨g, ?_, ?_, ?_⟩
        · unfold groupByKey
          rw [hp]
          exact hg
        · rw [hk, Dict.keys_set]
          rw [show firstAppearance (key :: ks') =
            key :: (firstAppearance ks').filter (fun q => decide (q ≠ key)) from rfl]
          by_cases hm : key ∈ acc.keys
          · rw [if_pos hm]
            rw [List.filter_cons, if_neg (by simp [hm]), List.filter_filter]
            congr 1
            apply List.filter_congr
            intro q _
            by_cases hq : q = key
            · subst hq; simp [hm]
            · simp [hq]
          · rw [if_neg hm]
            rw [List.filter_cons, if_pos (by simp [hm]), List.filter_filter, List.append_assoc,
              List.singleton_append]
            congr 2
            apply List.filter_congr
            intro q _
            simp [Bool.and_comm]
        · intro p hpk
          rw [hv p hpk, Dict.get?_set]
          unfold copiesFor
          by_cases hq : key = p
          · subst hq
            rw [if_pos rfl, List.zip_cons_cons, List.filter_cons, if_pos (by simp)]
            simp
          · rw [if_neg hq, List.zip_cons_cons, List.filter_cons, if_neg (by simpa using hq)]

theorem getConfigProductAny_spec (copied : Nat → PathLike → Except PyErr Nat) (us : List (Upd V)) (ks : List PathKey)
    (h : keysFrom copied 0 us = .ok ks) :
    getConfigProductAny copied us = .ok (product ((firstAppearance ks).map (copiesFor us ks))) := by
  obtain ⟨g, hg, hk, hv⟩ := groupByKey_spec copied us 0 ks h Dict.empty
  have hkeys : g.keys = firstAppearance ks := by
    rw [hk]
    simp [Dict.keys, Dict.empty]
  have hvals : g.values = (firstAppearance ks).map (copiesFor us ks) := by
    rw [← hkeys]
    apply Dict.values_eq_map
    intro k hk'
    rw [hv k hk']
    simp
  unfold getConfigProductAny
  rw [hg, ← hvals]

theorem groupByKey_error (copied : Nat → PathLike → Except PyErr Nat) (us : List (Upd V)) (i : Nat) (e : PyErr)
    (h : keysFrom copied i us = .error e) (acc : Dict PathKey (List (Upd V))) : groupByKey copied i acc us = .error e := by
  induction us generalizing i acc with
  | nil => cases h
  | cons u us ih =>
    unfold keysFrom at h
    unfold groupByKey
    cases hp : pathKey copied i u.path with
    | error e' => rw [hp] at h; cases h; rfl
    | ok key =>
      rw [hp] at h
      cases hks : keysFrom copied (i + 1) us with
      | error e' => rw [hks] at h; cases h; exact ih (i + 1) hks _
      | ok ks' => rw [hks] at h; cases h

theorem firstAppearance_map {α β : Type} [DecidableEq α] [DecidableEq β] (f : α → β) (hf : ∀ a b, f a = f b → a = b)
    (xs : List α) : firstAppearance (xs.map f) = (firstAppearance xs).map f := by
  induction xs with
  | nil => rfl
  | cons x xs ih =>
    show f x :: (firstAppearance (xs.map f)).filter _ = f x :: ((firstAppearance xs).filter _).map f
    rw [ih, List.filter_map]
    congr 2
    apply List.filter_congr
    intro y _
    by_cases h : y = x
    · simp [h]
    · have : f y ≠ f x := fun e => h (hf _ _ e)
      simp [h, this]

theorem keysFrom_strings (copied : Nat → PathLike → Except PyErr Nat) (us : List (Upd V)) (i : Nat) (ps : List String)
    (h : pathsOf us = .ok ps) : keysFrom copied i us = .ok (ps.map .str) := by
  induction us generalizing i ps with
  | nil => cases h; rfl
  | cons u us ih =>
    unfold pathsOf at h
    cases hp : u.path with
    | none => rw [hp] at h; cases h
    | some x =>
      rw [hp] at h
      cases x with
      | view s => cases h
      | path s => cases h
      | other => cases h
      | str s =>
        simp only at h
        cases hps : pathsOf us with
        | error e => rw [hps] at h; cases h
        | ok ps' =>
          rw [hps] at h; cases h
          unfold keysFrom
          rw [hp, ih (i + 1) ps' hps]
          rfl

theorem copiesFor_strings (us : List (Upd V)) (ps : List String) (h : pathsOf us = .ok ps) (p : String) :
    copiesFor us (ps.map .str) (.str p) = updatesFor us p := by
  induction us generalizing ps with
  | nil => cases h; rfl
  | cons u us ih =>
    unfold pathsOf at h
    cases hp : u.path with
    | none => rw [hp] at h; cases h
    | some x =>
      rw [hp] at h
      cases x with
      | view s => cases h
      | path s => cases h
      | other => cases h
      | str s =>
        simp only at h
        cases hps : pathsOf us with
        | error e => rw [hps] at h; cases h
        | ok ps' =>
          rw [hps] at h; cases h
          have hc : copyPath u = u := by unfold copyPath; rw [hp]
          have := ih ps' hps
          unfold copiesFor updatesFor at this ⊢
          rw [List.map_cons, List.zip_cons_cons, List.filter_cons, List.filter_cons]
          by_cases hs : s = p
          · subst hs
            rw [if_pos (by simp), if_pos (by simp [hp]), List.map_cons, this, hc]
          · rw [if_neg (by simpa using hs), if_neg (by simpa [hp] using hs), this]

theorem keysFrom_sectionPaths (copied : Nat → PathLike → Except PyErr Nat) (us : List (Upd V)) (i : Nat) (ps : List String)
    (h : pathsOf us = .ok ps) : keysFrom copied i (us.map asSectionPath) = .ok (ps.map .path) := by
  induction us generalizing i ps with
  | nil => cases h; rfl
  | cons u us ih =>
    unfold pathsOf at h
    cases hp : u.path with
    | none => rw [hp] at h; cases h
    | some x =>
      rw [hp] at h
      cases x with
      | view s => cases h
      | path s => cases h
      | other => cases h
      | str s =>
        simp only at h
        cases hps : pathsOf us with
        | error e => rw [hps] at h; cases h
        | ok ps' =>
          rw [hps] at h; cases h
          rw [List.map_cons]
          unfold keysFrom
          rw [show (asSectionPath u).path = some (.path ⟨s⟩) by unfold asSectionPath; rw [hp], ih (i + 1) ps' hps]
          rfl

theorem copiesFor_sectionPaths (us : List (Upd V)) (ps : List String) (h : pathsOf us = .ok ps) (p : String) :
    copiesFor (us.map asSectionPath) (ps.map .path) (.path p) = (updatesFor us p).map asSectionPath := by
  induction us generalizing ps with
  | nil => cases h; rfl
  | cons u us ih =>
    unfold pathsOf at h
    cases hp : u.path with
    | none => rw [hp] at h; cases h
    | some x =>
      rw [hp] at h
      cases x with
      | view s => cases h
      | path s => cases h
      | other => cases h
      | str s =>
        simp only at h
        cases hps : pathsOf us with
        | error e => rw [hps] at h; cases h
        | ok ps' =>
          rw [hps] at h; cases h
          have hc : copyPath (asSectionPath u) = asSectionPath u := by unfold copyPath asSectionPath; rw [hp]
          have := ih ps' hps
          unfold copiesFor updatesFor at this ⊢
          rw [List.map_cons, List.map_cons, List.zip_cons_cons, List.filter_cons, List.filter_cons]
          by_cases hs : s = p
          · subst hs
            rw [if_pos (by simp), if_pos (by simp [hp]), List.map_cons, List.map_cons, this, hc]
          · rw [if_neg (by simpa using hs), if_neg (by simpa [hp] using hs), this]

theorem product_map {α β : Type} (f : α → β) (xss : List (List α)) :
    product (xss.map (List.map f)) = (product xss).map (List.map f) := by
  induction xss with
  | nil => rfl
  | cons xs xss ih =>
    simp only [List.map_cons, product, ih, List.map_flatMap, List.flatMap_map, List.map_map]
    rfl

theorem product_singletons {α : Type} (xs : List α) : product (xs.map (fun x => [x])) = [xs] := by
  induction xs with
  | nil => rfl
  | cons x xs ih => simp [product, ih]

theorem getConfigProduct_eq (us : List (Upd V)) (ps : List String) (h : pathsOf us = .ok ps) :
    getConfigProduct us = .ok (product ((firstAppearance ps).map (updatesFor us))) := by
  obtain ⟨g, hg, hk, hv⟩ := groupByPath_spec us ps h Dict.empty
  have hkeys : g.keys = firstAppearance ps := by
    rw [hk]
    simp [Dict.keys, Dict.empty]
  have hvals : g.values = (firstAppearance ps).map (updatesFor us) := by
    rw [← hkeys]
    apply Dict.values_eq_map
    intro k hk'
    rw [hv k hk']
    simp
  unfold getConfigProduct
  rw [hg, ← hvals]

theorem product_strings (copied : Nat → PathLike → Except PyErr Nat) (us : List (Upd V)) (ps : List String)
    (h : pathsOf us = .ok ps) : getConfigProductAny copied us = getConfigProduct us := by
  rw [getConfigProduct_eq us ps h, getConfigProductAny_spec copied us _ (keysFrom_strings copied us 0 ps h),
    firstAppearance_map PathKey.str (by intro a b e; cases e; rfl), List.map_map]
  congr 2
  apply List.map_congr_left
  intro p _
  exact copiesFor_strings us ps h p

/-! ## Theorems -/

/-- C31 for all forms of paths: the cases are the choices of one of the (copied) updates for every distinct key, all of them, each once,
in lexicographic order with the last key varying fastest, the keys in the order of their first appearance.  Missing: two keys may
stand for the same section path (`C31_mixed_violated`, `C31_views_violated`). -/
theorem C31_keys_partial (copied : Nat → PathLike → Except PyErr Nat) (us : List (Upd V)) (ks : List PathKey)
    (h : keysFrom copied 0 us = .ok ks) :
    ∃ cases, getConfigProductAny copied us = .ok cases ∧
      cases.length = ways ((firstAppearance ks).map (copiesFor us ks)) ∧
      ∀ i < cases.length,
        (cases[i]?).map (fun c => c.map some) = some (choiceAt ((firstAppearance ks).map (copiesFor us ks)) i) := by
  refine ⟨_, getConfigProductAny_spec copied us ks h, product_length _, ?_⟩
  intro i hi
  rw [product_length] at hi
  exact product_get _ _ hi

/-- C31, the errors: if an update has no path, or the item of its view cannot be had, there are no cases. -/
theorem C31_keys_error (copied : Nat → PathLike → Except PyErr Nat) (us : List (Upd V)) (e : PyErr)
    (h : keysFrom copied 0 us = .error e) : getConfigProductAny copied us = .error e := by
  unfold getConfigProductAny
  rw [groupByKey_error copied us 0 e h]

theorem keysFrom_append_error (copied : Nat → PathLike → Except PyErr Nat) (us : List (Upd V)) (i : Nat) (ks : List PathKey)
    (h : keysFrom copied i us = .ok ks) (vs : List (Upd V)) (e : PyErr) (hv : keysFrom copied (i + us.length) vs = .error e) :
    keysFrom copied i (us ++ vs) = .error e := by
  induction us generalizing i ks with
  | nil => exact hv
  | cons u us ih =>
    unfold keysFrom at h
    rw [List.cons_append]
    unfold keysFrom
    cases hp : pathKey copied i u.path with
    | error e' => rw [hp] at h; cases h
    | ok key =>
      rw [hp] at h
      cases hks : keysFrom copied (i + 1) us with
      | error e' => rw [hks] at h; cases h
      | ok ks' =>
        rw [ih (i + 1) ks' hks (by rw [List.length_cons] at hv; rw [show i + 1 + us.length = i + (us.length + 1) by omega]; exact hv)]
        rfl

/-- C31, the errors: the first update without a path is a `KeyError`, if the items of the views before it can be had. -/
theorem C31_no_path (copied : Nat → PathLike → Except PyErr Nat) (us : List (Upd V)) (ks : List PathKey)
    (h : keysFrom copied 0 us = .ok ks) (u : Upd V) (hu : u.path = none) (vs : List (Upd V)) :
    getConfigProductAny copied (us ++ u :: vs) = .error .keyError := by
  apply C31_keys_error
  apply keysFrom_append_error copied us 0 ks h
  unfold keysFrom
  rw [hu]
  rfl

/-- C31: section paths give the same cases as their strings. -/
theorem C31_section_paths (copied : Nat → PathLike → Except PyErr Nat) (us : List (Upd V)) (ps : List String)
    (h : pathsOf us = .ok ps) :
    getConfigProductAny copied (us.map asSectionPath) = (getConfigProduct us).map (List.map (List.map asSectionPath)) := by
  rw [getConfigProduct_eq us ps h, getConfigProductAny_spec copied _ _ (keysFrom_sectionPaths copied us 0 ps h),
    firstAppearance_map PathKey.path (by intro a b e; cases e; rfl), List.map_map]
  show _ = Except.ok _
  rw [← product_map, List.map_map]
  congr 2
  apply List.map_congr_left
  intro p _
  exact copiesFor_sectionPaths us ps h p

/-! ### The runner -/

theorem fullPathAny_str (base : Option String) (s : String) : fullPathAny base (.str s) = .ok (.str (fullPath base s).pathStr) := by
  unfold fullPathAny fullPath
  cases base with
  | none => rfl
  | some b =>
    simp only
    split <;> rfl

theorem fullPathsAny_strings (base : Option String) (c : List (Upd V)) (ps : List String) (h : pathsOf c = .ok ps) :
    ∃ sps, IRunner.fullPaths base c = .ok sps ∧ IRunner.fullPathsAny base c = .ok (sps.map (fun sp => .str sp.pathStr)) := by
  induction c generalizing ps with
  | nil => exact ⟨[], rfl, rfl⟩
  | cons u us ih =>
    unfold pathsOf at h
    cases hp : u.path with
    | none => rw [hp] at h; cases h
    | some x =>
      rw [hp] at h
      cases x with
      | view s => cases h
      | path s => cases h
      | other => cases h
      | str s =>
        simp only at h
        cases hps : pathsOf us with
        | error e => rw [hps] at h; cases h
        | ok ps' =>
          obtain ⟨sps, h1, h2⟩ := ih ps' hps
          refine ⟨fullPath base s :: sps, ?_, ?_⟩
          · unfold IRunner.fullPaths
            rw [show u.pathStr = .ok s by unfold Upd.pathStr; rw [hp], h1]
            rfl
          · unfold IRunner.fullPathsAny
            rw [hp]
            simp only
            rw [fullPathAny_str, h2]
            rfl

theorem defaultsLoopAny_strings (sps : List SectionPath) (acc : Dict String (Dict String V)) :
    IRunner.defaultsLoopAny acc (sps.map (fun sp => .str sp.pathStr)) = IRunner.defaultsLoop acc sps := by
  induction sps generalizing acc with
  | nil => rfl
  | cons sp sps ih =>
    rw [List.map_cons]
    unfold IRunner.defaultsLoopAny IRunner.defaultsLoop
    simp only [ih]
    rfl

/-- C31: for strings, this is the runner of the other theorems. -/
theorem C31_same_runner (copied : Nat → PathLike → Except PyErr Nat) (h : IterHooks V) (items : PathLike ⊕ List PathLike)
    (us : List (Upd V)) (ps : List String) (hp : pathsOf us = .ok ps) (base : Option String) (strip : Bool)
    (hc : ∀ c rest, IRunner.getCases h us = .ok (c :: rest) → ∃ qs, pathsOf c = .ok qs) :
    IRunner.newAny copied h items us base strip = IRunner.new h items us base strip := by
  funext s
  unfold IRunner.newAny IRunner.new
  rw [M.bind_run, M.bind_run]
  cases hl : (M.liftE (SectionPath.listFromAmbiguous items strip base) : BM V _) s with
  | mk a t =>
    cases a with
    | error e => rfl
    | ok ri =>
      simp only
      rw [M.bind_run, M.bind_run, product_strings copied us ps hp]
      cases hg : getConfigProduct us with
      | error e => unfold IRunner.getCases; rw [hg]; rfl
      | ok cases =>
        have hgc : IRunner.getCases h us = .ok (h.modifyCases (h.moreCases us ++ cases)) := by
          unfold IRunner.getCases; rw [hg]
        rw [hgc]
        simp only [M.liftE_run]
        rw [hgc] at hc
        generalize h.modifyCases (h.moreCases us ++ cases) = cs at hc
        rw [M.bind_run, M.bind_run]
        have : IRunner.getDefaultsAny base cs = IRunner.getDefaults base cs := by
          cases cs with
          | nil => rfl
          | cons c rest =>
            obtain ⟨qs, hq⟩ := hc c rest rfl
            obtain ⟨sps, h1, h2⟩ := fullPathsAny_strings base c qs hq
            unfold IRunner.getDefaultsAny IRunner.getDefaults
            simp only [h1, h2]
            funext s
            rw [M.bind_run, M.bind_run]
            simp only [M.liftE_run]
            rw [defaultsLoopAny_strings]
        rw [this]

theorem M.bind_error {ε σ α β : Type} {x : M ε σ α} {f : α → M ε σ β} {s : σ}
    (h : ∀ a t, x s = (.ok a, t) → ∃ e u, f a t = (.error e, u)) : ∃ e u, (x >>= f) s = (.error e, u) := by
  rw [M.bind_run]
  cases hx : x s with
  | mk a t =>
    cases a with
    | error e => exact ⟨e, t, rfl⟩
    | ok a => exact h a t hx

theorem defaultsLoopAny_raises (sps : List PathLike) (x : PathLike) (hx : x ∈ sps) (hs : ∀ s, x ≠ .str s)
    (acc : Dict String (Dict String V)) (s : Mgrs V) : ∃ e t, IRunner.defaultsLoopAny acc sps s = (.error e, t) := by
  induction sps generalizing acc s with
  | nil => cases hx
  | cons y sps ih =>
    cases y with
    | str p =>
      have hx' : x ∈ sps := by
        rcases List.mem_cons.1 hx with h | h
        · exact absurd h (hs p)
        · exact h
      unfold IRunner.defaultsLoopAny
      apply M.bind_error
      intro a t _
      cases a with
      | none => exact ih hx' _ _
      | some c => exact ih hx' _ _
    | view p => exact ⟨_, _, rfl⟩
    | path p => exact ⟨_, _, rfl⟩
    | other => exact ⟨_, _, rfl⟩

theorem fullPathsAny_other (base : Option String) (c : List (Upd V)) (u : Upd V) (hu : u ∈ c) (hp : u.path = some .other)
    (sps : List PathLike) (h : IRunner.fullPathsAny base c = .ok sps) : PathLike.other ∈ sps := by
  induction c generalizing sps with
  | nil => cases hu
  | cons v c ih =>
    unfold IRunner.fullPathsAny at h
    cases hv : v.path with
    | none => rw [hv] at h; cases h
    | some x =>
      rw [hv] at h
      simp only at h
      cases hf : fullPathAny base x with
      | error e => rw [hf] at h; cases h
      | ok y =>
        rw [hf] at h
        cases hr : IRunner.fullPathsAny base c with
        | error e => rw [hr] at h; cases h
        | ok rest =>
          rw [hr] at h
          cases h
          rcases List.mem_cons.1 hu with he | he
          · subst he
            rw [hp] at hv
            cases hv
            have : y = .other := by
              unfold fullPathAny at hf
              split at hf
              · cases hf; rfl
              · split at hf
                · cases hf; rfl
                · cases hf
            rw [this]
            exact List.mem_cons_self
          · exact List.mem_cons_of_mem _ (ih he rest hr)

theorem keysFrom_length {copied : Nat → PathLike → Except PyErr Nat} {us : List (Upd V)} {i : Nat} {ks : List PathKey}
    (h : keysFrom copied i us = .ok ks) : ks.length = us.length := by
  induction us generalizing i ks with
  | nil => cases h; rfl
  | cons u us ih =>
    unfold keysFrom at h
    cases hp : pathKey copied i u.path with
    | error e => rw [hp] at h; cases h
    | ok key =>
      rw [hp] at h
      cases hks : keysFrom copied (i + 1) us with
      | error e => rw [hks] at h; cases h
      | ok ks' => rw [hks] at h; cases h; simp [ih hks]

/-- An update for a key of an object is a copy whose path is an object. -/
theorem zip_obj {copied : Nat → PathLike → Except PyErr Nat} {us : List (Upd V)} {i : Nat} {ks : List PathKey}
    (h : keysFrom copied i us = .ok ks) {u : Upd V} {n : Nat} (hm : (u, PathKey.obj n) ∈ us.zip ks) :
    (copyPath u).path = some .other := by
  induction us generalizing i ks with
  | nil => cases h; cases hm
  | cons v us ih =>
    unfold keysFrom at h
    cases hp : pathKey copied i v.path with
    | error e => rw [hp] at h; cases h
    | ok key =>
      rw [hp] at h
      cases hks : keysFrom copied (i + 1) us with
      | error e => rw [hks] at h; cases h
      | ok ks' =>
        rw [hks] at h; cases h
        rw [List.zip_cons_cons] at hm
        rcases List.mem_cons.1 hm with he | he
        · cases he
          cases hv : u.path with
          | none => rw [hv] at hp; cases hp
          | some x =>
            rw [hv] at hp
            cases x with
            | str s => cases hp
            | path s => cases hp
            | view s => unfold copyPath; rw [hv]
            | other => unfold copyPath; rw [hv]; exact hv
        · exact ih hks he

theorem obj_of_view {copied : Nat → PathLike → Except PyErr Nat} {us : List (Upd V)} {i : Nat} {ks : List PathKey}
    (h : keysFrom copied i us = .ok ks) {u : Upd V} (hu : u ∈ us) (hv : ByView u) : ∃ n, PathKey.obj n ∈ ks := by
  induction us generalizing i ks with
  | nil => cases hu
  | cons v us ih =>
    unfold keysFrom at h
    cases hp : pathKey copied i v.path with
    | error e => rw [hp] at h; cases h
    | ok key =>
      rw [hp] at h
      cases hks : keysFrom copied (i + 1) us with
      | error e => rw [hks] at h; cases h
      | ok ks' =>
        rw [hks] at h; cases h
        rcases List.mem_cons.1 hu with he | he
        · subst he
          obtain ⟨s, hs⟩ := hv
          rw [hs] at hp
          unfold pathKey at hp
          simp only at hp
          cases hc : copied i (.view s) with
          | error e => rw [hc] at hp; cases hp
          | ok n => rw [hc] at hp; cases hp; exact ⟨n, List.mem_cons_self⟩
        · obtain ⟨n, hn⟩ := ih hks he
          exact ⟨n, List.mem_cons_of_mem _ hn⟩

theorem oneOfEach_mem {α : Type} {c : List α} {xss : List (List α)} (h : OneOfEach c xss) {xs : List α} (hx : xs ∈ xss) :
    ∃ x ∈ c, x ∈ xs := by
  induction h with
  | nil => cases hx
  | cons x ys c xss hm _ ih =>
    rcases List.mem_cons.1 hx with he | he
    · subst he; exact ⟨x, List.mem_cons_self, hm⟩
    · obtain ⟨y, h1, h2⟩ := ih he
      exact ⟨y, List.mem_cons_of_mem _ h1, h2⟩

/-- C31, views: an iterative runner with a view as a section path is never made, whatever the base and the items to run. -/
theorem C31_views_never (copied : Nat → PathLike → Except PyErr Nat) (items : PathLike ⊕ List PathLike) (us : List (Upd V))
    (u : Upd V) (hu : u ∈ us) (hv : ByView u) (base : Option String) (strip : Bool) (s : Mgrs V) :
    ∃ e t, IRunner.newAny copied IterHooks.none items us base strip s = (.error e, t) := by
  unfold IRunner.newAny
  apply M.bind_error
  intro ri t _
  apply M.bind_error
  intro cases t' hcases
  apply M.bind_error
  intro d t'' hd
  exfalso
  cases hk : keysFrom copied 0 us with
  | error e => rw [C31_keys_error copied us e hk] at hcases; cases hcases
  | ok ks =>
    rw [getConfigProductAny_spec copied us ks hk] at hcases
    simp only [M.liftE_run] at hcases
    cases hcases
    obtain ⟨n, hn⟩ := obj_of_view hk hu hv
    simp only [IterHooks.none, id_eq, List.nil_append] at hd
    generalize hcs : product ((firstAppearance ks).map (copiesFor us ks)) = cs at hd
    cases cs with
    | nil => cases hd
    | cons c rest =>
      have hc : c ∈ product ((firstAppearance ks).map (copiesFor us ks)) := by rw [hcs]; exact List.mem_cons_self
      obtain ⟨x, hxc, hx⟩ := oneOfEach_mem ((mem_product _ _).1 hc)
        (List.mem_map.2 ⟨_, (mem_firstAppearance ks _).2 hn, rfl⟩)
      have hxo : x.path = some .other := by
        unfold copiesFor at hx
        rw [List.mem_map] at hx
        obtain ⟨e, he, rfl⟩ := hx
        rw [List.mem_filter, decide_eq_true_eq] at he
        obtain ⟨a, b⟩ := e
        obtain ⟨h1, h2⟩ := he
        simp only at h2
        subst h2
        exact zip_obj hk h1
      have : ∃ e u, IRunner.getDefaultsAny base (c :: rest) t = (.error e, u) := by
        unfold IRunner.getDefaultsAny
        simp only
        apply M.bind_error
        intro sps w hsps
        cases hf : IRunner.fullPathsAny base c with
        | error e => rw [hf] at hsps; cases hsps
        | ok l =>
          rw [hf] at hsps
          simp only [M.liftE_run] at hsps
          cases hsps
          exact defaultsLoopAny_raises _ _ (fullPathsAny_other base c x hxc hxo _ hf) (by intro s h; cases h) _ _
      obtain ⟨e, w, he⟩ := this
      rw [he] at hd
      cases hd

theorem fullPathsAny_sectionPaths {b : String} (hb : b ≠ "") (c : List (Upd V)) (ps : List String) (h : pathsOf c = .ok ps) :
    IRunner.fullPathsAny (some b) (c.map asSectionPath) = IRunner.fullPathsAny (some b) c := by
  induction c generalizing ps with
  | nil => rfl
  | cons u us ih =>
    unfold pathsOf at h
    cases hp : u.path with
    | none => rw [hp] at h; cases h
    | some x =>
      rw [hp] at h
      cases x with
      | view s => cases h
      | path s => cases h
      | other => cases h
      | str s =>
        simp only at h
        cases hps : pathsOf us with
        | error e => rw [hps] at h; cases h
        | ok ps' =>
          rw [List.map_cons]
          unfold IRunner.fullPathsAny
          rw [show (asSectionPath u).path = some (.path ⟨s⟩) by unfold asSectionPath; rw [hp], hp, ih ps' hps]
          unfold fullPathAny
          simp only [if_neg hb]

theorem pathsOf_str (l : List (Upd V)) (q : List String) (hq : pathsOf l = .ok q) (u : Upd V) (hu : u ∈ l) :
    ∃ s, u.path = some (.str s) := by
  induction l generalizing q with
  | nil => cases hu
  | cons w l ihl =>
    unfold pathsOf at hq
    cases hw : w.path with
    | none => rw [hw] at hq; cases hq
    | some y =>
      rw [hw] at hq
      cases y with
      | view s => cases hq
      | path s => cases hq
      | other => cases hq
      | str s' =>
        simp only at hq
        cases hl : pathsOf l with
        | error e => rw [hl] at hq; cases hq
        | ok q' =>
          rcases List.mem_cons.1 hu with he | he
          · subst he; exact ⟨s', hw⟩
          · exact ihl q' hl he

theorem pathsOf_sub {us c : List (Upd V)} {ps : List String} (h : pathsOf us = .ok ps) (hc : ∀ u ∈ c, u ∈ us) :
    ∃ qs, pathsOf c = .ok qs := by
  have hstr := pathsOf_str us ps h
  induction c with
  | nil => exact ⟨[], rfl⟩
  | cons u c ih =>
    obtain ⟨s, hs⟩ := hstr u (hc u List.mem_cons_self)
    obtain ⟨qs, hq⟩ := ih (fun v hv => hc v (List.mem_cons_of_mem _ hv))
    refine ⟨s :: qs, ?_⟩
    unfold pathsOf
    rw [hs, hq]
    rfl

/-- C31, section paths with a base: the runner is the one for their strings, but for the form of the paths in its cases. -/
theorem C31_section_paths_base (copied : Nat → PathLike → Except PyErr Nat) (items : PathLike ⊕ List PathLike) (us : List (Upd V))
    (ps : List String) (hp : pathsOf us = .ok ps) {b : String} (hb : b ≠ "") (strip : Bool) (s : Mgrs V) :
    IRunner.newAny copied IterHooks.none items (us.map asSectionPath) (some b) strip s =
      ((IRunner.new IterHooks.none items us (some b) strip s).1.map
          (fun r => { r with cases := r.cases.map (List.map asSectionPath) }),
        (IRunner.new IterHooks.none items us (some b) strip s).2) := by
  have hcs : ∀ cases, getConfigProduct us = .ok cases → ∀ c ∈ cases, ∃ qs, pathsOf c = .ok qs := by
    intro cases hg c hc
    exact pathsOf_sub hp ((C31_members us ps hp cases hg c).1 hc).2
  unfold IRunner.newAny IRunner.new
  rw [M.bind_run, M.bind_run]
  cases hl : (M.liftE (SectionPath.listFromAmbiguous items strip (some b)) : BM V _) s with
  | mk a t =>
    cases a with
    | error e => rfl
    | ok ri =>
      simp only
      rw [M.bind_run, M.bind_run, C31_section_paths copied us ps hp]
      unfold IRunner.getCases
      cases hg : getConfigProduct us with
      | error e => rfl
      | ok cases =>
        simp only [M.liftE_run, Except.map, IterHooks.none, id_eq, List.nil_append]
        rw [M.bind_run, M.bind_run]
        have : (IRunner.getDefaultsAny (some b) (cases.map (List.map asSectionPath)) : BM V _) =
            IRunner.getDefaults (some b) cases := by
          cases hcase : cases with
          | nil => rfl
          | cons c rest =>
            obtain ⟨qs, hq⟩ := hcs cases hg c (by rw [hcase]; exact List.mem_cons_self)
            obtain ⟨sps, h1, h2⟩ := fullPathsAny_strings (some b) c qs hq
            unfold IRunner.getDefaultsAny IRunner.getDefaults
            simp only [List.map_cons, h1, fullPathsAny_sectionPaths hb c qs hq, h2]
            funext s
            rw [M.bind_run, M.bind_run]
            simp only [M.liftE_run]
            rw [defaultsLoopAny_strings]
        rw [this]
        cases hd : (IRunner.getDefaults (some b) cases : BM V _) t with
        | mk a t' => cases a <;> rfl

/-- C31, section paths without a base: there is no runner. -/
theorem C31_section_paths_no_base (copied : Nat → PathLike → Except PyErr Nat) (items : PathLike ⊕ List PathLike)
    (u : Upd V) (us : List (Upd V)) (ps : List String) (hp : pathsOf (u :: us) = .ok ps) (strip : Bool) (s : Mgrs V)
    (ri : List SectionPath) (hi : SectionPath.listFromAmbiguous items strip none = .ok ri) :
    IRunner.newAny copied IterHooks.none items ((u :: us).map asSectionPath) none strip s = (.error .attributeError, s) := by
  unfold IRunner.newAny
  rw [M.bind_run, hi]
  simp only [M.liftE_run]
  rw [M.bind_run, C31_section_paths copied _ ps hp, getConfigProduct_eq _ ps hp]
  simp only [M.liftE_run, Except.map, IterHooks.none, id_eq, List.nil_append]
  rw [M.bind_run]
  have hne : ∀ p ∈ firstAppearance ps, updatesFor (u :: us) p ≠ [] := by
    intro p hm h0
    rw [mem_firstAppearance] at hm
    have : ∀ (l : List (Upd V)) (q : List String), pathsOf l = .ok q → p ∈ q → updatesFor l p ≠ [] := by
      intro l
      induction l with
      | nil => intro q hq hm; cases hq; cases hm
      | cons w l ihl =>
        intro q hq hm
        unfold pathsOf at hq
        cases hw : w.path with
        | none => rw [hw] at hq; cases hq
        | some y =>
          rw [hw] at hq
          cases y with
          | view s => cases hq
          | path s => cases hq
          | other => cases hq
          | str s' =>
            simp only at hq
            cases hl : pathsOf l with
            | error e => rw [hl] at hq; cases hq
            | ok q' =>
              rw [hl] at hq; cases hq
              unfold updatesFor
              rw [List.filter_cons]
              by_cases hs : s' = p
              · rw [if_pos (by simp [hw, hs])]; simp
              · rw [if_neg (by simpa [hw] using hs)]
                rcases List.mem_cons.1 hm with he | he
                · exact absurd he.symm hs
                · exact ihl q' hl he
    exact this _ ps hp hm h0
  have hprod : ∀ (xss : List (List (Upd V))), (∀ xs ∈ xss, xs ≠ []) → product xss ≠ [] := by
    intro xss
    induction xss with
    | nil => intro _ h; cases h
    | cons xs xss ih =>
      intro h
      obtain ⟨x, xs', rfl⟩ := List.exists_cons_of_ne_nil (h xs List.mem_cons_self)
      have := ih (fun ys hy => h ys (List.mem_cons_of_mem _ hy))
      obtain ⟨c, cs, hc⟩ := List.exists_cons_of_ne_nil this
      simp [product, hc]
  obtain ⟨c, cs, hc⟩ := List.exists_cons_of_ne_nil (hprod ((firstAppearance ps).map (updatesFor (u :: us))) (by
    intro xs hx
    obtain ⟨p, h1, rfl⟩ := List.mem_map.1 hx
    exact hne p h1))
  rw [hc]
  have hcm := (C31_members (u :: us) ps hp _ (getConfigProduct_eq _ ps hp) c).1 (by rw [hc]; exact List.mem_cons_self)
  have hps : ∃ p ps', ps = p :: ps' := by
    cases ps with
    | nil =>
      exfalso
      unfold pathsOf at hp
      split at hp
      · cases hq : pathsOf us with
        | error e => rw [hq] at hp; cases hp
        | ok l => rw [hq] at hp; cases hp
      · cases hp
      · cases hp
    | cons p ps' => exact ⟨p, ps', rfl⟩
  obtain ⟨p, ps', rfl⟩ := hps
  cases c with
  | nil => simp [firstAppearance] at hcm
  | cons v c =>
    have hv : v.path = some (.str p) := by
      have := hcm.1
      simp only [firstAppearance, List.map_cons, List.cons.injEq] at this
      exact this.1
    obtain ⟨qs, hq⟩ := pathsOf_sub hp hcm.2
    have hfull : ∀ (l : List (Upd V)) (q : List String), pathsOf l = .ok q →
        IRunner.fullPathsAny none (l.map asSectionPath) = .ok (q.map (fun p => .path ⟨p⟩)) := by
      intro l
      induction l with
      | nil => intro q hq; cases hq; rfl
      | cons w l ihl =>
        intro q hq
        unfold pathsOf at hq
        cases hw : w.path with
        | none => rw [hw] at hq; cases hq
        | some y =>
          rw [hw] at hq
          cases y with
          | view s => cases hq
          | path s => cases hq
          | other => cases hq
          | str s' =>
            simp only at hq
            cases hl : pathsOf l with
            | error e => rw [hl] at hq; cases hq
            | ok q' =>
              rw [hl] at hq; cases hq
              rw [List.map_cons]
              unfold IRunner.fullPathsAny
              rw [show (asSectionPath w).path = some (.path ⟨s'⟩) by unfold asSectionPath; rw [hw], ihl q' hl]
              rfl
    have hq0 : ∃ q', qs = p :: q' := by
      unfold pathsOf at hq
      rw [hv] at hq
      simp only at hq
      cases hl : pathsOf c with
      | error e => rw [hl] at hq; cases hq
      | ok q' => rw [hl] at hq; cases hq; exact ⟨q', rfl⟩
    obtain ⟨q', rfl⟩ := hq0
    rw [List.map_cons]
    unfold IRunner.getDefaultsAny
    simp only
    rw [M.bind_run, hfull _ _ hq]
    rfl

theorem firstAppearance_self {α : Type} [DecidableEq α] {xs : List α} (h : xs.Nodup) : firstAppearance xs = xs := by
  induction xs with
  | nil => rfl
  | cons n ns ih =>
    rw [List.nodup_cons] at h
    show n :: (firstAppearance ns).filter _ = n :: ns
    rw [ih h.2]
    congr 1
    rw [List.filter_eq_self]
    intro m hm
    rw [decide_eq_true_eq]
    intro he
    exact h.1 (he ▸ hm)

/-- C31, views of items whose copies are all different, as those of functions are: there is a single case, with all the updates. -/
theorem C31_views_one_case (copied : Nat → PathLike → Except PyErr Nat) (us : List (Upd V)) (ns : List Nat)
    (h : keysFrom copied 0 us = .ok (ns.map .obj)) (hd : ns.Nodup) :
    getConfigProductAny copied us = .ok [us.map copyPath] := by
  rw [getConfigProductAny_spec copied us _ h, firstAppearance_map PathKey.obj (by intro a b e; cases e; rfl), List.map_map]
  have hlen : ns.length = us.length := by have := keysFrom_length h; simpa using this
  clear h
  rw [firstAppearance_self hd, ← product_singletons]
  congr 2
  induction us generalizing ns with
  | nil => cases ns with
    | nil => rfl
    | cons _ _ => cases hlen
  | cons u us ih =>
    cases ns with
    | nil => cases hlen
    | cons n ns =>
      rw [List.nodup_cons] at hd
      rw [List.map_cons, List.map_cons, List.map_cons]
      have hz : ∀ e ∈ us.zip (ns.map PathKey.obj), e.2 ≠ .obj n := by
        intro e he h2
        have := (List.of_mem_zip he).2
        rw [h2, List.mem_map] at this
        obtain ⟨m, hm, hmn⟩ := this
        cases hmn
        exact hd.1 hm
      congr 1
      · show copiesFor _ _ _ = _
        unfold copiesFor
        rw [List.zip_cons_cons, List.filter_cons, if_pos (by simp)]
        rw [List.filter_eq_nil_iff.2 (by intro e he; simpa using hz e he)]
        rfl
      · rw [← ih ns hd.2 (by simpa using hlen)]
        apply List.map_congr_left
        intro m hm
        show copiesFor _ _ _ = copiesFor _ _ _
        unfold copiesFor
        rw [List.zip_cons_cons, List.filter_cons, if_neg (by
          simp only [decide_eq_true_eq, PathKey.obj.injEq]
          intro he
          exact hd.1 (he ▸ hm))]

/-! ### Counterexamples -/

/-- Every copy is another object. -/
def freshCopies : Nat → PathLike → Except PyErr Nat := fun i _ => .ok i

/-- Two updates for the same item, by views. -/
def viewUpdates : List (Upd Nat) :=
  [⟨some (.view "mgr.abc"), none, none, Dict.ofList [("a", 10)]⟩, ⟨some (.view "mgr.abc"), none, none, Dict.ofList [("a", 20)]⟩]

/-- C31 fails for views: two updates for the same item should be two cases, but are a single one with both. -/
theorem C31_views_violated : ∃ c, getConfigProductAny freshCopies viewUpdates = .ok [c] ∧ c.length = 2 :=
  ⟨_, C31_views_one_case freshCopies viewUpdates [0, 1] rfl (by decide), rfl⟩

/-- Two updates for the same section path, as a string and as a section path. -/
def mixedUpdates : List (Upd Nat) :=
  [⟨some (.str "abc"), none, none, Dict.ofList [("a", 10)]⟩, ⟨some (.path ⟨"abc"⟩), none, none, Dict.ofList [("a", 20)]⟩]

/-- C31 fails for section paths given in two forms: there is a single case, with both updates. -/
theorem C31_mixed_violated : getConfigProductAny freshCopies mixedUpdates = .ok [mixedUpdates] := by
  rw [getConfigProductAny_spec freshCopies mixedUpdates [.str "abc", .path "abc"] rfl]
  rfl

example : SectionPath.listFromAmbiguous (.inl (.str "abc")) false none = .ok [⟨"abc"⟩] := by decide +kernel

example : keysFrom freshCopies 0 viewUpdates = .ok [.obj 0, .obj 1] := rfl

example : ∀ u ∈ viewUpdates, ByView u := by
  intro u hu
  simp only [viewUpdates, List.mem_cons, List.not_mem_nil, or_false] at hu
  rcases hu with rfl | rfl <;> exact ⟨_, rfl⟩

example : keysFrom (fun _ _ => .error .attributeError) 0 viewUpdates = .error .attributeError := rfl

/-- With no plugins, the cases have the paths of the updates. -/
example (c : List (Upd Nat)) (rest : List (List (Upd Nat)))
    (h : IRunner.getCases IterHooks.none demoUpdates = .ok (c :: rest)) : ∃ qs, pathsOf c = .ok qs := by
  have hg : getConfigProduct demoUpdates = .ok (c :: rest) := by
    unfold IRunner.getCases at h
    cases hp : getConfigProduct demoUpdates with
    | error e => rw [hp] at h; cases h
    | ok cases => rw [hp] at h; exact h
  exact pathsOf_sub (us := demoUpdates) (ps := ["abc", "def", "abc", "def"]) rfl
    ((C31_members demoUpdates _ rfl _ hg c).1 List.mem_cons_self).2

end Verif.Props

import Verif.Model.Plugins
import Verif.Props.Context
import Verif.Props.Runner

/-
Property theorems about plugins around updates: C92.
-/

namespace Verif.Props
open Verif.Py Verif.Model

variable {V : Type}

/-! ### Specification -/

/-- What the plugin returns. -/
def UpdatePlugin.gives (pl : UpdatePlugin V) (p : Option (List String)) (d : Option (Dict String V)) (kw : Dict String V) :
    Option (Dict String V) :=
  match (pl.pre p d kw).result with
  | .ok r => r
  | .error _ => none

/-- The plugin changes nothing in place and does not raise: it returns something or nothing. -/
structure OnlyReturns (pl : UpdatePlugin V) : Prop where
  result : ∀ p d kw, ∃ r, (pl.pre p d kw).result = .ok r
  dict : ∀ p d kw, (pl.pre p (some d) kw).d = d
  kw : ∀ p d kw, (pl.pre p d kw).kw = kw
  postDict : ∀ p d kw, (pl.post p (some d) kw).d = d
  postKw : ∀ p d kw, (pl.post p d kw).kw = kw

/-- What the plugins say about a key: the one registered first, of those that say anything. -/
def pluginsGive (plugins : List (UpdatePlugin V)) (p : Option (List String)) (d : Option (Dict String V)) (kw : Dict String V)
    (k : String) : Option V :=
  plugins.findSome? (fun pl => (UpdatePlugin.gives pl p d kw).bind (fun r => r.get? k))

/-- The values of a dictionary with those of the plugins over them. -/
structure WithPlugins (plugins : List (UpdatePlugin V)) (p : Option (List String)) (d : Option (Dict String V))
    (kw : Dict String V) (e e' : Dict String V) : Prop where
  get : ∀ k, e'.get? k = (pluginsGive plugins p d kw k).or (e.get? k)
  keys : e.keys <+: e'.keys

/-! ### Lemmas -/

theorem callPre_returns {pls : List (UpdatePlugin V)} (h : ∀ pl ∈ pls, OnlyReturns pl) (p : Option (List String))
    (d : Option (Dict String V)) (kw : Dict String V) :
    callPre p pls d kw = (d, kw, .ok (pls.filterMap (fun pl => UpdatePlugin.gives pl p d kw))) := by
  induction pls with
  | nil => rfl
  | cons pl pls ih =>
    have hp := h pl List.mem_cons_self
    have hd : d.map (fun _ => (pl.pre p d kw).d) = d := by
      cases d with
      | none => rfl
      | some d => rw [Option.map_some, hp.dict]
    obtain ⟨r, hr⟩ := hp.result p d kw
    have hg : UpdatePlugin.gives pl p d kw = r := by unfold UpdatePlugin.gives; rw [hr]
    rw [callPre]
    dsimp only
    rw [hr, hp.kw, hd, ih (fun q hq => h q (List.mem_cons_of_mem _ hq)), List.filterMap_cons, hg]
    cases r <;> rfl

theorem foldl_update_get? (rs : List (Dict String V)) (d : Dict String V) (k : String) :
    (rs.foldl Dict.update d).get? k = (rs.reverse.findSome? (fun r => r.get? k)).or (d.get? k) := by
  induction rs generalizing d with
  | nil => rfl
  | cons r rs ih =>
    rw [List.foldl_cons, ih, Dict.get?_update, List.reverse_cons, List.findSome?_append]
    cases hr : r.get? k <;> simp [hr]

/-- The merged results. -/
def mergedGiven (plugins : List (UpdatePlugin V)) (p : Option (List String)) (d : Option (Dict String V)) (kw : Dict String V) :
    Dict String V :=
  (plugins.reverse.filterMap (fun pl => UpdatePlugin.gives pl p d kw)).foldl Dict.update Dict.empty

theorem mergedGiven_get? (plugins : List (UpdatePlugin V)) (p : Option (List String)) (d : Option (Dict String V))
    (kw : Dict String V) (k : String) : (mergedGiven plugins p d kw).get? k = pluginsGive plugins p d kw k := by
  unfold mergedGiven pluginsGive
  rw [foldl_update_get?, ← List.filterMap_reverse, List.reverse_reverse]
  have he : (Dict.empty : Dict String V).get? k = none := rfl
  rw [he, Option.or_none]
  induction plugins with
  | nil => rfl
  | cons pl pls ih =>
    rw [List.filterMap_cons, List.findSome?_cons]
    cases hg : UpdatePlugin.gives pl p d kw with
    | none => exact ih
    | some r =>
      rw [List.findSome?_cons, Option.bind_some]
      cases r.get? k with
      | none => exact ih
      | some v => rfl

theorem withPlugins_update (plugins : List (UpdatePlugin V)) (p : Option (List String)) (d : Option (Dict String V))
    (kw e : Dict String V) : WithPlugins plugins p d kw e (e.update (mergedGiven plugins p d kw)) := by
  refine ⟨fun k => by rw [Dict.get?_update, mergedGiven_get?], ?_⟩
  exact Dict.keys_prefix_update _ _

theorem callPost_returns {pls : List (UpdatePlugin V)} (h : ∀ pl ∈ pls, OnlyReturns pl) (p : Option (List String))
    (d : Option (Dict String V)) (kw : Dict String V) :
    (callPost p pls d kw).2.1 = d ∧ ∃ n, (callPost p pls d kw).1 = List.replicate n ⟨p, d, kw⟩ ∧ n ≤ pls.length ∧
      ((callPost p pls d kw).2.2 = .ok () → n = pls.length) := by
  induction pls with
  | nil => exact ⟨rfl, 0, rfl, Nat.le_refl _, fun _ => rfl⟩
  | cons pl pls ih =>
    have hp := h pl List.mem_cons_self
    have hd : d.map (fun _ => (pl.post p d kw).d) = d := by
      cases d with
      | none => rfl
      | some d => rw [Option.map_some, hp.postDict]
    obtain ⟨h1, n, h2, h3, h4⟩ := ih (fun q hq => h q (List.mem_cons_of_mem _ hq))
    rw [callPost]
    dsimp only
    rw [hd, hp.postKw]
    cases hr : (pl.post p d kw).result with
    | error e => exact ⟨rfl, 1, rfl, by simp, fun hh => by cases hh⟩
    | ok u =>
      refine ⟨h1, n + 1, ?_, by simpa using h3, fun hh => by rw [List.length_cons, h4 hh]⟩
      dsimp only
      rw [h2, List.replicate_succ]

/-! ### What plugins pass on to each other -/

/-- What the plugins pass on: the dictionary, if there is one, and the keyword arguments. -/
abbrev Passing (V : Type) := Option (Dict String V) × Dict String V

/-- What a call leaves, if it was called with these. -/
def leftBy {α : Type} (st : Passing V) (c : HookCall V α) : Passing V :=
  (st.1.map (fun _ => c.d), c.kw)

/-- `pre_update` plugins, in this order, pass `st` on to each other up to `st'`, none raises, and they return `rs`. -/
inductive PrePassed (p : Option (List String)) : List (UpdatePlugin V) → Passing V → Passing V → List (Dict String V) → Prop
  | nil (st) : PrePassed p [] st st []
  | none {pl pls st st' rs} : (pl.pre p st.1 st.2).result = .ok none → PrePassed p pls (leftBy st (pl.pre p st.1 st.2)) st' rs →
      PrePassed p (pl :: pls) st st' rs
  | some {pl pls st st' r rs} : (pl.pre p st.1 st.2).result = .ok (some r) →
      PrePassed p pls (leftBy st (pl.pre p st.1 st.2)) st' rs → PrePassed p (pl :: pls) st st' (r :: rs)

/-- `post_update` plugins, in this order, pass `st` on to each other up to `st'`, none raises; each is called with what `seen` says. -/
inductive PostPassed (p : Option (List String)) : List (UpdatePlugin V) → Passing V → Passing V → List (PostSeen V) → Prop
  | nil (st) : PostPassed p [] st st []
  | cons {pl pls st st' seen} : (pl.post p st.1 st.2).result = .ok () →
      PostPassed p pls (leftBy st (pl.post p st.1 st.2)) st' seen → PostPassed p (pl :: pls) st st' (⟨p, st.1, st.2⟩ :: seen)

theorem callPre_passed (p : Option (List String)) (pls : List (UpdatePlugin V)) (st : Passing V) :
    (∃ st' rs, PrePassed p pls st st' rs ∧ callPre p pls st.1 st.2 = (st'.1, st'.2, .ok rs)) ∨
    ∃ pls₁ pl pls₂ st' rs e, pls = pls₁ ++ pl :: pls₂ ∧ PrePassed p pls₁ st st' rs ∧ (pl.pre p st'.1 st'.2).result = .error e ∧
      callPre p pls st.1 st.2 = ((leftBy st' (pl.pre p st'.1 st'.2)).1, (leftBy st' (pl.pre p st'.1 st'.2)).2, .error e) := by
  induction pls generalizing st with
  | nil => exact .inl ⟨st, [], .nil st, rfl⟩
  | cons pl pls ih =>
    rw [callPre]
    dsimp only
    cases hr : (pl.pre p st.1 st.2).result with
    | error e => exact .inr ⟨[], pl, pls, st, [], e, rfl, .nil st, hr, rfl⟩
    | ok r =>
      dsimp only
      rcases ih (leftBy st (pl.pre p st.1 st.2)) with ⟨st', rs, h1, h2⟩ | ⟨pls₁, pl', pls₂, st', rs, e, h1, h2, h3, h4⟩
      · have h2' := h2
        unfold leftBy at h2'
        dsimp only at h2'
        rw [h2']
        cases r with
        | none => exact .inl ⟨st', rs, .none hr h1, rfl⟩
        | some r => exact .inl ⟨st', r :: rs, .some hr h1, rfl⟩
      · have h4' := h4
        unfold leftBy at h4'
        dsimp only at h4'
        rw [h4']
        cases r with
        | none => exact .inr ⟨pl :: pls₁, pl', pls₂, st', rs, e, by rw [h1]; rfl, .none hr h2, h3, rfl⟩
        | some r => exact .inr ⟨pl :: pls₁, pl', pls₂, st', r :: rs, e, by rw [h1]; rfl, .some hr h2, h3, rfl⟩

theorem callPost_passed (p : Option (List String)) (pls : List (UpdatePlugin V)) (st : Passing V) :
    (∃ st' seen, PostPassed p pls st st' seen ∧ callPost p pls st.1 st.2 = (seen, st'.1, .ok ())) ∨
    ∃ pls₁ pl pls₂ st' seen e, pls = pls₁ ++ pl :: pls₂ ∧ PostPassed p pls₁ st st' seen ∧ (pl.post p st'.1 st'.2).result = .error e ∧
      callPost p pls st.1 st.2 = (seen ++ [⟨p, st'.1, st'.2⟩], (leftBy st' (pl.post p st'.1 st'.2)).1, .error e) := by
  induction pls generalizing st with
  | nil => exact .inl ⟨st, [], .nil st, rfl⟩
  | cons pl pls ih =>
    rw [callPost]
    dsimp only
    cases hr : (pl.post p st.1 st.2).result with
    | error e => exact .inr ⟨[], pl, pls, st, [], e, rfl, .nil st, hr, rfl⟩
    | ok r =>
      dsimp only
      rcases ih (leftBy st (pl.post p st.1 st.2)) with ⟨st', seen, h1, h2⟩ | ⟨pls₁, pl', pls₂, st', seen, e, h1, h2, h3, h4⟩
      · unfold leftBy at h2
        dsimp only at h2
        rw [h2]
        exact .inl ⟨st', _, .cons hr h1, rfl⟩
      · unfold leftBy at h4
        dsimp only at h4
        rw [h4]
        exact .inr ⟨pl :: pls₁, pl', pls₂, st', _, e, by rw [h1]; rfl, .cons hr h2, h3, rfl⟩

/-- The caller's dictionaries after: only the one passed may differ. -/
def CallerHas (before after : Nat → Dict String V) (ref : Option Nat) (d : Option (Dict String V)) : Prop :=
  (∀ r, ref = some r → d = some (after r)) ∧ ∀ x, ref ≠ some x → after x = before x

theorem writeDict_has (dicts : Nat → Dict String V) (ref : Option Nat) (d : Option (Dict String V))
    (h : ref.isSome = d.isSome) : CallerHas dicts (writeDict dicts ref d) ref d := by
  cases ref with
  | none => exact ⟨(fun r hr => by cases hr), fun _ _ => rfl⟩
  | some r =>
    cases d with
    | none => cases h
    | some d =>
      constructor
      · intro x hx
        cases hx
        show some d = some (if r = r then d else dicts r)
        rw [if_pos rfl]
      · intro x hx
        show (if x = r then d else dicts x) = dicts x
        rw [if_neg (fun h => hx (by rw [h]))]

theorem prePassed_isSome {p : Option (List String)} {pls : List (UpdatePlugin V)} {st st' : Passing V} {rs : List (Dict String V)}
    (h : PrePassed p pls st st' rs) : st'.1.isSome = st.1.isSome := by
  induction h with
  | nil => rfl
  | none _ _ ih => rw [ih]; simp [leftBy]
  | some _ _ ih => rw [ih]; simp [leftBy]

theorem postPassed_isSome {p : Option (List String)} {pls : List (UpdatePlugin V)} {st st' : Passing V} {seen : List (PostSeen V)}
    (h : PostPassed p pls st st' seen) : st'.1.isSome = st.1.isSome := by
  induction h with
  | nil => rfl
  | cons _ _ ih => rw [ih]; simp [leftBy]

/-- `e` with the results of the plugins over it, of several the one returned last. -/
structure WithReturned (rs : List (Dict String V)) (e e' : Dict String V) : Prop where
  get : ∀ k, e'.get? k = (rs.reverse.findSome? (fun r => r.get? k)).or (e.get? k)
  keys : e.keys <+: e'.keys

theorem withReturned_merged (rs : List (Dict String V)) (e : Dict String V) :
    WithReturned rs e (e.update (rs.foldl Dict.update Dict.empty)) := by
  refine ⟨fun k => ?_, Dict.keys_prefix_update _ _⟩
  rw [Dict.get?_update, foldl_update_get?]
  have he : (Dict.empty : Dict String V).get? k = none := rfl
  rw [he, Option.or_none]

/-! ### One update -/

variable [BEq V]

/-- C92: with plugins that only return, an update is the update with their values over those of the dictionary and of the keyword
arguments; of several plugins, the one registered first counts.  The dictionary of the caller gets their values too, and no other
does; `post_update` plugins are called only if the update did not raise, the last registered first, with these values, and none
after one that raises. -/
theorem C92_applied_partial (plugins : List (UpdatePlugin V)) (hpl : ∀ pl ∈ plugins, OnlyReturns pl)
    (viewed : V → Option String) (name : String) (ref : Option Nat) (p : Option (List String)) (persist : Bool)
    (kw : Dict String V) (s : WithCaller V) :
    ∃ kw' d', WithPlugins plugins p (ref.map s.dicts) kw kw kw' ∧
      (∀ r, ref = some r → ∃ e', d' = some e' ∧ WithPlugins plugins p (ref.map s.dicts) kw (s.dicts r) e') ∧
      (ref = none → d' = none) ∧
      (updateCalled plugins viewed name ref p persist kw s).2.ps = (PM.update viewed name d' p persist kw' s.ps).2 ∧
      (∀ e, (PM.update viewed name d' p persist kw' s.ps).1 = .error e →
        (updateCalled plugins viewed name ref p persist kw s).1 = .error e ∧
        (updateCalled plugins viewed name ref p persist kw s).2.seen = s.seen) ∧
      ((PM.update viewed name d' p persist kw' s.ps).1 = .ok () →
        ∃ n, (updateCalled plugins viewed name ref p persist kw s).2.seen = s.seen ++ List.replicate n ⟨p, d', kw'⟩ ∧
          n ≤ plugins.length ∧
          ((updateCalled plugins viewed name ref p persist kw s).1 = .ok () → n = plugins.length)) ∧
      (∀ r, ref = some r → some ((updateCalled plugins viewed name ref p persist kw s).2.dicts r) = d') ∧
      ∀ r, ref ≠ some r → (updateCalled plugins viewed name ref p persist kw s).2.dicts r = s.dicts r := by
  have hpre := callPre_returns (pls := plugins.reverse) (fun pl h => hpl pl (List.mem_reverse.1 h)) p (ref.map s.dicts) kw
  let new := mergedGiven plugins p (ref.map s.dicts) kw
  have hrun : updateCalled plugins viewed name ref p persist kw s =
      match PM.update viewed name ((ref.map s.dicts).map (fun d => d.update new)) p persist (kw.update new) s.ps with
      | (.error e, ps) => (.error e, ⟨ps, writeDict s.dicts ref ((ref.map s.dicts).map (fun d => d.update new)), s.seen⟩)
      | (.ok _, ps) =>
        ((callPost p plugins.reverse ((ref.map s.dicts).map (fun d => d.update new)) (kw.update new)).2.2,
          ⟨ps, writeDict s.dicts ref
            (callPost p plugins.reverse ((ref.map s.dicts).map (fun d => d.update new)) (kw.update new)).2.1,
            s.seen ++ (callPost p plugins.reverse ((ref.map s.dicts).map (fun d => d.update new)) (kw.update new)).1⟩) := by
    unfold updateCalled
    rw [hpre]
    rfl
  obtain ⟨hp1, n, hp2, hp3, hp4⟩ := callPost_returns (pls := plugins.reverse) (fun pl h => hpl pl (List.mem_reverse.1 h)) p
    ((ref.map s.dicts).map (fun d => d.update new)) (kw.update new)
  rw [List.length_reverse] at hp3 hp4
  refine ⟨kw.update new, (ref.map s.dicts).map (fun d => d.update new), withPlugins_update _ _ _ _ _, ?_, ?_, ?_⟩
  · rintro r rfl
    exact ⟨_, rfl, withPlugins_update _ _ _ _ _⟩
  · rintro rfl
    rfl
  · rw [hrun, hp1, hp2]
    obtain ⟨r, ps, hu⟩ : ∃ r ps, PM.update viewed name ((ref.map s.dicts).map (fun d => d.update new)) p persist (kw.update new)
      s.ps = (r, ps) := ⟨_, _, rfl⟩
    rw [hu]
    have hw : (∀ r, ref = some r → some (writeDict s.dicts ref ((ref.map s.dicts).map (fun d => d.update new)) r) =
        (ref.map s.dicts).map (fun d => d.update new)) ∧ ∀ r, ref ≠ some r →
        writeDict s.dicts ref ((ref.map s.dicts).map (fun d => d.update new)) r = s.dicts r := by
      constructor
      · rintro r rfl
        simp [writeDict]
      · intro r hr
        cases ref with
        | none => rfl
        | some x =>
          show (if r = x then _ else s.dicts r) = s.dicts r
          rw [if_neg]
          rintro rfl
          exact hr rfl
    cases r with
    | error e => exact ⟨rfl, fun e' he => ⟨he, rfl⟩, (by intro h; cases h), hw.1, hw.2⟩
    | ok u => exact ⟨rfl, (by intro e he; cases he), fun _ => ⟨n, rfl, hp3, hp4⟩, hw.1, hw.2⟩

omit [BEq V] in
/-- C92: the values in a config after such an update: those of the plugins, then of the keyword arguments, then of the dictionary,
then those from before. -/
theorem C92_values (plugins : List (UpdatePlugin V)) (p : Option (List String)) (d : Option (Dict String V)) (kw kw' : Dict String V)
    (d' : Option (Dict String V)) (hkw : WithPlugins plugins p d kw kw kw')
    (hd : ∀ e, d = some e → ∃ e', d' = some e' ∧ WithPlugins plugins p d kw e e') (hn : d = none → d' = none)
    (conf : Conf V) (persist : Bool) (k : String) :
    (conf.update d' persist kw').values.get? k =
      (((pluginsGive plugins p d kw k).or (kw.get? k)).or (d.bind (fun e => e.get? k))).or (conf.values.get? k) := by
  obtain ⟨h1, h2, h3, _⟩ := C06_update_changes_named_keys conf d' persist kw'
  cases hk : kw'.get? k with
  | some v =>
    rw [h1 k v hk, ← hkw.get, hk]
    rfl
  | none =>
    rw [← hkw.get, hk]
    have hp : pluginsGive plugins p d kw k = none := by
      have := hkw.get k
      rw [hk] at this
      cases hpg : pluginsGive plugins p d kw k with
      | none => rfl
      | some v => rw [hpg] at this; cases this
    cases d with
    | none =>
      rw [hn rfl] at h3 ⊢
      rw [h3 k hk (fun e he => by cases he)]
      rfl
    | some e =>
      obtain ⟨e', rfl, he⟩ := hd e rfl
      have hg := he.get k
      rw [hp, Option.none_or] at hg
      cases hek : e.get? k with
      | none =>
        rw [hek] at hg
        rw [h3 k hk (fun x hx => by cases hx; exact hg)]
        simp [hek]
      | some v =>
        rw [hek] at hg
        rw [h2 k v hk ⟨e', rfl, hg⟩]
        simp [hek]

/-! ### Plugins that change in place -/

/-- C92: any plugins, also those that change the dictionaries they are called with, which they may.  They are called last registered
first, each with the dictionaries as the one before left them.  If one raises, that is how the update ends: the manager is not
touched, no `post_update` plugin is called, and what the plugins have changed in the dictionary of the caller stays there. -/
theorem C92_in_place_raises (plugins : List (UpdatePlugin V)) (viewed : V → Option String) (name : String) (ref : Option Nat)
    (p : Option (List String)) (persist : Bool) (kw : Dict String V) (s : WithCaller V)
    {pls₁ pls₂ : List (UpdatePlugin V)} {pl : UpdatePlugin V} {st : Passing V} {rs : List (Dict String V)} {e : PyErr}
    (hpl : plugins.reverse = pls₁ ++ pl :: pls₂) (hst : PrePassed p pls₁ (ref.map s.dicts, kw) st rs)
    (he : (pl.pre p st.1 st.2).result = .error e) :
    ∃ dicts, updateCalled plugins viewed name ref p persist kw s = (.error e, { s with dicts := dicts }) ∧
      CallerHas s.dicts dicts ref (leftBy st (pl.pre p st.1 st.2)).1 := by
  have key : ∀ (pls : List (UpdatePlugin V)) (st₀ : Passing V), PrePassed p pls st₀ st rs →
      callPre p (pls ++ pl :: pls₂) st₀.1 st₀.2 =
        ((leftBy st (pl.pre p st.1 st.2)).1, (leftBy st (pl.pre p st.1 st.2)).2, .error e) := by
    clear hst hpl
    intro pls st₀ h
    induction h with
    | nil st =>
      rw [List.nil_append, callPre]
      dsimp only
      rw [he]
      rfl
    | none h1 _ ih =>
      rw [List.cons_append, callPre]
      dsimp only
      rw [h1]
      have := ih he
      unfold leftBy at this
      dsimp only at this ⊢
      rw [this]
      rfl
    | some h1 _ ih =>
      rw [List.cons_append, callPre]
      dsimp only
      rw [h1]
      have := ih he
      unfold leftBy at this
      dsimp only at this ⊢
      rw [this]
      rfl
  have hpre := key pls₁ _ hst
  refine ⟨writeDict s.dicts ref (leftBy st (pl.pre p st.1 st.2)).1, ?_, ?_⟩
  · unfold updateCalled
    rw [hpl]
    dsimp only at hpre ⊢
    rw [hpre]
  · refine writeDict_has _ _ _ ?_
    have h1 := prePassed_isSome hst
    simp only [leftBy, Option.isSome_map] at h1 ⊢
    exact h1.symm

/-- C92: if none raises, the update is the one with what the plugins have left in the dictionaries, and with what they returned over
that; and the `post_update` plugins are called with the same, each with the dictionaries as the one before left them, none after one
that raises.  What they leave in the dictionary of the caller stays there. -/
theorem C92_in_place (plugins : List (UpdatePlugin V)) (viewed : V → Option String) (name : String) (ref : Option Nat)
    (p : Option (List String)) (persist : Bool) (kw : Dict String V) (s : WithCaller V)
    {st : Passing V} {rs : List (Dict String V)} (hst : PrePassed p plugins.reverse (ref.map s.dicts, kw) st rs) :
    ∃ d' kw', WithReturned rs st.2 kw' ∧ (∀ e, st.1 = some e → ∃ e', d' = some e' ∧ WithReturned rs e e') ∧
      (st.1 = none → d' = none) ∧
      (updateCalled plugins viewed name ref p persist kw s).2.ps = (PM.update viewed name d' p persist kw' s.ps).2 ∧
      (∀ e, (PM.update viewed name d' p persist kw' s.ps).1 = .error e →
        (updateCalled plugins viewed name ref p persist kw s).1 = .error e ∧
        (updateCalled plugins viewed name ref p persist kw s).2.seen = s.seen ∧
        CallerHas s.dicts (updateCalled plugins viewed name ref p persist kw s).2.dicts ref d') ∧
      ((PM.update viewed name d' p persist kw' s.ps).1 = .ok () →
        (∃ st' seen, PostPassed p plugins.reverse (d', kw') st' seen ∧
          (updateCalled plugins viewed name ref p persist kw s).1 = .ok () ∧
          (updateCalled plugins viewed name ref p persist kw s).2.seen = s.seen ++ seen ∧
          CallerHas s.dicts (updateCalled plugins viewed name ref p persist kw s).2.dicts ref st'.1) ∨
        ∃ pls₁ pl pls₂ st' seen e, plugins.reverse = pls₁ ++ pl :: pls₂ ∧ PostPassed p pls₁ (d', kw') st' seen ∧
          (pl.post p st'.1 st'.2).result = .error e ∧
          (updateCalled plugins viewed name ref p persist kw s).1 = .error e ∧
          (updateCalled plugins viewed name ref p persist kw s).2.seen = s.seen ++ seen ++ [⟨p, st'.1, st'.2⟩] ∧
          CallerHas s.dicts (updateCalled plugins viewed name ref p persist kw s).2.dicts ref
            (leftBy st' (pl.post p st'.1 st'.2)).1) := by
  have key : ∀ (pls : List (UpdatePlugin V)) (st₀ : Passing V), PrePassed p pls st₀ st rs →
      callPre p pls st₀.1 st₀.2 = (st.1, st.2, .ok rs) := by
    clear hst
    intro pls st₀ h
    induction h with
    | nil st => rfl
    | none h1 _ ih =>
      rw [callPre]
      dsimp only
      rw [h1]
      unfold leftBy at ih
      dsimp only at ih ⊢
      rw [ih]
      rfl
    | some h1 _ ih =>
      rw [callPre]
      dsimp only
      rw [h1]
      unfold leftBy at ih
      dsimp only at ih ⊢
      rw [ih]
      rfl
  have hpre := key _ _ hst
  dsimp only at hpre
  have hsome : ref.isSome = st.1.isSome := by
    rw [prePassed_isSome hst, Option.isSome_map]
  let new := rs.foldl Dict.update Dict.empty
  refine ⟨st.1.map (fun d => d.update new), st.2.update new, withReturned_merged _ _, ?_, ?_, ?_⟩
  · intro e h
    rw [h]
    exact ⟨_, rfl, withReturned_merged _ _⟩
  · intro h
    rw [h]
    rfl
  · have hrun : updateCalled plugins viewed name ref p persist kw s =
        match PM.update viewed name (st.1.map (fun d => d.update new)) p persist (st.2.update new) s.ps with
        | (.error e, ps) => (.error e, ⟨ps, writeDict s.dicts ref (st.1.map (fun d => d.update new)), s.seen⟩)
        | (.ok _, ps) =>
          ((callPost p plugins.reverse (st.1.map (fun d => d.update new)) (st.2.update new)).2.2,
            ⟨ps, writeDict s.dicts ref
              (callPost p plugins.reverse (st.1.map (fun d => d.update new)) (st.2.update new)).2.1,
              s.seen ++ (callPost p plugins.reverse (st.1.map (fun d => d.update new)) (st.2.update new)).1⟩) := by
      unfold updateCalled
      rw [hpre]
      rfl
    rw [hrun]
    obtain ⟨r, ps, hu⟩ : ∃ r ps, PM.update viewed name (st.1.map (fun d => d.update new)) p persist (st.2.update new)
      s.ps = (r, ps) := ⟨_, _, rfl⟩
    rw [hu]
    cases r with
    | error e =>
      refine ⟨rfl, fun e' he => ⟨he, rfl, writeDict_has _ _ _ ?_⟩, (by intro h; cases h)⟩
      rw [Option.isSome_map]
      exact hsome
    | ok u =>
      refine ⟨rfl, (by intro e he; cases he), fun _ => ?_⟩
      rcases callPost_passed p plugins.reverse (st.1.map (fun d => d.update new), st.2.update new) with
        ⟨st', seen, h1, h2⟩ | ⟨pls₁, pl, pls₂, st', seen, e, h1, h2, h3, h4⟩
      · dsimp only at h2
        rw [h2]
        refine .inl ⟨st', seen, h1, rfl, rfl, writeDict_has _ _ _ ?_⟩
        rw [postPassed_isSome h1, Option.isSome_map]
        exact hsome
      · dsimp only at h4
        rw [h4]
        refine .inr ⟨pls₁, pl, pls₂, st', seen, e, h1, h2, h3, rfl, ?_, writeDict_has _ _ _ ?_⟩
        · rw [List.append_assoc]
        · have := postPassed_isSome h2
          simp only [leftBy, Option.isSome_map] at this ⊢
          rw [this]
          exact hsome

omit [BEq V] in
/-- One of the two happens. -/
theorem C92_in_place_total (plugins : List (UpdatePlugin V)) (p : Option (List String)) (st₀ : Passing V) :
    (∃ st rs, PrePassed p plugins.reverse st₀ st rs) ∨
    ∃ pls₁ pl pls₂ st rs e, plugins.reverse = pls₁ ++ pl :: pls₂ ∧ PrePassed p pls₁ st₀ st rs ∧
      (pl.pre p st.1 st.2).result = .error e := by
  rcases callPre_passed p plugins.reverse st₀ with ⟨st, rs, h, _⟩ | ⟨pls₁, pl, pls₂, st, rs, e, h1, h2, h3, _⟩
  · exact .inl ⟨st, rs, h⟩
  · exact .inr ⟨pls₁, pl, pls₂, st, rs, e, h1, h2, h3⟩

/-! ### Several updates -/

/-- An update in a session: which dictionary, which path, persistent or not, keyword arguments. -/
structure UpdateOp (V : Type) where
  ref : Option Nat
  path : Option (List String)
  persist : Bool
  kw : Dict String V

/-- The updates one after the other, also after exceptions. -/
def updatesRun (plugins : List (UpdatePlugin V)) (viewed : V → Option String) (name : String) (ops : List (UpdateOp V))
    (s : WithCaller V) : WithCaller V :=
  ops.foldl (fun s o => (updateCalled plugins viewed name o.ref o.path o.persist o.kw s).2) s

/-- The same, where every update gets the dictionaries as they were written down. -/
def updatesApart (plugins : List (UpdatePlugin V)) (viewed : V → Option String) (name : String) (ops : List (UpdateOp V))
    (s : WithCaller V) : WithCaller V :=
  ops.foldl (fun t o => { (updateCalled plugins viewed name o.ref o.path o.persist o.kw t).2 with dicts := s.dicts }) s

theorem updateCalled_dicts (plugins : List (UpdatePlugin V)) (viewed : V → Option String) (name : String) (ref : Option Nat)
    (p : Option (List String)) (persist : Bool) (kw : Dict String V) (s : WithCaller V) (dicts : Nat → Dict String V)
    (h : ∀ r, ref = some r → dicts r = s.dicts r) :
    (updateCalled plugins viewed name ref p persist kw { s with dicts := dicts }).1 =
      (updateCalled plugins viewed name ref p persist kw s).1 ∧
    (updateCalled plugins viewed name ref p persist kw { s with dicts := dicts }).2.ps =
      (updateCalled plugins viewed name ref p persist kw s).2.ps ∧
    (updateCalled plugins viewed name ref p persist kw { s with dicts := dicts }).2.seen =
      (updateCalled plugins viewed name ref p persist kw s).2.seen := by
  have hr : ref.map dicts = ref.map s.dicts := by
    cases ref with
    | none => rfl
    | some r => rw [Option.map_some, Option.map_some, h r rfl]
  unfold updateCalled
  dsimp only
  rw [hr]
  rcases callPre p plugins.reverse (ref.map s.dicts) kw with ⟨d, kw', r⟩
  cases r with
  | error e => exact ⟨rfl, rfl, rfl⟩
  | ok rs =>
    dsimp only
    split <;> exact ⟨rfl, rfl, rfl⟩

theorem updateCalled_others (plugins : List (UpdatePlugin V)) (viewed : V → Option String) (name : String) (ref : Option Nat)
    (p : Option (List String)) (persist : Bool) (kw : Dict String V) (s : WithCaller V) (x : Nat) (h : ref ≠ some x) :
    (updateCalled plugins viewed name ref p persist kw s).2.dicts x = s.dicts x := by
  have hw : ∀ d, writeDict s.dicts ref d x = s.dicts x := by
    intro d
    cases ref with
    | none => rfl
    | some r =>
      cases d with
      | none => rfl
      | some d =>
        show (if x = r then _ else s.dicts x) = s.dicts x
        rw [if_neg]
        rintro rfl
        exact h rfl
  unfold updateCalled
  rcases callPre p plugins.reverse (ref.map s.dicts) kw with ⟨d, kw', r⟩
  cases r with
  | error e => exact hw _
  | ok rs =>
    dsimp only
    split <;> exact hw _

/-- C92: if no dictionary is passed twice, every update is as with the dictionary as it was written down, with any plugins. -/
theorem C92_apart_partial (plugins : List (UpdatePlugin V)) (viewed : V → Option String) (name : String) (ops : List (UpdateOp V))
    (hops : (ops.filterMap (fun o => o.ref)).Nodup) (s : WithCaller V) :
    (updatesRun plugins viewed name ops s).ps = (updatesApart plugins viewed name ops s).ps ∧
    (updatesRun plugins viewed name ops s).seen = (updatesApart plugins viewed name ops s).seen := by
  have key : ∀ (ops : List (UpdateOp V)) (t u : WithCaller V), (ops.filterMap (fun o => o.ref)).Nodup → t.ps = u.ps → t.seen = u.seen →
      u.dicts = s.dicts → (∀ x ∈ ops.filterMap (fun o => o.ref), t.dicts x = s.dicts x) →
      (updatesRun plugins viewed name ops t).ps = (ops.foldl (fun t o =>
        { (updateCalled plugins viewed name o.ref o.path o.persist o.kw t).2 with dicts := s.dicts }) u).ps ∧
      (updatesRun plugins viewed name ops t).seen = (ops.foldl (fun t o =>
        { (updateCalled plugins viewed name o.ref o.path o.persist o.kw t).2 with dicts := s.dicts }) u).seen := by
    intro ops
    induction ops with
    | nil => intro t u _ h1 h2 _ _; exact ⟨h1, h2⟩
    | cons o ops ih =>
      intro t u hn h1 h2 h3 h4
      have hu : t = { u with dicts := t.dicts } := by rw [← h1, ← h2]
      have hstep := updateCalled_dicts plugins viewed name o.ref o.path o.persist o.kw u t.dicts (by
        intro r hr
        rw [h3]
        exact h4 r (by rw [List.filterMap_cons, hr]; exact List.mem_cons_self))
      rw [← hu] at hstep
      rw [updatesRun, List.foldl_cons, List.foldl_cons]
      refine ih _ _ ?_ hstep.2.1 hstep.2.2 rfl ?_
      · rw [List.filterMap_cons] at hn
        cases hr : o.ref with
        | none => rwa [hr] at hn
        | some r => rw [hr, List.nodup_cons] at hn; exact hn.2
      · intro x hx
        rw [updateCalled_others]
        · refine h4 x ?_
          rw [List.filterMap_cons]
          cases o.ref with
          | none => exact hx
          | some r => exact List.mem_cons_of_mem _ hx
        · intro hr
          rw [List.filterMap_cons, hr, List.nodup_cons] at hn
          exact hn.1 hx
  exact key ops s s hops rfl rfl rfl (fun _ _ => rfl)

/-! ### Examples, and where C92 fails -/

/-- A plugin that returns these values for the item `f`. -/
def pluginForF (new : Dict String Nat) : UpdatePlugin Nat :=
  ⟨fun p d kw => ⟨d.getD .empty, kw, .ok (if p = some ["f"] then some new else none)⟩, fun _ d kw => ⟨d.getD .empty, kw, .ok ()⟩⟩

theorem pluginForF_returns (new : Dict String Nat) : OnlyReturns (pluginForF new) :=
  ⟨fun _ _ _ => ⟨_, rfl⟩, fun _ _ _ => rfl, fun _ _ _ => rfl, fun _ _ _ => rfl, fun _ _ _ => rfl⟩

/-- Of two plugins, the one registered first counts. -/
example : pluginsGive [pluginForF (Dict.ofList [("b", 5)]), pluginForF (Dict.ofList [("b", 6), ("c", 7)])] (some ["f"]) none .empty "b" =
      some 5 ∧
    pluginsGive [pluginForF (Dict.ofList [("b", 5)]), pluginForF (Dict.ofList [("b", 6), ("c", 7)])] (some ["f"]) none .empty "c" =
      some 7 ∧
    pluginsGive [pluginForF (Dict.ofList [("b", 5)])] (some ["g"]) none .empty "b" = none := by decide

/-- Two functions `f(a, b)` and `g(a, b)`, both with `a = 0` and `b = 0`. -/
def twoFiles : Files Nat where
  read
    | .item ["f"] => .ok (Dict.ofList [("a", 0), ("b", 0)])
    | .item ["g"] => .ok (Dict.ofList [("a", 0), ("b", 0)])
    | _ => .error .osError
  tree := .mk false ["f", "g"] []

/-- The manager, and a caller's dictionary `{'a': 1}`. -/
def twoCalled : WithCaller Nat where
  ps := ⟨{ cm := ⟨twoFiles, "defaults", .sect none [] [("f", .file (.item ["f"])), ("g", .file (.item ["g"]))], Conf.ofDict Dict.empty⟩
           reg := ⟨[], .coll false [("f", .item demoFunc), ("g", .item demoFunc)]⟩
           objs := Dict.empty
           nextId := 0 }, Ctx.new⟩
  dicts _ := Dict.ofList [("a", 1)]
  seen := []

/-- The value an item is configured with. -/
def calledValue (s : WithCaller Nat) (p : List String) (k : String) : Option Nat :=
  ((ownConfig s.ps.rs.cm p).toOption.bind (fun c => c.values.get? k))

/-- What an update is about: the values of the plugin for `f`, and only for `f`. -/
example : let plugins := [pluginForF (Dict.ofList [("b", 5)])]
    let s := updatesRun plugins (fun _ => none) "m" [⟨some 0, some ["f"], true, .empty⟩, ⟨some 1, some ["g"], true, .empty⟩] twoCalled
    calledValue s ["f"] "a" = some 1 ∧ calledValue s ["f"] "b" = some 5 ∧ calledValue s ["g"] "a" = some 1 ∧
      calledValue s ["g"] "b" = some 0 ∧ s.seen.length = 2 := by decide +kernel

/-- A plugin that writes into what it is called with: `d_['a'] += 1` and `kwargs['b'] += 1`, and more in `post_update`. -/
def pluginWrites : UpdatePlugin Nat :=
  ⟨fun _ d kw => ⟨(d.getD .empty).set "a" (((d.getD .empty).get? "a").getD 0 + 1), kw.set "b" ((kw.get? "b").getD 0 + 1), .ok none⟩,
   fun _ d kw => ⟨(d.getD .empty).set "a" (((d.getD .empty).get? "a").getD 0 + 10), kw.set "b" ((kw.get? "b").getD 0 + 10), .ok ()⟩⟩

/-- A plugin that does the same and then raises. -/
def pluginRaises : UpdatePlugin Nat :=
  ⟨fun p d kw => ⟨(pluginWrites.pre p d kw).d, (pluginWrites.pre p d kw).kw, .error .valueError⟩, pluginWrites.post⟩

/-- Two such plugins: both see what the other has done. -/
example : let t := updateCalled [pluginWrites, pluginWrites] (fun _ => none) "m" (some 0) (some ["f"]) true .empty twoCalled
    calledValue t.2 ["f"] "a" = some 3 ∧ calledValue t.2 ["f"] "b" = some 2 ∧ (t.2.dicts 0).items = [("a", 23)] ∧
      t.2.seen.map (fun x => (x.d.map (fun d => d.items), x.kw.items)) =
        [(some [("a", 3)], [("b", 2)]), (some [("a", 13)], [("b", 12)])] := by decide +kernel

/-- And one that raises after another. -/
example : let t := updateCalled [pluginRaises, pluginWrites] (fun _ => none) "m" (some 0) (some ["f"]) true .empty twoCalled
    t.1.toOption = none ∧ calledValue t.2 ["f"] "a" = some 0 ∧ (t.2.dicts 0).items = [("a", 3)] := by decide +kernel

/-- C92 fails for a dictionary that is used for two updates, `d = {'a': 1}; pm.update(d, 'f'); pm.update(d, 'g')`: `g` is updated with
what a plugin returned for `f` only. -/
theorem C92_reused_violated :
    let plugins := [pluginForF (Dict.ofList [("b", 5)])]
    let s := updatesRun plugins (fun _ => none) "m" [⟨some 0, some ["f"], true, .empty⟩, ⟨some 0, some ["g"], true, .empty⟩] twoCalled
    pluginsGive plugins (some ["g"]) (some (Dict.ofList [("a", 1)])) .empty "b" = none ∧ calledValue twoCalled ["g"] "b" = some 0 ∧
    calledValue s ["g"] "b" = some 5 := by decide +kernel

/-- C92 fails for an update that raises because of a plugin: nothing is updated, but the values are in the dictionary of the caller. -/
theorem C92_raised_violated :
    let plugins := [pluginForF (Dict.ofList [("section_path_str", 5)])]
    let t := updateCalled plugins (fun _ => none) "m" (some 0) (some ["f"]) true .empty twoCalled
    t.1.toOption = none ∧ calledValue t.2 ["f"] "a" = some 0 ∧ (t.2.dicts 0).items = [("a", 1), ("section_path_str", 5)] := by
  decide +kernel

end Verif.Props

import Verif.Model.Copying
import Verif.Model.Context
import Verif.Props.Iterate

/-
C75: the values given in the updates of an iterative run are those the configs get
(`pyfileconf/iterate.py:199-233`, `pyfileconf/selector/models/itemview.py:157-158`).
-/

namespace Verif.Props
open Verif.Model Verif.Py

variable {V : Type}

/-- An update gives a value to a key, by a keyword or by the dictionary `d_`. -/
def UpdGives (u : Upd V) (k : String) (v : V) : Prop :=
  u.kw.get? k = some v ∨ ∃ d, u.d = some d ∧ d.get? k = some v

/-- No value of the update is an item view. -/
def NoViews (viewed : V → Option String) (u : Upd V) : Prop := ∀ k v, UpdGives u k v → viewed v = none

/-- The dictionary with every value replaced. -/
def mapValues (f : V → V) (d : Dict String V) : Dict String V :=
  ⟨d.items.map (fun e => (e.1, f e.2)), by rw [List.map_map]; exact d.nodup⟩

/-- The update with every value replaced. -/
def mapUpd (f : V → V) (u : Upd V) : Upd V := { u with d := u.d.map (mapValues f), kw := mapValues f u.kw }

theorem AList.get?_mapValues (f : V → V) (l : List (String × V)) (k : String) :
    AList.get? (l.map (fun e => (e.1, f e.2))) k = (AList.get? l k).map f := by
  induction l with
  | nil => rfl
  | cons e l ih =>
    obtain ⟨k', v⟩ := e
    rw [List.map_cons, AList.get?, AList.get?]
    split
    · rfl
    · exact ih

theorem get?_mapValues (f : V → V) (d : Dict String V) (k : String) : (mapValues f d).get? k = (d.get? k).map f :=
  AList.get?_mapValues f d.items k

theorem AList.set_append_new (l : List (String × V)) (k : String) (v : V) (h : k ∉ l.map Prod.fst) :
    AList.set l k v = l ++ [(k, v)] := by
  induction l with
  | nil => rfl
  | cons e l ih =>
    obtain ⟨k', v'⟩ := e
    rw [List.map_cons, List.mem_cons] at h
    rw [AList.set, if_neg (fun hh => h (.inl hh.symm)), ih (fun hh => h (.inr hh))]
    rfl

theorem setAll_items_of_nodup (es : List (String × V)) (d : Dict String V) (h : ((d.items ++ es).map Prod.fst).Nodup) :
    (d.setAll es).items = d.items ++ es := by
  induction es generalizing d with
  | nil => rw [List.append_nil]; rfl
  | cons e es ih =>
    have hk : e.1 ∉ d.items.map Prod.fst := by
      rw [List.map_append, List.map_cons] at h
      intro hh
      exact (List.nodup_append.1 h).2.2 _ hh _ List.mem_cons_self rfl
    have hset : (d.set e.1 e.2).items = d.items ++ [e] := AList.set_append_new _ _ _ hk
    show ((d.set e.1 e.2).setAll es).items = _
    rw [ih]
    · rw [hset, List.append_assoc]; rfl
    · rw [hset, List.append_assoc]; exact h

theorem ofList_items_of_nodup (es : List (String × V)) (h : (es.map Prod.fst).Nodup) : (Dict.ofList es).items = es :=
  setAll_items_of_nodup es Dict.empty h

theorem entries_plain (c : Copying V) (s : Mgrs V) (es : List (String × V)) (h : ∀ e ∈ es, c.viewed e.2 = none) :
    c.entries es s = (.ok (es.map (fun e => (e.1, c.copy e.2))), s) := by
  induction es with
  | nil => rfl
  | cons e es ih =>
    obtain ⟨k, v⟩ := e
    have hv : c.value v s = (.ok (c.copy v), s) := by
      unfold Copying.value
      rw [h (k, v) List.mem_cons_self]
      rfl
    rw [Copying.entries, M.bind_ok hv, M.bind_ok (ih (fun e he => h e (List.mem_cons_of_mem _ he)))]
    rfl

theorem dict_plain (c : Copying V) (s : Mgrs V) (d : Dict String V) (h : ∀ k v, d.get? k = some v → c.viewed v = none) :
    c.dict d s = (.ok (mapValues c.copy d), s) := by
  unfold Copying.dict
  rw [M.bind_ok (entries_plain c s d.items (fun e he => h e.1 e.2 ((Dict.mem_items_iff _ _ _).1 he)))]
  have : Dict.ofList (d.items.map (fun e => (e.1, c.copy e.2))) = mapValues c.copy d := by
    apply Dict.ext_items
    exact ofList_items_of_nodup _ (mapValues c.copy d).nodup
  rw [this]
  rfl

theorem upd_plain (c : Copying V) (s : Mgrs V) (u : Upd V) (h : NoViews c.viewed u) :
    c.upd u s = (.ok (mapUpd c.copy u), s) := by
  have hkw := dict_plain c s u.kw (fun k v hv => h k v (.inl hv))
  unfold Copying.upd mapUpd
  cases hd : u.d with
  | none =>
    simp only
    rw [M.bind_ok hkw]
    rfl
  | some d =>
    simp only
    rw [M.bind_ok (dict_plain c s d (fun k v hv => h k v (.inr ⟨d, hd, hv⟩))), M.bind_ok hkw]
    rfl

/-- The groups with every update replaced. -/
def mapGroups (f : Upd V → Upd V) (acc : Dict String (List (Upd V))) : Dict String (List (Upd V)) :=
  ⟨acc.items.map (fun e => (e.1, e.2.map f)), by rw [List.map_map]; exact acc.nodup⟩

theorem AList.get?_mapGroups {A B : Type} (f : A → B) (l : List (String × A)) (k : String) :
    AList.get? (l.map (fun e => (e.1, f e.2))) k = (AList.get? l k).map f := by
  induction l with
  | nil => rfl
  | cons e l ih =>
    obtain ⟨k', v⟩ := e
    rw [List.map_cons, AList.get?, AList.get?]
    split
    · rfl
    · exact ih

theorem AList.set_mapGroups {A B : Type} (f : A → B) (l : List (String × A)) (k : String) (v : A) :
    AList.set (l.map (fun e => (e.1, f e.2))) k (f v) = (AList.set l k v).map (fun e => (e.1, f e.2)) := by
  induction l with
  | nil => rfl
  | cons e l ih =>
    obtain ⟨k', v'⟩ := e
    rw [List.map_cons, AList.set, AList.set]
    split
    · rfl
    · rw [List.map_cons, ih]

theorem groupByPath_plain (c : Copying V) (s : Mgrs V) (us : List (Upd V)) (h : ∀ u ∈ us, NoViews c.viewed u) :
    ∀ acc, c.groupByPath (mapGroups (mapUpd c.copy) acc) us s =
      ((match Verif.Model.groupByPath acc us with
        | .error e => .error e
        | .ok g => .ok (mapGroups (mapUpd c.copy) g)), s) := by
  induction us with
  | nil => intro acc; rfl
  | cons u us ih =>
    intro acc
    have ih := ih (fun u hu => h u (List.mem_cons_of_mem _ hu))
    rw [Copying.groupByPath, M.bind_ok (upd_plain c s u (h u List.mem_cons_self)), Verif.Model.groupByPath]
    have hp : (mapUpd c.copy u).pathStr = u.pathStr := rfl
    rw [hp]
    cases hps : u.pathStr with
    | error e => rfl
    | ok sp =>
      rw [M.bind_ok (M.liftE_run _ _)]
      simp only
      rw [← ih]
      congr 1
      apply Dict.ext_items
      show AList.set (acc.items.map _) sp (((mapGroups (mapUpd c.copy) acc).get? sp).getD [] ++ [mapUpd c.copy u]) =
        (AList.set acc.items sp ((acc.get? sp).getD [] ++ [u])).map _
      rw [← AList.set_mapGroups]
      have : ((mapGroups (mapUpd c.copy) acc).get? sp).getD [] ++ [mapUpd c.copy u] =
          ((acc.get? sp).getD [] ++ [u]).map (mapUpd c.copy) := by
        have hg : (mapGroups (mapUpd c.copy) acc).get? sp = (acc.get? sp).map (List.map (mapUpd c.copy)) :=
          AList.get?_mapGroups (List.map (mapUpd c.copy)) acc.items sp
        rw [hg, List.map_append]
        cases acc.get? sp <;> rfl
      rw [this]

theorem product_map {A B : Type} (f : A → B) (xss : List (List A)) :
    product (xss.map (List.map f)) = (product xss).map (List.map f) := by
  induction xss with
  | nil => rfl
  | cons xs xss ih =>
    rw [List.map_cons, product, product, ih, List.map_flatMap, List.flatMap_map]
    congr 1
    funext x
    rw [List.map_map, List.map_map]
    rfl

/-! ## Values that are not views -/

/-- C75 (partial: no value of an update is an item view).  The cases made of the updates are the products of the updates, with
every value replaced by its copy and nothing else changed, and no manager is touched. -/
theorem C75_values_partial (c : Copying V) (us : List (Upd V)) (h : ∀ u ∈ us, NoViews c.viewed u) (s : Mgrs V) :
    c.getCases IterHooks.none us s =
      ((match getConfigProduct us with
        | .error e => .error e
        | .ok cases => .ok (cases.map (List.map (mapUpd c.copy)))), s) ∧
    ∀ u k, (mapUpd c.copy u).path = u.path ∧ (mapUpd c.copy u).persist = u.persist ∧
      (mapUpd c.copy u).kw.get? k = (u.kw.get? k).map c.copy ∧
      ((mapUpd c.copy u).d.bind (fun d => d.get? k)) = (u.d.bind (fun d => d.get? k)).map c.copy := by
  constructor
  · unfold Copying.getCases getConfigProduct
    have hg := groupByPath_plain c s us h Dict.empty
    have he : mapGroups (mapUpd c.copy) (Dict.empty : Dict String (List (Upd V))) = Dict.empty := rfl
    rw [he] at hg
    rw [M.bind_run, hg]
    cases Verif.Model.groupByPath Dict.empty us with
    | error e => rfl
    | ok g =>
      show (Except.ok (product (mapGroups (mapUpd c.copy) g).values), s) = _
      have hv : (mapGroups (mapUpd c.copy) g).values = g.values.map (List.map (mapUpd c.copy)) := by
        unfold Dict.values mapGroups
        simp only [List.map_map]
        rfl
      rw [hv, product_map]
  · intro u k
    refine ⟨rfl, rfl, get?_mapValues _ _ _, ?_⟩
    show (u.d.map (mapValues c.copy)).bind (fun d => d.get? k) = _
    cases u.d with
    | none => rfl
    | some d => exact get?_mapValues _ _ _

/-- C75: if copies are equal to what was copied, and no value is a view, the runner is the one of `Verif/Model/Iterate.lean`,
for all plugins. -/
theorem C75_same_runner_partial (c : Copying V) (hc : ∀ v, c.copy v = v) (h : IterHooks V)
    (items : PathLike ⊕ List PathLike) (us : List (Upd V)) (hv : ∀ u ∈ us, NoViews c.viewed u) (base : Option String)
    (strip : Bool) : c.new h items us base strip = IRunner.new h items us base strip := by
  have hm : ∀ d, mapValues c.copy d = d := by
    intro d
    apply Dict.ext_items
    show d.items.map _ = _
    have : (fun e : String × V => (e.1, c.copy e.2)) = id := by funext e; rw [hc]; rfl
    rw [this, List.map_id]
  have hu : mapUpd c.copy = id := by
    funext u
    obtain ⟨p, d, pe, kw⟩ := u
    show Upd.mk p (d.map (mapValues c.copy)) pe (mapValues c.copy kw) = _
    rw [hm]
    cases d with
    | none => rfl
    | some d => rw [Option.map_some, hm]; rfl
  have hg : ∀ g : Dict String (List (Upd V)), mapGroups (mapUpd c.copy) g = g := by
    intro g
    apply Dict.ext_items
    show g.items.map _ = _
    have : (fun e : String × List (Upd V) => (e.1, e.2.map (mapUpd c.copy))) = id := by
      funext e; rw [hu, List.map_id]; rfl
    rw [this, List.map_id]
  have hcases : c.getCases h us = M.liftE (IRunner.getCases h us) := by
    funext s
    have h1 := groupByPath_plain c s us hv Dict.empty
    rw [hg] at h1
    unfold Copying.getCases IRunner.getCases getConfigProduct
    rw [M.bind_run, h1]
    cases Verif.Model.groupByPath Dict.empty us with
    | error e => rfl
    | ok g =>
      simp only [hg]
      rfl
  unfold Copying.new IRunner.new
  rw [hcases]

/-! ## Views -/

/-- Neither the items nor copies are views. -/
structure ItemsNotViews (c : Copying V) : Prop where
  real : ∀ p s o, (c.real p s).1 = .ok o → c.viewed o = none
  copy : ∀ v, c.viewed v = none → c.viewed (c.copy v) = none

theorem value_noView {c : Copying V} (hc : ItemsNotViews c) {v v' : V} {s s' : Mgrs V} (h : c.value v s = (.ok v', s')) :
    c.viewed v' = none := by
  unfold Copying.value at h
  cases hv : c.viewed v with
  | none =>
    rw [hv] at h
    cases h
    exact hc.copy v hv
  | some p =>
    rw [hv] at h
    simp only at h
    rw [M.bind_run] at h
    cases hr : c.real p s with
    | mk r s1 =>
      rw [hr] at h
      cases r with
      | error e => cases h
      | ok o =>
        cases h
        exact hc.copy o (hc.real p s o (by rw [hr]))

theorem entries_noView {c : Copying V} (hc : ItemsNotViews c) (es : List (String × V)) :
    ∀ {es' : List (String × V)} {s s' : Mgrs V}, c.entries es s = (.ok es', s') →
      es'.map Prod.fst = es.map Prod.fst ∧ ∀ e ∈ es', c.viewed e.2 = none := by
  induction es with
  | nil =>
    intro es' s s' h
    cases h
    exact ⟨rfl, by simp⟩
  | cons e es ih =>
    intro es' s s' h
    obtain ⟨k, v⟩ := e
    rw [Copying.entries, M.bind_run] at h
    cases hv : c.value v s with
    | mk r s1 =>
      rw [hv] at h
      cases r with
      | error e => cases h
      | ok v' =>
        simp only at h
        rw [M.bind_run] at h
        cases hr : c.entries es s1 with
        | mk r s2 =>
          rw [hr] at h
          cases r with
          | error e => cases h
          | ok es2 =>
            cases h
            obtain ⟨h1, h2⟩ := ih hr
            refine ⟨by rw [List.map_cons, List.map_cons, h1], fun e he => ?_⟩
            rcases List.mem_cons.1 he with rfl | he
            · exact value_noView hc hv
            · exact h2 e he

theorem dict_noView {c : Copying V} (hc : ItemsNotViews c) {d d' : Dict String V} {s s' : Mgrs V}
    (h : c.dict d s = (.ok d', s')) : ∀ k v, d'.get? k = some v → c.viewed v = none := by
  unfold Copying.dict at h
  rw [M.bind_run] at h
  cases hr : c.entries d.items s with
  | mk r s1 =>
    rw [hr] at h
    cases r with
    | error e => cases h
    | ok es =>
      cases h
      obtain ⟨h1, h2⟩ := entries_noView hc _ hr
      intro k v hk
      have hm := (Dict.mem_items_iff _ k v).2 hk
      rw [ofList_items_of_nodup es (by rw [h1]; exact d.nodup)] at hm
      exact h2 (k, v) hm

theorem upd_noViews {c : Copying V} (hc : ItemsNotViews c) {u u' : Upd V} {s s' : Mgrs V}
    (h : c.upd u s = (.ok u', s')) : NoViews c.viewed u' := by
  unfold Copying.upd at h
  cases hd : u.d with
  | none =>
    rw [hd] at h
    simp only at h
    rw [M.bind_run] at h
    cases hr : c.dict u.kw s with
    | mk r s1 =>
      rw [hr] at h
      cases r with
      | error e => cases h
      | ok kw =>
        cases h
        intro k v hg
        rcases hg with hg | ⟨d, hd', _⟩
        · exact dict_noView hc hr k v hg
        · cases hd'
  | some d =>
    rw [hd] at h
    simp only at h
    rw [M.bind_run] at h
    cases hr : c.dict d s with
    | mk r s1 =>
      rw [hr] at h
      cases r with
      | error e => cases h
      | ok d' =>
        simp only at h
        rw [M.bind_run] at h
        cases hr2 : c.dict u.kw s1 with
        | mk r s2 =>
          rw [hr2] at h
          cases r with
          | error e => cases h
          | ok kw =>
            cases h
            intro k v hg
            rcases hg with hg | ⟨d2, hd2, hg⟩
            · exact dict_noView hc hr2 k v hg
            · cases hd2; exact dict_noView hc hr k v hg

theorem groupByPath_noViews {c : Copying V} (hc : ItemsNotViews c) (us : List (Upd V)) :
    ∀ {acc g : Dict String (List (Upd V))} {s s' : Mgrs V}, c.groupByPath acc us s = (.ok g, s') →
      (∀ k l, acc.get? k = some l → ∀ u ∈ l, NoViews c.viewed u) →
      ∀ k l, g.get? k = some l → ∀ u ∈ l, NoViews c.viewed u := by
  induction us with
  | nil =>
    intro acc g s s' h ha
    cases h
    exact ha
  | cons u us ih =>
    intro acc g s s' h ha
    rw [Copying.groupByPath, M.bind_run] at h
    cases hu : c.upd u s with
    | mk r s1 =>
      rw [hu] at h
      cases r with
      | error e => cases h
      | ok u' =>
        simp only at h
        cases hp : u'.pathStr with
        | error e => rw [hp] at h; cases h
        | ok sp =>
          rw [hp, M.bind_ok (M.liftE_run _ _)] at h
          refine ih h ?_
          intro k l hk u2 hu2
          rw [Dict.get?_set] at hk
          split at hk
          · cases hk
            rcases List.mem_append.1 hu2 with hu2 | hu2
            · cases hg : acc.get? sp with
              | none => rw [hg] at hu2; cases hu2
              | some l2 =>
                rw [hg] at hu2
                exact ha sp l2 hg u2 hu2
            · rw [List.mem_singleton] at hu2
              subst hu2
              exact upd_noViews hc hu
          · exact ha k l hk u2 hu2

theorem mem_of_mem_product {A : Type} (xss : List (List A)) :
    ∀ c ∈ product xss, ∀ x ∈ c, ∃ xs ∈ xss, x ∈ xs := by
  induction xss with
  | nil =>
    intro c hc x hx
    rw [product, List.mem_singleton] at hc
    subst hc
    cases hx
  | cons xs xss ih =>
    intro c hc x hx
    rw [product, List.mem_flatMap] at hc
    obtain ⟨y, hy, hc⟩ := hc
    obtain ⟨rest, hr, rfl⟩ := List.mem_map.1 hc
    rcases List.mem_cons.1 hx with rfl | hx
    · exact ⟨xs, List.mem_cons_self, hy⟩
    · obtain ⟨zs, hz, hx⟩ := ih rest hr x hx
      exact ⟨zs, List.mem_cons_of_mem _ hz, hx⟩

/-- C75 fails for item views, for all updates and in every state: no value in any case is a view, whatever the updates gave. -/
theorem C75_no_views_violated (c : Copying V) (hc : ItemsNotViews c) (us : List (Upd V)) (s s' : Mgrs V)
    (cases : List (List (Upd V))) (h : c.getCases IterHooks.none us s = (.ok cases, s')) :
    ∀ case ∈ cases, ∀ u ∈ case, NoViews c.viewed u := by
  unfold Copying.getCases at h
  rw [M.bind_run] at h
  cases hg : c.groupByPath Dict.empty us s with
  | mk r s1 =>
    rw [hg] at h
    cases r with
    | error e => cases h
    | ok g =>
      have h2 : cases = product g.values := by cases h; rfl
      subst h2
      intro case hcase u hu
      obtain ⟨l, hl, hu⟩ := mem_of_mem_product _ case hcase u hu
      obtain ⟨e, he, rfl⟩ := List.mem_map.1 hl
      refine groupByPath_noViews hc us hg ?_ e.1 e.2 ((Dict.mem_items_iff _ _ _).1 he) u hu
      intro k l hk
      cases hk

/-- What an update without views records: nothing (`PipelineManager._update`, main.py:378-391). -/
theorem recordViews_noViews (viewed : V → Option String) (ctx : Ctx) (full : String) (u : Upd V) (h : NoViews viewed u) :
    ctx.recordViews viewed full u.d u.kw = ctx := by
  unfold Ctx.recordViews
  have key : ∀ es : List (String × V), (∀ e ∈ es, viewed e.2 = none) → ∀ ctx : Ctx,
      es.foldl (fun c e => match viewed e.2 with
        | none => c
        | some v => c.addDep full v false) ctx = ctx := by
    intro es
    induction es with
    | nil => intro _ ctx; rfl
    | cons e es ih =>
      intro he ctx
      rw [List.foldl_cons, he e List.mem_cons_self]
      exact ih (fun e h => he e (List.mem_cons_of_mem _ h)) ctx
  apply key
  intro e he
  have hg := (Dict.mem_items_iff _ e.1 e.2).1 he
  cases hd : u.d with
  | none =>
    rw [hd] at hg
    exact h e.1 e.2 (.inl hg)
  | some d =>
    rw [hd] at hg
    have h2 := Dict.get?_update u.kw d e.1
    have hg' : (u.kw.update d).get? e.1 = some e.2 := hg
    rw [h2] at hg'
    cases hdk : d.get? e.1 with
    | some w =>
      rw [hdk] at hg'
      cases hg'
      exact h e.1 _ (.inr ⟨d, hd, hdk⟩)
    | none =>
      rw [hdk] at hg'
      exact h e.1 e.2 (.inl hg')

/-- C75 fails for item views: an update that gives a key a view makes the item depend on the viewed one (C30), but none of the
updates of the cases that are made of it records anything. -/
theorem C75_not_recorded_violated (c : Copying V) (hc : ItemsNotViews c) (us : List (Upd V)) (s s' : Mgrs V)
    (cases : List (List (Upd V))) (h : c.getCases IterHooks.none us s = (.ok cases, s')) (ctx : Ctx) (full : String) :
    ∀ case ∈ cases, ∀ u ∈ case, ctx.recordViews c.viewed full u.d u.kw = ctx :=
  fun case hcase u hu => recordViews_noViews _ _ _ _ (C75_no_views_violated c hc us s s' cases h case hcase u hu)

/-- C75 fails for item views: what the key gets is a copy of the item as it is when the runner is made, in every state in which
the item can be looked up. -/
theorem C75_view_violated (c : Copying V) (path key view : String) (v o : V) (persist : Option Bool) (s s' : Mgrs V)
    (hv : c.viewed v = some view) (ho : c.real view s = (.ok o, s')) :
    c.getCases IterHooks.none [⟨some (.str path), none, persist, Dict.ofList [(key, v)]⟩] s =
      (.ok [[⟨some (.str path), none, persist, Dict.ofList [(key, c.copy o)]⟩]], s') := by
  have hval : c.value v s = (.ok (c.copy o), s') := by
    unfold Copying.value
    rw [hv]
    simp only
    rw [M.bind_ok ho]
    rfl
  have hent : c.entries [(key, v)] s = (.ok [(key, c.copy o)], s') := by
    rw [Copying.entries, M.bind_ok hval]
    rfl
  have hd : c.dict (Dict.ofList [(key, v)]) s = (.ok (Dict.ofList [(key, c.copy o)]), s') := by
    unfold Copying.dict
    have : (Dict.ofList [(key, v)]).items = [(key, v)] := rfl
    rw [this, M.bind_ok hent]
    rfl
  have hu : c.upd ⟨some (.str path), none, persist, Dict.ofList [(key, v)]⟩ s =
      (.ok ⟨some (.str path), none, persist, Dict.ofList [(key, c.copy o)]⟩, s') := by
    unfold Copying.upd
    simp only
    rw [M.bind_ok hd]
    rfl
  unfold Copying.getCases
  have hg : c.groupByPath Dict.empty [⟨some (.str path), none, persist, Dict.ofList [(key, v)]⟩] s =
      (.ok (Dict.ofList [(path, [⟨some (.str path), none, persist, Dict.ofList [(key, c.copy o)]⟩])]), s') := by
    rw [Copying.groupByPath, M.bind_ok hu]
    rfl
  rw [M.bind_ok hg]
  rfl

/-- Values for the examples: views of items, or numbers; item `p` is the number 7. -/
def demoCopying : Copying (String ⊕ Nat) where
  viewed := fun v => match v with | .inl p => some p | .inr _ => none
  real := fun _ s => (.ok (.inr 7), s)
  copy := id

example : ItemsNotViews demoCopying :=
  ⟨fun p s o h => by cases h; rfl, fun v h => h⟩

example : (∀ u ∈ [(⟨some (.str "a.b"), none, none, Dict.ofList [("x", .inr 1)]⟩ : Upd (String ⊕ Nat))],
      NoViews demoCopying.viewed u) ∧
    getConfigProduct [(⟨some (.str "a.b"), none, none, Dict.ofList [("x", .inr 1)]⟩ : Upd (String ⊕ Nat))] =
      .ok [[⟨some (.str "a.b"), none, none, Dict.ofList [("x", .inr 1)]⟩]] := by
  refine ⟨?_, rfl⟩
  intro u hu k v hg
  rw [List.mem_singleton] at hu
  subst hu
  rcases hg with hg | ⟨d, hd, _⟩
  · have hm := (Dict.mem_items_iff _ k v).2 hg
    have : (Dict.ofList [("x", (.inr 1 : String ⊕ Nat))]).items = [("x", .inr 1)] := rfl
    rw [this, List.mem_singleton] at hm
    cases hm
    rfl
  · cases hd

example (s : Mgrs (String ⊕ Nat)) : demoCopying.viewed (.inl "m.item") = some "m.item" ∧
    demoCopying.real "m.item" s = (.ok (.inr 7), s) := ⟨rfl, rfl⟩

end Verif.Props

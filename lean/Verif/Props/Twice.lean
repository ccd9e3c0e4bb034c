import Verif.Lemmas.Twice
import Verif.Props.Apart

/-
Property theorems about doing the same thing twice: C100.
-/

namespace Verif.Props
open Verif.Py Verif.Model

variable {V : Type}

/-! ### Specification -/

/-- Nothing that can be looked up differs: every position in the tree of configs, the local config, the files, the registered
items, and the created objects with their identities. -/
structure SameState (s t : RS V) : Prop where
  configs : ∀ p, s.cm.view.slot p = t.cm.view.slot p
  localConfig : s.cm.localConf = t.cm.localConf
  files : s.cm.fs = t.cm.fs
  name : s.cm.rootName = t.cm.rootName
  registered : s.reg = t.reg
  objects : ∀ p, created s p = created t p
  nextId : s.nextId = t.nextId

/-! ### Lemmas -/

theorem SameState.of_same {s t : RS V} (h : RS.Indist s t) : SameState s t where
  configs p := by rw [h.view]
  localConfig := congrArg View.localConf h.view
  files := congrArg View.fs h.view
  name := congrArg View.rootName h.view
  registered := h.reg
  objects p := by unfold created; rw [h.objs]
  nextId := h.nextId

namespace Twice
open RM

/-- The created objects after one has been given a configuration. -/
def objsAfter (objs : Dict (List String) (Obj V)) (p : List String) (config : Dict String V) : Dict (List String) (Obj V) :=
  match objs.get? p with
  | none => objs
  | some o => match applyConfig o config with
    | .error _ => objs
    | .ok o' => objs.set p o'

theorem applyToLoaded_state (p : List String) (config announced : Dict String V) (s : RS V) :
    (applyToLoaded p config announced s).2 = { s with objs := objsAfter s.objs p config } := by
  unfold applyToLoaded objsAfter
  rw [M.bind_ok (M.get_run _)]
  cases ho : s.objs.get? p with
  | none => rfl
  | some o =>
    dsimp only
    rw [M.bind_run, M.liftE_run]
    cases ha : applyConfig o config with
    | error e => rfl
    | ok o' =>
      dsimp only
      rw [M.bind_ok (M.modify_run _ _)]
      split <;> rfl

theorem setAll_of_sub (es : List (String × V)) (d : Dict String V) (h : ∀ e ∈ es, d.get? e.1 = some e.2) :
    d.setAll es = d := by
  have hset : ∀ (k : String) (v : V), d.get? k = some v → d.set k v = d := by
    intro k v hk
    apply Dict.ext_of_keys_get?
    · rw [Dict.keys_set, if_pos ((Dict.mem_keys_iff d k).2 (by rw [hk]; rfl))]
    · intro k'
      rw [Dict.get?_set]
      split
      · rename_i hkk; rw [← hkk, hk]
      · rfl
  induction es with
  | nil => rfl
  | cons e es ih =>
    show (d.set e.1 e.2).setAll es = d
    rw [hset e.1 e.2 (h e List.mem_cons_self)]
    exact ih (fun e' he' => h e' (List.mem_cons_of_mem _ he'))

theorem applyConfig_twice {o o' : Obj V} {config : Dict String V} (h : applyConfig o config = .ok o') :
    applyConfig o' config = .ok o' := by
  unfold applyConfig at h
  cases hp : o.isPartial with
  | true =>
    rw [hp] at h
    dsimp only at h
    cases h
    unfold applyConfig
    simp only
    have hnd : ((config.items.filter (fun e => o.kwargs.contains e.1)).map Prod.fst).Nodup := AList.nodup_filter config.nodup _
    have hkeys : ∀ k, (o.kwargs.setAll (config.items.filter (fun e => o.kwargs.contains e.1))).contains k = o.kwargs.contains k := by
      intro k
      rw [Bool.eq_iff_iff, Dict.contains_iff, Dict.contains_iff, Dict.mem_keys_setAll]
      constructor
      · rintro (h | h)
        · exact h
        · obtain ⟨e, he, rfl⟩ := List.mem_map.1 h
          exact (Dict.contains_iff _ _).1 (List.mem_filter.1 he).2
      · exact .inl
    simp only [hkeys]
    rw [setAll_of_sub]
    intro e he
    rw [Dict.get?_setAll_of_nodup _ hnd, AList.get?_of_mem hnd (v := e.2) he]
    rfl
  | false =>
    rw [hp] at h
    dsimp only at h
    cases hn : o.callable.sig.argNames true with
    | error e => rw [hn] at h; cases h
    | ok names =>
      rw [hn] at h
      dsimp only at h
      cases hu : o.callable.upd (config.filterKeys (fun x => decide (x ∈ names))) with
      | error e => rw [hu] at h; cases h
      | ok u =>
        rw [hu] at h
        dsimp only at h
        cases h
        unfold applyConfig
        simp only [hp, hn, hu]

theorem objsAfter_twice (objs : Dict (List String) (Obj V)) (p : List String) (config : Dict String V) :
    objsAfter (objsAfter objs p config) p config = objsAfter objs p config := by
  cases ho : objs.get? p with
  | none =>
    have : objsAfter objs p config = objs := by unfold objsAfter; rw [ho]
    rw [this, this]
  | some o =>
    cases ha : applyConfig o config with
    | error e =>
      have : objsAfter objs p config = objs := by unfold objsAfter; rw [ho]; dsimp only; rw [ha]
      rw [this, this]
    | ok o' =>
      have : objsAfter objs p config = objs.set p o' := by unfold objsAfter; rw [ho]; dsimp only; rw [ha]
      rw [this]
      unfold objsAfter
      rw [Dict.get?_set_self]
      dsimp only
      rw [applyConfig_twice ha]
      dsimp only
      apply Dict.ext_of_keys_get?
      · rw [Dict.keys_set, if_pos ((Dict.mem_keys_iff _ p).2 (by rw [Dict.get?_set_self]; rfl))]
      · intro q
        rw [Dict.get?_set, Dict.get?_set]
        split <;> rfl

theorem objsAfter_contains (objs : Dict (List String) (Obj V)) (p : List String) (config : Dict String V) :
    (objsAfter objs p config).contains p = objs.contains p := by
  unfold objsAfter
  cases ho : objs.get? p with
  | none => rfl
  | some o =>
    dsimp only
    cases applyConfig o config with
    | error e => rfl
    | ok o' =>
      unfold Dict.contains
      dsimp only
      rw [Dict.get?_set_self, ho]; rfl

/-! #### Updates -/

theorem update_state [BEq V] (d : Option (Dict String V)) (p : List String) (persist : Bool) (kw : Dict String V) (s : RS V) :
    (RM.update d (some p) persist kw s).2 = match (CMM.update d (some p) persist kw s.cm).1 with
      | .ok (c, true) => { s with cm := (CMM.update d (some p) persist kw s.cm).2, objs := objsAfter s.objs p c.values }
      | _ => { s with cm := (CMM.update d (some p) persist kw s.cm).2 } := by
  unfold RM.update
  rw [M.bind_run]
  unfold liftC
  cases h : (CMM.update d (some p) persist kw s.cm).1 with
  | error e => rfl
  | ok r =>
    obtain ⟨c, u⟩ := r
    cases u with
    | false => rfl
    | true => exact applyToLoaded_state _ _ _ _

theorem update_twice [BEq V] {s : RS V} {p : List String} (hp : IsItem s.cm p) (d : Option (Dict String V)) (persist : Bool)
    (kw : Dict String V) :
    RS.Indist (RM.update d (some p) persist kw (RM.update d (some p) persist kw s).2).2 (RM.update d (some p) persist kw s).2 := by
  have hfr := local_update (p := p) d persist kw s hp
  have hp' := hfr.item
  generalize hs' : (RM.update d (some p) persist kw s).2 = s' at hp' ⊢
  rw [update_state] at hs' ⊢
  have hv : s'.cm.view = (CMM.update d (some p) persist kw s.cm).2.view := by
    rw [← hs']; split <;> rfl
  cases hc : s.cm.view.own p with
  | error e =>
    obtain ⟨h1, h2⟩ := CMM.update_of_own_error hp hc d persist kw
    obtain ⟨h3, h4⟩ := CMM.update_of_own_error hp' (by rw [hv, h2]; exact hc) d persist kw
    rw [h3]
    exact ⟨h4, rfl, rfl, rfl⟩
  | ok c =>
    obtain ⟨h1, h2⟩ := CMM.update_of_own hp hc d persist kw
    obtain ⟨h3, h4⟩ := CMM.update_of_own hp' (by rw [hv, h2]; exact View.own_setConf _ _ _) d persist kw
    rw [CMM.updated_twice, hv, h2, View.setConf_setConf, ← h2, ← hv] at h4
    split
    · rename_i c' hr
      refine ⟨h4, rfl, ?_, rfl⟩
      have h5 : (CMM.update d (some p) persist kw s.cm).1 = .ok (c', true) := by
        rw [h1]; exact CMM.updateResult_twice (h3.symm.trans hr)
      rw [h5] at hs'
      dsimp only at hs' ⊢
      rw [← hs']
      exact objsAfter_twice _ _ _
    · exact ⟨h4, rfl, rfl, rfl⟩

/-! #### Resets -/

theorem reset_state [BEq V] (p : List String) (s : RS V) :
    (RM.reset (some p) false s).2 = match (CMM.reset (some p) false s.cm).1 with
      | .ok (.conf c, true) => { s with cm := (CMM.reset (some p) false s.cm).2, objs := objsAfter s.objs p c.values }
      | _ => { s with cm := (CMM.reset (some p) false s.cm).2 } := by
  unfold RM.reset
  rw [M.bind_run]
  unfold liftC
  cases h : (CMM.reset (some p) false s.cm).1 with
  | error e => rfl
  | ok r =>
    obtain ⟨n, u⟩ := r
    cases u with
    | false => cases n <;> rfl
    | true =>
      cases n with
      | conf c => exact applyToLoaded_state _ _ _ _
      | _ => rfl

theorem reset_twice [BEq V] {s : RS V} {p : List String} (hp : IsItem s.cm p) :
    RS.Indist (RM.reset (some p) false (RM.reset (some p) false s).2).2 (RM.reset (some p) false s).2 := by
  have hfr := local_reset (p := p) s hp
  have hp' := hfr.item
  generalize hs' : (RM.reset (some p) false s).2 = s' at hp' ⊢
  rw [reset_state] at hs' ⊢
  have hv : s'.cm.view = (CMM.reset (some p) false s.cm).2.view := by
    rw [← hs']; split <;> rfl
  obtain ⟨h1, h2⟩ := CMM.reset_eq hp
  obtain ⟨h3, h4⟩ := CMM.reset_eq hp'
  obtain ⟨h5, h6⟩ := CMM.resetResult_twice s.cm.view p
  rw [hv, h2] at h3 h4
  rw [h5, ← h2, ← hv] at h4
  split
  · rename_i c' hr
    refine ⟨h4, rfl, ?_, rfl⟩
    have h7 : (CMM.reset (some p) false s.cm).1 = .ok (.conf c', true) := by
      rw [h1]; exact h6 _ (h3.symm.trans hr)
    rw [h7] at hs'
    dsimp only at hs' ⊢
    rw [← hs']
    exact objsAfter_twice _ _ _
  · exact ⟨h4, rfl, rfl, rfl⟩

/-! #### Refreshing -/

theorem refresh_state [BEq V] (p : List String) (s : RS V) :
    (RM.refresh p s).2 = match (CMM.refresh p s.cm).1 with
      | .ok (_, true, _) =>
        if s.objs.contains p then
          match (CMM.get p (CMM.refresh p s.cm).2).1 with
          | .ok (some c) => { s with cm := (CMM.get p (CMM.refresh p s.cm).2).2, objs := objsAfter s.objs p c.values }
          | _ => { s with cm := (CMM.get p (CMM.refresh p s.cm).2).2 }
        else { s with cm := (CMM.refresh p s.cm).2 }
      | _ => { s with cm := (CMM.refresh p s.cm).2 } := by
  unfold RM.refresh
  rw [M.bind_run]
  unfold liftC
  cases h : (CMM.refresh p s.cm).1 with
  | error e => rfl
  | ok r =>
    obtain ⟨c, u, us⟩ := r
    dsimp only
    rw [M.bind_ok (M.get_run _)]
    cases u with
    | false => rfl
    | true =>
      dsimp only
      by_cases ho : s.objs.contains p = true
      · rw [if_pos ⟨rfl, ho⟩, if_pos ho, M.bind_run]
        unfold getConfig
        rw [M.bind_run]
        unfold liftC
        dsimp only
        cases hg : (CMM.get p (CMM.refresh p s.cm).2).1 with
        | error e => rfl
        | ok oc =>
          cases oc with
          | none => rfl
          | some c' => exact applyToLoaded_state _ _ _ _
      · rw [if_neg (fun h => ho h.2), if_neg ho]
        rfl

theorem refreshResult_cases [BEq V] (fs : Files V) (c : Conf V) :
    ((∀ c' U, (CMM.refreshResult fs c).1 ≠ .ok (c', true, U)) ∧ (CMM.refreshResult fs c).2 = c) ∨
    ∃ loc new c' U, c.file = some loc ∧ fs.load loc = .ok new ∧ c.refresh new.values = .ok (c', U) ∧
      CMM.refreshResult fs c = (.ok (c', true, U), c') := by
  unfold CMM.refreshResult
  cases hf : c.file with
  | none => exact .inl ⟨(fun _ _ h => by cases h), rfl⟩
  | some loc =>
    dsimp only
    cases hl : fs.load loc with
    | error e => exact .inl ⟨(fun _ _ h => by cases h), rfl⟩
    | ok new =>
      dsimp only
      split
      · exact .inl ⟨(fun _ _ h => by cases h), rfl⟩
      · cases hr : c.refresh new.values with
        | error e => exact .inl ⟨(fun _ _ h => by cases h), rfl⟩
        | ok r => exact .inr ⟨loc, new, r.1, r.2, rfl, hl, hr, rfl⟩

theorem active_setConf {s : CM V} {p : List String} (c d : Conf V) :
    CMM.active (s.view.setConf p c) p d = CMM.active s.view p d := by
  apply CMM.active_congr
  · rfl
  · intro k hk
    apply View.setConf_slot_ne
    intro hh
    have := congrArg List.length hh
    rw [List.length_take] at this
    omega

theorem refresh_twice [BEq V] {s : RS V} (ho : OwnFiles s.cm.view) {p : List String} (hp : IsItem s.cm p) :
    RS.Indist (RM.refresh p (RM.refresh p s).2).2 (RM.refresh p s).2 := by
  have hp' := (local_refresh (p := p) s hp).item
  cases hc : s.cm.view.own p with
  | error e =>
    obtain ⟨h1, h2⟩ := CMM.refresh_of_own_error hp hc
    have e1 : (RM.refresh p s).2 = { s with cm := (CMM.refresh p s.cm).2 } := by rw [refresh_state, h1]
    rw [e1] at hp' ⊢
    obtain ⟨h3, h4⟩ := CMM.refresh_of_own_error hp' (by show (CMM.refresh p s.cm).2.view.own p = _; rw [h2]; exact hc)
    rw [refresh_state, h3]
    exact ⟨h4, rfl, rfl, rfl⟩
  | ok c =>
    have hfile : c.file = some (.item p) := ho.own hp.plain hc
    obtain ⟨h1, h2⟩ := CMM.refresh_of_own hp hc
    rcases refreshResult_cases s.cm.view.fs c with ⟨hn, hcc⟩ | ⟨loc, new, c', U, hf, hl, hr, hres⟩
    · -- nothing was refreshed
      have e1 : (RM.refresh p s).2 = { s with cm := (CMM.refresh p s.cm).2 } := by
        rw [refresh_state]
        split
        · rename_i c' U h; rw [h1] at h; exact absurd h (hn c' U)
        · rfl
      rw [hcc] at h2
      rw [e1] at hp' ⊢
      obtain ⟨h3, h4⟩ := CMM.refresh_of_own hp'
        (by show (CMM.refresh p s.cm).2.view.own p = _; rw [h2]; exact View.own_setConf _ _ _)
      have e2 : (CMM.refresh p s.cm).2.view.fs = s.cm.view.fs := by rw [h2]; rfl
      dsimp only at h3 h4
      rw [e2] at h3 h4
      rw [hcc, h2, View.setConf_setConf, ← h2] at h4
      rw [refresh_state]
      split
      · rename_i c' U h
        exact absurd (h3.symm.trans h) (hn c' U)
      · exact ⟨h4, rfl, rfl, rfl⟩
    · rw [hres] at h1 h2
      dsimp only at h1 h2
      by_cases hob : s.objs.contains p = true
      · -- the object has been created
        have hpr : IsItem (CMM.refresh p s.cm).2 p := CMM.step_item_isItem (op := .refresh p) hp .refresh hp
        obtain ⟨g1, g2⟩ := CMM.get_of_own hpr (c := c') (by rw [h2]; exact View.own_setConf _ _ _)
        rw [h2, active_setConf] at g1 g2
        rw [View.setConf_setConf] at g2
        have e1 : (RM.refresh p s).2 = { s with
            cm := (CMM.get p (CMM.refresh p s.cm).2).2,
            objs := objsAfter s.objs p (CMM.active s.cm.view p c').values } := by
          rw [refresh_state, h1]
          dsimp only
          rw [if_pos hob, g1]
        rw [e1] at hp' ⊢
        generalize hcm : (CMM.get p (CMM.refresh p s.cm).2).2 = cm' at hp' g2 ⊢
        dsimp only at hp'
        have hf' : c'.file = some (.item p) := by rw [Conf.refresh_eq hr]; exact hfile
        obtain ⟨h3, h4⟩ := CMM.refresh_of_own hp' (c := CMM.active s.cm.view p c') (by rw [g2]; exact View.own_setConf _ _ _)
        have e2 : cm'.view.fs = s.cm.view.fs := by rw [g2]; rfl
        rw [e2] at h3 h4
        rcases refreshResult_cases s.cm.view.fs (CMM.active s.cm.view p c') with ⟨hn, hcc⟩ | ⟨loc', new', c'', U', hf2, hl2, hr2, hres2⟩
        · rw [hcc, g2, View.setConf_setConf, ← g2] at h4
          rw [refresh_state]
          split
          · rename_i c'' U' h
            exact absurd (h3.symm.trans h) (hn c'' U')
          · exact ⟨h4, rfl, rfl, rfl⟩
        · have hloc : loc' = loc := by
            rw [CMM.active_file, hf', ← hfile, hf] at hf2
            cases hf2; rfl
          subst hloc
          have hnew : new' = new := by rw [hl] at hl2; cases hl2; rfl
          subst hnew
          have hc2 : c'' = CMM.active s.cm.view p c' := Conf.refresh_active ho hp hfile hr hr2
          rw [hres2] at h3 h4
          dsimp only at h3 h4
          rw [hc2, g2, View.setConf_setConf, ← g2] at h4
          have hp2 : IsItem (CMM.refresh p cm').2 p := hp'.congr h4.symm
          obtain ⟨g3, g4⟩ := CMM.get_of_own hp2 (c := CMM.active s.cm.view p c')
            (by rw [h4, g2]; exact View.own_setConf _ _ _)
          rw [h4, g2, active_setConf, CMM.active_idem ho hp hf'] at g3 g4
          rw [View.setConf_setConf, ← g2] at g4
          rw [refresh_state]
          dsimp only
          rw [h3]
          dsimp only
          rw [if_pos (by rw [objsAfter_contains]; exact hob), g3]
          exact ⟨g4, rfl, objsAfter_twice _ _ _, rfl⟩
      · have e1 : (RM.refresh p s).2 = { s with cm := (CMM.refresh p s.cm).2 } := by
          rw [refresh_state, h1]
          dsimp only
          rw [if_neg hob]
        rw [e1] at hp' ⊢
        obtain ⟨h3, h4⟩ := CMM.refresh_of_own hp' (c := c')
          (by show (CMM.refresh p s.cm).2.view.own p = _; rw [h2]; exact View.own_setConf _ _ _)
        have e2 : (CMM.refresh p s.cm).2.view.fs = s.cm.view.fs := by rw [h2]; rfl
        dsimp only at h3 h4
        rw [e2] at h3 h4
        have hleft : (CMM.refreshResult s.cm.view.fs c').2 = c' := by
          rcases refreshResult_cases s.cm.view.fs c' with ⟨hn, hcc⟩ | ⟨loc', new', c'', U', hf2, hl2, hr2, hres2⟩
          · exact hcc
          · have hloc : loc' = loc := by
              rw [Conf.refresh_eq hr] at hf2
              have : c.file = some loc' := hf2
              rw [hf] at this; cases this; rfl
            subst hloc
            have hnew : new' = new := by rw [hl] at hl2; cases hl2; rfl
            subst hnew
            rw [hres2]
            exact Conf.refresh_twice hr hr2
        rw [hleft, h2, View.setConf_setConf, ← h2] at h4
        rw [refresh_state]
        dsimp only
        split
        · rw [if_neg hob]
          exact ⟨h4, rfl, rfl, rfl⟩
        · exact ⟨h4, rfl, rfl, rfl⟩

/-! #### Getting and running -/

/-- The function and the configuration that are looked up. -/
def looked (r : Except PyErr (Option (Conf V))) (reg : Registry V) (p : List String) : Except PyErr (Reg V × Dict String V) :=
  match r with
  | .error e => .error e
  | .ok none => .error .notLoaded
  | .ok (some c) => match reg.lookup p with
    | .error e => .error e
    | .ok f => match forFunction c f with
      | .error e => .error e
      | .ok d => .ok (f, d)

theorem funcAndConfig_eq (p : List String) (s : RS V) :
    funcAndConfig p s = (looked (CMM.get p s.cm).1 s.reg p, { s with cm := (CMM.get p s.cm).2 }) := by
  unfold funcAndConfig getConfig looked
  rw [M.bind_run, M.bind_run]
  unfold liftC
  cases hg : (CMM.get p s.cm).1 with
  | error e => rfl
  | ok oc =>
    cases oc with
    | none => rfl
    | some c =>
      dsimp only
      rw [M.pure_run]
      dsimp only
      rw [M.bind_run]
      unfold lookup
      rw [M.bind_ok (M.get_run _), M.liftE_run]
      dsimp only
      cases s.reg.lookup p with
      | error e => rfl
      | ok f =>
        dsimp only
        rw [M.bind_run, M.liftE_run]
        cases forFunction c f with
        | error e => rfl
        | ok d => rfl

/-- Making one object: what it gives, or an exception; the number is that of the new object. -/
def made (isFunc : Bool) (r : Except PyErr (Option (Conf V))) (reg : Registry V) (p : List String) (id : Nat) :
    Except PyErr (Obj V) :=
  match isFunc with
  | true => match looked r reg p with
    | .error e => .error e
    | .ok (.item k, d) => .ok ⟨id, true, k, d⟩
    | .ok _ => .error .typeError
  | false => match looked r reg p with
    | .error e => .error e
    | .ok (.item k, d) => construct id k d
    | .ok _ => .error .typeError

/-- Getting the object of an item. -/
def getOne (isFunc : Bool) (p : List String) : RM V (Obj V) := if isFunc then getOneFunc p else getOneObj p

theorem getOne_eq (isFunc : Bool) (p : List String) {s : RS V} {k : Callable V} (hk : s.reg.lookup p = .ok (.item k)) :
    getOne isFunc p s = match s.objs.get? p with
      | some o => (.ok o, s)
      | none => match made isFunc (CMM.get p s.cm).1 s.reg p s.nextId with
        | .error e => (.error e, { s with cm := (CMM.get p s.cm).2 })
        | .ok o => (.ok o, { s with cm := (CMM.get p s.cm).2, objs := s.objs.set p o, nextId := s.nextId + 1 }) := by
  unfold getOne
  cases isFunc with
  | true =>
    rw [if_pos rfl]
    unfold getOneFunc made
    rw [M.bind_ok (M.get_run _)]
    cases ho : s.objs.get? p with
    | some o => rfl
    | none =>
      dsimp only
      rw [M.bind_run, funcAndConfig_eq]
      cases looked (CMM.get p s.cm).1 s.reg p with
      | error e => rfl
      | ok r =>
        obtain ⟨f, d⟩ := r
        cases f with
        | item k => rfl
        | coll _ _ => rfl
        | other => rfl
  | false =>
    rw [if_neg (by decide)]
    unfold getOneObj made
    rw [M.bind_ok (M.get_run _)]
    cases ho : s.objs.get? p with
    | some o => rfl
    | none =>
      dsimp only
      have hlook : lookup p s = (.ok (.item k), s) := by
        show (s.reg.lookup p, s) = _
        rw [hk]
      rw [M.bind_ok hlook, M.bind_run, funcAndConfig_eq]
      cases looked (CMM.get p s.cm).1 s.reg p with
      | error e => rfl
      | ok r =>
        obtain ⟨f, d⟩ := r
        cases f with
        | item k' =>
          dsimp only
          rw [M.bind_ok (M.get_run _), M.bind_run, M.liftE_run]
          cases construct s.nextId k' d with
          | error e => rfl
          | ok o => rfl
        | coll _ _ => rfl
        | other => rfl

/-- Getting once more, in a state that is the same as the one left. -/
theorem getOne_again (isFunc : Bool) {p : List String} {s : RS V} (ho : OwnFiles s.cm.view) (hp : IsItem s.cm p) {k : Callable V}
    (hk : s.reg.lookup p = .ok (.item k)) {u : RS V} (hu : RS.Indist u (getOne isFunc p s).2) :
    RS.Indist (getOne isFunc p u).2 u ∧ (getOne isFunc p u).1 = (getOne isFunc p s).1 := by
  rw [getOne_eq isFunc p hk] at hu ⊢
  cases hs : s.objs.get? p with
  | some o =>
    rw [hs] at hu
    have h := getOne_eq isFunc p (s := u) (k := k) (by rw [hu.reg]; exact hk)
    rw [hu.objs, hs] at h
    rw [h]
    exact ⟨.refl _, rfl⟩
  | none =>
    rw [hs] at hu
    dsimp only at hu ⊢
    cases hm : made isFunc (CMM.get p s.cm).1 s.reg p s.nextId with
    | error e =>
      rw [hm] at hu
      dsimp only at hu
      obtain ⟨t1, t2, t3⟩ := CMM.get_twice ho hp
      have hpu : IsItem u.cm p := t3.congr hu.view.symm
      obtain ⟨c1, c2⟩ := CMM.get_congr hu.view hpu
      have h := getOne_eq isFunc p (s := u) (k := k) (by rw [hu.reg]; exact hk)
      rw [hu.objs, hs, c1, t1, hu.reg, hu.nextId, hm] at h
      rw [h]
      exact ⟨⟨(c2.trans t2).trans hu.view.symm, hu.reg.symm, hu.objs.symm, hu.nextId.symm⟩, rfl⟩
    | ok o =>
      rw [hm] at hu
      dsimp only at hu
      have h := getOne_eq isFunc p (s := u) (k := k) (by rw [hu.reg]; exact hk)
      rw [hu.objs, Dict.get?_set_self] at h
      rw [h]
      exact ⟨.refl _, rfl⟩

/-- Looking up once more, in a state that is the same as the one left. -/
theorem funcAndConfig_again {p : List String} {s : RS V} (ho : OwnFiles s.cm.view) (hp : IsItem s.cm p) {u : RS V}
    (hv : u.cm.view = (CMM.get p s.cm).2.view) (hr : u.reg = s.reg) :
    RS.Indist (funcAndConfig p u).2 u ∧ (funcAndConfig p u).1 = (funcAndConfig p s).1 := by
  obtain ⟨t1, t2, t3⟩ := CMM.get_twice ho hp
  have hpu : IsItem u.cm p := t3.congr hv.symm
  obtain ⟨c1, c2⟩ := CMM.get_congr hv hpu
  rw [funcAndConfig_eq, funcAndConfig_eq, c1, t1, hr]
  exact ⟨⟨(c2.trans t2).trans hv.symm, hr.symm, rfl, rfl⟩, rfl⟩

/-- Getting the object of an item and calling it. -/
def runOne (isFunc : Bool) (p : List String) : RM V V := do
  let _ ← funcAndConfig p
  let o ← getOne isFunc p
  M.liftE (callObj o)

theorem runOne_again (isFunc : Bool) {p : List String} {s : RS V} (ho : OwnFiles s.cm.view) (hp : IsItem s.cm p) {k : Callable V}
    (hk : s.reg.lookup p = .ok (.item k)) :
    RS.Indist (runOne isFunc p (runOne isFunc p s).2).2 (runOne isFunc p s).2 ∧
    (runOne isFunc p (runOne isFunc p s).2).1 = (runOne isFunc p s).1 := by
  obtain ⟨t1, t2, t3⟩ := CMM.get_twice ho hp
  have h0 := funcAndConfig_eq p s
  have ho1 : OwnFiles (CMM.get p s.cm).2.view := by
    cases hc : s.cm.view.own p with
    | error e => rw [(CMM.get_of_own_error hp hc).2]; exact ho
    | ok c =>
      rw [(CMM.get_of_own hp hc).2]
      exact ho.setConf (by rw [CMM.active_file]; exact ho.own hp.plain hc)
  generalize hs1 : ({ s with cm := (CMM.get p s.cm).2 } : RS V) = s1 at h0
  have hcm : s1.cm = (CMM.get p s.cm).2 := by rw [← hs1]
  have hreg : s1.reg = s.reg := by rw [← hs1]
  cases hl : looked (CMM.get p s.cm).1 s.reg p with
  | error e =>
    rw [hl] at h0
    have e1 : runOne isFunc p s = (.error e, s1) := by
      unfold runOne
      rw [M.bind_run, h0]
    obtain ⟨a1, a2⟩ := funcAndConfig_again ho hp (u := s1) (by rw [hcm]) hreg
    rw [h0] at a2
    rw [e1]
    dsimp only
    generalize hg : funcAndConfig p s1 = g at a1 a2
    obtain ⟨g1, g2⟩ := g
    dsimp only at a1 a2
    subst a2
    have e2 : runOne isFunc p s1 = (.error e, g2) := by
      unfold runOne
      rw [M.bind_run, hg]
    rw [e2]
    exact ⟨a1, rfl⟩
  | ok fd =>
    rw [hl] at h0
    have e1 : runOne isFunc p s = (getOne isFunc p >>= fun o => M.liftE (callObj o)) s1 := by
      unfold runOne
      rw [M.bind_run, h0]
    have e1s : (runOne isFunc p s).2 = (getOne isFunc p s1).2 := by
      rw [e1, M.bind_run]
      generalize getOne isFunc p s1 = g
      obtain ⟨g1, g2⟩ := g
      cases g1 <;> rfl
    have hk1 : s1.reg.lookup p = .ok (.item k) := by rw [hreg]; exact hk
    have hp1 : IsItem s1.cm p := by rw [hcm]; exact t3
    have ho1' : OwnFiles s1.cm.view := by rw [hcm]; exact ho1
    -- the state after the first run
    have hview : (getOne isFunc p s1).2.cm.view = s1.cm.view := by
      rw [getOne_eq isFunc p hk1]
      split
      · rfl
      · split
        · dsimp only; rw [hcm]; exact t2
        · dsimp only; rw [hcm]; exact t2
    have hreg2 : (getOne isFunc p s1).2.reg = s1.reg := by
      rw [getOne_eq isFunc p hk1]
      split
      · rfl
      · split <;> rfl
    obtain ⟨a1, a2⟩ := funcAndConfig_again ho hp (u := (getOne isFunc p s1).2) (by rw [hview, hcm]) (by rw [hreg2, hreg])
    rw [h0] at a2
    generalize hg : funcAndConfig p (getOne isFunc p s1).2 = g at a1 a2
    obtain ⟨g1, g2⟩ := g
    dsimp only at a1 a2
    subst a2
    have e2 : runOne isFunc p (getOne isFunc p s1).2 = (getOne isFunc p >>= fun o => M.liftE (callObj o)) g2 := by
      conv => lhs; unfold runOne
      rw [M.bind_run, hg]
    obtain ⟨b1, b2⟩ := getOne_again isFunc ho1' hp1 hk1 a1
    have e2s : (runOne isFunc p (getOne isFunc p s1).2).2 = (getOne isFunc p g2).2 := by
      rw [e2, M.bind_run]
      generalize getOne isFunc p g2 = g
      obtain ⟨g1, g2⟩ := g
      cases g1 <;> rfl
    refine ⟨?_, ?_⟩
    · rw [e1s, e2s]
      exact b1.trans a1
    · rw [e1s, e2, e1, M.bind_run, M.bind_run]
      generalize hx : getOne isFunc p g2 = x at b2
      generalize hy : getOne isFunc p s1 = y at b2
      obtain ⟨x1, x2⟩ := x
      obtain ⟨y1, y2⟩ := y
      dsimp only at b2
      subst b2
      cases x1 <;> rfl

theorem getItem_getOne (p : List String) (k : Callable V) : getItem p k = getOne (match k.kind with | .func => true | _ => false) p := by
  unfold getItem getOne
  cases k.kind <;> rfl

theorem runItem_runOne (p : List String) (k : Callable V) : runItem p k = runOne (match k.kind with | .func => true | _ => false) p := by
  unfold runItem runOne getOne
  cases k.kind <;> rfl

theorem getOne_reg (isFunc : Bool) {p : List String} {s : RS V} {k : Callable V} (hk : s.reg.lookup p = .ok (.item k)) :
    (getOne isFunc p s).2.reg = s.reg := by
  rw [getOne_eq isFunc p hk]
  split
  · rfl
  · split <;> rfl

theorem runOne_reg (isFunc : Bool) {p : List String} {s : RS V} {k : Callable V} (hk : s.reg.lookup p = .ok (.item k)) :
    (runOne isFunc p s).2.reg = s.reg := by
  unfold runOne
  rw [M.bind_run, funcAndConfig_eq]
  cases looked (CMM.get p s.cm).1 s.reg p with
  | error e => rfl
  | ok fd =>
    dsimp only
    rw [M.bind_run]
    have h := getOne_reg isFunc (p := p) (s := { s with cm := (CMM.get p s.cm).2 }) hk
    generalize getOne isFunc p { s with cm := (CMM.get p s.cm).2 } = g at h
    obtain ⟨g1, g2⟩ := g
    cases g1 <;> exact h

theorem get_getOne {s : RS V} {p : List String} {k : Callable V} (hk : s.reg.lookup p = .ok (.item k)) :
    RM.get p s = ((getOne (k.kind matches .func) p s).1.map GetRes.obj, (getOne (k.kind matches .func) p s).2) := by
  have e1 : RM.get p s = ((getItem p k s).1.map GetRes.obj, (getItem p k s).2) := (get_item hk).trans (bind_pure_fst _ _ _)
  rw [getItem_getOne] at e1
  exact e1

theorem run_runOne {s : RS V} {p : List String} {k : Callable V} (hk : s.reg.lookup p = .ok (.item k)) :
    RM.run1 p s = ((runOne (k.kind matches .func) p s).1.map RunRes.one, (runOne (k.kind matches .func) p s).2) := by
  have e1 : RM.run1 p s = ((runItem p k s).1.map RunRes.one, (runItem p k s).2) := (run_item hk).trans (bind_pure_fst _ _ _)
  rw [runItem_runOne] at e1
  exact e1

theorem get_twice {s : RS V} (ho : OwnFiles s.cm.view) {p : List String} (hp : IsItem s.cm p) {k : Callable V}
    (hk : s.reg.lookup p = .ok (.item k)) :
    RS.Indist (RM.get p (RM.get p s).2).2 (RM.get p s).2 ∧ (RM.get p (RM.get p s).2).1 = (RM.get p s).1 := by
  rw [get_getOne hk]
  dsimp only
  rw [get_getOne (k := k) (by rw [getOne_reg _ hk]; exact hk)]
  obtain ⟨h1, h2⟩ := getOne_again (k.kind matches .func) ho hp hk (.refl _)
  exact ⟨h1, by rw [h2]⟩

theorem run_twice {s : RS V} (ho : OwnFiles s.cm.view) {p : List String} (hp : IsItem s.cm p) {k : Callable V}
    (hk : s.reg.lookup p = .ok (.item k)) :
    RS.Indist (RM.run1 p (RM.run1 p s).2).2 (RM.run1 p s).2 ∧ (RM.run1 p (RM.run1 p s).2).1 = (RM.run1 p s).1 := by
  rw [run_runOne hk]
  dsimp only
  rw [run_runOne (k := k) (by rw [runOne_reg _ hk]; exact hk)]
  obtain ⟨h1, h2⟩ := runOne_again (k.kind matches .func) ho hp hk
  exact ⟨h1, by rw [h2]⟩

theorem updateResult_returns [BEq V] {c : Conf V} {d : Option (Dict String V)} {persist : Bool} {kw : Dict String V}
    {r : Conf V × Bool} (h : CMM.updateResult c d persist kw = .ok r) :
    ∃ r', CMM.updateResult (c.updated d persist kw) d persist kw = .ok r' := by
  unfold CMM.updateResult at h
  cases hd : CMM.determineWouldUpdate c d kw with
  | error e => rw [hd] at h; cases h
  | ok b =>
    rw [hd] at h
    cases b with
    | false =>
      have : c.updated d persist kw = c := by unfold Conf.updated; rw [hd]
      rw [this]
      unfold CMM.updateResult
      rw [hd]
      exact ⟨_, rfl⟩
    | true =>
      dsimp only at h
      by_cases hcl : Conf.clash Conf.updateReserved kw = true
      · rw [if_pos hcl] at h; cases h
      · unfold CMM.updateResult
        have : ∃ b, CMM.determineWouldUpdate (c.updated d persist kw) d kw = .ok b := by
          unfold CMM.determineWouldUpdate at hd ⊢
          split at hd
          · cases hd
          · rename_i hn; rw [if_neg hn]; exact ⟨_, rfl⟩
        obtain ⟨b, hb⟩ := this
        rw [hb]
        cases b with
        | false => exact ⟨_, rfl⟩
        | true => dsimp only; rw [if_neg hcl]; exact ⟨_, rfl⟩

/-! #### The local config -/

theorem update_local_twice [BEq V] (s : RS V) (d : Option (Dict String V)) (persist : Bool) (kw : Dict String V) :
    RS.Indist (RM.update d none persist kw (RM.update d none persist kw s).2).2 (RM.update d none persist kw s).2 ∧
    ∀ u, (RM.update d none persist kw s).1 = .ok u → (RM.update d none persist kw (RM.update d none persist kw s).2).1 = .ok u := by
  have key : ∀ t : RS V, RM.update d none persist kw t =
      (match CMM.updateResult t.cm.localConf d persist kw with | .ok _ => .ok () | .error e => .error e,
        { t with cm := { t.cm with localConf := t.cm.localConf.updated d persist kw } }) := by
    intro t
    unfold RM.update CMM.updateResult Conf.updated
    rw [M.bind_run]
    unfold liftC CMM.update CMM.getProjectOrLocal
    have h0 : (do let s ← M.get; return some s.localConf : CMM V (Option (Conf V))) t.cm = (.ok (some t.cm.localConf), t.cm) := rfl
    rw [M.bind_ok h0]
    dsimp only
    rw [M.bind_run, M.liftE_run]
    cases CMM.determineWouldUpdate t.cm.localConf d kw with
    | error e => rfl
    | ok b =>
      cases b with
      | false => rfl
      | true =>
        dsimp only
        rw [if_pos rfl]
        by_cases hcl : Conf.clash Conf.updateReserved kw = true
        · rw [if_pos hcl, if_pos hcl, if_pos hcl]; rfl
        · rw [if_neg hcl, if_neg hcl, if_neg hcl]; rfl
  rw [key]
  dsimp only
  rw [key]
  dsimp only
  rw [CMM.updated_twice]
  refine ⟨⟨rfl, rfl, rfl, rfl⟩, ?_⟩
  intro u h
  cases hr : CMM.updateResult s.cm.localConf d persist kw with
  | error e => rw [hr] at h; cases h
  | ok r =>
    obtain ⟨r', hr'⟩ := updateResult_returns hr
    rw [hr']

/-! #### Returning again -/

/-- The result of handing a configuration to the object of an item. -/
def appliedResult (objs : Dict (List String) (Obj V)) (p : List String) (config announced : Dict String V) : Except PyErr Unit :=
  match objs.get? p with
  | none => .ok ()
  | some o => match applyConfig o config with
    | .error e => .error e
    | .ok _ => if Conf.clash trackReserved announced then .error .typeError else .ok ()

theorem applyToLoaded_result (p : List String) (config announced : Dict String V) (s : RS V) :
    (applyToLoaded p config announced s).1 = appliedResult s.objs p config announced := by
  unfold applyToLoaded appliedResult
  rw [M.bind_ok (M.get_run _)]
  cases ho : s.objs.get? p with
  | none => rfl
  | some o =>
    dsimp only
    rw [M.bind_run, M.liftE_run]
    cases ha : applyConfig o config with
    | error e => rfl
    | ok o' =>
      dsimp only
      rw [M.bind_ok (M.modify_run _ _)]
      split <;> rfl

theorem appliedResult_twice {objs : Dict (List String) (Obj V)} {p : List String} {config announced : Dict String V}
    (h : appliedResult objs p config announced = .ok ()) :
    appliedResult (objsAfter objs p config) p config announced = .ok () := by
  unfold appliedResult objsAfter at *
  cases ho : objs.get? p with
  | none => dsimp only; rw [ho]
  | some o =>
    rw [ho] at h
    dsimp only at h ⊢
    cases ha : applyConfig o config with
    | error e => rw [ha] at h; cases h
    | ok o' =>
      rw [ha] at h
      dsimp only at h ⊢
      rw [Dict.get?_set_self]
      dsimp only
      rw [applyConfig_twice ha]
      exact h

theorem update_result [BEq V] (d : Option (Dict String V)) (p : List String) (persist : Bool) (kw : Dict String V) (s : RS V) :
    (RM.update d (some p) persist kw s).1 = match (CMM.update d (some p) persist kw s.cm).1 with
      | .ok (c, true) => appliedResult s.objs p c.values kw
      | .ok (_, false) => .ok ()
      | .error e => .error e := by
  unfold RM.update
  rw [M.bind_run]
  unfold liftC
  cases h : (CMM.update d (some p) persist kw s.cm).1 with
  | error e => rfl
  | ok r =>
    obtain ⟨c, u⟩ := r
    cases u with
    | false => rfl
    | true => exact applyToLoaded_result _ _ _ _

theorem update_returns [BEq V] {s : RS V} {p : List String} (hp : IsItem s.cm p) (d : Option (Dict String V)) (persist : Bool)
    (kw : Dict String V) (h : (RM.update d (some p) persist kw s).1 = .ok ()) :
    (RM.update d (some p) persist kw (RM.update d (some p) persist kw s).2).1 = .ok () := by
  have hfr := local_update (p := p) d persist kw s hp
  have hp' := hfr.item
  have hst := update_state d p persist kw s
  generalize hs' : (RM.update d (some p) persist kw s).2 = s' at hp' hst ⊢
  rw [update_result] at h ⊢
  have hv : s'.cm.view = (CMM.update d (some p) persist kw s.cm).2.view := by
    rw [hst]; split <;> rfl
  cases hc : s.cm.view.own p with
  | error e =>
    obtain ⟨h1, h2⟩ := CMM.update_of_own_error hp hc d persist kw
    rw [h1] at h
    cases h
  | ok c =>
    obtain ⟨h1, h2⟩ := CMM.update_of_own hp hc d persist kw
    obtain ⟨h3, h4⟩ := CMM.update_of_own hp' (by rw [hv, h2]; exact View.own_setConf _ _ _) d persist kw
    rw [h1] at h hst
    rw [h3]
    cases hr : CMM.updateResult c d persist kw with
    | error e => rw [hr] at h; cases h
    | ok r =>
      obtain ⟨r', hr'⟩ := updateResult_returns hr
      rw [hr']
      obtain ⟨c', b⟩ := r'
      cases b with
      | false => rfl
      | true =>
        have := CMM.updateResult_twice hr'
        rw [this] at h hst
        dsimp only at h hst ⊢
        rw [hst]
        exact appliedResult_twice h

theorem reset_result [BEq V] (p : List String) (s : RS V) :
    (RM.reset (some p) false s).1 = match (CMM.reset (some p) false s.cm).1 with
      | .ok (.conf c, true) => appliedResult s.objs p c.values c.values
      | .ok _ => .ok ()
      | .error e => .error e := by
  unfold RM.reset
  rw [M.bind_run]
  unfold liftC
  cases h : (CMM.reset (some p) false s.cm).1 with
  | error e => rfl
  | ok r =>
    obtain ⟨n, u⟩ := r
    cases u with
    | false => cases n <;> rfl
    | true =>
      cases n with
      | conf c => exact applyToLoaded_result _ _ _ _
      | _ => rfl

/-- Resetting again what could be reset gives a result again. -/
theorem resetResult_returns [BEq V] {s : CM V} (ho : OwnFiles s.view) {p : List String} (hp : IsItem s p) {r : Node V × Bool}
    (h : (CMM.resetResult s.view p).1 = .ok r) :
    ∃ r', (CMM.resetResult (CMM.resetResult s.view p).2 p).1 = .ok r' := by
  cases hl : s.view.fs.load (.item p) with
  | error e => unfold CMM.resetResult at h; rw [hl] at h; cases h
  | ok v =>
    have hown : ∃ c, s.view.own p = .ok c := by
      have hi := hp.item
      unfold View.own
      cases hs : s.view.slot p with
      | conf c => exact ⟨c, rfl⟩
      | file l => exact ⟨v, by dsimp only; rw [ho.file p l hs hp.plain]; exact hl⟩
      | sect c => rw [hs] at hi; cases hi
      | absent => rw [hs] at hi; cases hi
    obtain ⟨c, hc⟩ := hown
    have key : ∀ c : Conf V, CMM.resetResult (s.view.setConf p c) p = match CMM.determineWouldUpdate c none v.values with
        | .error e => (.error e, s.view.setConf p c)
        | .ok true => (.ok (.conf v, true), s.view.setConf p v)
        | .ok false => (.ok (.conf v, false), s.view.setConf p c) := by
      intro c
      unfold CMM.resetResult
      rw [show (s.view.setConf p c).fs = s.view.fs from rfl, hl, View.own_setConf]
      dsimp only
      simp only [View.setConf_setConf]
      rfl
    have hno : ∃ b, CMM.determineWouldUpdate c none v.values = .ok b := by
      cases hd : CMM.determineWouldUpdate c none v.values with
      | error e => unfold CMM.resetResult at h; rw [hl, hc] at h; dsimp only at h; rw [hd] at h; cases h
      | ok b => exact ⟨b, rfl⟩
    have hno' : ∀ c' : Conf V, ∃ b, CMM.determineWouldUpdate c' none v.values = .ok b := by
      intro c'
      obtain ⟨b, hb⟩ := hno
      unfold CMM.determineWouldUpdate at hb ⊢
      split at hb
      · cases hb
      · rename_i hcl; rw [if_neg hcl]; exact ⟨_, rfl⟩
    have hst : ∃ c', (CMM.resetResult s.view p).2 = s.view.setConf p c' := by
      obtain ⟨b, hb⟩ := hno
      unfold CMM.resetResult
      rw [hl, hc]
      dsimp only
      rw [hb]
      cases b <;> exact ⟨_, rfl⟩
    obtain ⟨c', hst⟩ := hst
    rw [hst, key]
    obtain ⟨b, hb⟩ := hno' c'
    rw [hb]
    cases b <;> exact ⟨_, rfl⟩

theorem reset_returns [BEq V] {s : RS V} (ho : OwnFiles s.cm.view) {p : List String} (hp : IsItem s.cm p)
    (h : (RM.reset (some p) false s).1 = .ok ()) :
    (RM.reset (some p) false (RM.reset (some p) false s).2).1 = .ok () := by
  have hp' := (local_reset (p := p) s hp).item
  have hst := reset_state p s
  generalize hs' : (RM.reset (some p) false s).2 = s' at hp' hst ⊢
  rw [reset_result] at h ⊢
  have hv : s'.cm.view = (CMM.reset (some p) false s.cm).2.view := by
    rw [hst]; split <;> rfl
  obtain ⟨h1, h2⟩ := CMM.reset_eq hp
  obtain ⟨h3, h4⟩ := CMM.reset_eq hp'
  obtain ⟨h5, h6⟩ := CMM.resetResult_twice s.cm.view p
  rw [hv, h2] at h3
  rw [h1] at h hst
  rw [h3]
  cases hr : (CMM.resetResult s.cm.view p).1 with
  | error e => rw [hr] at h; cases h
  | ok r =>
    obtain ⟨r', hr'⟩ := resetResult_returns ho hp hr
    rw [hr']
    obtain ⟨n, b⟩ := r'
    cases b with
    | false => cases n <;> rfl
    | true =>
      cases n with
      | conf c' =>
        have := h6 _ hr'
        rw [this] at h hst
        dsimp only at h hst ⊢
        rw [hst]
        exact appliedResult_twice h
      | _ => rfl

/-- Nothing is left to refresh when every value that would be taken over is already there. -/
theorem no_change [BEq V] (hrefl : ∀ v : V, (v == v) = true) {c : Conf V} {f : Dict String V}
    (h : ∀ k v, (f.update c.applied).get? k = some v → c.values.get? k = some v) : (c.changeFromRefresh f).items.isEmpty = true := by
  unfold Conf.changeFromRefresh
  dsimp only
  rw [if_neg]
  · rfl
  · intro hw
    obtain ⟨k, v, w, h1, h2, h3⟩ := (Conf.wouldUpdate_iff _ _ _).1 hw
    rw [Dict.get?_empty, Option.none_or, Option.bind_some] at h1
    rw [h k v h1] at h2
    cases h2
    rw [hrefl] at h3
    cases h3

theorem refresh_result [BEq V] (p : List String) (s : RS V) :
    (RM.refresh p s).1 = match (CMM.refresh p s.cm).1 with
      | .error e => .error e
      | .ok (_, false, _) => .ok ()
      | .ok (_, true, _) =>
        if s.objs.contains p then
          match (CMM.get p (CMM.refresh p s.cm).2).1 with
          | .ok (some c) => appliedResult s.objs p c.values Dict.empty
          | .ok none => .error .notLoaded
          | .error e => .error e
        else .ok () := by
  unfold RM.refresh
  rw [M.bind_run]
  unfold liftC
  cases h : (CMM.refresh p s.cm).1 with
  | error e => rfl
  | ok r =>
    obtain ⟨c, u, us⟩ := r
    dsimp only
    rw [M.bind_ok (M.get_run _)]
    cases u with
    | false => rfl
    | true =>
      dsimp only
      by_cases ho : s.objs.contains p = true
      · rw [if_pos ⟨rfl, ho⟩, if_pos ho, M.bind_run]
        unfold getConfig
        rw [M.bind_run]
        unfold liftC
        dsimp only
        cases hg : (CMM.get p (CMM.refresh p s.cm).2).1 with
        | error e => rfl
        | ok oc =>
          cases oc with
          | none => rfl
          | some c' => exact applyToLoaded_result _ _ _ _
      · rw [if_neg (fun h => ho h.2), if_neg ho]
        rfl

theorem refreshResult_quiet [BEq V] (hrefl : ∀ v : V, (v == v) = true) {fs : Files V} {c : Conf V} {loc : FileLoc} {new : Conf V}
    (hf : c.file = some loc) (hl : fs.load loc = .ok new)
    (h : ∀ k v, (new.values.update c.applied).get? k = some v → c.values.get? k = some v) :
    (CMM.refreshResult fs c).1 = .ok (c, false, Dict.empty) := by
  unfold CMM.refreshResult
  rw [hf]
  dsimp only
  rw [hl]
  dsimp only
  rw [if_pos (no_change hrefl h)]

theorem refresh_returns [BEq V] (hrefl : ∀ v : V, (v == v) = true) {s : RS V} (ho : OwnFiles s.cm.view) {p : List String}
    (hp : IsItem s.cm p) (h : (RM.refresh p s).1 = .ok ()) : (RM.refresh p (RM.refresh p s).2).1 = .ok () := by
  have hp' := (local_refresh (p := p) s hp).item
  cases hc : s.cm.view.own p with
  | error e =>
    rw [refresh_result, (CMM.refresh_of_own_error hp hc).1] at h
    cases h
  | ok c =>
    have hfile : c.file = some (.item p) := ho.own hp.plain hc
    obtain ⟨h1, h2⟩ := CMM.refresh_of_own hp hc
    rcases refreshResult_cases s.cm.view.fs c with ⟨hn, hcc⟩ | ⟨loc, new, c', U, hf, hl, hr, hres⟩
    · have e1 : (RM.refresh p s).2 = { s with cm := (CMM.refresh p s.cm).2 } := by
        rw [refresh_state]
        split
        · rename_i c' U h; rw [h1] at h; exact absurd h (hn c' U)
        · rfl
      rw [hcc] at h2
      rw [e1] at hp' ⊢
      obtain ⟨h3, h4⟩ := CMM.refresh_of_own hp'
        (by show (CMM.refresh p s.cm).2.view.own p = _; rw [h2]; exact View.own_setConf _ _ _)
      have e2 : (CMM.refresh p s.cm).2.view.fs = s.cm.view.fs := by rw [h2]; rfl
      dsimp only at h3
      rw [e2] at h3
      rw [refresh_result] at h ⊢
      dsimp only
      rw [h3]
      rw [h1] at h
      split at h
      · cases h
      · rfl
      · rename_i hq; exact absurd hq (hn _ _)
    · rw [hres] at h1 h2
      dsimp only at h1 h2
      have hquiet : ∀ (t : RS V) (c2 : Conf V), IsItem t.cm p → t.cm.view = s.cm.view.setConf p c2 → c2.file = some loc →
          (∀ k v, (new.values.update c2.applied).get? k = some v → c2.values.get? k = some v) → (RM.refresh p t).1 = .ok () := by
        intro t c2 hpt ht hf2 hsub
        obtain ⟨h3, h4⟩ := CMM.refresh_of_own hpt (c := c2) (by rw [ht]; exact View.own_setConf _ _ _)
        rw [show t.cm.view.fs = s.cm.view.fs by rw [ht]; rfl, refreshResult_quiet hrefl hf2 hl hsub] at h3
        rw [refresh_result, h3]
      by_cases hob : s.objs.contains p = true
      · have hpr : IsItem (CMM.refresh p s.cm).2 p := CMM.step_item_isItem (op := .refresh p) hp .refresh hp
        obtain ⟨g1, g2⟩ := CMM.get_of_own hpr (c := c') (by rw [h2]; exact View.own_setConf _ _ _)
        rw [h2, active_setConf] at g1 g2
        rw [View.setConf_setConf] at g2
        have e1 : (RM.refresh p s).2 = { s with
            cm := (CMM.get p (CMM.refresh p s.cm).2).2,
            objs := objsAfter s.objs p (CMM.active s.cm.view p c').values } := by
          rw [refresh_state, h1]
          dsimp only
          rw [if_pos hob, g1]
        apply hquiet _ (CMM.active s.cm.view p c') hp'
        · rw [e1]; exact g2
        · rw [CMM.active_file, Conf.refresh_eq hr]; exact hf
        · exact Conf.active_sub ho hp hfile hr
      · have e1 : (RM.refresh p s).2 = { s with cm := (CMM.refresh p s.cm).2 } := by
          rw [refresh_state, h1]
          dsimp only
          rw [if_neg hob]
        apply hquiet _ c' hp'
        · rw [e1]; exact h2
        · rw [Conf.refresh_eq hr]; exact hf
        · exact Conf.refresh_sub hr

end Twice

/-! ### C100 -/

/-- C100: repeating at once any call for an item, any change of the local config or any edit of the files changes nothing: whatever
could be looked up after the first is the same after the second.  This holds whether the calls returned or raised. -/
theorem C100_twice [BEq V] (s : RS V) (hs : s.Reachable) (op : ROp V) (ho : ForItem s op) :
    SameState ((s.step op).step op) (s.step op) := by
  apply SameState.of_same
  have hown := hs.cm.good.ownFiles
  rcases ho with ho | ⟨q, k, hq, ho⟩
  · cases op with
    | get => cases ho
    | run => cases ho
    | refresh => cases ho
    | edit fs => exact .refl _
    | update d q persist kw =>
      have : q = none := ho
      subst this
      exact (Twice.update_local_twice s d persist kw).1
    | reset q b =>
      have : q = none := ho
      subst this
      exact ⟨rfl, rfl, rfl, rfl⟩
  · have hp := hq.config.isItem
    cases ho with
    | get => exact (Twice.get_twice hown hp hq.registered).1
    | run => exact (Twice.run_twice hown hp hq.registered).1
    | update d persist kw => exact Twice.update_twice hp d persist kw
    | reset => exact Twice.reset_twice hp
    | refresh => exact Twice.refresh_twice hown hp

/-- C100: getting an item twice gives the same object, the same one by identity, or the same exception; and running it twice the same
result or the same exception. -/
theorem C100_same_result [BEq V] (s : RS V) (hs : s.Reachable) (p : List String) (k : Callable V) (hp : RunnerItem s p k) :
    (RM.get p (s.step (.get p))).1 = (RM.get p s).1 ∧ (RM.run1 p (s.step (.run p))).1 = (RM.run1 p s).1 :=
  ⟨(Twice.get_twice hs.cm.good.ownFiles hp.config.isItem hp.registered).2,
    (Twice.run_twice hs.cm.good.ownFiles hp.config.isItem hp.registered).2⟩

/-- C100: a call that returned returns again when it is repeated at once.  (Refreshing needs values that are equal to themselves.) -/
theorem C100_returns [BEq V] (s : RS V) (hs : s.Reachable) (op : ROp V) (ho : ForItem s op)
    (hrefl : (∃ p, op = .refresh p) → ∀ v : V, (v == v) = true)
    (h : ∀ e, callOutcome s op ≠ .raised e) : callOutcome (s.step op) op = callOutcome s op := by
  have hown := hs.cm.good.ownFiles
  have unit : ∀ r : Except PyErr Unit, (∀ e, (match r with | .ok () => CallOutcome.done | .error e => .raised e) ≠ (.raised e : CallOutcome V)) →
      r = .ok () := by
    intro r hr
    cases r with
    | ok u => rfl
    | error e => exact absurd rfl (hr e)
  rcases ho with ho | ⟨q, k, hq, ho⟩
  · cases op with
    | get => cases ho
    | run => cases ho
    | refresh => cases ho
    | edit fs => rfl
    | update d q persist kw =>
      have : q = none := ho
      subst this
      unfold callOutcome at h ⊢
      dsimp only at h ⊢
      have hr := unit _ h
      have hr' : (RM.update d none persist kw (s.step (.update d none persist kw))).1 = .ok () :=
        (Twice.update_local_twice s d persist kw).2 _ hr
      rw [hr, hr']
    | reset q b =>
      have : q = none := ho
      subst this
      rfl
  · have hp := hq.config.isItem
    cases ho with
    | get =>
      have := (C100_same_result s hs q k hq).1
      unfold callOutcome
      dsimp only
      rw [this]
    | run =>
      have := (C100_same_result s hs q k hq).2
      unfold callOutcome
      dsimp only
      rw [this]
    | update d persist kw =>
      unfold callOutcome at h ⊢
      dsimp only at h ⊢
      have hr := unit _ h
      have hr' : (RM.update d (some q) persist kw (s.step (.update d (some q) persist kw))).1 = .ok () :=
        Twice.update_returns hp d persist kw hr
      rw [hr, hr']
    | reset =>
      unfold callOutcome at h ⊢
      dsimp only at h ⊢
      have hr := unit _ h
      have hr' : (RM.reset (some q) false (s.step (.reset (some q) false))).1 = .ok () := Twice.reset_returns hown hp hr
      rw [hr, hr']
    | refresh =>
      unfold callOutcome at h ⊢
      dsimp only at h ⊢
      have hr := unit _ h
      have hr' : (RM.refresh q (s.step (.refresh q))).1 = .ok () := Twice.refresh_returns (hrefl ⟨q, rfl⟩) hown hp hr
      rw [hr, hr']

/-! #### Example: an update of a function that has been created -/

example : (demoRunner demoFunc).Reachable ∧
    ForItem (demoRunner demoFunc) (.update none (some demoPath) true (Dict.ofList [("c", 7)])) ∧
    (∀ e, callOutcome (demoRunner demoFunc) (.update none (some demoPath) true (Dict.ofList [("c", 7)])) ≠ .raised e) ∧
    ((demoRunner demoFunc).step (.update none (some demoPath) true (Dict.ofList [("c", 7)]))).cm.view.slot demoPath ≠
      (demoRunner demoFunc).cm.view.slot demoPath :=
  ⟨demoRunner_reachable _, .inr ⟨_, _, demoRunner_item _, .update _ _ _⟩, (fun e h => by cases h), (fun h => by cases h)⟩

end Verif.Props

import Verif.Lemmas.RunnerItem

/-
The same operation on an item twice in a row.
-/

namespace Verif.Model
open Verif.Py
variable {V : Type}

/-- States that cannot be told apart by what can be looked up in them. -/
structure RS.Indist (s t : RS V) : Prop where
  view : s.cm.view = t.cm.view
  reg : s.reg = t.reg
  objs : s.objs = t.objs
  nextId : s.nextId = t.nextId

theorem RS.Indist.refl (s : RS V) : RS.Indist s s := ⟨rfl, rfl, rfl, rfl⟩
theorem RS.Indist.symm {s t : RS V} (h : RS.Indist s t) : RS.Indist t s :=
  ⟨h.view.symm, h.reg.symm, h.objs.symm, h.nextId.symm⟩
theorem RS.Indist.trans {s t u : RS V} (h : RS.Indist s t) (h' : RS.Indist t u) : RS.Indist s u :=
  ⟨h.view.trans h'.view, h.reg.trans h'.reg, h.objs.trans h'.objs, h.nextId.trans h'.nextId⟩

/-! ### Dictionaries and configs -/

theorem Dict.update_of_sub {d e : Dict String V} (h : ∀ k v, e.get? k = some v → d.get? k = some v) : d.update e = d := by
  apply Dict.ext_of_keys_get?
  · apply Dict.keys_update_of_subset
    intro k hk
    rw [Dict.mem_keys_iff] at hk ⊢
    obtain ⟨v, hv⟩ := Option.isSome_iff_exists.1 hk
    rw [h k v hv]; rfl
  · intro k
    rw [Dict.get?_update]
    cases he : e.get? k with
    | none => rfl
    | some v => rw [h k v he]; rfl

theorem Conf.update_twice (c : Conf V) (d : Option (Dict String V)) (persist : Bool) (kw : Dict String V) :
    (c.update d persist kw).update d persist kw = c.update d persist kw := by
  apply CMM.Conf.ext'
  · cases d with
    | none => exact Dict.foldl_update_twice c.values [Dict.empty, kw]
    | some e => exact Dict.foldl_update_twice c.values [e, kw]
  · cases persist with
    | false => rfl
    | true =>
      cases d with
      | none => exact Dict.foldl_update_twice c.applied [Dict.update Dict.empty kw]
      | some e => exact Dict.foldl_update_twice c.applied [e.update kw]
  · rfl

theorem Conf.refresh_eq {c c' : Conf V} {f U : Dict String V} (h : c.refresh f = .ok (c', U)) :
    c' = c.update none false (f.update c.applied) := by
  unfold Conf.refresh at h
  simp only at h
  split at h
  · cases h
  · cases h; rfl

theorem Conf.refresh_twice {c c' c'' : Conf V} {f U U' : Dict String V} (h : c.refresh f = .ok (c', U))
    (h' : c'.refresh f = .ok (c'', U')) : c'' = c' := by
  have e1 := Conf.refresh_eq h
  have e2 := Conf.refresh_eq h'
  subst e1
  rw [e2]
  exact Conf.update_twice c none false (f.update c.applied)

theorem Conf.refresh_sub {c c' : Conf V} {f U : Dict String V} (h : c.refresh f = .ok (c', U)) :
    ∀ k v, (f.update c'.applied).get? k = some v → c'.values.get? k = some v := by
  intro k v hk
  rw [Conf.refresh_eq h] at hk ⊢
  show (c.values.update (f.update c.applied)).get? k = _
  rw [Dict.get?_update]
  have : (f.update c.applied).get? k = some v := hk
  rw [this]; rfl

/-- After the sections have been applied to a refreshed config, it has all that a refresh would take over. -/
theorem Conf.active_sub {s : CM V} (ho : OwnFiles s.view) {p : List String} (hp : IsItem s p) {c c' : Conf V}
    (hf : c.file = some (.item p)) {f U : Dict String V} (h : c.refresh f = .ok (c', U)) :
    ∀ k v, (f.update (CMM.active s.view p c').applied).get? k = some v → (CMM.active s.view p c').values.get? k = some v := by
  have e1 := Conf.refresh_eq h
  by_cases he : c'.values.items.isEmpty = true
  · have : CMM.active s.view p c' = c' := by unfold CMM.active; rw [if_pos he]
    rw [this]
    exact Conf.refresh_sub h
  · have ha : CMM.active s.view p c' = CMM.overridden s.view p c' := by unfold CMM.active; rw [if_neg he]
    rw [ha]
    have hf' : c'.file = some (.item p) := by rw [e1]; exact hf
    have hl := CMM.levels_otherFile ho hp hf'
    intro k v hk
    unfold CMM.overridden at hk ⊢
    rw [CMM.foldl_applyLevel_applied _ _ hl, Dict.get?_update, CMM.get?_foldl_update] at hk
    rw [CMM.foldl_applyLevel_values _ _ hl, CMM.get?_foldl_update]
    have e4 := Conf.refresh_sub h k
    cases h1 : CMM.lastDef k (List.map CMM.levelValues (s.view.levels p ++ [some s.view.localConf])) with
    | some w => rw [h1] at hk; simpa using hk
    | none =>
      rw [h1] at hk
      simp only [Option.none_or] at hk ⊢
      exact e4 v (by rw [Dict.get?_update]; exact hk)

/-- After the sections have been applied to a refreshed config, refreshing it does nothing. -/
theorem Conf.refresh_active {s : CM V} (ho : OwnFiles s.view) {p : List String} (hp : IsItem s p) {c c' c'' : Conf V}
    (hf : c.file = some (.item p)) {f U U' : Dict String V} (h : c.refresh f = .ok (c', U))
    (h' : (CMM.active s.view p c').refresh f = .ok (c'', U')) : c'' = CMM.active s.view p c' := by
  rw [Conf.refresh_eq h']
  apply CMM.Conf.ext'
  · exact Dict.update_of_sub (Conf.active_sub ho hp hf h)
  · rfl
  · rfl

/-! ### The config manager -/

theorem IsItem.congr {s t : CM V} (h : s.view = t.view) {p : List String} (hp : IsItem s p) : IsItem t p :=
  ⟨hp.ne, by
    have : s.rootName = t.rootName := congrArg View.rootName h
    rw [← this]; exact hp.plain, by rw [← h]; exact hp.item⟩

theorem View.own_setConf (a : View V) (p : List String) (c : Conf V) : (a.setConf p c).own p = .ok c := by
  unfold View.own
  rw [View.setConf_slot_self]

namespace CMM

/-- The result of an update of an item. -/
def updateResult [BEq V] (c : Conf V) (d : Option (Dict String V)) (persist : Bool) (kw : Dict String V) :
    Except PyErr (Conf V × Bool) :=
  match determineWouldUpdate c d kw with
  | .error e => .error e
  | .ok false => .ok (c, false)
  | .ok true => if Conf.clash Conf.updateReserved kw then .error .typeError else .ok (c.update d persist kw, true)

theorem update_of_own [BEq V] {s : CM V} {p : List String} (hp : IsItem s p) {c : Conf V} (hc : s.view.own p = .ok c)
    (d : Option (Dict String V)) (persist : Bool) (kw : Dict String V) :
    (update d (some p) persist kw s).1 = updateResult c d persist kw ∧
    (update d (some p) persist kw s).2.view = s.view.setConf p (c.updated d persist kw) := by
  have hv := vupdate_item hp.item d persist kw
  rw [hc] at hv
  have hr := update_ref hp d persist kw
  unfold Ref at hr
  rw [hr] at hv
  have h1 := congrArg Prod.fst hv
  have h2 := congrArg Prod.snd hv
  unfold updateResult Conf.updated
  cases hd : determineWouldUpdate c d kw with
  | error e => simp only [hd] at h1 h2; exact ⟨h1, h2⟩
  | ok b =>
    cases b with
    | false => simp only [hd] at h1 h2; exact ⟨h1, h2⟩
    | true =>
      simp only [hd] at h1 h2
      dsimp only
      by_cases hcl : Conf.clash Conf.updateReserved kw = true
      · rw [if_pos hcl] at h1 h2; rw [if_pos hcl, if_pos hcl]; exact ⟨h1, h2⟩
      · rw [if_neg hcl] at h1 h2; rw [if_neg hcl, if_neg hcl]; exact ⟨h1, h2⟩

theorem update_of_own_error [BEq V] {s : CM V} {p : List String} (hp : IsItem s p) {e : PyErr}
    (hc : s.view.own p = .error e) (d : Option (Dict String V)) (persist : Bool) (kw : Dict String V) :
    (update d (some p) persist kw s).1 = .error e ∧ (update d (some p) persist kw s).2.view = s.view := by
  have hv := vupdate_item hp.item d persist kw
  rw [hc] at hv
  have hr := update_ref hp d persist kw
  unfold Ref at hr
  rw [hr] at hv
  exact ⟨congrArg Prod.fst hv, congrArg Prod.snd hv⟩

theorem updated_twice [BEq V] (c : Conf V) (d : Option (Dict String V)) (persist : Bool) (kw : Dict String V) :
    (c.updated d persist kw).updated d persist kw = c.updated d persist kw := by
  have h1 : c.updated d persist kw = c ∨ (c.updated d persist kw = c.update d persist kw) := by
    unfold Conf.updated
    split
    · split
      · exact .inl rfl
      · exact .inr rfl
    · exact .inl rfl
  rcases h1 with h1 | h1
  · rw [h1, h1]
  · have h2 : (c.updated d persist kw).updated d persist kw = c.updated d persist kw ∨
        (c.updated d persist kw).updated d persist kw = (c.updated d persist kw).update d persist kw := by
      unfold Conf.updated
      split
      · split
        · exact .inl rfl
        · exact .inr rfl
      · exact .inl rfl
    rcases h2 with h2 | h2
    · exact h2
    · rw [h2, h1, Conf.update_twice]

theorem updateResult_twice [BEq V] {c c' : Conf V} {d : Option (Dict String V)} {persist : Bool} {kw : Dict String V}
    (h : updateResult (c.updated d persist kw) d persist kw = .ok (c', true)) :
    updateResult c d persist kw = .ok (c', true) := by
  unfold updateResult Conf.updated at *
  cases hd : determineWouldUpdate c d kw with
  | error e => rw [hd] at h; simp only [hd] at h; cases h
  | ok b =>
    cases b with
    | false => rw [hd] at h; simp only [hd] at h; cases h
    | true =>
      rw [hd] at h
      dsimp only at h ⊢
      by_cases hcl : Conf.clash Conf.updateReserved kw = true
      · rw [if_pos hcl] at h ⊢
        split at h
        · cases h
        · cases h
        · rw [if_pos hcl] at h; cases h
      · rw [if_neg hcl] at h ⊢
        split at h
        · cases h
        · cases h
        · rw [if_neg hcl, Conf.update_twice] at h
          exact h

/-- The result and the config left by refreshing an item. -/
def refreshResult [BEq V] (fs : Files V) (c : Conf V) : Except PyErr (Conf V × Bool × Dict String V) × Conf V :=
  match c.file with
  | none => (.error .attributeError, c)
  | some loc => match fs.load loc with
    | .error e => (.error e, c)
    | .ok new =>
      if (c.changeFromRefresh new.values).items.isEmpty then (.ok (c, false, Dict.empty), c)
      else match c.refresh new.values with
        | .error e => (.error e, c)
        | .ok (c', updates) => (.ok (c', true, updates), c')

theorem refresh_of_own [BEq V] {s : CM V} {p : List String} (hp : IsItem s p) {c : Conf V} (hc : s.view.own p = .ok c) :
    (refresh p s).1 = (refreshResult s.view.fs c).1 ∧
    (refresh p s).2.view = s.view.setConf p (refreshResult s.view.fs c).2 := by
  have hv := vrefresh_item hp.item
  rw [hc] at hv
  have hr := refresh_ref (V := V) hp
  unfold Ref at hr
  rw [hr] at hv
  have h1 := congrArg Prod.fst hv
  have h2 := congrArg Prod.snd hv
  unfold refreshResult
  cases hf : c.file with
  | none => simp only [hf] at h1 h2; exact ⟨h1, h2⟩
  | some loc =>
    simp only [hf] at h1 h2
    dsimp only
    cases hl : s.view.fs.load loc with
    | error e => simp only [hl] at h1 h2; exact ⟨h1, h2⟩
    | ok new =>
      simp only [hl] at h1 h2
      dsimp only
      by_cases hch : (c.changeFromRefresh new.values).items.isEmpty = true
      · rw [if_pos hch] at h1 h2; rw [if_pos hch]; exact ⟨h1, h2⟩
      · rw [if_neg hch] at h1 h2; rw [if_neg hch]
        cases hre : c.refresh new.values with
        | error e => rw [hre] at h1 h2; exact ⟨h1, h2⟩
        | ok r => rw [hre] at h1 h2; exact ⟨h1, h2⟩

theorem refresh_of_own_error [BEq V] {s : CM V} {p : List String} (hp : IsItem s p) {e : PyErr}
    (hc : s.view.own p = .error e) : (refresh p s).1 = .error e ∧ (refresh p s).2.view = s.view := by
  have hv := vrefresh_item hp.item
  rw [hc] at hv
  have hr := refresh_ref (V := V) hp
  unfold Ref at hr
  rw [hr] at hv
  exact ⟨congrArg Prod.fst hv, congrArg Prod.snd hv⟩

/-- The result and the config left by resetting an item; `none` if it is not loaded. -/
def resetResult [BEq V] (a : View V) (p : List String) : Except PyErr (Node V × Bool) × View V :=
  match a.fs.load (.item p) with
  | .error e => (.error e, a)
  | .ok v => match a.own p with
    | .error e => if e = .keyError then (.ok (.conf v, true), a.setConf p v) else (.error e, a)
    | .ok c => match determineWouldUpdate c none v.values with
      | .error e => (.error e, a.setConf p c)
      | .ok true => (.ok (.conf v, true), a.setConf p v)
      | .ok false => (.ok (.conf v, false), a.setConf p c)

theorem reset_eq [BEq V] {s : CM V} {p : List String} (hp : IsItem s p) :
    (reset (some p) false s).1 = (resetResult s.view p).1 ∧
    (reset (some p) false s).2.view = (resetResult s.view p).2 := by
  have hv := vreset_item hp.item
  have hr := reset_ref (V := V) hp
  unfold Ref at hr
  rw [hr] at hv
  exact ⟨congrArg Prod.fst hv, congrArg Prod.snd hv⟩

theorem resetResult_twice [BEq V] (a : View V) (p : List String) :
    (resetResult (resetResult a p).2 p).2 = (resetResult a p).2 ∧
    ∀ n, (resetResult (resetResult a p).2 p).1 = .ok (n, true) → (resetResult a p).1 = .ok (n, true) := by
  cases hl : a.fs.load (.item p) with
  | error e =>
    have : resetResult a p = (.error e, a) := by unfold resetResult; rw [hl]
    rw [this, this]
    exact ⟨rfl, fun _ h => h⟩
  | ok v =>
    have key : ∀ c : Conf V, resetResult (a.setConf p c) p = match determineWouldUpdate c none v.values with
        | .error e => (.error e, a.setConf p c)
        | .ok true => (.ok (.conf v, true), a.setConf p v)
        | .ok false => (.ok (.conf v, false), a.setConf p c) := by
      intro c
      unfold resetResult
      rw [show (a.setConf p c).fs = a.fs from rfl, hl, View.own_setConf]
      dsimp only
      simp only [View.setConf_setConf]
    have keyv : (resetResult (a.setConf p v) p).2 = a.setConf p v ∧
        ∀ n, (resetResult (a.setConf p v) p).1 = .ok (n, true) → n = .conf v := by
      rw [key]
      split
      · exact ⟨rfl, fun _ h => by cases h⟩
      · exact ⟨rfl, fun _ h => by cases h; rfl⟩
      · exact ⟨rfl, fun _ h => by cases h⟩
    cases ho : a.own p with
    | error e =>
      by_cases he : e = .keyError
      · have h0 : resetResult a p = (.ok (.conf v, true), a.setConf p v) := by
          unfold resetResult; rw [hl, ho]; dsimp only; rw [if_pos he]
        rw [h0]
        exact ⟨keyv.1, fun n h => by rw [keyv.2 n h]⟩
      · have h0 : resetResult a p = (.error e, a) := by
          unfold resetResult; rw [hl, ho]; dsimp only; rw [if_neg he]
        rw [h0, h0]
        exact ⟨rfl, fun _ h => h⟩
    | ok c =>
      cases hd : determineWouldUpdate c none v.values with
      | error e =>
        have h0 : resetResult a p = (.error e, a.setConf p c) := by
          unfold resetResult; rw [hl, ho]; dsimp only; rw [hd]
        rw [h0, key, hd]
        exact ⟨rfl, fun _ h => h⟩
      | ok b =>
        cases b with
        | false =>
          have h0 : resetResult a p = (.ok (.conf v, false), a.setConf p c) := by
            unfold resetResult; rw [hl, ho]; dsimp only; rw [hd]
          rw [h0, key, hd]
          exact ⟨rfl, fun _ h => h⟩
        | true =>
          have h0 : resetResult a p = (.ok (.conf v, true), a.setConf p v) := by
            unfold resetResult; rw [hl, ho]; dsimp only; rw [hd]
          rw [h0]
          exact ⟨keyv.1, fun n h => by rw [keyv.2 n h]⟩

/-- Lookups in states with the same view are the same. -/
theorem get_congr {s t : CM V} (h : s.view = t.view) {p : List String} (hp : IsItem s p) :
    (get p s).1 = (get p t).1 ∧ (get p s).2.view = (get p t).2.view := by
  have h1 := get_ref hp
  have h2 := get_ref (hp.congr h)
  unfold Ref at h1 h2
  rw [h] at h1
  rw [h1] at h2
  exact Prod.mk.inj h2

/-- Looking up twice. -/
theorem get_twice {s : CM V} (ho : OwnFiles s.view) {p : List String} (hp : IsItem s p) :
    (get p (get p s).2).1 = (get p s).1 ∧ (get p (get p s).2).2.view = (get p s).2.view ∧ IsItem (get p s).2 p := by
  cases hc : s.view.own p with
  | error e =>
    obtain ⟨h1, h2⟩ := get_of_own_error hp hc
    have hp' := hp.congr h2.symm
    obtain ⟨h3, h4⟩ := get_congr h2 hp'
    rw [h3, h4]
    exact ⟨rfl, rfl, hp'⟩
  | ok c =>
    obtain ⟨h1, h2⟩ := get_of_own hp hc
    have hp' : IsItem (get p s).2 p := by
      refine ⟨hp.ne, ?_, ?_⟩
      · have : (get p s).2.rootName = s.rootName := congrArg View.rootName h2
        rw [this]; exact hp.plain
      · rw [h2, View.setConf_slot_self]; rfl
    have hc' : (get p s).2.view.own p = .ok (active s.view p c) := by rw [h2, View.own_setConf]
    obtain ⟨h3, h4⟩ := get_of_own hp' hc'
    have hact : ∀ d, active (get p s).2.view p d = active s.view p d := by
      intro d
      rw [h2]
      apply active_congr
      · rfl
      · intro k hk
        apply View.setConf_slot_ne
        intro hh
        have := congrArg List.length hh
        rw [List.length_take] at this
        omega
    have hf : c.file = some (.item p) := ho.own hp.plain hc
    rw [hact, active_idem ho hp hf] at h3 h4
    refine ⟨h3.trans h1.symm, ?_, hp'⟩
    rw [h4, h2, View.setConf_setConf]

end CMM
end Verif.Model

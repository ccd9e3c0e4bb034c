import Verif.Lemmas.ObjectSteps

/-
The config manager with objects and the config manager as a tree do the same.
-/

namespace Verif.Model
open Verif.Py
variable {V : Type}

theorem View.clean_slot {a : View V} {q : List String} (h : CleanPath a.rootName q) : a.clean.slot q = a.slot q := if_pos h

theorem View.clean_own {a : View V} {q : List String} (h : CleanPath a.rootName q) : a.clean.own q = a.own q := by
  unfold View.own
  rw [View.clean_slot h]
  rfl

theorem View.clean_put {a : View V} {pl : Place} (h : pl.Clean a.rootName) (c : Conf V) :
    (a.put pl c).clean = a.clean.put pl c := by
  have hr : (a.put pl c).rootName = a.rootName := by cases pl <;> rfl
  have hs : ∀ q, (a.put pl c).clean.slot q = (a.clean.put pl c).slot q := by
    intro q
    rw [View.put_slot]
    show (if CleanPath (a.put pl c).rootName q then _ else _) = _
    rw [hr]
    by_cases hq : CleanPath a.rootName q
    · rw [if_pos hq, View.put_slot, View.clean_slot hq]
    · rw [if_neg hq, if_neg (by rintro rfl; exact hq h), if_neg (by rintro rfl; exact hq h)]
      exact (if_neg hq).symm
  have e1 : (a.put pl c).clean = ⟨(a.put pl c).fs, (a.put pl c).rootName, (a.put pl c).localConf, (a.put pl c).clean.slot⟩ := rfl
  have e2 : a.clean.put pl c = ⟨(a.put pl c).fs, (a.put pl c).rootName, (a.put pl c).localConf, (a.clean.put pl c).slot⟩ := by
    cases pl <;> rfl
  rw [e1, e2, funext hs]

theorem View.clean_sectCfg {a : View V} {q : List String} (h : CleanPath a.rootName q) : a.clean.sectCfg q = a.sectCfg q := by
  unfold View.sectCfg
  rw [View.clean_slot h]

theorem CleanPath.take {rn : String} {p : List String} (h : CleanPath rn p) (k : Nat) : CleanPath rn (p.take k) :=
  CleanPath.prefix (p.drop k) _ (by rw [List.take_append_drop]; exact h)

theorem View.clean_levelsAt {a : View V} {pl : Place} (h : pl.Clean a.rootName) : a.clean.levelsAt pl = a.levelsAt pl := by
  cases pl with
  | item p =>
    unfold View.levelsAt View.levels
    apply List.map_congr_left
    intro k _
    exact View.clean_sectCfg (CleanPath.take h k)
  | cfg p =>
    unfold View.levelsAt
    apply List.map_congr_left
    intro k _
    exact View.clean_sectCfg (CleanPath.take h k)
  | loc => rfl
  | root => rfl

theorem View.clean_ownAt {a : View V} {pl : Place} (h : pl.Clean a.rootName) : a.clean.ownAt pl = a.ownAt pl := by
  cases pl with
  | item p => simp only [View.ownAt]; rw [View.clean_own h]
  | cfg p => simp only [View.ownAt]; rw [View.clean_sectCfg h]
  | loc => rfl
  | root => rfl

/-- A config that is there is there already. -/
theorem View.put_own {a : View V} {pl : Place} {c : Conf V} (hi : ∀ p, pl ≠ .item p) (h : a.ownAt pl = .ok (some c)) :
    a.put pl c = a := by
  cases pl with
  | item p => exact absurd rfl (hi p)
  | cfg p =>
    simp only [View.ownAt, Except.ok.injEq] at h
    show View.mk _ _ _ _ = _
    have : (fun q => if q = p then Slot.sect (some c) else a.slot q) = a.slot := by
      funext q
      by_cases hq : q = p
      · rw [if_pos hq, hq]
        unfold View.sectCfg at h
        cases hs : a.slot p with
        | sect cfg => rw [hs] at h; rw [← h]
        | conf c' => rw [hs] at h; cases h
        | file l => rw [hs] at h; cases h
        | absent => rw [hs] at h; cases h
      · rw [if_neg hq]
    rw [this]
  | loc =>
    simp only [View.ownAt, Except.ok.injEq, Option.some.injEq] at h
    show View.mk _ _ _ _ = _
    rw [← h]
  | root => rfl

namespace CM

/-- The config that a call is about, in the tree. -/
inductive Target (t : CM V) : Option (List String) → Place → Prop where
  | item {p : List String} : CleanPath t.rootName p → (t.view.slot p).isItem = true → p ≠ [] → Target t (some p) (.item p)
  | sect {p : List String} {cfg : Option (Conf V)} : CleanPath t.rootName p → p ≠ [] → t.view.slot p = .sect cfg →
    Target t (some p) (.cfg p)
  | loc : Target t none .loc

theorem Target.clean {t : CM V} {p pl} (h : t.Target p pl) : pl.Clean t.rootName := by
  cases h with
  | item hp _ _ => exact hp
  | sect hp _ _ => exact hp
  | loc => trivial

/-- What is loaded for a section or for the local config. -/
theorem target_run {t : CM V} {p : Option (List String)} {pl : Place} (h : t.Target p pl) (hi : ∀ q, pl ≠ .item q) :
    CMM.getProjectOrLocal p t = (t.view.ownAt pl, t) := by
  cases h with
  | @item p _ _ _ => exact absurd rfl (hi p)
  | @sect p cfg hp hne hs =>
    show CMM.getFuncOrSectionConfigs p t = _
    rw [CMM.getFunc_sect hs]
    simp only [View.ownAt, View.sectCfg, hs]
  | loc => rfl

/-- Changing that config in place. -/
theorem writeBack_view {t : CM V} {p : Option (List String)} {pl : Place} (h : t.Target p pl) (hi : ∀ q, pl ≠ .item q)
    {c : Conf V} (hc : t.view.ownAt pl = .ok (some c)) (g : Conf V → Conf V) :
    ∃ t', CMM.writeBack p g t = (.ok (), t') ∧ t'.view.clean = t.view.clean.put pl (g c) := by
  cases h with
  | @item p _ _ _ => exact absurd rfl (hi p)
  | @sect p cfg hp hne hs =>
    refine ⟨t.modifyAt p (Node.mapConf g), rfl, ?_⟩
    rw [← View.clean_put (a := t.view) (pl := .cfg p) hp]
    show View.mk _ _ _ _ = View.mk _ _ _ _
    congr 1
    funext q
    show (if CleanPath t.rootName q then _ else _) = (if CleanPath t.rootName q then _ else _)
    by_cases hq : CleanPath t.rootName q
    · rw [if_pos hq, if_pos hq]
      show Node.slot managerReserved t.rootName (t.root.modifyAt managerReserved t.rootName p (Node.mapConf g)) q = _
      rw [Node.slot_modifyAt_mapConf_plain g p _ _ _ _ hp.1 hq.1]
      simp only [View.put]
      by_cases hqp : q = p
      · rw [if_pos hqp, if_pos hqp]
        simp only [View.ownAt, View.sectCfg, hs, Except.ok.injEq] at hc
        subst hc
        show (t.view.slot p).mapConf g = _
        rw [hs]
        rfl
      · rw [if_neg hqp, if_neg hqp]
        rfl
    · rw [if_neg hq, if_neg hq]
  | loc =>
    simp only [View.ownAt, Except.ok.injEq, Option.some.injEq] at hc
    subst hc
    exact ⟨_, rfl, rfl⟩

end CM

namespace CMM
variable {t : CM V} {pl : Place}

theorem isItem_of {p : List String} (hp : CleanPath t.rootName p) (hne : p ≠ []) (h : (t.view.slot p).isItem = true) :
    IsItem t p := ⟨hne, hp.1, h⟩

theorem update_tree [BEq V] {p : Option (List String)} (ht : t.Target p pl) (d : Option (Dict String V)) (persist : Bool)
    (kw : Dict String V) : match t.view.ownAt pl with
    | .error e => (update d p persist kw t).1 = .error e ∧ (update d p persist kw t).2.view.clean = t.view.clean
    | .ok none => (update d p persist kw t).1 = .error .notLoaded ∧ (update d p persist kw t).2.view.clean = t.view.clean
    | .ok (some c) => (update d p persist kw t).1 = (kUpdate d persist kw c).1.map (fun b => ((kUpdate d persist kw c).2, b)) ∧
        (update d p persist kw t).2.view.clean = t.view.clean.put pl (kUpdate d persist kw c).2 := by
  by_cases hitem : ∃ q, pl = .item q
  · obtain ⟨q, rfl⟩ := hitem
    cases ht with
    | item hp hs hne =>
    have hit := isItem_of hp hne hs
    have hr := update_ref hit d persist kw
    unfold Ref at hr
    have hv := vupdate_item hs d persist kw
    rw [hr] at hv
    have h1 := congrArg Prod.fst hv
    have h2 := congrArg Prod.snd hv
    simp only at h1 h2
    rw [h1, h2]
    simp only [View.ownAt]
    cases t.view.own q with
    | error e => exact ⟨rfl, rfl⟩
    | ok c =>
      simp only
      rw [← View.clean_put (a := t.view) (pl := .item q) hp]
      unfold kUpdate
      cases determineWouldUpdate c d kw with
      | error e => exact ⟨rfl, rfl⟩
      | ok b =>
        cases b with
        | false => exact ⟨rfl, rfl⟩
        | true =>
          simp only
          split
          · exact ⟨rfl, rfl⟩
          · exact ⟨rfl, rfl⟩
  · have hi : ∀ q, pl ≠ .item q := fun q e => hitem ⟨q, e⟩
    have hg := CM.target_run ht hi
    unfold update
    rw [M.bind_run, hg]
    cases hown : t.view.ownAt pl with
    | error e => exact ⟨rfl, rfl⟩
    | ok oc =>
      cases oc with
      | none => exact ⟨rfl, rfl⟩
      | some c =>
        simp only
        have hself : t.view.clean.put pl c = t.view.clean := View.put_own hi (by rw [View.clean_ownAt (a := t.view) ht.clean]; exact hown)
        rw [M.bind_run, M.liftE_run]
        unfold kUpdate
        cases determineWouldUpdate c d kw with
        | error e => exact ⟨rfl, hself.symm⟩
        | ok b =>
          cases b with
          | false => exact ⟨rfl, hself.symm⟩
          | true =>
            simp only [if_true]
            split
            · exact ⟨rfl, hself.symm⟩
            · obtain ⟨t', h1, h2⟩ := CM.writeBack_view ht hi hown (fun c => c.update d persist kw)
              rw [M.bind_ok h1]
              exact ⟨rfl, h2⟩

theorem refresh_eq [BEq V] {c c' : Conf V} {new updates : Dict String V} (h : c.refresh new = .ok (c', updates)) :
    c' = c.update none false updates := by
  unfold Conf.refresh at h
  dsimp only at h
  split at h
  · cases h
  · cases h; rfl

theorem refresh_tree [BEq V] {p : List String} (ht : t.Target (some p) pl) : match t.view.ownAt pl with
    | .error e => (refresh p t).1 = .error e ∧ (refresh p t).2.view.clean = t.view.clean
    | .ok none => (refresh p t).1 = .error .notLoaded ∧ (refresh p t).2.view.clean = t.view.clean
    | .ok (some c) => (refresh p t).1 = (kRefresh t.fs c).1.map (fun b => ((kRefresh t.fs c).2, b)) ∧
        (refresh p t).2.view.clean = t.view.clean.put pl (kRefresh t.fs c).2 := by
  by_cases hitem : ∃ q, pl = .item q
  · obtain ⟨q, rfl⟩ := hitem
    cases ht with
    | item hp hs hne =>
    have hit := isItem_of hp hne hs
    have hr := refresh_ref hit
    unfold Ref at hr
    have hv := vrefresh_item hs
    rw [hr] at hv
    have h1 := congrArg Prod.fst hv
    have h2 := congrArg Prod.snd hv
    simp only at h1 h2
    rw [h1, h2]
    simp only [View.ownAt]
    cases t.view.own p with
    | error e => exact ⟨rfl, rfl⟩
    | ok c =>
      simp only
      rw [← View.clean_put (a := t.view) (pl := .item p) hp]
      unfold kRefresh
      cases c.file with
      | none => exact ⟨rfl, rfl⟩
      | some loc =>
        simp only
        show _ ∧ _
        rw [show t.view.fs = t.fs from rfl]
        cases t.fs.load loc with
        | error e => exact ⟨rfl, rfl⟩
        | ok new =>
          simp only
          split
          · exact ⟨rfl, rfl⟩
          · cases c.refresh new.values with
            | error e => exact ⟨rfl, rfl⟩
            | ok r => exact ⟨rfl, rfl⟩
  · have hi : ∀ q, pl ≠ .item q := fun q e => hitem ⟨q, e⟩
    have hg := CM.target_run ht hi
    unfold refresh
    rw [M.bind_run, hg]
    cases hown : t.view.ownAt pl with
    | error e => exact ⟨rfl, rfl⟩
    | ok oc =>
      cases oc with
      | none => exact ⟨rfl, rfl⟩
      | some c =>
        simp only
        have hself : t.view.clean.put pl c = t.view.clean := View.put_own hi (by rw [View.clean_ownAt (a := t.view) ht.clean]; exact hown)
        have hn : newConfigFromFile c t = ((match c.file with | none => .error .attributeError | some loc => t.fs.load loc), t) := by
          unfold newConfigFromFile
          rw [M.bind_ok (M.get_run t)]
          cases c.file <;> rfl
        rw [M.bind_run, hn]
        unfold kRefresh
        cases hf : c.file with
        | none => exact ⟨rfl, hself.symm⟩
        | some loc =>
          simp only
          cases hl : t.fs.load loc with
          | error e => exact ⟨rfl, hself.symm⟩
          | ok new =>
            simp only
            split
            · exact ⟨rfl, hself.symm⟩
            · rw [M.bind_run, hn, hf]
              simp only [hl]
              cases hcr : c.refresh new.values with
              | error e => exact ⟨rfl, hself.symm⟩
              | ok r =>
                obtain ⟨c', updates⟩ := r
                simp only
                obtain ⟨t', h1, h2⟩ := CM.writeBack_view ht hi hown (fun c => c.update none false updates)
                rw [M.bind_ok h1]
                exact ⟨rfl, by rw [refresh_eq hcr]; exact h2⟩

theorem pop_tree {p : Option (List String)} (ht : t.Target p pl) (key : String) : match t.view.ownAt pl with
    | .error e => (pop key p t).1 = .error e ∧ (pop key p t).2.view.clean = t.view.clean
    | .ok none => (pop key p t).1 = .error .notLoaded ∧ (pop key p t).2.view.clean = t.view.clean
    | .ok (some c) => (pop key p t).1 = (kPop key c).1 ∧ (pop key p t).2.view.clean = t.view.clean.put pl (kPop key c).2 := by
  by_cases hitem : ∃ q, pl = .item q
  · obtain ⟨q, rfl⟩ := hitem
    cases ht with
    | item hp hs hne =>
    have hit := isItem_of hp hne hs
    have hr := pop_ref hit key
    unfold Ref at hr
    have hv := vpop_item hs key
    rw [hr] at hv
    have h1 := congrArg Prod.fst hv
    have h2 := congrArg Prod.snd hv
    simp only at h1 h2
    rw [h1, h2]
    simp only [View.ownAt]
    cases t.view.own q with
    | error e => exact ⟨rfl, rfl⟩
    | ok c =>
      simp only
      rw [← View.clean_put (a := t.view) (pl := .item q) hp]
      unfold kPop
      cases c.values.get? key with
      | none => exact ⟨rfl, rfl⟩
      | some v => exact ⟨rfl, rfl⟩
  · have hi : ∀ q, pl ≠ .item q := fun q e => hitem ⟨q, e⟩
    have hg := CM.target_run ht hi
    unfold pop
    rw [M.bind_run, hg]
    cases hown : t.view.ownAt pl with
    | error e => exact ⟨rfl, rfl⟩
    | ok oc =>
      cases oc with
      | none => exact ⟨rfl, rfl⟩
      | some c =>
        simp only
        have hself : t.view.clean.put pl c = t.view.clean := View.put_own hi (by rw [View.clean_ownAt (a := t.view) ht.clean]; exact hown)
        unfold kPop
        cases c.values.get? key with
        | none => exact ⟨rfl, hself.symm⟩
        | some v =>
          simp only
          obtain ⟨t', h1, h2⟩ := CM.writeBack_view ht hi hown (fun c => { c with values := c.values.del key })
          rw [M.bind_ok h1]
          exact ⟨rfl, h2⟩

theorem sectionConfigs_sect (rest : List String) : ∀ (pre : List String) (x : String), IsSect t (pre ++ rest) →
    sectionConfigsFrom pre (x :: rest) t =
      (.ok ((List.range (rest.length + 1)).map (fun k => t.view.sectCfg (pre ++ rest.take k))), t) := by
  induction rest with
  | nil =>
    intro pre x h
    rw [List.append_nil] at h
    obtain ⟨cfg, hs⟩ := h.sect
    obtain ⟨attrs, map, hw⟩ := CM.walk_of_slot_sect hs
    rw [sectionConfigsFrom, M.bind_ok (M.get_run t), M.bind_run, M.liftE_run, hw]
    simp only
    rw [M.bind_ok (getFunc_sect hs)]
    simp [List.range_succ, View.sectCfg, hs]
  | cons y rest ih =>
    intro pre x h
    have hpre : ∃ cfg, t.view.slot pre = .sect cfg := by
      have := h.prefix_sect pre.length
      simpa using this
    obtain ⟨cfg, hs⟩ := hpre
    have hr := ih (pre ++ [y]) y (by simpa using h)
    rw [sectionConfigsFrom, M.bind_ok (getFunc_sect hs), M.bind_ok hr]
    rw [List.length_cons, List.range_succ_eq_map (n := rest.length + 1)]
    simp only [List.map_cons, List.map_map, List.take_zero, List.append_nil]
    have e1 : t.view.sectCfg pre = cfg := by unfold View.sectCfg; rw [hs]
    rw [e1]
    show (Except.ok _, t) = _
    congr 2
    congr 1
    apply List.map_congr_left
    intro k _
    simp [List.append_assoc]

theorem get_tree {p : List String} (ht : t.Target (some p) pl) : match t.view.ownAt pl with
    | .error e => (get p t).1 = .error e ∧ (get p t).2.view.clean = t.view.clean
    | .ok none => (get p t).1 = .ok none ∧ (get p t).2.view.clean = t.view.clean
    | .ok (some c) => (get p t).1 = .ok (some (kGet (t.view.levelsAt pl ++ [some t.localConf]) c)) ∧
        (get p t).2.view.clean = t.view.clean.put pl (kGet (t.view.levelsAt pl ++ [some t.localConf]) c) := by
  by_cases hitem : ∃ q, pl = .item q
  · obtain ⟨q, rfl⟩ := hitem
    cases ht with
    | item hp hs hne =>
    have hit := isItem_of hp hne hs
    simp only [View.ownAt]
    cases hown : t.view.own p with
    | error e =>
      obtain ⟨h1, h2⟩ := get_of_own_error hit hown
      exact ⟨h1, by rw [h2]⟩
    | ok c =>
      obtain ⟨h1, h2⟩ := get_of_own hit hown
      simp only
      rw [← View.clean_put (a := t.view) (pl := .item p) hp, h1, h2]
      exact ⟨rfl, rfl⟩
  · have hi : ∀ q, pl ≠ .item q := fun q e => hitem ⟨q, e⟩
    have hg := CM.target_run ht hi
    cases ht with
    | @item p _ _ _ => exact absurd rfl (hi p)
    | @sect p cfg hp hne hs =>
      obtain ⟨x, rest, rfl⟩ : ∃ x rest, p = x :: rest := by
        cases p with
        | nil => exact absurd rfl hne
        | cons x rest => exact ⟨x, rest, rfl⟩
      have hsec : IsSect t ([x] ++ rest) := ⟨hp.1, cfg, hs⟩
      have hr := sectionConfigs_sect rest [x] x hsec
      have hproj : t.projectConf = t.view.sectCfg [] := by
        have h0 := hsec.prefix_sect 0
        obtain ⟨cfg0, h0⟩ := h0
        simp only [List.take_zero] at h0
        unfold CM.projectConf View.sectCfg
        rw [h0]
        simp only [CM.view, Node.slot, Node.walk] at h0
        cases hroot : t.root with
        | sect c a m => rw [hroot] at h0; simp [Node.slotOf] at h0; exact h0
        | _ => rw [hroot] at h0; simp [Node.slotOf] at h0
      have hlev : t.projectConf :: (List.range (rest.length + 1)).map (fun k => t.view.sectCfg ([x] ++ rest.take k)) =
          t.view.levelsAt (.cfg (x :: rest)) := by
        rw [hproj]
        simp only [View.levelsAt, List.length_cons]
        rw [List.range_succ_eq_map (n := rest.length + 1)]
        simp [Function.comp_def]
      unfold get
      rw [M.bind_run, show getFuncOrSectionConfigs (x :: rest) t = _ from hg]
      cases hown : t.view.ownAt (.cfg (x :: rest)) with
      | error e => exact ⟨rfl, rfl⟩
      | ok oc =>
        simp only
        rw [M.bind_ok (M.get_run t)]
        rw [M.bind_ok (show sectionConfigsFrom ((x :: rest).take 1) (x :: rest) t = _ from hr)]
        cases oc with
        | none => exact ⟨rfl, rfl⟩
        | some c =>
          simp only
          have hself : t.view.clean.put (.cfg (x :: rest)) c = t.view.clean :=
            View.put_own hi (by rw [View.clean_ownAt (a := t.view) (pl := .cfg (x :: rest)) hp]; exact hown)
          unfold kGet
          split
          · exact ⟨rfl, hself.symm⟩
          · rw [M.bind_ok (M.get_run t)]
            rw [hlev]
            obtain ⟨t', h1, h2⟩ := CM.writeBack_view (CM.Target.sect hp hne hs) hi hown
              (fun c => (t.view.levelsAt (.cfg (x :: rest)) ++ [some t.localConf]).foldl applyLevel c)
            rw [M.bind_ok h1]
            exact ⟨rfl, h2⟩

end CMM

/-! ### Step by step -/

/-- What a call answers, with the contents of the config object that it returns; a reset may return a section. -/
inductive CallAnswer (V : Type) where
  | config (c : Option (Conf V))
  | updated (c : Conf V) (b : Bool)
  | replaced (b : Bool)
  | refreshed (c : Conf V) (b : Bool) (d : Dict String V)
  | popped (v : V)
  | done

/-- The answer of the manager with objects. -/
def HS.answer [BEq V] (s : HS V) : CMOp V → Except PyErr (CallAnswer V)
  | .update d p persist kw => match HM.update d p persist kw s with
    | (.ok (r, b), s') => match s'.confAt r with
      | some c => .ok (.updated c b)
      | none => .error .attributeError
    | (.error e, _) => .error e
  | .refresh p => match HM.refresh p s with
    | (.ok (r, b, d), s') => match s'.confAt r with
      | some c => .ok (.refreshed c b d)
      | none => .error .attributeError
    | (.error e, _) => .error e
  | .get p => match HM.get p s with
    | (.ok (some r), s') => match s'.confAt r with
      | some c => .ok (.config (some c))
      | none => .error .attributeError
    | (.ok none, _) => .ok (.config none)
    | (.error e, _) => .error e
  | .reset p b => match HM.reset p b s with
    | (.ok (r, b), s') => match s'.heap[r]? with
      | some (.conf c) => .ok (.updated c b)
      | some (.sect _ _ _ _) => .ok (.replaced b)
      | _ => .error .attributeError
    | (.error e, _) => .error e
  | .pop key p => match HM.pop key p s with
    | (.ok v, _) => .ok (.popped v)
    | (.error e, _) => .error e
  | .edit _ => .ok .done

/-- The answer of the manager as a tree. -/
def CM.answer [BEq V] (t : CM V) : CMOp V → Except PyErr (CallAnswer V)
  | .update d p persist kw => match (CMM.update d p persist kw t).1 with
    | .ok (c, b) => .ok (.updated c b)
    | .error e => .error e
  | .refresh p => match (CMM.refresh p t).1 with
    | .ok (c, b, d) => .ok (.refreshed c b d)
    | .error e => .error e
  | .get p => match (CMM.get p t).1 with
    | .ok c => .ok (.config c)
    | .error e => .error e
  | .reset p b => match (CMM.reset p b t).1 with
    | .ok (.conf c, b) => .ok (.updated c b)
    | .ok (.sect _ _ _, b) => .ok (.replaced b)
    | .ok (_, _) => .error .attributeError
    | .error e => .error e
  | .pop key p => match (CMM.pop key p t).1 with
    | .ok v => .ok (.popped v)
    | .error e => .error e
  | .edit _ => .ok .done

/-- The two managers hold the same. -/
structure Linked (s : HS V) (t : CM V) : Prop where
  fine : s.Fine
  view : s.view = t.view.clean

namespace Linked
variable {s : HS V} {t : CM V}

theorem rootName (h : Linked s t) : s.rootName = t.rootName := congrArg View.rootName h.view
theorem fs (h : Linked s t) : s.fs = t.fs := congrArg View.fs h.view

theorem target (h : Linked s t) {p : Option (List String)} {pl : Place} (ht : s.Target p pl) : t.Target p pl := by
  have hne : ∀ q, p = some q → q ≠ [] := by
    rintro q rfl
    exact ht.ne_nil h.fine.inv
  cases ht with
  | @item p hp hs =>
    have hp' : CleanPath t.rootName p := by rw [← h.rootName]; exact hp
    refine .item hp' ?_ (hne p rfl)
    rw [← View.clean_slot (a := t.view) hp', ← h.view, HS.view_slot hp]
    exact hs
  | @sect p cfg hp hn hs =>
    have hp' : CleanPath t.rootName p := by rw [← h.rootName]; exact hp
    refine .sect hp' hn (cfg := cfg) ?_
    rw [← View.clean_slot (a := t.view) hp', ← h.view, HS.view_slot hp]
    exact hs
  | loc => exact .loc

theorem ownAt (h : Linked s t) {pl : Place} (hp : pl.Clean s.rootName) : t.view.ownAt pl = s.view.ownAt pl := by
  rw [h.view, View.clean_ownAt (a := t.view)]
  rw [← show s.rootName = t.view.rootName from h.rootName]
  exact hp

theorem put {s' : HS V} {t' : CM V} (h : Linked s t) {pl : Place} {r : Nat} {c : Conf V} (hd : s.Done s' pl r c)
    (hc : c.file = pl.file) (hv : t'.view.clean = t.view.clean.put pl c) : Linked s' t' :=
  ⟨⟨hd.inv, by rw [hd.view]; exact h.fine.own.put hc⟩, by rw [hd.view, hv, h.view]⟩

theorem still {t' : CM V} (h : Linked s t) (hv : t'.view.clean = t.view.clean) : Linked s t' :=
  ⟨h.fine, by rw [hv]; exact h.view⟩

variable [BEq V]

theorem update (h : Linked s t) {p : Option (List String)} {pl : Place} (ht : s.Target p pl) (d : Option (Dict String V))
    (persist : Bool) (kw : Dict String V) : s.answer (.update d p persist kw) = t.answer (.update d p persist kw) ∧
      Linked (s.step (.update d p persist kw)) (t.step (.update d p persist kw)) := by
  have h1 := HM.target_run h.fine.inv ht
  have h2 := CMM.update_tree (h.target ht) d persist kw
  rw [h.ownAt ht.clean] at h2
  simp only [HS.answer, CM.answer, HS.step, CM.step]
  cases hown : s.view.ownAt pl with
  | error e =>
    rw [hown] at h1 h2
    have : HM.update d p persist kw s = (.error e, s) := by unfold HM.update; rw [M.bind_error h1]
    rw [this, h2.1]
    exact ⟨rfl, h.still h2.2⟩
  | ok oc =>
    rw [hown] at h1 h2
    cases oc with
    | none =>
      have : HM.update d p persist kw s = (.error .notLoaded, s) := by unfold HM.update; rw [M.bind_ok h1]; rfl
      rw [this, h2.1]
      exact ⟨rfl, h.still h2.2⟩
    | some c =>
      obtain ⟨r, s1, hg, hd⟩ := h1
      have hd' := hd.write ht.clean (kUpdate d persist kw c).2
      have hcf : (kUpdate d persist kw c).2.file = pl.file := by
        rw [kUpdate_file]; exact h.fine.own.ownAt_file ht.clean hown
      rw [HM.update_run hg hd.conf, h2.1]
      refine ⟨?_, h.put hd' hcf h2.2⟩
      cases (kUpdate d persist kw c).1 with
      | error e => rfl
      | ok b => simp only [Except.map, HS.confAt_some.2 hd'.conf]

theorem refresh (h : Linked s t) {p : List String} {pl : Place} (ht : s.Target (some p) pl) :
    s.answer (.refresh p) = t.answer (.refresh p) ∧ Linked (s.step (.refresh p)) (t.step (.refresh p)) := by
  have h1 := HM.target_run h.fine.inv ht
  have h2 := CMM.refresh_tree (h.target ht)
  rw [h.ownAt ht.clean] at h2
  simp only [HS.answer, CM.answer, HS.step, CM.step]
  cases hown : s.view.ownAt pl with
  | error e =>
    rw [hown] at h1 h2
    have : HM.refresh p s = (.error e, s) := by unfold HM.refresh; rw [M.bind_error h1]
    rw [this, h2.1]
    exact ⟨rfl, h.still h2.2⟩
  | ok oc =>
    rw [hown] at h1 h2
    cases oc with
    | none =>
      have : HM.refresh p s = (.error .notLoaded, s) := by unfold HM.refresh; rw [M.bind_ok h1]; rfl
      rw [this, h2.1]
      exact ⟨rfl, h.still h2.2⟩
    | some c =>
      obtain ⟨r, s1, hg, hd⟩ := h1
      simp only at h2
      rw [← h.fs] at h2
      have hd' := hd.write ht.clean (kRefresh s.fs c).2
      have hcf : (kRefresh s.fs c).2.file = pl.file := by
        rw [kRefresh_file]; exact h.fine.own.ownAt_file ht.clean hown
      rw [HM.refresh_run hg hd.conf, h2.1, hd.fs]
      refine ⟨?_, h.put hd' hcf h2.2⟩
      cases (kRefresh s.fs c).1 with
      | error e => rfl
      | ok b => obtain ⟨b, d⟩ := b; simp only [Except.map, HS.confAt_some.2 hd'.conf]

theorem pop (h : Linked s t) {p : Option (List String)} {pl : Place} (ht : s.Target p pl) (key : String) :
    s.answer (.pop key p) = t.answer (.pop key p) ∧ Linked (s.step (.pop key p)) (t.step (.pop key p)) := by
  have h1 := HM.target_run h.fine.inv ht
  have h2 := CMM.pop_tree (h.target ht) key
  rw [h.ownAt ht.clean] at h2
  simp only [HS.answer, CM.answer, HS.step, CM.step]
  cases hown : s.view.ownAt pl with
  | error e =>
    rw [hown] at h1 h2
    have : HM.pop key p s = (.error e, s) := by unfold HM.pop; rw [M.bind_error h1]
    rw [this, h2.1]
    exact ⟨rfl, h.still h2.2⟩
  | ok oc =>
    rw [hown] at h1 h2
    cases oc with
    | none =>
      have : HM.pop key p s = (.error .notLoaded, s) := by unfold HM.pop; rw [M.bind_ok h1]; rfl
      rw [this, h2.1]
      exact ⟨rfl, h.still h2.2⟩
    | some c =>
      obtain ⟨r, s1, hg, hd⟩ := h1
      have hd' := hd.write ht.clean (kPop key c).2
      have hcf : (kPop key c).2.file = pl.file := by
        rw [kPop_file]; exact h.fine.own.ownAt_file ht.clean hown
      rw [HM.pop_run hg hd.conf, h2.1]
      refine ⟨?_, h.put hd' hcf h2.2⟩
      cases (kPop key c).1 with
      | error e => rfl
      | ok b => rfl

theorem get (h : Linked s t) {p : List String} {pl : Place} (ht : s.Target (some p) pl) :
    s.answer (.get p) = t.answer (.get p) ∧ Linked (s.step (.get p)) (t.step (.get p)) := by
  have h1 := HM.get_run h.fine.inv h.fine.own ht
  have h2 := CMM.get_tree (h.target ht)
  rw [h.ownAt ht.clean] at h2
  simp only [HS.answer, CM.answer, HS.step, CM.step]
  cases hown : s.view.ownAt pl with
  | error e =>
    rw [hown] at h1 h2
    simp only at h1
    rw [h1, h2.1]
    exact ⟨rfl, h.still h2.2⟩
  | ok oc =>
    rw [hown] at h1 h2
    cases oc with
    | none =>
      simp only at h1
      rw [h1, h2.1]
      exact ⟨rfl, h.still h2.2⟩
    | some c =>
      obtain ⟨r, s1, hg, hd⟩ := h1
      simp only at h2
      have hl : t.view.levelsAt pl = s.view.levelsAt pl := by
        rw [h.view, View.clean_levelsAt (a := t.view)]
        rw [← show s.rootName = t.view.rootName from h.rootName]
        exact ht.clean
      have hlc : t.localConf = s.view.localConf := by rw [h.view]; rfl
      rw [hl, hlc] at h2
      have hcf : (kGet (s.view.levelsAt pl ++ [some s.view.localConf]) c).file = pl.file := by
        rw [kGet_file]; exact h.fine.own.ownAt_file ht.clean hown
      rw [hg, h2.1]
      refine ⟨?_, h.put hd hcf h2.2⟩
      simp only [HS.confAt_some.2 hd.conf]

theorem reset (h : Linked s t) {p : List String} (ht : s.Target (some p) (.item p)) :
    s.answer (.reset (some p) false) = t.answer (.reset (some p) false) ∧
      Linked (s.step (.reset (some p) false)) (t.step (.reset (some p) false)) := by
  have hp := ht.clean
  have htt := h.target ht
  cases ht with
  | item _ hs =>
  cases htt with
  | item hp' hs' hne =>
  have h1 := HM.reset_run h.fine.inv hp hs
  have hit := CMM.isItem_of hp' hne hs'
  have h2 := CMM.vreset_item (a := t.view) hs'
  have hr := CMM.reset_ref hit
  unfold CMM.Ref at hr
  rw [hr] at h2
  have hown : t.view.own p = s.view.own p := by
    rw [h.view, View.clean_own (a := t.view) hp']
  have hf : t.view.fs = s.fs := h.fs.symm
  rw [hown, hf] at h2
  have e1 := congrArg Prod.fst h2
  have e2 := congrArg Prod.snd h2
  simp only at e1 e2
  have hput : ∀ c, (t.view.setConf p c).clean = t.view.clean.put (.item p) c :=
    fun c => View.clean_put (a := t.view) (pl := .item p) hp' c
  simp only [HS.answer, CM.answer, HS.step, CM.step]
  have rep : ∀ {s' : HS V} {t' : CM V} {r : Nat} {c : Conf V}, s.Replaced s' (.item p) r c → c.file = some (.item p) →
      t'.view = t.view.setConf p c → Linked s' t' := by
    intro s' t' r c hd hc hv
    exact ⟨⟨hd.inv, by rw [hd.view]; exact h.fine.own.put hc⟩, by rw [hd.view, hv, hput, h.view]⟩
  cases hl : s.fs.load (.item p) with
  | error e =>
    rw [hl] at h1 e1 e2
    simp only at h1
    rw [h1, e1]
    exact ⟨rfl, h.still (by rw [e2])⟩
  | ok v =>
    have hvf := Files.load_file hl
    rw [hl] at h1 e1 e2
    cases ho : s.view.own p with
    | error e =>
      rw [ho] at h1 e1 e2
      simp only at h1 e1 e2
      by_cases he : e = .keyError
      · rw [if_pos he] at h1 e1 e2
        obtain ⟨s', h3, h4⟩ := h1
        rw [h3, e1]
        refine ⟨?_, rep h4 hvf e2⟩
        simp only [h4.conf]
      · rw [if_neg he] at h1 e1 e2
        obtain ⟨s', h3, h4⟩ := h1
        rw [h3, e1]
        exact ⟨rfl, ⟨⟨h4.inv, by rw [h4.view]; exact h.fine.own⟩, by rw [h4.view, e2]; exact h.view⟩⟩
    | ok c =>
      rw [ho] at h1 e1 e2
      have hcf : c.file = Place.file (.item p) :=
        h.fine.own.ownAt_file (pl := .item p) hp (by simp only [View.ownAt, ho])
      simp only at h1 e1 e2
      cases hdw : CMM.determineWouldUpdate c none v.values with
      | error e =>
        rw [hdw] at h1 e1 e2
        obtain ⟨r, s', h3, h4⟩ := h1
        rw [h3, e1]
        exact ⟨rfl, h.put h4 hcf (by rw [e2]; exact hput c)⟩
      | ok b =>
        rw [hdw] at h1 e1 e2
        cases b with
        | true =>
          obtain ⟨s', h3, h4⟩ := h1
          rw [h3, e1]
          refine ⟨?_, rep h4 hvf e2⟩
          simp only [h4.conf]
        | false =>
          obtain ⟨r, s', h3, h4, h5⟩ := h1
          rw [h3, e1]
          refine ⟨?_, h.put h4 hcf (by rw [e2]; exact hput c)⟩
          simp only [h5]

theorem resetLocal (h : Linked s t) (b : Bool) : s.answer (.reset none b) = t.answer (.reset none b) ∧
      Linked (s.step (.reset none b)) (t.step (.reset none b)) := by
  obtain ⟨s', h1, h2⟩ := HM.reset_local_run h.fine.inv b
  simp only [HS.answer, CM.answer, HS.step, CM.step]
  rw [h1]
  refine ⟨?_, ⟨h2.inv, by rw [h2.view]; exact h.fine.own.put (pl := .loc) rfl⟩, ?_⟩
  · simp only [h2.conf]
    rfl
  · rw [h2.view, h.view]; rfl

theorem edit (h : Linked s t) (fs : Files V) : Linked (s.step (.edit fs)) (t.step (.edit fs)) := by
  obtain ⟨h1, h2, -⟩ := HS.edit_run h.fine.inv fs
  refine ⟨⟨h1, ?_⟩, ?_⟩
  · show OwnFiles (HS.view { s with fs })
    rw [h2]
    exact ⟨h.fine.own.file, h.fine.own.conf, h.fine.own.sect, h.fine.own.localConf⟩
  · show HS.view { s with fs } = _
    rw [h2, h.view]
    rfl

end Linked

/-- Calls on items and sections that are there, and on the local config; resets of items and of the local config. -/
def HS.Aimed (s : HS V) : CMOp V → Prop
  | .update _ p _ _ => ∃ pl, s.Target p pl
  | .refresh p => ∃ pl, s.Target (some p) pl
  | .get p => ∃ pl, s.Target (some p) pl
  | .pop _ p => ∃ pl, s.Target p pl
  | .reset none _ => True
  | .reset (some p) b => b = false ∧ s.Target (some p) (.item p)
  | .edit _ => True

theorem Linked.step [BEq V] {s : HS V} {t : CM V} (h : Linked s t) {op : CMOp V} (ha : s.Aimed op) :
    s.answer op = t.answer op ∧ Linked (s.step op) (t.step op) := by
  cases op with
  | update d p persist kw => obtain ⟨pl, ht⟩ := ha; exact h.update ht d persist kw
  | refresh p => obtain ⟨pl, ht⟩ := ha; exact h.refresh ht
  | get p => obtain ⟨pl, ht⟩ := ha; exact h.get ht
  | pop key p => obtain ⟨pl, ht⟩ := ha; exact h.pop ht key
  | edit fs => exact ⟨rfl, h.edit fs⟩
  | reset p b =>
    cases p with
    | none => exact h.resetLocal b
    | some p => obtain ⟨rfl, ht⟩ := ha; exact h.reset ht

end Verif.Model

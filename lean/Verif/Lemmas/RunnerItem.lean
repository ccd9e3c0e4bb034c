import Verif.Lemmas.Runner

/-
Operations of the runner on one item: what they change and what they leave alone.
-/

namespace Verif.Model
open Verif.Py
variable {V : Type}

/-- Calls for the item at `p`. -/
inductive ROp.OnItem (p : List String) : ROp V → Prop where
  | get : OnItem p (.get p)
  | run : OnItem p (.run p)
  | update (d : Option (Dict String V)) (persist : Bool) (kw : Dict String V) :
    OnItem p (.update d (some p) persist kw)
  | reset : OnItem p (.reset (some p) false)
  | refresh : OnItem p (.refresh p)

/-- Only what belongs to the item at `p` differs. -/
structure RS.Frame (p : List String) (s t : RS V) : Prop where
  reg : t.reg = s.reg
  objs : ∀ q, q ≠ p → t.objs.get? q = s.objs.get? q
  slots : ∀ q, q ≠ p → t.cm.view.slot q = s.cm.view.slot q
  rest : t.cm.fs = s.cm.fs ∧ t.cm.localConf = s.cm.localConf ∧ t.cm.rootName = s.cm.rootName
  item : IsItem t.cm p
  items : ∀ q, IsItem s.cm q → IsItem t.cm q

theorem RS.Frame.refl {p : List String} {s : RS V} (h : IsItem s.cm p) : RS.Frame p s s :=
  ⟨rfl, fun _ _ => rfl, fun _ _ => rfl, ⟨rfl, rfl, rfl⟩, h, fun _ h => h⟩

theorem RS.Frame.trans {p : List String} {a b c : RS V} (h1 : RS.Frame p a b) (h2 : RS.Frame p b c) :
    RS.Frame p a c :=
  ⟨h2.reg.trans h1.reg, fun q hq => (h2.objs q hq).trans (h1.objs q hq),
    fun q hq => (h2.slots q hq).trans (h1.slots q hq),
    ⟨h2.rest.1.trans h1.rest.1, h2.rest.2.1.trans h1.rest.2.1, h2.rest.2.2.trans h1.rest.2.2⟩, h2.item,
    fun q h => h2.items q (h1.items q h)⟩

/-- `m` changes only what belongs to the item at `p`. -/
def Local {α : Type} (p : List String) (m : RM V α) : Prop := ∀ s, IsItem s.cm p → RS.Frame p s (m s).2

namespace RM
variable {α β : Type} {p : List String}

theorem local_pure (a : α) : Local p (pure a : RM V α) := fun _ h => .refl h
theorem local_raise (e : PyErr) : Local p (M.raise e : RM V α) := fun _ h => .refl h
theorem local_get : Local p (M.get : RM V (RS V)) := fun _ h => .refl h
theorem local_liftE (x : Except PyErr α) : Local p (M.liftE x : RM V α) := fun _ h => .refl h
theorem local_bind {m : RM V α} {f : α → RM V β} (hm : Local p m) (hf : ∀ a, Local p (f a)) :
    Local p (m >>= f) := by
  intro s h
  have h1 := hm s h
  rw [M.bind_run]
  cases hh : m s with
  | mk r s' =>
    rw [hh] at h1
    cases r with
    | ok a => exact h1.trans (hf a s' h1.item)
    | error e => exact h1

theorem local_cm [BEq V] {op : CMOp V} (ho : op.OnItem p) (s : RS V) (h : IsItem s.cm p) :
    RS.Frame p s { s with cm := s.cm.step op } :=
  ⟨rfl, fun _ _ => rfl, fun _ hq => CMM.step_item_frame h ho hq, CMM.step_item_rest h ho,
    CMM.step_item_isItem h ho h, fun _ hq => CMM.step_item_isItem h ho hq⟩

theorem local_lookup (q : List String) : Local p (lookup q : RM V (Reg V)) := by
  unfold lookup
  exact local_bind local_get (fun s => local_liftE _)

theorem local_getConfig [BEq V] : Local p (getConfig p : RM V (Conf V)) := by
  unfold getConfig
  refine local_bind (fun s h => local_cm (op := .get p) .get s h) (fun r => ?_)
  cases r with
  | none => exact local_raise _
  | some c => exact local_pure _

theorem local_funcAndConfig [BEq V] : Local p (funcAndConfig p : RM V _) := by
  unfold funcAndConfig
  exact local_bind local_getConfig (fun _ => local_bind (local_lookup p) (fun _ =>
    local_bind (local_liftE _) (fun _ => local_pure _)))

theorem local_setObj (s : RS V) (h : IsItem s.cm p) (o : Obj V) (n : Nat) :
    RS.Frame p s { s with objs := s.objs.set p o, nextId := n } :=
  ⟨rfl, fun q hq => by
    show (s.objs.set p o).get? q = _
    rw [Dict.get?_set, if_neg (Ne.symm hq)], fun _ _ => rfl, ⟨rfl, rfl, rfl⟩, h, fun _ h => h⟩

theorem local_store (o : Obj V) : Local p (store p o) := fun s h => local_setObj s h o _

theorem local_getOneFunc [BEq V] : Local p (getOneFunc p : RM V (Obj V)) := by
  unfold getOneFunc
  refine local_bind local_get (fun s => ?_)
  cases s.objs.get? p with
  | some o => exact local_pure _
  | none =>
    refine local_bind local_funcAndConfig (fun r => ?_)
    obtain ⟨reg, d⟩ := r
    cases reg with
    | item k => exact local_bind local_get (fun s => local_bind (local_store _) (fun _ => local_pure _))
    | coll _ _ => exact local_raise _
    | other => exact local_raise _

theorem local_getOneObj [BEq V] : Local p (getOneObj p : RM V (Obj V)) := by
  unfold getOneObj
  refine local_bind local_get (fun s => ?_)
  cases s.objs.get? p with
  | some o => exact local_pure _
  | none =>
    refine local_bind (local_lookup p) (fun _ => local_bind local_funcAndConfig (fun r => ?_))
    obtain ⟨reg, d⟩ := r
    cases reg with
    | item k =>
      exact local_bind local_get (fun s => local_bind (local_liftE _) (fun _ =>
        local_bind (local_store _) (fun _ => local_pure _)))
    | coll _ _ => exact local_raise _
    | other => exact local_raise _

theorem local_getItem [BEq V] (k : Callable V) : Local p (getItem p k) := by
  unfold getItem
  cases k.kind
  · exact local_getOneFunc
  · exact local_getOneObj
  · exact local_getOneObj

theorem local_runItem [BEq V] (k : Callable V) : Local p (runItem p k) := by
  unfold runItem runOneFunc runOneObj
  cases k.kind
  · exact local_bind local_funcAndConfig (fun _ => local_bind local_getOneFunc (fun _ => local_liftE _))
  · exact local_bind local_funcAndConfig (fun _ => local_bind local_getOneObj (fun _ => local_liftE _))
  · exact local_bind local_funcAndConfig (fun _ => local_bind local_getOneObj (fun _ => local_liftE _))

theorem get_item {s : RS V} {k : Callable V} (hl : s.reg.lookup p = .ok (.item k)) :
    get p s = (getItem p k >>= fun o => pure (.obj o)) s := by
  unfold get
  rw [M.bind_ok (M.get_run s)]
  have : lookup p s = (.ok (.item k), s) := by
    show (s.reg.lookup p, s) = _
    rw [hl]
  rw [M.bind_ok this]

theorem run_item {s : RS V} {k : Callable V} (hl : s.reg.lookup p = .ok (.item k)) :
    run1 p s = (runItem p k >>= fun v => pure (.one v)) s := by
  unfold run1
  rw [M.bind_ok (M.get_run s)]
  have : lookup p s = (.ok (.item k), s) := by
    show (s.reg.lookup p, s) = _
    rw [hl]
  rw [M.bind_ok this]

theorem local_applyToLoaded (config announced : Dict String V) : Local p (applyToLoaded p config announced) := by
  unfold applyToLoaded
  refine local_bind local_get (fun s => ?_)
  cases s.objs.get? p with
  | none => exact local_pure _
  | some o =>
    refine local_bind (local_liftE _) (fun o' => local_bind (fun s h => local_setObj s h o' _) (fun _ => ?_))
    split
    · exact local_raise _
    · exact local_pure _

theorem local_update [BEq V] (d : Option (Dict String V)) (persist : Bool) (kw : Dict String V) :
    Local p (update d (some p) persist kw) := by
  unfold update
  refine local_bind (fun s h => local_cm (.update d persist kw) s h) (fun r => ?_)
  obtain ⟨c, u⟩ := r
  cases u with
  | false => exact local_pure _
  | true => exact local_applyToLoaded _ _

theorem local_reset [BEq V] : Local p (reset (some p) false : RM V Unit) := by
  unfold reset
  refine local_bind (fun s h => local_cm (.reset) s h) (fun r => ?_)
  obtain ⟨n, u⟩ := r
  cases u with
  | false => exact local_pure _
  | true => cases n with
    | conf c => exact local_applyToLoaded _ _
    | _ => exact local_pure _

theorem local_refresh [BEq V] : Local p (refresh p : RM V Unit) := by
  unfold refresh
  refine local_bind (fun s h => local_cm (.refresh) s h) (fun r => ?_)
  obtain ⟨c, u, us⟩ := r
  refine local_bind local_get (fun s => ?_)
  split
  · exact local_bind local_getConfig (fun _ => local_applyToLoaded _ _)
  · exact local_pure _

end RM

theorem RS.step_frame [BEq V] {s : RS V} {p : List String} (hp : IsItem s.cm p) {k : Callable V}
    (hk : s.reg.lookup p = .ok (.item k)) {op : ROp V} (ho : op.OnItem p) : RS.Frame p s (s.step op) := by
  cases ho with
  | get =>
    show RS.Frame p s (RM.get p s).2
    rw [RM.get_item hk]
    exact RM.local_bind (RM.local_getItem k) (fun _ => RM.local_pure _) s hp
  | run =>
    show RS.Frame p s (RM.run1 p s).2
    rw [RM.run_item hk]
    exact RM.local_bind (RM.local_runItem k) (fun _ => RM.local_pure _) s hp
  | update d persist kw => exact RM.local_update d persist kw s hp
  | reset => exact RM.local_reset s hp
  | refresh => exact RM.local_refresh s hp

/-! ### The created function and its configuration -/

/-- The created object at `p` is a function with keywords that agree with the config at `p`
where both have a value; with `strong` every keyword has a value in the config. -/
structure RS.Follows (strong : Bool) (s : RS V) (p : List String) (o : Obj V) (c : Conf V) : Prop where
  obj : s.objs.get? p = some o
  isPartial : o.isPartial = true
  conf : s.cm.view.slot p = .conf c
  agree : ∀ x v v', o.kwargs.get? x = some v → c.values.get? x = some v' → v = v'
  cover : strong = true → ∀ x ∈ o.kwargs.keys, x ∈ c.values.keys

theorem AList.get?_filter_key (q : String → Bool) (l : List (String × V)) (x : String) (hx : q x = true) :
    AList.get? (l.filter (fun e => q e.1)) x = AList.get? l x := by
  induction l with
  | nil => rfl
  | cons e l ih =>
    obtain ⟨y, v⟩ := e
    by_cases hy : q y = true
    · rw [List.filter_cons_of_pos (by exact hy)]
      by_cases hxy : y = x
      · simp [AList.get?, hxy]
      · simp [AList.get?, hxy, ih]
    · have hxy : y ≠ x := by intro h; subst h; exact hy hx
      rw [List.filter_cons_of_neg (by exact hy), ih]
      simp [AList.get?, hxy]

theorem RM.get?_apply {o o' : Obj V} {d : Dict String V} (hp : o.isPartial = true)
    (h : RM.applyConfig o d = .ok o') (x : String) :
    o'.kwargs.get? x = if o.kwargs.contains x then (d.get? x).or (o.kwargs.get? x) else none := by
  unfold RM.applyConfig at h
  rw [hp] at h
  simp only [Except.ok.injEq] at h
  subst h
  show (o.kwargs.setAll (d.items.filter (fun e => o.kwargs.contains e.1))).get? x = _
  rw [Dict.get?_setAll_of_nodup _ (AList.nodup_filter d.nodup _)]
  by_cases hx : o.kwargs.contains x = true
  · rw [if_pos hx, AList.get?_filter_key (fun k => o.kwargs.contains k) _ _ hx]
    rfl
  · rw [if_neg hx]
    have h1 : o.kwargs.get? x = none := by
      unfold Dict.contains at hx
      simpa using hx
    have h2 : AList.get? (d.items.filter (fun e => o.kwargs.contains e.1)) x = none := by
      rw [AList.get?_eq_none_iff]
      intro hm
      obtain ⟨e, he, hex⟩ := List.mem_map.1 hm
      rw [List.mem_filter] at he
      rw [← hex] at hx
      exact hx he.2
    rw [h1, h2]; rfl

theorem CMM.active_keys (a : View V) (p : List String) (c : Conf V) :
    ∀ x ∈ c.values.keys, x ∈ (CMM.active a p c).values.keys := by
  intro x hx
  unfold CMM.active
  split
  · exact hx
  · unfold CMM.overridden
    generalize a.levels p ++ [some a.localConf] = ls
    rename_i hne
    clear hne
    induction ls generalizing c with
    | nil => exact hx
    | cons l ls ih =>
      rw [List.foldl_cons]
      apply ih
      unfold CMM.applyLevel
      cases l with
      | none => exact hx
      | some l =>
        dsimp only
        split <;>
        · rw [Dict.mem_keys_iff] at hx ⊢
          rw [Conf.get?_update_values]
          simp [hx]

/-- Taking over the stored config makes the created function follow it. -/
theorem RM.applyToLoaded_follows {strong : Bool} {s : RS V} {p : List String} {o : Obj V} {c : Conf V}
    (ho : s.objs.get? p = some o) (hp : o.isPartial = true) (hc : s.cm.view.slot p = .conf c)
    (hcov : strong = true → ∀ x ∈ o.kwargs.keys, x ∈ c.values.keys) (announced : Dict String V) :
    ∃ o', RS.Follows strong (RM.applyToLoaded p c.values announced s).2 p o' c := by
  unfold RM.applyToLoaded
  rw [M.bind_ok (M.get_run s), ho]
  simp only
  rw [M.bind_run, M.liftE_run]
  cases ha : RM.applyConfig o c.values with
  | error e =>
    exfalso
    unfold RM.applyConfig at ha
    rw [hp] at ha
    cases ha
  | ok o' =>
    simp only
    rw [M.bind_ok (M.modify_run _ _)]
    have hf : ∀ t : RS V, t.objs = s.objs.set p o' → t.cm = s.cm → RS.Follows strong t p o' c := by
      intro t h1 h2
      refine ⟨by rw [h1]; exact Dict.get?_set_self _ _ _, ?_, by rw [h2]; exact hc, ?_, ?_⟩
      · rw [(RM.applyConfig_same ha).1.isPartial]; exact hp
      · intro x v v' hv hv'
        rw [RM.get?_apply hp ha x] at hv
        split at hv
        · rw [hv'] at hv; cases hv; rfl
        · cases hv
      · rw [(RM.applyConfig_same ha).1.keys hp]; exact hcov
    refine ⟨o', ?_⟩
    split
    · exact hf _ rfl rfl
    · exact hf _ rfl rfl

theorem RS.Follows.congr {strong : Bool} {s t : RS V} {p : List String} {o : Obj V} {c : Conf V}
    (h : s.Follows strong p o c) (h1 : t.objs.get? p = s.objs.get? p)
    (h2 : t.cm.view.slot p = s.cm.view.slot p) : t.Follows strong p o c :=
  ⟨h1.trans h.obj, h.isPartial, h2.trans h.conf, h.agree, h.cover⟩

section
variable [BEq V] {strong : Bool} {s : RS V} {p : List String} {o : Obj V} {c : Conf V}

theorem RS.Follows.update (h : s.Follows strong p o c) (hp : IsItem s.cm p) (d : Option (Dict String V))
    (persist : Bool) (kw : Dict String V) :
    ∃ o' c', (RM.update d (some p) persist kw s).2.Follows strong p o' c' := by
  have hown : s.cm.view.own p = .ok c := by unfold View.own; rw [h.conf]
  have hv := CMM.vupdate_item hp.item d persist kw
  rw [hown] at hv
  have hr := CMM.update_ref hp d persist kw
  unfold CMM.Ref at hr
  rw [hr] at hv
  have hself : s.cm.view.setConf p c = s.cm.view := View.setConf_self h.conf
  have hstay : ∀ t : RS V, t.objs = s.objs → t.cm.view = s.cm.view → t.Follows strong p o c :=
    fun t h1 h2 => h.congr (by rw [h1]) (by rw [h2])
  unfold RM.update
  rw [M.bind_run]
  unfold RM.liftC
  have h1 := congrArg Prod.fst hv
  have h2 := congrArg Prod.snd hv
  cases hd : CMM.determineWouldUpdate c d kw with
  | error e =>
    simp only [hd] at h1 h2
    simp only [h1]
    exact ⟨o, c, hstay _ rfl (h2.trans hself)⟩
  | ok b =>
    cases b with
    | false =>
      simp only [hd] at h1 h2
      simp only [h1]
      exact ⟨o, c, hstay _ rfl (h2.trans hself)⟩
    | true =>
      simp only [hd] at h1 h2
      by_cases hcl : Conf.clash Conf.updateReserved kw = true
      · rw [if_pos hcl] at h1 h2
        simp only [h1]
        exact ⟨o, c, hstay _ rfl (h2.trans hself)⟩
      · rw [if_neg hcl] at h1 h2
        simp only [h1]
        obtain ⟨o', hf⟩ := RM.applyToLoaded_follows (s := { s with cm := (CMM.update d (some p) persist kw s.cm).2 })
          (c := c.update d persist kw) h.obj h.isPartial
          (show (CMM.update d (some p) persist kw s.cm).2.view.slot p = _ by
            rw [show (CMM.update d (some p) persist kw s.cm).2.view = _ from h2, View.setConf_slot_self])
          (fun hs x hx => by
            have := h.cover hs x hx
            rw [Dict.mem_keys_iff] at this ⊢
            rw [Conf.get?_update_values]
            simp [this]) kw
        exact ⟨o', _, hf⟩

theorem RS.Follows.reset (h : s.Follows false p o c) (hp : IsItem s.cm p) :
    ∃ o' c', (RM.reset (some p) false s).2.Follows false p o' c' := by
  have hown : s.cm.view.own p = .ok c := by unfold View.own; rw [h.conf]
  have hv := CMM.vreset_item (a := s.cm.view) hp.item
  rw [hown] at hv
  have hr := CMM.reset_ref hp
  unfold CMM.Ref at hr
  rw [hr] at hv
  have hself : s.cm.view.setConf p c = s.cm.view := View.setConf_self h.conf
  have hstay : ∀ t : RS V, t.objs = s.objs → t.cm.view = s.cm.view → t.Follows false p o c :=
    fun t h1 h2 => h.congr (by rw [h1]) (by rw [h2])
  unfold RM.reset
  rw [M.bind_run]
  unfold RM.liftC
  have h1 := congrArg Prod.fst hv
  have h2 := congrArg Prod.snd hv
  cases hl : s.cm.view.fs.load (.item p) with
  | error e =>
    simp only [hl] at h1 h2
    simp only [h1]
    exact ⟨o, c, hstay _ rfl h2⟩
  | ok v =>
    simp only [hl] at h1 h2
    cases hd : CMM.determineWouldUpdate c none v.values with
    | error e =>
      simp only [hd] at h1 h2
      simp only [h1]
      exact ⟨o, c, hstay _ rfl (h2.trans hself)⟩
    | ok b =>
      cases b with
      | false =>
        simp only [hd] at h1 h2
        simp only [h1]
        exact ⟨o, c, hstay _ rfl (h2.trans hself)⟩
      | true =>
        simp only [hd] at h1 h2
        simp only [h1]
        obtain ⟨o', hf⟩ := RM.applyToLoaded_follows (s := { s with cm := (CMM.reset (some p) false s.cm).2 })
          (c := v) h.obj h.isPartial
          (show (CMM.reset (some p) false s.cm).2.view.slot p = _ by
            rw [show (CMM.reset (some p) false s.cm).2.view = _ from h2, View.setConf_slot_self]) (strong := false) (by intro hh; cases hh) v.values
        exact ⟨o', _, hf⟩

theorem RS.Follows.refresh (h : s.Follows strong p o c) (hp : IsItem s.cm p) :
    ∃ o' c', (RM.refresh p s).2.Follows strong p o' c' := by
  have hown : s.cm.view.own p = .ok c := by unfold View.own; rw [h.conf]
  have hv := CMM.vrefresh_item (a := s.cm.view) hp.item
  rw [hown] at hv
  have hr := CMM.refresh_ref hp
  unfold CMM.Ref at hr
  rw [hr] at hv
  have hself : s.cm.view.setConf p c = s.cm.view := View.setConf_self h.conf
  have hstay : ∀ t : RS V, t.objs = s.objs → t.cm.view = s.cm.view → t.Follows strong p o c :=
    fun t h1 h2 => h.congr (by rw [h1]) (by rw [h2])
  unfold RM.refresh
  rw [M.bind_run]
  unfold RM.liftC
  have h1 := congrArg Prod.fst hv
  have h2 := congrArg Prod.snd hv
  simp only at h1 h2
  cases hf : c.file with
  | none =>
    simp only [hf] at h1 h2
    simp only [h1]
    exact ⟨o, c, hstay _ rfl (h2.trans hself)⟩
  | some loc =>
    simp only [hf] at h1 h2
    cases hl : s.cm.view.fs.load loc with
    | error e =>
      simp only [hl] at h1 h2
      simp only [h1]
      exact ⟨o, c, hstay _ rfl (h2.trans hself)⟩
    | ok new =>
      simp only [hl] at h1 h2
      by_cases hch : (c.changeFromRefresh new.values).items.isEmpty = true
      · rw [if_pos hch] at h1 h2
        simp only [h1]
        rw [M.bind_ok (M.get_run _), if_neg (by simp)]
        exact ⟨o, c, hstay _ rfl (h2.trans hself)⟩
      · rw [if_neg hch] at h1 h2
        cases hrf : c.refresh new.values with
        | error e =>
          simp only [hrf] at h1 h2
          simp only [h1]
          exact ⟨o, c, hstay _ rfl (h2.trans hself)⟩
        | ok r =>
          obtain ⟨c', us⟩ := r
          simp only [hrf] at h1 h2
          simp only [h1]
          rw [M.bind_ok (M.get_run _)]
          have hcont : s.objs.contains p = true := by unfold Dict.contains; rw [h.obj]; rfl
          rw [if_pos ⟨by trivial, hcont⟩]
          -- the lookup of the active configuration
          have hp2 : IsItem (CMM.refresh p s.cm).2 p := CMM.step_item_isItem hp (op := .refresh p) .refresh hp
          have hslot2 : (CMM.refresh p s.cm).2.view.slot p = .conf c' := by
            rw [show (CMM.refresh p s.cm).2.view = _ from h2, View.setConf_slot_self]
          have hown2 : (CMM.refresh p s.cm).2.view.own p = .ok c' := by unfold View.own; rw [hslot2]
          obtain ⟨g1, g2⟩ := CMM.get_of_own hp2 hown2
          generalize (CMM.refresh p s.cm).2 = cm2 at *
          generalize hact : CMM.active cm2.view p c' = ca at g1 g2
          have hgc : RM.getConfig p { s with cm := cm2 } = (.ok ca, { s with cm := (CMM.get p cm2).2 }) := by
            unfold RM.getConfig
            rw [M.bind_run]
            unfold RM.liftC
            simp only [g1]
            rfl
          rw [M.bind_ok hgc]
          have hcov : strong = true → ∀ x ∈ o.kwargs.keys, x ∈ ca.values.keys := by
            intro hs x hx
            have hx1 := h.cover hs x hx
            have hx2 : x ∈ c'.values.keys := by
              unfold Conf.refresh at hrf
              simp only at hrf
              split at hrf
              · cases hrf
              · cases hrf
                rw [Dict.mem_keys_iff] at hx1 ⊢
                rw [Conf.get?_update_values]
                simp [hx1]
            rw [← hact]
            exact CMM.active_keys _ _ _ x hx2
          obtain ⟨o', hfo⟩ := RM.applyToLoaded_follows (s := { s with cm := (CMM.get p cm2).2 })
            (c := ca) h.obj h.isPartial
            (show (CMM.get p cm2).2.view.slot p = _ by rw [g2, View.setConf_slot_self])
            hcov Dict.empty
          exact ⟨o', _, hfo⟩

omit [BEq V] in
theorem RS.Follows.get (h : s.Follows strong p o c) {k : Callable V} (hk : s.reg.lookup p = .ok (.item k)) :
    RM.get p s = (.ok (.obj o), s) := by
  rw [RM.get_item hk]
  have : RM.getItem p k s = (.ok o, s) := by
    unfold RM.getItem RM.getOneFunc RM.getOneObj
    cases k.kind <;> simp only <;> rw [M.bind_ok (M.get_run s), h.obj] <;> rfl
  rw [M.bind_ok this]
  rfl

end

/-- The config after an update. -/
def Conf.updated [BEq V] (c : Conf V) (d : Option (Dict String V)) (persist : Bool) (kw : Dict String V) : Conf V :=
  match CMM.determineWouldUpdate c d kw with
  | .ok true => if Conf.clash Conf.updateReserved kw then c else c.update d persist kw
  | _ => c

theorem RM.update_cm [BEq V] {s : RS V} {p : List String} (hp : IsItem s.cm p) {c : Conf V}
    (hc : s.cm.view.own p = .ok c) (d : Option (Dict String V)) (persist : Bool) (kw : Dict String V) :
    (RM.update d (some p) persist kw s).2.cm.view = s.cm.view.setConf p (c.updated d persist kw) ∧
    (RM.update d (some p) persist kw s).2.reg = s.reg ∧
    (s.objs.get? p = none → (RM.update d (some p) persist kw s).2.objs = s.objs) ∧
    (∀ o, s.objs.get? p = some o → o.isPartial = true →
      ∃ o', (RM.update d (some p) persist kw s).2.objs.get? p = some o' ∧
        ((c.updated d persist kw = c ∧ o' = o) ∨ RM.applyConfig o (c.updated d persist kw).values = .ok o')) := by
  have hv := CMM.vupdate_item hp.item d persist kw
  rw [hc] at hv
  have hr := CMM.update_ref hp d persist kw
  unfold CMM.Ref at hr
  rw [hr] at hv
  have h1 := congrArg Prod.fst hv
  have h2 := congrArg Prod.snd hv
  unfold RM.update
  rw [M.bind_run]
  unfold RM.liftC Conf.updated
  cases hd : CMM.determineWouldUpdate c d kw with
  | error e =>
    simp only [hd] at h1 h2
    simp only [h1]
    exact ⟨h2, by trivial, fun _ => by trivial, fun o ho _ => ⟨o, ho, .inl ⟨trivial, by trivial⟩⟩⟩
  | ok b =>
    cases b with
    | false =>
      simp only [hd] at h1 h2
      simp only [h1]
      exact ⟨h2, rfl, fun _ => rfl, fun o ho _ => ⟨o, ho, .inl ⟨trivial, rfl⟩⟩⟩
    | true =>
      simp only [hd] at h1 h2
      by_cases hcl : Conf.clash Conf.updateReserved kw = true
      · rw [if_pos hcl] at h1 h2
        simp only [h1, if_pos hcl]
        exact ⟨h2, by trivial, fun _ => by trivial, fun o ho _ => ⟨o, ho, .inl ⟨trivial, by trivial⟩⟩⟩
      · rw [if_neg hcl] at h1 h2
        simp only [h1, if_neg hcl]
        unfold RM.applyToLoaded
        rw [M.bind_ok (M.get_run _)]
        simp only
        cases hso : s.objs.get? p with
        | none => exact ⟨h2, rfl, fun _ => rfl, fun o ho => by cases ho⟩
        | some o =>
          simp only
          rw [M.bind_run, M.liftE_run]
          cases ha : RM.applyConfig o (c.update d persist kw).values with
          | error e =>
            refine ⟨h2, rfl, (fun h => by cases h), fun o1 ho hpt => ?_⟩
            cases ho
            unfold RM.applyConfig at ha
            rw [hpt] at ha
            cases ha
          | ok o' =>
            simp only
            rw [M.bind_ok (M.modify_run _ _)]
            have key : ∀ t : RS V, t.objs = s.objs.set p o' → t.cm = (CMM.update d (some p) persist kw s.cm).2 →
                t.reg = s.reg → t.cm.view = s.cm.view.setConf p (c.update d persist kw) ∧ t.reg = s.reg ∧
                (some o = none → t.objs = s.objs) ∧ (∀ o1, some o = some o1 → o1.isPartial = true →
                  ∃ o2, t.objs.get? p = some o2 ∧ ((c.update d persist kw = c ∧ o2 = o1) ∨
                    RM.applyConfig o1 (c.update d persist kw).values = .ok o2)) := by
              intro t e1 e2 e3
              refine ⟨by rw [e2]; exact h2, e3, (fun h => by cases h), fun o1 ho _ => ?_⟩
              cases ho
              exact ⟨o', by rw [e1]; exact Dict.get?_set_self _ _ _, .inr ha⟩
            split
            · exact key _ rfl rfl rfl
            · exact key _ rfl rfl rfl

theorem Conf.updated_congr [BEq V] {c c' : Conf V} {d : Option (Dict String V)} {kw : Dict String V}
    (persist : Bool)
    (h : ∀ x v, (kw.get? x).or (d.bind (·.get? x)) = some v → c'.values.get? x = c.values.get? x) :
    (c.updated d persist kw = c ∧ c'.updated d persist kw = c') ∨
    (c.updated d persist kw = c.update d persist kw ∧ c'.updated d persist kw = c'.update d persist kw) := by
  have hd : CMM.determineWouldUpdate c' d kw = CMM.determineWouldUpdate c d kw := by
    unfold CMM.determineWouldUpdate
    split
    · rfl
    · simp only [Except.ok.injEq]
      have hget : ∀ k, ((match d with | none => Dict.empty | some d => d).update kw).get? k =
          (kw.get? k).or (d.bind (·.get? k)) := by
        intro k
        rw [Dict.get?_update]
        cases d <;> rfl
      rw [Bool.eq_iff_iff, Conf.wouldUpdate_iff, Conf.wouldUpdate_iff]
      simp only [Dict.get?_empty, Option.none_or, Option.bind_some]
      constructor
      · rintro ⟨k, v, w, h1, h2, h3⟩
        exact ⟨k, v, w, h1, by rw [← h k v ((hget k).symm.trans h1)]; exact h2, h3⟩
      · rintro ⟨k, v, w, h1, h2, h3⟩
        exact ⟨k, v, w, h1, by rw [h k v ((hget k).symm.trans h1)]; exact h2, h3⟩
  unfold Conf.updated
  rw [hd]
  cases CMM.determineWouldUpdate c d kw with
  | error e => exact .inl ⟨rfl, rfl⟩
  | ok b =>
    cases b with
    | false => exact .inl ⟨rfl, rfl⟩
    | true =>
      simp only
      split
      · exact .inl ⟨rfl, rfl⟩
      · exact .inr ⟨rfl, rfl⟩

/-- The first `get` of a registered function. -/
theorem RM.get_creates {s : RS V} {p : List String} (hp : IsItem s.cm p) {k : Callable V}
    (hk : s.reg.lookup p = .ok (.item k)) (hf : k.kind = .func) (ho : s.objs.get? p = none) {c : Conf V}
    (hc : s.cm.view.own p = .ok c) :
    ∃ names, k.sig.argNames false = .ok names ∧
      RM.get p s = (.ok (.obj ⟨s.nextId, true, k, (CMM.active s.cm.view p c).values.filterKeys (fun x => decide (x ∈ names))⟩),
        { s with
          cm := (CMM.get p s.cm).2
          objs := s.objs.set p ⟨s.nextId, true, k,
            (CMM.active s.cm.view p c).values.filterKeys (fun x => decide (x ∈ names))⟩
          nextId := s.nextId + 1 }) := by
  have hn : ∃ names, k.sig.argNames false = .ok names := by
    unfold Sig.argNames
    exact ⟨_, rfl⟩
  obtain ⟨names, hn⟩ := hn
  refine ⟨names, hn, ?_⟩
  rw [RM.get_item hk]
  unfold RM.getItem
  rw [hf]
  simp only
  unfold RM.getOneFunc
  obtain ⟨g1, g2⟩ := CMM.get_of_own hp hc
  have hfc : RM.funcAndConfig p s = (.ok (.item k,
      (CMM.active s.cm.view p c).values.filterKeys (fun x => decide (x ∈ names))),
      { s with cm := (CMM.get p s.cm).2 }) := by
    unfold RM.funcAndConfig
    have hgc : RM.getConfig p s = (.ok (CMM.active s.cm.view p c), { s with cm := (CMM.get p s.cm).2 }) := by
      unfold RM.getConfig
      rw [M.bind_run]
      unfold RM.liftC
      simp only [g1]
      rfl
    rw [M.bind_ok hgc]
    have hlk : RM.lookup p { s with cm := (CMM.get p s.cm).2 } =
        (.ok (.item k), { s with cm := (CMM.get p s.cm).2 }) := by
      show (s.reg.lookup p, _) = _
      rw [hk]
    rw [M.bind_ok hlk]
    have hff : RM.forFunction (CMM.active s.cm.view p c) (.item k) =
        .ok ((CMM.active s.cm.view p c).values.filterKeys (fun x => decide (x ∈ names))) := by
      unfold RM.forFunction
      simp only [hn]
    rw [hff]
    rfl
  rw [M.bind_run, M.bind_ok (M.get_run s), ho]
  simp only
  rw [M.bind_ok hfc]
  rfl

theorem RS.Follows.create {s : RS V} {p : List String} (hp : IsItem s.cm p) {k : Callable V}
    (hk : s.reg.lookup p = .ok (.item k)) (hf : k.kind = .func) (ho : s.objs.get? p = none) {c : Conf V}
    (hc : s.cm.view.own p = .ok c) :
    ∃ o c', (RM.get p s).1 = .ok (.obj o) ∧ (RM.get p s).2.Follows true p o c' := by
  obtain ⟨names, hn, hg⟩ := RM.get_creates hp hk hf ho hc
  obtain ⟨g1, g2⟩ := CMM.get_of_own hp hc
  refine ⟨_, CMM.active s.cm.view p c, by rw [hg], ?_⟩
  rw [hg]
  refine ⟨Dict.get?_set_self _ _ _, rfl, ?_, ?_, ?_⟩
  · show (CMM.get p s.cm).2.view.slot p = _
    rw [g2, View.setConf_slot_self]
  · intro x v v' hv hv'
    simp only at hv
    rw [Dict.get?_filterKeys] at hv
    split at hv
    · rw [hv'] at hv; cases hv; rfl
    · cases hv
  · intro _ x hx
    rw [Dict.keys_filterKeys, List.mem_filter] at hx
    exact hx.1

end Verif.Model

import Verif.Lemmas.RunnerItem

/-
What the operations of the runner on one item do with an object of a class that has been created for it.
-/

namespace Verif.Model
open Verif.Py
variable {V : Type}

/-- The created object at `p` is an object of `k` that was last given the values which the config at `p` has for the
parameters `names`. -/
structure RS.Carries (k : Callable V) (names : List String) (s : RS V) (p : List String) (o : Obj V) (c : Conf V) : Prop where
  obj : s.objs.get? p = some o
  isObject : o.isPartial = false
  callable : o.callable = k
  conf : s.cm.view.slot p = .conf c
  same : o.kwargs = c.values.filterKeys (fun x => decide (x ∈ names))

theorem RS.Carries.congr {k : Callable V} {names : List String} {s t : RS V} {p : List String} {o : Obj V} {c : Conf V}
    (h : s.Carries k names p o c) (h1 : t.objs.get? p = s.objs.get? p) (h2 : t.cm.view.slot p = s.cm.view.slot p) :
    t.Carries k names p o c :=
  ⟨h1.trans h.obj, h.isObject, h.callable, h2.trans h.conf, h.same⟩

/-- The object takes over a config. -/
theorem RM.applyConfig_object {o o' : Obj V} {d : Dict String V} (hp : o.isPartial = false) {names : List String}
    (hn : o.callable.sig.argNames true = .ok names) (h : RM.applyConfig o d = .ok o') :
    o' = { o with kwargs := d.filterKeys (fun x => decide (x ∈ names)) } := by
  unfold RM.applyConfig at h
  rw [hp, hn] at h
  simp only at h
  cases hu : o.callable.upd (d.filterKeys (fun x => decide (x ∈ names))) with
  | error e => rw [hu] at h; cases h
  | ok u => rw [hu] at h; cases h; rw [hp]

/-- Taking over the stored config makes the created object carry it, unless the class raises. -/
theorem RM.applyToLoaded_carries {k : Callable V} {names : List String} (hn : k.sig.argNames true = .ok names) {s : RS V}
    {p : List String} {o : Obj V} {c : Conf V} (ho : s.objs.get? p = some o) (hp : o.isPartial = false)
    (hk : o.callable = k) (hc : s.cm.view.slot p = .conf c) (announced : Dict String V)
    (hr : (∀ d, k.upd d = .ok ()) ∨ (RM.applyToLoaded p c.values announced s).1 = .ok ()) :
    ∃ o', RS.Carries k names (RM.applyToLoaded p c.values announced s).2 p o' c := by
  unfold RM.applyToLoaded at hr ⊢
  rw [M.bind_ok (M.get_run s), ho] at hr ⊢
  simp only at hr ⊢
  rw [M.bind_run, M.liftE_run] at hr ⊢
  cases ha : RM.applyConfig o c.values with
  | error e =>
    exfalso
    rw [ha] at hr
    rcases hr with hr | hr
    · unfold RM.applyConfig at ha
      rw [hp, hk, hn] at ha
      simp only [hr] at ha
      cases ha
    · cases hr
  | ok o' =>
    simp only
    rw [M.bind_ok (M.modify_run _ _)]
    have hf : ∀ t : RS V, t.objs = s.objs.set p o' → t.cm = s.cm → RS.Carries k names t p o' c := by
      intro t h1 h2
      rw [RM.applyConfig_object hp (by rw [hk]; exact hn) ha] at h1 ⊢
      exact ⟨by rw [h1]; exact Dict.get?_set_self _ _ _, hp, hk, by rw [h2]; exact hc, rfl⟩
    refine ⟨o', ?_⟩
    split
    · exact hf _ rfl rfl
    · exact hf _ rfl rfl

section
variable [BEq V] {k : Callable V} {names : List String} {s : RS V} {p : List String} {o : Obj V} {c : Conf V}

theorem RS.Carries.update (hn : k.sig.argNames true = .ok names) (h : s.Carries k names p o c) (hp : IsItem s.cm p)
    (d : Option (Dict String V)) (persist : Bool) (kw : Dict String V)
    (hret : (∀ d, k.upd d = .ok ()) ∨ (RM.update d (some p) persist kw s).1 = .ok ()) :
    ∃ o' c', (RM.update d (some p) persist kw s).2.Carries k names p o' c' := by
  have hown : s.cm.view.own p = .ok c := by unfold View.own; rw [h.conf]
  have hv := CMM.vupdate_item hp.item d persist kw
  rw [hown] at hv
  have hr := CMM.update_ref hp d persist kw
  unfold CMM.Ref at hr
  rw [hr] at hv
  have hself : s.cm.view.setConf p c = s.cm.view := View.setConf_self h.conf
  have hstay : ∀ t : RS V, t.objs = s.objs → t.cm.view = s.cm.view → t.Carries k names p o c :=
    fun t h1 h2 => h.congr (by rw [h1]) (by rw [h2])
  unfold RM.update at hret ⊢
  rw [M.bind_run] at hret ⊢
  unfold RM.liftC at hret ⊢
  have h1 := congrArg Prod.fst hv
  have h2 := congrArg Prod.snd hv
  cases hd : CMM.determineWouldUpdate c d kw with
  | error e =>
    simp only [hd] at h1 h2
    simp only [h1]
    exact ⟨o, c, hstay _ rfl (h2.trans hself)⟩
  | ok b =>
    cases b with
    | false =>
      simp only [hd] at h1 h2
      simp only [h1]
      exact ⟨o, c, hstay _ rfl (h2.trans hself)⟩
    | true =>
      simp only [hd] at h1 h2
      by_cases hcl : Conf.clash Conf.updateReserved kw = true
      · rw [if_pos hcl] at h1 h2
        simp only [h1]
        exact ⟨o, c, hstay _ rfl (h2.trans hself)⟩
      · rw [if_neg hcl] at h1 h2
        simp only [h1] at hret ⊢
        obtain ⟨o', hf⟩ := RM.applyToLoaded_carries (s := { s with cm := (CMM.update d (some p) persist kw s.cm).2 })
          (c := c.update d persist kw) hn h.obj h.isObject h.callable
          (show (CMM.update d (some p) persist kw s.cm).2.view.slot p = _ by
            rw [show (CMM.update d (some p) persist kw s.cm).2.view = _ from h2, View.setConf_slot_self]) kw hret
        exact ⟨o', _, hf⟩

theorem RS.Carries.reset (hn : k.sig.argNames true = .ok names) (h : s.Carries k names p o c) (hp : IsItem s.cm p)
    (hret : (∀ d, k.upd d = .ok ()) ∨ (RM.reset (some p) false s).1 = .ok ()) :
    ∃ o' c', (RM.reset (some p) false s).2.Carries k names p o' c' := by
  have hown : s.cm.view.own p = .ok c := by unfold View.own; rw [h.conf]
  have hv := CMM.vreset_item (a := s.cm.view) hp.item
  rw [hown] at hv
  have hr := CMM.reset_ref hp
  unfold CMM.Ref at hr
  rw [hr] at hv
  have hself : s.cm.view.setConf p c = s.cm.view := View.setConf_self h.conf
  have hstay : ∀ t : RS V, t.objs = s.objs → t.cm.view = s.cm.view → t.Carries k names p o c :=
    fun t h1 h2 => h.congr (by rw [h1]) (by rw [h2])
  unfold RM.reset at hret ⊢
  rw [M.bind_run] at hret ⊢
  unfold RM.liftC at hret ⊢
  have h1 := congrArg Prod.fst hv
  have h2 := congrArg Prod.snd hv
  cases hl : s.cm.view.fs.load (.item p) with
  | error e =>
    simp only [hl] at h1 h2
    simp only [h1]
    exact ⟨o, c, hstay _ rfl h2⟩
  | ok v =>
    simp only [hl] at h1 h2
    cases hd : CMM.determineWouldUpdate c none v.values with
    | error e =>
      simp only [hd] at h1 h2
      simp only [h1]
      exact ⟨o, c, hstay _ rfl (h2.trans hself)⟩
    | ok b =>
      cases b with
      | false =>
        simp only [hd] at h1 h2
        simp only [h1]
        exact ⟨o, c, hstay _ rfl (h2.trans hself)⟩
      | true =>
        simp only [hd] at h1 h2
        simp only [h1] at hret ⊢
        obtain ⟨o', hf⟩ := RM.applyToLoaded_carries (s := { s with cm := (CMM.reset (some p) false s.cm).2 })
          (c := v) hn h.obj h.isObject h.callable
          (show (CMM.reset (some p) false s.cm).2.view.slot p = _ by
            rw [show (CMM.reset (some p) false s.cm).2.view = _ from h2, View.setConf_slot_self]) v.values hret
        exact ⟨o', _, hf⟩

theorem RS.Carries.refresh (hn : k.sig.argNames true = .ok names) (h : s.Carries k names p o c) (hp : IsItem s.cm p)
    (hret : (∀ d, k.upd d = .ok ()) ∨ (RM.refresh p s).1 = .ok ()) :
    ∃ o' c', (RM.refresh p s).2.Carries k names p o' c' := by
  have hown : s.cm.view.own p = .ok c := by unfold View.own; rw [h.conf]
  have hv := CMM.vrefresh_item (a := s.cm.view) hp.item
  rw [hown] at hv
  have hr := CMM.refresh_ref hp
  unfold CMM.Ref at hr
  rw [hr] at hv
  have hself : s.cm.view.setConf p c = s.cm.view := View.setConf_self h.conf
  have hstay : ∀ t : RS V, t.objs = s.objs → t.cm.view = s.cm.view → t.Carries k names p o c :=
    fun t h1 h2 => h.congr (by rw [h1]) (by rw [h2])
  unfold RM.refresh at hret ⊢
  rw [M.bind_run] at hret ⊢
  unfold RM.liftC at hret ⊢
  have h1 := congrArg Prod.fst hv
  have h2 := congrArg Prod.snd hv
  simp only at h1 h2
  cases hf : c.file with
  | none =>
    simp only [hf] at h1 h2
    simp only [h1]
    exact ⟨o, c, hstay _ rfl (h2.trans hself)⟩
  | some loc =>
    simp only [hf] at h1 h2
    cases hl : s.cm.view.fs.load loc with
    | error e =>
      simp only [hl] at h1 h2
      simp only [h1]
      exact ⟨o, c, hstay _ rfl (h2.trans hself)⟩
    | ok new =>
      simp only [hl] at h1 h2
      by_cases hch : (c.changeFromRefresh new.values).items.isEmpty = true
      · rw [if_pos hch] at h1 h2
        simp only [h1]
        rw [M.bind_ok (M.get_run _), if_neg (by simp)]
        exact ⟨o, c, hstay _ rfl (h2.trans hself)⟩
      · rw [if_neg hch] at h1 h2
        cases hrf : c.refresh new.values with
        | error e =>
          simp only [hrf] at h1 h2
          simp only [h1]
          exact ⟨o, c, hstay _ rfl (h2.trans hself)⟩
        | ok r =>
          obtain ⟨c', us⟩ := r
          simp only [hrf] at h1 h2
          simp only [h1] at hret ⊢
          rw [M.bind_ok (M.get_run _)] at hret ⊢
          have hcont : s.objs.contains p = true := by unfold Dict.contains; rw [h.obj]; rfl
          rw [if_pos ⟨by trivial, hcont⟩] at hret ⊢
          -- the lookup of the active configuration
          have hp2 : IsItem (CMM.refresh p s.cm).2 p := CMM.step_item_isItem hp (op := .refresh p) .refresh hp
          have hslot2 : (CMM.refresh p s.cm).2.view.slot p = .conf c' := by
            rw [show (CMM.refresh p s.cm).2.view = _ from h2, View.setConf_slot_self]
          have hown2 : (CMM.refresh p s.cm).2.view.own p = .ok c' := by unfold View.own; rw [hslot2]
          obtain ⟨g1, g2⟩ := CMM.get_of_own hp2 hown2
          generalize (CMM.refresh p s.cm).2 = cm2 at *
          generalize hact : CMM.active cm2.view p c' = ca at g1 g2
          have hgc : RM.getConfig p { s with cm := cm2 } = (.ok ca, { s with cm := (CMM.get p cm2).2 }) := by
            unfold RM.getConfig
            rw [M.bind_run]
            unfold RM.liftC
            simp only [g1]
            rfl
          rw [M.bind_ok hgc] at hret ⊢
          obtain ⟨o', hfo⟩ := RM.applyToLoaded_carries (s := { s with cm := (CMM.get p cm2).2 })
            (c := ca) hn h.obj h.isObject h.callable
            (show (CMM.get p cm2).2.view.slot p = _ by rw [g2, View.setConf_slot_self]) Dict.empty hret
          exact ⟨o', _, hfo⟩

omit [BEq V] in
theorem RS.Carries.get (h : s.Carries k names p o c) {k' : Callable V} (hk : s.reg.lookup p = .ok (.item k')) :
    RM.get p s = (.ok (.obj o), s) := by
  rw [RM.get_item hk]
  have : RM.getItem p k' s = (.ok o, s) := by
    unfold RM.getItem RM.getOneFunc RM.getOneObj
    cases k'.kind <;> simp only <;> rw [M.bind_ok (M.get_run s), h.obj] <;> rfl
  rw [M.bind_ok this]
  rfl

end

/-- The parameters of the class itself are those of its `__init__` of an object, and the one for the object. -/
theorem Sig.argNames_class {sig : Sig} {names : List String} (hn : sig.argNames true = .ok names) :
    ∃ names', sig.argNames false = .ok names' ∧ (∀ x ∈ names, x ∈ names') ∧
      ∀ x ∈ names', x ∉ names → x = sig.args.headD "self" := by
  unfold Sig.argNames at hn ⊢
  cases ha : sig.args with
  | nil => rw [ha] at hn; cases hn
  | cons y ys =>
    rw [ha] at hn
    cases hn
    refine ⟨_, rfl, ?_, ?_⟩
    · intro x hx
      simp only [List.cons_append, List.mem_cons]
      exact .inr hx
    · intro x hx hnx
      simp only [List.cons_append, List.mem_cons] at hx
      rcases hx with hx | hx
      · exact hx
      · exact absurd hx hnx

/-- What a new object of a class or specific class is given. -/
theorem RM.construct_object {k : Callable V} {names : List String}
    (hn : k.sig.argNames true = .ok names) {ca : Conf V} {d : Dict String V}
    (hd : RM.forFunction ca (.item k) = .ok d) {id : Nat} {o : Obj V} (hcon : RM.construct id k d = .ok o) :
    o.isPartial = false ∧ o.callable = k ∧ o.kwargs = ca.values.filterKeys (fun x => decide (x ∈ names)) := by
  obtain ⟨names', hn', hsub, hsup⟩ := Sig.argNames_class hn
  have hd' : d = ca.values.filterKeys (fun x => decide (x ∈ names')) := by
    unfold RM.forFunction at hd
    simp only [hn'] at hd
    cases hd
    rfl
  subst hd'
  unfold RM.construct at hcon
  split at hcon
  · have hap := RM.applyConfig_object (o := ⟨id, false, k, Dict.empty⟩) rfl (by exact hn) hcon
    subst hap
    refine ⟨rfl, rfl, ?_⟩
    apply Dict.ext_items
    show (ca.values.items.filter _).filter _ = ca.values.items.filter _
    rw [List.filter_filter]
    apply List.filter_congr
    intro e _
    by_cases hx : e.1 ∈ names
    · simp [hx, hsub e.1 hx]
    · simp [hx]
  · split at hcon
    · cases hcon
    · rename_i hself
      split at hcon
      · cases hcon
      · cases hcon
        refine ⟨rfl, rfl, ?_⟩
        apply Dict.ext_items
        show ca.values.items.filter _ = ca.values.items.filter _
        apply List.filter_congr
        intro e he
        by_cases hx : e.1 ∈ names
        · simp [hx, hsub e.1 hx]
        · by_cases hx' : e.1 ∈ names'
          · exfalso
            have hxs := hsup e.1 hx' hx
            apply hself
            rw [← hxs, Dict.contains_iff, Dict.keys_filterKeys, List.mem_filter]
            exact ⟨List.mem_map_of_mem he, by simp [hx']⟩
          · simp [hx, hx']

/-- The first `get` of a registered class or object of a specific class. -/
theorem RS.Carries.create_active {s : RS V} {p : List String} (hp : IsItem s.cm p) {k : Callable V}
    (hk : s.reg.lookup p = .ok (.item k)) (hf : k.kind ≠ .func) {names : List String}
    (hn : k.sig.argNames true = .ok names) (ho : s.objs.get? p = none) {r : RM.GetRes V}
    (hr : (RM.get p s).1 = .ok r) :
    ∃ o c, r = .obj o ∧ s.cm.view.own p = .ok c ∧
      (RM.get p s).2.Carries k names p o (CMM.active s.cm.view p c) := by
  obtain ⟨names', hn', -, -⟩ := Sig.argNames_class hn
  have hlk : RM.lookup p s = (.ok (.item k), s) := by
    show (s.reg.lookup p, _) = _
    rw [hk]
  have hgi : RM.getItem p k = RM.getOneObj p := by
    unfold RM.getItem
    cases hkk : k.kind with
    | func => exact absurd hkk hf
    | klass => rfl
    | specific => rfl
  rw [RM.get_item hk, hgi, M.bind_run] at hr ⊢
  unfold RM.getOneObj at hr ⊢
  rw [M.bind_ok (M.get_run s), ho] at hr ⊢
  simp only at hr ⊢
  rw [M.bind_ok hlk] at hr ⊢
  cases hown : s.cm.view.own p with
  | error e =>
    exfalso
    obtain ⟨g1, _⟩ := CMM.get_of_own_error hp hown
    have hgc : RM.getConfig p s = (.error e, { s with cm := (CMM.get p s.cm).2 }) := by
      unfold RM.getConfig
      rw [M.bind_run]
      unfold RM.liftC
      simp only [g1]
    have hfc : RM.funcAndConfig p s = (.error e, { s with cm := (CMM.get p s.cm).2 }) := by
      unfold RM.funcAndConfig
      rw [M.bind_error hgc]
    rw [M.bind_error hfc] at hr
    cases hr
  | ok c =>
    obtain ⟨g1, g2⟩ := CMM.get_of_own hp hown
    have hff : RM.forFunction (CMM.active s.cm.view p c) (.item k) =
        .ok ((CMM.active s.cm.view p c).values.filterKeys (fun x => decide (x ∈ names'))) := by
      unfold RM.forFunction
      simp only [hn']
    have hfc : RM.funcAndConfig p s = (.ok (.item k,
        (CMM.active s.cm.view p c).values.filterKeys (fun x => decide (x ∈ names'))),
        { s with cm := (CMM.get p s.cm).2 }) := by
      unfold RM.funcAndConfig
      have hgc : RM.getConfig p s = (.ok (CMM.active s.cm.view p c), { s with cm := (CMM.get p s.cm).2 }) := by
        unfold RM.getConfig
        rw [M.bind_run]
        unfold RM.liftC
        simp only [g1]
        rfl
      rw [M.bind_ok hgc]
      have hlk : RM.lookup p { s with cm := (CMM.get p s.cm).2 } =
          (.ok (.item k), { s with cm := (CMM.get p s.cm).2 }) := by
        show (s.reg.lookup p, _) = _
        rw [hk]
      rw [M.bind_ok hlk]
      rw [hff]
      rfl
    rw [M.bind_ok hfc] at hr ⊢
    simp only at hr ⊢
    rw [M.bind_ok (M.get_run _), M.bind_run, M.liftE_run] at hr ⊢
    simp only at hr ⊢
    generalize hca : CMM.active s.cm.view p c = ca at *
    have hslot : (CMM.get p s.cm).2.view.slot p = .conf ca := by
      rw [g2, View.setConf_slot_self]
    cases hcon : RM.construct s.nextId k (ca.values.filterKeys (fun x => decide (x ∈ names'))) with
    | error e => rw [hcon] at hr; cases hr
    | ok o =>
      rw [hcon] at hr
      simp only at hr ⊢
      refine ⟨o, c, ?_, rfl, ?_⟩
      · have : (Except.ok (RM.GetRes.obj o) : Except PyErr (RM.GetRes V)) = .ok r := hr
        cases this
        rfl
      · have hgood : o.isPartial = false ∧ o.callable = k ∧
            o.kwargs = ca.values.filterKeys (fun x => decide (x ∈ names)) :=
          RM.construct_object hn hff hcon
        rw [hca]
        exact ⟨Dict.get?_set_self _ _ _, hgood.1, hgood.2.1, hslot, hgood.2.2⟩

theorem RS.Carries.create {s : RS V} {p : List String} (hp : IsItem s.cm p) {k : Callable V}
    (hk : s.reg.lookup p = .ok (.item k)) (hf : k.kind ≠ .func) {names : List String}
    (hn : k.sig.argNames true = .ok names) (ho : s.objs.get? p = none) {r : RM.GetRes V}
    (hr : (RM.get p s).1 = .ok r) :
    ∃ o c, r = .obj o ∧ (RM.get p s).2.Carries k names p o c := by
  obtain ⟨o, c, h1, _, h2⟩ := RS.Carries.create_active hp hk hf hn ho hr
  exact ⟨o, _, h1, h2⟩

end Verif.Model

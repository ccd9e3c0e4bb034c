import Verif.Lemmas.Lookup

/-
What a call of the config manager for one item, or for one section, leaves alone.
-/

namespace Verif.Model
open Verif.Py
variable {V : Type}

/-- The calls that concern the item at `p` only. -/
inductive CMOp.OnItem (p : List String) : CMOp V → Prop where
  | update (d : Option (Dict String V)) (persist : Bool) (kw : Dict String V) :
    OnItem p (.update d (some p) persist kw)
  | refresh : OnItem p (.refresh p)
  | get : OnItem p (.get p)
  | reset : OnItem p (.reset (some p) false)
  | pop (key : String) : OnItem p (.pop key (some p))

namespace CMM

/-- `ConfigManager.pop` of an item seen through views. -/
def vpop (key : String) (p : List String) : M PyErr (View V) V := do
  match ← vload p with
  | none => M.raise .notLoaded
  | some c =>
    match c.values.get? key with
    | none => M.raise .keyError
    | some v =>
      M.modify (fun a => a.mapConf p (fun c => { c with values := c.values.del key }))
      return v

theorem pop_ref {s : CM V} {p : List String} (hp : IsItem s p) (key : String) :
    Ref (pop key (some p)) (vpop key p) s := by
  unfold pop vpop
  have hp' := getFunc_isItem (.inl hp) hp
  refine Ref.bind (getFunc_ref (.inl hp)) ?_
  intro r hr
  cases r with
  | none => exact Ref.raise _
  | some c =>
    dsimp only
    cases c.values.get? key with
    | none => exact Ref.raise _
    | some v =>
      refine Ref.bind (Ref.modify ?_) (fun _ _ => Ref.pure _)
      exact CM.view_modifyAt_mapConf _ hp'.plain hp'.item _

theorem vpop_item {a : View V} {p : List String} (h : (a.slot p).isItem = true) (key : String) :
    vpop key p a = match a.own p with
      | .ok c => match c.values.get? key with
        | none => (.error .keyError, a.setConf p c)
        | some v => (.ok v, a.setConf p { c with values := c.values.del key })
      | .error e => (.error e, a) := by
  unfold vpop
  rw [M.bind_run, vload_item h]
  cases a.own p with
  | error e => rfl
  | ok c =>
    simp only
    cases c.values.get? key with
    | none => rfl
    | some v =>
      simp only
      rw [M.bind_ok (M.modify_run _ _)]
      simp only [M.pure_run, View.setConf_mapConf]

/-- A call for the item at `p` changes the view at `p` only. -/
theorem step_item [BEq V] {s : CM V} {p : List String} (hp : IsItem s p) {op : CMOp V} (ho : op.OnItem p) :
    (s.step op).view = s.view ∨ ∃ c, (s.step op).view = s.view.setConf p c := by
  have hi := hp.item
  cases ho with
  | update d persist kw =>
    have hr := update_ref hp d persist kw
    unfold Ref at hr
    have hv := vupdate_item hi d persist kw
    rw [hr] at hv
    have hv' := congrArg Prod.snd hv
    show (update d (some p) persist kw s).2.view = _ ∨ ∃ c, (update d (some p) persist kw s).2.view = _
    rw [show (update d (some p) persist kw s).2.view = _ from hv']
    cases s.view.own p with
    | error e => exact .inl rfl
    | ok c =>
      simp only
      cases determineWouldUpdate c d kw with
      | error e => exact .inr ⟨_, rfl⟩
      | ok b =>
        cases b
        · exact .inr ⟨_, rfl⟩
        · simp only
          split
          · exact .inr ⟨_, rfl⟩
          · exact .inr ⟨_, rfl⟩
  | refresh =>
    have hr := refresh_ref hp
    unfold Ref at hr
    have hv := vrefresh_item hi
    rw [hr] at hv
    have hv' := congrArg Prod.snd hv
    show (refresh p s).2.view = _ ∨ ∃ c, (refresh p s).2.view = _
    rw [show (refresh p s).2.view = _ from hv']
    cases s.view.own p with
    | error e => exact .inl rfl
    | ok c =>
      simp only
      cases c.file with
      | none => exact .inr ⟨_, rfl⟩
      | some loc =>
        simp only
        cases s.view.fs.load loc with
        | error e => exact .inr ⟨_, rfl⟩
        | ok new =>
          simp only
          split
          · exact .inr ⟨_, rfl⟩
          · cases c.refresh new.values with
            | error e => exact .inr ⟨_, rfl⟩
            | ok r => exact .inr ⟨_, rfl⟩
  | get =>
    show (get p s).2.view = _ ∨ ∃ c, (get p s).2.view = _
    cases hown : s.view.own p with
    | error e => exact .inl (get_of_own_error hp hown).2
    | ok c => exact .inr ⟨_, (get_of_own hp hown).2⟩
  | reset =>
    have hr := reset_ref hp
    unfold Ref at hr
    have hv := vreset_item hi
    rw [hr] at hv
    have hv' := congrArg Prod.snd hv
    show (reset (some p) false s).2.view = _ ∨ ∃ c, (reset (some p) false s).2.view = _
    rw [show (reset (some p) false s).2.view = _ from hv']
    cases s.view.fs.load (.item p) with
    | error e => exact .inl rfl
    | ok v =>
      simp only
      cases s.view.own p with
      | error e =>
        simp only
        split
        · exact .inr ⟨_, rfl⟩
        · exact .inl rfl
      | ok c =>
        simp only
        cases determineWouldUpdate c none v.values with
        | error e => exact .inr ⟨_, rfl⟩
        | ok b => cases b <;> exact .inr ⟨_, rfl⟩
  | pop key =>
    have hr := pop_ref hp key
    unfold Ref at hr
    have hv := vpop_item hi key
    rw [hr] at hv
    have hv' := congrArg Prod.snd hv
    show (pop key (some p) s).2.view = _ ∨ ∃ c, (pop key (some p) s).2.view = _
    rw [show (pop key (some p) s).2.view = _ from hv']
    cases s.view.own p with
    | error e => exact .inl rfl
    | ok c =>
      simp only
      cases c.values.get? key with
      | none => exact .inr ⟨_, rfl⟩
      | some v => exact .inr ⟨_, rfl⟩

theorem step_item_frame [BEq V] {s : CM V} {p : List String} (hp : IsItem s p) {op : CMOp V}
    (ho : op.OnItem p) {q : List String} (hq : q ≠ p) : (s.step op).view.slot q = s.view.slot q := by
  rcases step_item hp ho with h | ⟨c, h⟩
  · rw [h]
  · rw [h, View.setConf_slot_ne _ _ hq]

theorem step_item_rest [BEq V] {s : CM V} {p : List String} (hp : IsItem s p) {op : CMOp V}
    (ho : op.OnItem p) : (s.step op).fs = s.fs ∧ (s.step op).localConf = s.localConf ∧
      (s.step op).rootName = s.rootName := by
  rcases step_item hp ho with h | ⟨c, h⟩
  · exact ⟨congrArg View.fs h, congrArg View.localConf h, congrArg View.rootName h⟩
  · exact ⟨congrArg View.fs h, congrArg View.localConf h, congrArg View.rootName h⟩

theorem step_item_isItem [BEq V] {s : CM V} {p : List String} (hp : IsItem s p) {op : CMOp V}
    (ho : op.OnItem p) {q : List String} (hq : IsItem s q) : IsItem (s.step op) q := by
  refine ⟨hq.ne, by rw [(step_item_rest hp ho).2.2]; exact hq.plain, ?_⟩
  rcases step_item hp ho with h | ⟨c, h⟩
  · rw [h]; exact hq.item
  · rw [h]
    by_cases hqp : q = p
    · subst hqp; rw [View.setConf_slot_self]; rfl
    · rw [View.setConf_slot_ne _ _ hqp]; exact hq.item

/-! ### Sections -/

theorem getFunc_sect {s : CM V} {p : List String} {cfg : Option (Conf V)} (h : s.view.slot p = .sect cfg) :
    getFuncOrSectionConfigs p s = (.ok cfg, s) := by
  obtain ⟨attrs, map, hw⟩ := CM.walk_of_slot_sect h
  unfold getFuncOrSectionConfigs
  rw [M.bind_ok (M.get_run s), M.bind_run, M.liftE_run, hw]
  rfl

/-- A section, reached along a plain path. -/
structure IsSect (s : CM V) (p : List String) : Prop where
  plain : PlainPath s.rootName p
  sect : ∃ cfg, s.view.slot p = .sect cfg

theorem IsSect.prefix_sect {s : CM V} {p : List String} (h : IsSect s p) (k : Nat) :
    ∃ cfg, s.view.slot (p.take k) = .sect cfg := by
  by_cases hk : k < p.length
  · obtain ⟨x, q, hd⟩ : ∃ x q, p.drop k = x :: q := by
      cases hdk : p.drop k with
      | nil => have := List.length_drop (i := k) (l := p); rw [hdk] at this; simp at this; omega
      | cons x q => exact ⟨x, q, rfl⟩
    have hp : p.take k ++ p.drop k = p := List.take_append_drop k p
    apply Node.slot_prefix managerReserved s.rootName s.root (p.take k) x q
    rw [← hd, hp]
    obtain ⟨cfg, hs⟩ := h.sect
    show s.view.slot p ≠ _
    rw [hs]; simp
  · rw [List.take_of_length_le (by omega)]; exact h.sect

theorem sectionConfigsFrom_sect {s : CM V} (rest : List String) :
    ∀ (pre : List String) (x : String), IsSect s (pre ++ rest) →
    ∃ r, sectionConfigsFrom pre (x :: rest) s = (.ok r, s) := by
  induction rest with
  | nil =>
    intro pre x h
    rw [List.append_nil] at h
    obtain ⟨cfg, hs⟩ := h.sect
    obtain ⟨attrs, map, hw⟩ := CM.walk_of_slot_sect hs
    refine ⟨[cfg], ?_⟩
    rw [sectionConfigsFrom, M.bind_ok (M.get_run s), M.bind_run, M.liftE_run, hw]
    simp only
    rw [M.bind_ok (getFunc_sect hs)]
    rfl
  | cons y rest ih =>
    intro pre x h
    have hpre : ∃ cfg, s.view.slot pre = .sect cfg := by
      have := h.prefix_sect pre.length
      simpa using this
    obtain ⟨cfg, hs⟩ := hpre
    obtain ⟨r, hr⟩ := ih (pre ++ [y]) y (by simpa using h)
    refine ⟨cfg :: r, ?_⟩
    rw [sectionConfigsFrom, M.bind_ok (getFunc_sect hs), M.bind_ok hr]
    rfl

/-- The calls that concern the config of the section at `p` only. -/
inductive _root_.Verif.Model.CMOp.OnSection (p : List String) : CMOp V → Prop where
  | update (d : Option (Dict String V)) (persist : Bool) (kw : Dict String V) :
    OnSection p (.update d (some p) persist kw)
  | refresh : OnSection p (.refresh p)
  | get : OnSection p (.get p)
  | pop (key : String) : OnSection p (.pop key (some p))

/-- A call for the section at `p` changes its config in place, if anything. -/
theorem step_section [BEq V] {s : CM V} {p : List String} (hp : IsSect s p) {op : CMOp V} (ho : op.OnSection p) :
    s.step op = s ∨ ∃ g, s.step op = s.modifyAt p (Node.mapConf g) := by
  obtain ⟨cfg, hs⟩ := hp.sect
  have hg := getFunc_sect hs
  cases ho with
  | update d persist kw =>
    show (update d (some p) persist kw s).2 = _ ∨ ∃ g, (update d (some p) persist kw s).2 = _
    unfold update
    rw [M.bind_ok (show getProjectOrLocal (some p) s = _ from hg)]
    cases cfg with
    | none => exact .inl rfl
    | some c =>
      simp only
      rw [M.bind_run, M.liftE_run]
      cases determineWouldUpdate c d kw with
      | error e => exact .inl rfl
      | ok b =>
        cases b
        · exact .inl rfl
        · simp only [if_true]
          split
          · exact .inl rfl
          · exact .inr ⟨_, rfl⟩
  | refresh =>
    show (refresh p s).2 = _ ∨ ∃ g, (refresh p s).2 = _
    unfold refresh
    rw [M.bind_ok (show getProjectOrLocal (some p) s = _ from hg)]
    cases cfg with
    | none => exact .inl rfl
    | some c =>
      simp only
      rw [M.bind_run]
      have h1 := newConfig_state c s
      cases hn : newConfigFromFile c s with
      | mk r s1 =>
        rw [hn] at h1
        simp only at h1
        subst h1
        cases r with
        | error e => exact .inl rfl
        | ok new =>
          simp only
          split
          · exact .inl rfl
          · rw [M.bind_ok hn]
            cases c.refresh new.values with
            | error e => exact .inl rfl
            | ok r => exact .inr ⟨_, rfl⟩
  | get =>
    show (get p s).2 = _ ∨ ∃ g, (get p s).2 = _
    unfold get
    rw [M.bind_ok hg, M.bind_ok (M.get_run s)]
    cases hpp : p with
    | nil =>
      simp only [List.take_nil]
      rw [M.bind_ok (show sectionConfigsFrom [] [] s = (.ok [], s) from rfl)]
      cases cfg with
      | none => exact .inl rfl
      | some c =>
        simp only
        split
        · exact .inl rfl
        · exact .inr ⟨_, rfl⟩
    | cons x p' =>
      obtain ⟨r, hr⟩ := sectionConfigsFrom_sect p' [x] x (by rw [hpp] at hp; simpa using hp)
      simp only [List.take_succ_cons, List.take_zero]
      rw [M.bind_ok hr]
      cases cfg with
      | none => exact .inl rfl
      | some c =>
        simp only
        split
        · exact .inl rfl
        · exact .inr ⟨_, rfl⟩
  | pop key =>
    show (pop key (some p) s).2 = _ ∨ ∃ g, (pop key (some p) s).2 = _
    unfold pop
    rw [M.bind_ok (show getProjectOrLocal (some p) s = _ from hg)]
    cases cfg with
    | none => exact .inl rfl
    | some c =>
      simp only
      cases c.values.get? key with
      | none => exact .inl rfl
      | some v => exact .inr ⟨_, rfl⟩

theorem step_section_frame [BEq V] {s : CM V} {p : List String} (hp : IsSect s p) {op : CMOp V}
    (ho : op.OnSection p) {q : List String} (hpl : PlainPath s.rootName q) (hq : q ≠ p) :
    (s.step op).view.slot q = s.view.slot q := by
  rcases step_section hp ho with h | ⟨g, h⟩
  · rw [h]
  · rw [h]
    show Node.slot managerReserved s.rootName (s.root.modifyAt managerReserved s.rootName p (Node.mapConf g)) q = _
    rw [Node.slot_modifyAt_mapConf_plain g p _ _ _ _ hp.plain hpl, if_neg hq]
    rfl

end CMM
end Verif.Model

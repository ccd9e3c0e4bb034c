import Verif.Lemmas.Store

/-
Every operation of the config manager, seen through `view`: what each plain section path
leads to.  The operations on views are written with the same branches as the operations
on the manager; the lemmas `*_view` show that they correspond.
-/

namespace Verif.Model
open Verif.Py

variable {V : Type}

/-- What the config manager shows: what each plain path leads to, the local config, and
the files. -/
structure View (V : Type) where
  fs : Files V
  rootName : String
  localConf : Conf V
  slot : List String → Slot V

/-- The view of a config manager. -/
def CM.view (s : CM V) : View V where
  fs := s.fs
  rootName := s.rootName
  localConf := s.localConf
  slot q := Node.slot managerReserved s.rootName s.root q

namespace View

/-- A config is now loaded at `p`. -/
def setConf (a : View V) (p : List String) (c : Conf V) : View V :=
  { a with slot := fun q => if q = p then .conf c else a.slot q }

/-- The config at `p` is changed in place. -/
def mapConf (a : View V) (p : List String) (g : Conf V → Conf V) : View V :=
  { a with slot := fun q => if q = p then (a.slot p).mapConf g else a.slot q }

/-- The config of the section at `p`. -/
def sectCfg (a : View V) (p : List String) : Option (Conf V) :=
  match a.slot p with
  | .sect cfg => cfg
  | _ => none

/-- The configs of the sections around an item, from the project to the innermost. -/
def levels (a : View V) (p : List String) : List (Option (Conf V)) :=
  (List.range p.length).map (fun k => a.sectCfg (p.take k))

theorem setConf_self {a : View V} {p : List String} {c : Conf V} (h : a.slot p = .conf c) :
    a.setConf p c = a := by
  unfold setConf
  congr
  funext q
  split
  · rename_i hq; rw [hq, h]
  · rfl

theorem setConf_slot_self (a : View V) (p : List String) (c : Conf V) :
    (a.setConf p c).slot p = .conf c := by simp [setConf]

theorem setConf_slot_ne (a : View V) {p q : List String} (c : Conf V) (h : q ≠ p) :
    (a.setConf p c).slot q = a.slot q := by simp [setConf, h]

theorem mapConf_slot_self (a : View V) (p : List String) (g : Conf V → Conf V) :
    (a.mapConf p g).slot p = (a.slot p).mapConf g := by simp [mapConf]

theorem mapConf_slot_ne (a : View V) {p q : List String} (g : Conf V → Conf V) (h : q ≠ p) :
    (a.mapConf p g).slot q = a.slot q := by simp [mapConf, h]

theorem setConf_mapConf (a : View V) (p : List String) (c : Conf V) (g : Conf V → Conf V) :
    (a.setConf p c).mapConf p g = a.setConf p (g c) := by
  unfold mapConf setConf
  congr
  funext q
  by_cases hq : q = p <;> simp [hq, Slot.mapConf]

theorem setConf_setConf (a : View V) (p : List String) (c c' : Conf V) :
    (a.setConf p c).setConf p c' = a.setConf p c' := by
  unfold setConf
  congr
  funext q
  by_cases hq : q = p <;> simp [hq]

end View

namespace CM

theorem view_modifyAt_mapConf (s : CM V) {p : List String} (hp : PlainPath s.rootName p)
    (hit : (s.view.slot p).isItem = true) (g : Conf V → Conf V) :
    (s.modifyAt p (Node.mapConf g)).view = s.view.mapConf p g := by
  simp only [view, modifyAt, View.mapConf]
  congr
  funext q
  exact Node.slot_modifyAt_mapConf g p _ _ _ _ hp hit

/-- What the walk finds at a path that shows something. -/
theorem walk_of_slot_conf {s : CM V} {p c} (h : s.view.slot p = .conf c) : s.walk p = .ok (.conf c) := by
  simp only [view, Node.slot] at h
  unfold walk
  cases hw : Node.walk managerReserved s.rootName s.root p with
  | error e => rw [hw] at h; simp [Node.slotOf] at h
  | ok n => rw [hw] at h; cases n <;> simp [Node.slotOf] at h; rw [h]

theorem walk_of_slot_file {s : CM V} {p l} (h : s.view.slot p = .file l) : s.walk p = .ok (.file l) := by
  simp only [view, Node.slot] at h
  unfold walk
  cases hw : Node.walk managerReserved s.rootName s.root p with
  | error e => rw [hw] at h; simp [Node.slotOf] at h
  | ok n => rw [hw] at h; cases n <;> simp [Node.slotOf] at h; rw [h]

theorem walk_of_slot_sect {s : CM V} {p cfg} (h : s.view.slot p = .sect cfg) :
    ∃ attrs map, s.walk p = .ok (.sect cfg attrs map) := by
  simp only [view, Node.slot] at h
  unfold walk
  cases hw : Node.walk managerReserved s.rootName s.root p with
  | error e => rw [hw] at h; simp [Node.slotOf] at h
  | ok n =>
    rw [hw] at h
    cases n with
    | sect cfg' a m => simp [Node.slotOf] at h; exact ⟨a, m, by rw [h]⟩
    | _ => simp [Node.slotOf] at h

end CM

theorem List.dropLast_concat_getLastD {p : List String} (h : p ≠ []) :
    p.dropLast ++ [p.getLast?.getD ""] = p := by
  rw [List.getLast?_eq_some_getLast h]
  exact List.dropLast_concat_getLast h

theorem Node.isStore_attrValue {nm x : String} (hx : x ≠ nm) (c : Conf V) :
    Node.IsStore x c (fun parent => parent.setAttr x (CMM.attrValue parent nm x c)) := by
  refine ⟨?_, ?_, by simp [Node.setAttr]⟩
  · intro cfg attrs map h
    simp only [Node.setAttr, CMM.attrValue]
    cases cfg with
    | none => rfl
    | some c' =>
      cases ha : AList.get? attrs x with
      | none => simp [hx, ha]
      | some n => cases n <;> simp_all
  · intro n hn
    cases n <;> simp_all [Node.setAttr]

theorem Node.isStore_setAttr (x : String) (c : Conf V) :
    Node.IsStore x c (fun n => n.setAttr x (.conf c)) := by
  refine ⟨?_, ?_, rfl⟩
  · intro cfg attrs map _; rfl
  · intro n hn
    cases n <;> simp_all [Node.setAttr]

/-- An item the config manager knows: a plain path with a loaded config or a config
file. -/
structure IsItem (s : CM V) (p : List String) : Prop where
  ne : p ≠ []
  plain : PlainPath s.rootName p
  item : (s.view.slot p).isItem = true

namespace CM

theorem view_store (s : CM V) {p : List String} (hp : IsItem s p) (c : Conf V) {f : Node V → Node V}
    (hf : Node.IsStore (p.getLast?.getD "") c f) :
    (s.modifyAt p.dropLast f).view = s.view.setConf p c := by
  have hpl := hp.plain
  have hcat := List.dropLast_concat_getLastD hp.ne
  have hit := hp.item
  simp only [view, modifyAt, View.setConf]
  congr
  funext q
  rw [Node.slot_modifyAt_store _ c hf p.dropLast _ _ _ _ (hcat.symm ▸ hpl) (hcat.symm ▸ hit), hcat]

end CM

namespace CMM

theorem view_storeLoaded (s : CM V) {p : List String} (hp : IsItem s p) (c : Conf V) :
    storeLoaded p c s = (.ok (), (storeLoaded p c s).2) ∧
    (storeLoaded p c s).2.view = s.view.setConf p c := by
  refine ⟨rfl, ?_⟩
  apply CM.view_store s hp
  apply Node.isStore_attrValue
  have hpl := hp.plain
  rw [← List.dropLast_concat_getLastD hp.ne, Node.PlainPath_concat] at hpl
  exact hpl.2

/-- `_get_func_or_section_configs` seen through views. -/
def vload (p : List String) : M PyErr (View V) (Option (Conf V)) := fun a =>
  match a.slot p with
  | .conf c => (.ok (some c), a)
  | .file l => match a.fs.load l with
    | .ok c => (.ok (some c), a.setConf p c)
    | .error e => (.error e, a)
  | .sect cfg => (.ok cfg, a)
  | .absent => (.error .keyError, a)

theorem getFunc_view (s : CM V) {p : List String} (hp : IsItem s p ∨ ∃ cfg, s.view.slot p = .sect cfg) :
    vload p s.view = ((getFuncOrSectionConfigs p s).1, (getFuncOrSectionConfigs p s).2.view) := by
  unfold getFuncOrSectionConfigs
  rw [M.bind_ok (M.get_run s), M.bind_run, M.liftE_run]
  rcases hp with hp | ⟨cfg, hs⟩
  · have hit := hp.item
    cases hs : s.view.slot p with
    | conf c =>
      rw [CM.walk_of_slot_conf hs]
      simp only [M.bind_run, configOf, Node.isSect]
      obtain ⟨h1, h2⟩ := view_storeLoaded s hp c
      rw [h1]
      simp only [M.pure_run, h2, View.setConf_self hs, vload, hs]
    | file l =>
      rw [CM.walk_of_slot_file hs]
      simp only [M.bind_run, configOf, Node.isSect]
      have hfs : s.view.fs = s.fs := rfl
      cases hl : s.fs.load l with
      | error e => simp [vload, hs, hfs, hl]
      | ok c =>
        dsimp only
        rw [M.bind_run]
        obtain ⟨h1, h2⟩ := view_storeLoaded s hp c
        rw [h1]
        simp only [M.pure_run, h2, vload, hs, hfs, hl]
    | sect cfg => rw [hs] at hit; simp [Slot.isItem] at hit
    | absent => rw [hs] at hit; simp [Slot.isItem] at hit
  · obtain ⟨attrs, map, hw⟩ := CM.walk_of_slot_sect hs
    rw [hw]
    simp [M.bind_run, configOf, Node.isSect, vload, hs]

/-- `m` at the state `s` does what `a` does at the view of `s`. -/
def Ref {α : Type} (m : CMM V α) (a : M PyErr (View V) α) (s : CM V) : Prop :=
  a s.view = ((m s).1, (m s).2.view)

namespace Ref
variable {α β : Type} {s : CM V}

theorem pure (x : α) : Ref (Pure.pure x) (Pure.pure x) s := rfl
theorem raise (e : PyErr) : Ref (α := α) (M.raise e) (M.raise e) s := rfl
theorem liftE (x : Except PyErr α) : Ref (M.liftE x) (M.liftE x) s := rfl
theorem modify {f : CM V → CM V} {g : View V → View V} (h : (f s).view = g s.view) :
    Ref (M.modify f) (M.modify g) s := by
  unfold Ref; simp only [M.modify_run, h]

theorem bind {m : CMM V α} {a : M PyErr (View V) α} {f : α → CMM V β} {g : α → M PyErr (View V) β}
    (h : Ref m a s) (hf : ∀ x, (m s).1 = .ok x → Ref (f x) (g x) (m s).2) :
    Ref (m >>= f) (a >>= g) s := by
  unfold Ref at *
  rw [M.bind_run, M.bind_run, h]
  cases hm : m s with
  | mk r s' =>
    rw [hm] at hf
    cases r with
    | ok x => exact hf x rfl
    | error e => rfl

theorem getBind {f : CM V → CMM V β} {g : View V → M PyErr (View V) β} (h : Ref (f s) (g s.view) s) :
    Ref (M.get >>= f) (M.get >>= g) s := h

end Ref

/-- A path the manager knows: an item, or a section. -/
def Known (s : CM V) (p : List String) : Prop := IsItem s p ∨ ∃ cfg, s.view.slot p = .sect cfg

theorem getFunc_ref {s : CM V} {p : List String} (hp : Known s p) :
    Ref (getFuncOrSectionConfigs p) (vload p) s := getFunc_view s hp

theorem vload_rootName (p : List String) (a : View V) : (vload p a).2.rootName = a.rootName := by
  unfold vload
  cases a.slot p with
  | file l => dsimp only; cases a.fs.load l <;> rfl
  | _ => rfl

theorem getFunc_rootName {s : CM V} {p : List String} (hp : Known s p) :
    (getFuncOrSectionConfigs p s).2.rootName = s.rootName := by
  have h := getFunc_view s hp
  have : (vload p s.view).2.rootName = (getFuncOrSectionConfigs p s).2.view.rootName := by rw [h]
  rw [vload_rootName] at this
  exact this.symm

theorem vload_isItem {a : View V} {p q : List String} (hq : (a.slot q).isItem = true) :
    ((vload p a).2.slot q).isItem = true := by
  unfold vload
  cases a.slot p with
  | file l =>
    dsimp only
    cases a.fs.load l with
    | ok c =>
      simp only [View.setConf]
      split
      · rfl
      · exact hq
    | error e => exact hq
  | _ => exact hq

theorem getFunc_isItem {s : CM V} {p q : List String} (hp : Known s p) (hq : IsItem s q) :
    IsItem (getFuncOrSectionConfigs p s).2 q := by
  refine ⟨hq.ne, by rw [getFunc_rootName hp]; exact hq.plain, ?_⟩
  have h := getFunc_view s hp
  have : (getFuncOrSectionConfigs p s).2.view = (vload p s.view).2 := by rw [h]
  rw [this]
  exact vload_isItem hq.item

/-- `ConfigManager.update` of an item seen through views. -/
def vupdate [BEq V] (d : Option (Dict String V)) (p : List String) (persist : Bool)
    (kw : Dict String V) : M PyErr (View V) (Conf V × Bool) := do
  match ← vload p with
  | none => M.raise .notLoaded
  | some c =>
    let would ← M.liftE (determineWouldUpdate c d kw)
    if would then
      if Conf.clash Conf.updateReserved kw then M.raise .typeError
      else
        M.modify (fun a => a.mapConf p (fun c => c.update d persist kw))
        return (c.update d persist kw, true)
    else
      return (c, false)

theorem update_ref [BEq V] {s : CM V} {p : List String} (hp : IsItem s p) (d persist) (kw : Dict String V) :
    Ref (update d (some p) persist kw) (vupdate d p persist kw) s := by
  unfold update vupdate
  have hp' := getFunc_isItem (.inl hp) hp
  refine Ref.bind (getFunc_ref (.inl hp)) ?_
  intro r hr
  cases r with
  | none => exact Ref.raise _
  | some c =>
    dsimp only
    refine Ref.bind (Ref.liftE _) ?_
    intro would _
    split
    · split
      · exact Ref.raise _
      · refine Ref.bind (Ref.modify ?_) (fun _ _ => Ref.pure _)
        exact CM.view_modifyAt_mapConf _ hp'.plain hp'.item _
    · exact Ref.pure _

/-- `config.refresh` with the current file contents. -/
def vnewConfig (c : Conf V) : M PyErr (View V) (Conf V) := do
  let a ← M.get
  match c.file with
  | none => M.raise .attributeError
  | some loc => M.liftE (a.fs.load loc)

theorem newConfig_ref {s : CM V} (c : Conf V) : Ref (newConfigFromFile c) (vnewConfig c) s := by
  unfold newConfigFromFile vnewConfig
  apply Ref.getBind
  cases c.file with
  | none => exact Ref.raise _
  | some loc => exact Ref.liftE _

theorem newConfig_state (c : Conf V) (s : CM V) : (newConfigFromFile c s).2 = s := by
  unfold newConfigFromFile
  rw [M.bind_ok (M.get_run s)]
  cases c.file <;> rfl

/-- `ConfigManager.refresh` seen through views. -/
def vrefresh [BEq V] (p : List String) : M PyErr (View V) (Conf V × Bool × Dict String V) := do
  match ← vload p with
  | none => M.raise .notLoaded
  | some c =>
    let announced ← vnewConfig c
    let change := c.changeFromRefresh announced.values
    if change.items.isEmpty then
      return (c, false, Dict.empty)
    else
      let new ← vnewConfig c
      match c.refresh new.values with
      | .error e => M.raise e
      | .ok (c', updates) =>
        M.modify (fun a => a.mapConf p (fun c => c.update none false updates))
        return (c', true, updates)

theorem refresh_ref [BEq V] {s : CM V} {p : List String} (hp : IsItem s p) :
    Ref (refresh p) (vrefresh p) s := by
  unfold refresh vrefresh
  have hp' := getFunc_isItem (.inl hp) hp
  refine Ref.bind (getFunc_ref (.inl hp)) ?_
  intro r hr
  cases r with
  | none => exact Ref.raise _
  | some c =>
    dsimp only
    refine Ref.bind (newConfig_ref c) ?_
    intro announced _
    rw [newConfig_state]
    split
    · exact Ref.pure _
    · refine Ref.bind (newConfig_ref c) ?_
      intro new _
      rw [newConfig_state]
      cases c.refresh new.values with
      | error e => exact Ref.raise _
      | ok r =>
        refine Ref.bind (Ref.modify ?_) (fun _ _ => Ref.pure _)
        exact CM.view_modifyAt_mapConf _ hp'.plain hp'.item _

end CMM

/-! ### Prefixes of known paths -/

namespace Node

theorem walk_append (res nm) (n : Node V) (p q : List String) :
    n.walk res nm (p ++ q) = match n.walk res nm p with
      | .error e => .error e
      | .ok n' => if p = [] then n.walk res nm q
        else n'.walk sectionReserved (p.getLast?.getD nm) q := by
  induction p generalizing res nm n with
  | nil => simp [walk]
  | cons x p ih =>
    simp only [List.cons_append, walk]
    cases child res nm n x with
    | error e => rfl
    | ok n' =>
      dsimp only
      rw [ih]
      cases p with
      | nil => simp [walk]
      | cons y p => simp [List.getLast?_cons]

/-- Whatever has something below it is a section. -/
theorem slot_prefix (res nm) (n : Node V) (p : List String) (x : String) (q : List String)
    (h : slot res nm n (p ++ x :: q) ≠ .absent) : ∃ cfg, slot res nm n p = .sect cfg := by
  unfold slot at *
  rw [walk_append] at h
  cases hw : n.walk res nm p with
  | error e => rw [hw] at h; exact absurd rfl h
  | ok n' =>
    rw [hw] at h
    dsimp only at h
    have key : ∀ res' nm', slotOf (walk res' nm' n' (x :: q)) ≠ .absent → ∃ cfg, slotOf (.ok n') = .sect cfg := by
      intro res' nm' h
      have h' : slot res' nm' n' (x :: q) ≠ .absent := h
      cases n' with
      | sect cfg a m => exact ⟨cfg, rfl⟩
      | conf c => exact absurd (slot_conf_cons _ _ _ _ _) h'
      | file l => exact absurd (slot_file_cons _ _ _ _ _) h'
      | own => exact absurd (slot_own _ _ _) h'
      | other => exact absurd (slot_other _ _ _) h'
    by_cases hp : p = []
    · subst hp
      simp only [walk, Except.ok.injEq] at hw
      subst hw
      rw [if_pos rfl] at h
      exact key _ _ h
    · rw [if_neg hp] at h
      exact key _ _ h

end Node

namespace IsItem

theorem prefix_sect {s : CM V} {p : List String} (h : IsItem s p) {k : Nat} (hk : k < p.length) :
    ∃ cfg, s.view.slot (p.take k) = .sect cfg := by
  have hit := h.item
  have hp : p.take k ++ p.drop k = p := List.take_append_drop k p
  have hd : ∃ x q, p.drop k = x :: q := by
    cases hdk : p.drop k with
    | nil => have := List.length_drop (i := k) (l := p); rw [hdk] at this; simp at this; omega
    | cons x q => exact ⟨x, q, rfl⟩
  obtain ⟨x, q, hd⟩ := hd
  apply Node.slot_prefix managerReserved s.rootName s.root (p.take k) x q
  rw [← hd, hp]
  intro h0
  have h1 : s.view.slot p = .absent := h0
  rw [h1] at hit
  simp [Slot.isItem] at hit

end IsItem

namespace CMM

/-- The section configs collected by `get` for an item; collecting them changes nothing. -/
theorem sectionConfigsFrom_item {s : CM V} {p : List String} (hp : IsItem s p) :
    ∀ (n k : Nat) (x : String), k + n = p.length → 0 < k →
    sectionConfigsFrom (p.take k) (x :: p.drop k) s =
      (.ok ((List.range' k n).map (fun j => s.view.sectCfg (p.take j))), s) := by
  intro n
  induction n with
  | zero =>
    intro k x hk _
    have hk' : k = p.length := by omega
    subst hk'
    rw [List.drop_length, List.take_length, sectionConfigsFrom, M.bind_ok (M.get_run s), M.bind_run,
      M.liftE_run]
    have hit := hp.item
    cases hs : s.view.slot p with
    | conf c => rw [CM.walk_of_slot_conf hs]; rfl
    | file l => rw [CM.walk_of_slot_file hs]; rfl
    | sect _ => rw [hs] at hit; simp [Slot.isItem] at hit
    | absent => rw [hs] at hit; simp [Slot.isItem] at hit
  | succ n ih =>
    intro k x hk hk0
    have hlt : k < p.length := by omega
    rw [List.drop_eq_getElem_cons hlt, sectionConfigsFrom]
    obtain ⟨cfg, hs⟩ := hp.prefix_sect hlt
    have h1 : getFuncOrSectionConfigs (p.take k) s = (.ok cfg, s) := by
      obtain ⟨attrs, map, hw⟩ := CM.walk_of_slot_sect hs
      unfold getFuncOrSectionConfigs
      rw [M.bind_ok (M.get_run s), M.bind_run, M.liftE_run, hw]
      rfl
    rw [M.bind_ok h1]
    have h2 : p.take k ++ [p[k]] = p.take (k + 1) := by rw [List.take_succ_eq_append_getElem hlt]
    rw [h2, M.bind_ok (ih (k + 1) p[k] (by omega) (by omega))]
    simp only [M.pure_run, List.range'_succ, List.map_cons]
    have : s.view.sectCfg (p.take k) = cfg := by simp [View.sectCfg, hs]
    rw [this]

/-- `ConfigManager.get` of an item seen through views. -/
def vget (p : List String) : M PyErr (View V) (Option (Conf V)) := do
  match ← vload p with
  | none => return none
  | some c =>
    if c.values.items.isEmpty then return some c
    else
      let a ← M.get
      let override := fun c => (a.levels p ++ [some a.localConf]).foldl applyLevel c
      M.modify (fun a => a.mapConf p override)
      return some (override c)

theorem get_ref {s : CM V} {p : List String} (hp : IsItem s p) : Ref (get p) (vget p) s := by
  unfold get vget
  have hk : Known s p := .inl hp
  refine Ref.bind (getFunc_ref hk) ?_
  intro r hr
  have hp' := getFunc_isItem hk hp
  generalize (getFuncOrSectionConfigs p s).2 = s' at hp'
  unfold Ref
  rw [M.bind_ok (M.get_run s')]
  have hne : p ≠ [] := hp.ne
  obtain ⟨x, rest, hx⟩ : ∃ x rest, p = x :: rest := by
    cases p with
    | nil => exact absurd rfl hne
    | cons x rest => exact ⟨x, rest, rfl⟩
  have hsc := sectionConfigsFrom_item hp' (p.length - 1) 1 x (by rw [hx]; simp; omega) (by omega)
  have hdrop : x :: p.drop 1 = p := by rw [hx]; rfl
  rw [hdrop] at hsc
  rw [M.bind_ok hsc]
  have hlev : s'.projectConf ::
      (List.range' 1 (p.length - 1)).map (fun j => s'.view.sectCfg (p.take j)) = s'.view.levels p := by
    unfold View.levels
    have hlen : p.length = (p.length - 1) + 1 := by rw [hx]; simp
    rw [List.range_eq_range', hlen, List.range'_succ, List.map_cons]
    congr 1
    simp only [List.take_zero, View.sectCfg, CM.view]
    unfold Node.slot Node.walk CM.projectConf
    cases s'.root <;> rfl
  cases r with
  | none => rfl
  | some c =>
    dsimp only
    split
    · rfl
    · rw [M.bind_ok (M.get_run s'), M.bind_ok (M.get_run s'.view)]
      rw [hlev]
      rw [M.bind_run, M.bind_run]
      simp only [writeBack, M.modify_run, M.pure_run]
      rw [CM.view_modifyAt_mapConf _ hp'.plain hp'.item]
      rfl

/-- `ConfigManager.reset` of an item (without creating one) seen through views. -/
def vreset [BEq V] (p : List String) : M PyErr (View V) (Node V × Bool) := do
  let a ← M.get
  let v ← M.liftE (a.fs.load (.item p))
  let current ← M.tryCatch (vload p) (fun e => if e = .keyError then pure none else M.raise e)
  match current with
  | none =>
    M.modify (fun a => a.setConf p v)
    return (.conf v, true)
  | some c =>
    let would ← M.liftE (determineWouldUpdate c none v.values)
    if would then
      M.modify (fun a => a.setConf p v)
      return (.conf v, true)
    else return (.conf v, false)

theorem Ref.tryCatch {α : Type} {m : CMM V α} {a : M PyErr (View V) α} {f : PyErr → CMM V α}
    {g : PyErr → M PyErr (View V) α} {s : CM V}
    (h : Ref m a s) (hf : ∀ e, Ref (f e) (g e) (m s).2) :
    Ref (M.tryCatch m f) (M.tryCatch a g) s := by
  unfold Ref M.tryCatch at *
  rw [h]
  cases hm : m s with
  | mk r s' =>
    rw [hm] at hf
    cases r with
    | ok x => rfl
    | error e => exact hf e

theorem setNoCreate_ref {s : CM V} {p : List String} (hp : IsItem s p) (v : Conf V) :
    Ref (setFuncOrSectionConfig p (.conf v) false) (M.modify (fun a => a.setConf p v)) s := by
  unfold Ref setFuncOrSectionConfig
  have hpos : 0 < p.length := List.length_pos_iff.2 hp.ne
  obtain ⟨cfg, hs⟩ := hp.prefix_sect (k := p.length - 1) (by omega)
  obtain ⟨attrs, map, hw⟩ := CM.walk_of_slot_sect hs
  rw [← List.dropLast_eq_take] at hw
  rw [if_neg (by simp), hw]
  simp only [M.modify_run]
  rw [CM.view_store s hp v (Node.isStore_setAttr _ v)]

theorem tryGetFunc_state {s : CM V} {p : List String} :
    (M.tryCatch (getFuncOrSectionConfigs p)
      (fun e => if e = .keyError then Pure.pure none else M.raise e) s).2 =
    (getFuncOrSectionConfigs p s).2 := by
  unfold M.tryCatch
  cases getFuncOrSectionConfigs p s with
  | mk r s' =>
    cases r with
    | ok x => rfl
    | error e => dsimp only; split <;> rfl

theorem reset_ref [BEq V] {s : CM V} {p : List String} (hp : IsItem s p) :
    Ref (reset (some p) false) (vreset p) s := by
  unfold vreset
  show Ref (M.get >>= fun s => M.liftE (getDefault s p false) >>= fun value => set p value false) _ _
  have hk : Known s p := .inl hp
  have hd : getDefault s p false = (s.fs.load (.item p)).map Node.conf := by
    unfold getDefault defaultKind
    have hit := hp.item
    cases hs : s.view.slot p with
    | conf c => rw [CM.walk_of_slot_conf hs]
    | file l => rw [CM.walk_of_slot_file hs]
    | sect _ => rw [hs] at hit; simp [Slot.isItem] at hit
    | absent => rw [hs] at hit; simp [Slot.isItem] at hit
  unfold Ref
  rw [M.bind_ok (M.get_run s), M.bind_ok (M.get_run s.view), M.bind_run, M.bind_run, hd, M.liftE_run, M.liftE_run]
  rw [show s.view.fs = s.fs from rfl]
  cases hl : s.fs.load (.item p) with
  | error e => rfl
  | ok v =>
    show _ = ((set p (.conf v) false s).1, (set p (.conf v) false s).2.view)
    unfold set
    refine Ref.bind (Ref.tryCatch (getFunc_ref hk) ?_) ?_
    · intro e
      split
      · exact Ref.pure _
      · exact Ref.raise _
    · intro r hr
      have hp' : IsItem (M.tryCatch (getFuncOrSectionConfigs p)
        (fun e => if e = .keyError then Pure.pure none else M.raise e) s).2 p := by
        rw [tryGetFunc_state]; exact getFunc_isItem hk hp
      cases r with
      | none => exact Ref.bind (setNoCreate_ref hp' v) (fun _ _ => Ref.pure _)
      | some c =>
        dsimp only
        refine Ref.bind (Ref.liftE _) ?_
        intro would _
        split
        · exact Ref.bind (setNoCreate_ref hp' v) (fun _ _ => Ref.pure _)
        · exact Ref.pure _

end CMM
end Verif.Model

namespace Verif.Model
open Verif.Py
variable {V : Type}

/-! ### Closed forms for items -/

namespace View

/-- The config of an item: the loaded one, or what its file gives. -/
def own (a : View V) (p : List String) : Except PyErr (Conf V) :=
  match a.slot p with
  | .conf c => .ok c
  | .file l => a.fs.load l
  | .sect _ => .error .valueError
  | .absent => .error .keyError

end View

namespace CMM

theorem vload_item {a : View V} {p : List String} (h : (a.slot p).isItem = true) :
    vload p a = match a.own p with
      | .ok c => (.ok (some c), a.setConf p c)
      | .error e => (.error e, a) := by
  unfold vload View.own
  cases hs : a.slot p with
  | conf c => simp [View.setConf_self hs]
  | file l => simp only
  | sect _ => simp [hs, Slot.isItem] at h
  | absent => simp [hs, Slot.isItem] at h

/-- The configuration after overriding with the enclosing sections and the local config. -/
def overridden (a : View V) (p : List String) (c : Conf V) : Conf V :=
  (a.levels p ++ [some a.localConf]).foldl applyLevel c

theorem vget_item {a : View V} {p : List String} (h : (a.slot p).isItem = true) :
    vget p a = match a.own p with
      | .ok c =>
        if c.values.items.isEmpty then (.ok (some c), a.setConf p c)
        else (.ok (some (overridden (a.setConf p c) p c)), a.setConf p (overridden (a.setConf p c) p c))
      | .error e => (.error e, a) := by
  unfold vget
  rw [M.bind_run, vload_item h]
  cases a.own p with
  | error e => rfl
  | ok c =>
    simp only
    split
    · rfl
    · rw [M.bind_ok (M.get_run _), M.bind_ok (M.modify_run _ _)]
      simp only [M.pure_run, View.setConf_mapConf, overridden]

/-- The sections around an item do not change when a config of an item is stored. -/
theorem levels_setConf {a : View V} {p q : List String} {c : Conf V}
    (h : (a.slot q).isItem = true) (hp : ∀ k, k < p.length → ∃ cfg, a.slot (p.take k) = .sect cfg) :
    (a.setConf q c).levels p = a.levels p := by
  unfold View.levels
  apply List.map_congr_left
  intro k hk
  rw [List.mem_range] at hk
  obtain ⟨cfg, hs⟩ := hp k hk
  unfold View.sectCfg
  have : p.take k ≠ q := by intro hh; rw [hh] at hs; rw [hs] at h; simp [Slot.isItem] at h
  rw [View.setConf_slot_ne _ _ this]

theorem vupdate_item [BEq V] {a : View V} {p : List String} (h : (a.slot p).isItem = true)
    (d persist) (kw : Dict String V) :
    vupdate d p persist kw a = match a.own p with
      | .ok c => match determineWouldUpdate c d kw with
        | .error e => (.error e, a.setConf p c)
        | .ok false => (.ok (c, false), a.setConf p c)
        | .ok true =>
          if Conf.clash Conf.updateReserved kw then (.error .typeError, a.setConf p c)
          else (.ok (c.update d persist kw, true), a.setConf p (c.update d persist kw))
      | .error e => (.error e, a) := by
  unfold vupdate
  rw [M.bind_run, vload_item h]
  cases a.own p with
  | error e => rfl
  | ok c =>
    simp only
    rw [M.bind_run, M.liftE_run]
    cases determineWouldUpdate c d kw with
    | error e => rfl
    | ok b =>
      cases b with
      | false => rfl
      | true =>
        simp only [if_true]
        split
        · rfl
        · rw [M.bind_ok (M.modify_run _ _)]
          simp only [M.pure_run, View.setConf_mapConf]

theorem vrefresh_item [BEq V] {a : View V} {p : List String} (h : (a.slot p).isItem = true) :
    vrefresh p a = match a.own p with
      | .ok c => match c.file with
        | none => (.error .attributeError, a.setConf p c)
        | some loc => match a.fs.load loc with
          | .error e => (.error e, a.setConf p c)
          | .ok new =>
            if (c.changeFromRefresh new.values).items.isEmpty then (.ok (c, false, Dict.empty), a.setConf p c)
            else match c.refresh new.values with
              | .error e => (.error e, a.setConf p c)
              | .ok (c', updates) => (.ok (c', true, updates), a.setConf p c')
      | .error e => (.error e, a) := by
  unfold vrefresh
  rw [M.bind_run, vload_item h]
  cases a.own p with
  | error e => rfl
  | ok c =>
    simp only
    have hn : vnewConfig c (a.setConf p c) = (match c.file with
        | none => .error .attributeError
        | some loc => a.fs.load loc, a.setConf p c) := by
      unfold vnewConfig
      rw [M.bind_ok (M.get_run _)]
      cases c.file <;> rfl
    rw [M.bind_run, hn]
    cases hf : c.file with
    | none => rfl
    | some loc =>
      simp only
      cases hl : a.fs.load loc with
      | error e => rfl
      | ok new =>
        simp only
        split
        · rfl
        · rw [M.bind_run]
          have hn' : vnewConfig c (a.setConf p c) = (.ok new, a.setConf p c) := by
            rw [hn, hf]; simp only [hl]
          rw [hn']
          simp only
          cases hr : c.refresh new.values with
          | error e => rfl
          | ok r =>
            obtain ⟨c', updates⟩ := r
            simp only
            rw [M.bind_ok (M.modify_run _ _)]
            simp only [M.pure_run, View.setConf_mapConf]
            have : c.update none false updates = c' := by
              unfold Conf.refresh at hr
              simp only at hr
              split at hr
              · cases hr
              · cases hr; rfl
            rw [this]

theorem vreset_item [BEq V] {a : View V} {p : List String} (h : (a.slot p).isItem = true) :
    vreset p a = match a.fs.load (.item p) with
      | .error e => (.error e, a)
      | .ok v => match a.own p with
        | .error e => if e = .keyError then (.ok (.conf v, true), a.setConf p v) else (.error e, a)
        | .ok c => match determineWouldUpdate c none v.values with
          | .error e => (.error e, a.setConf p c)
          | .ok true => (.ok (.conf v, true), a.setConf p v)
          | .ok false => (.ok (.conf v, false), a.setConf p c) := by
  unfold vreset
  rw [M.bind_ok (M.get_run _), M.bind_run, M.liftE_run]
  cases hl : a.fs.load (.item p) with
  | error e => rfl
  | ok v =>
    simp only
    rw [M.bind_run, M.tryCatch, vload_item h]
    cases a.own p with
    | error e =>
      simp only
      by_cases he : e = .keyError
      · rw [if_pos he, if_pos he]; rfl
      · rw [if_neg he, if_neg he]; rfl
    | ok c =>
      simp only
      rw [M.bind_run, M.liftE_run]
      cases determineWouldUpdate c none v.values with
      | error e => rfl
      | ok b =>
        cases b with
        | false => rfl
        | true =>
          simp only [if_true]
          rw [M.bind_ok (M.modify_run _ _)]
          simp only [M.pure_run, View.setConf_setConf]

end CMM
end Verif.Model

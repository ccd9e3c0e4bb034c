import Verif.Props.Cascade
import Verif.Lemmas.RunnerItem
import Verif.Props.SectionReset

/-
C28, C29: the model of dependent configs (`Verif/Model/Cascade.lean`) against the model of the runner (`Verif/Model/Runner.lean`).
For functions and classes in sections without configs of their own, whose files read no other items, the operations of the two do the
same.
-/

namespace Verif.Props
open Verif.Py Verif.Model

variable {V : Type}

/-! ## Specification -/

/-- A file that reads no other item. -/
def fileOf : Except PyErr (Dict String V) → FileProg V
  | .ok d => .done d
  | .error e => .raise e

/-- The config of the model of dependents, with the position of its file. -/
def atPath (p : List String) (c : Conf V) : Conf V := ⟨c.values, c.applied, some (.item p)⟩

/-- Giving an object of the class a configuration does not raise. -/
structure Accepts (k : Callable V) : Prop where
  names : ∃ names, k.sig.argNames true = .ok names
  upd : ∀ d, k.upd d = .ok ()

/-- Creating the item does not raise, nor giving it another configuration later.  No config has a key with a name in `unused`; the
first parameter of the constructor of a class (`self`) has to be one of these. -/
def NeverRaises (unused : String → Prop) (k : Callable V) : Prop :=
  (∃ names, k.sig.argNames false = .ok names) ∧
    (k.kind = .func ∨ Accepts k ∧ (k.kind = .specific ∨ unused (k.sig.args.headD "self") ∧ ∀ d, k.init d = .ok ()))

/-- A config that was read from a file, without the unused names. -/
def Usual (unused : String → Prop) (c : Conf V) : Prop :=
  c.file = some (.item []) ∧ ∀ x, unused x → c.values.get? x = none ∧ c.applied.get? x = none

/-- The object has the values of the configuration it was last given; that of a class has no others. -/
def HasValues (d : Dict String V) (o : Obj V) : Prop :=
  (o.isPartial = true ∨ o.isPartial = false ∧ Accepts o.callable) ∧
    (∀ x v v', o.kwargs.get? x = some v → d.get? x = some v' → v = v') ∧
    (o.isPartial = false → ∀ x v, o.kwargs.get? x = some v → d.get? x = some v)

/-- The same configs and objects for the items with these paths. -/
structure Shows (unused : String → Prop) (w : World V) (name : List String → String) (items : List (List String)) (g : GS V) (s : RS V) :
    Prop where
  item : ∀ p ∈ items, IsItem s.cm p
  made : ∀ p ∈ items, ∃ k, s.reg.lookup p = .ok (.item k) ∧ NeverRaises unused k
  files : ∀ p ∈ items, w.files (name p) = fileOf (s.cm.fs.read (.item p))
  clean : ∀ p ∈ items, ∀ d, s.cm.fs.read (.item p) = .ok d → ∀ x, unused x → d.get? x = none
  bare : ∀ p ∈ items, ∀ k, k < p.length → s.cm.view.slot (p.take k) = .sect none
  localConf : s.cm.localConf = Conf.ofDict Dict.empty
  conf : ∀ p ∈ items, s.cm.view.slot p = match g.conf (name p) with
    | some c => .conf (atPath p c)
    | none => .file (.item p)
  usual : ∀ q c, g.conf q = some c → Usual unused c
  obj : ∀ p ∈ items, match g.obj (name p), s.objs.get? p with
    | some d, some o => HasValues d o
    | none, none => True
    | _, _ => False
  forced : ∀ q, g.forced q = []

/-- Both returned, or both raised the same. -/
def SameEnd {α β : Type} : Except Stop α → Except PyErr β → Prop
  | .ok _, .ok _ => True
  | .error (.err e), .error e' => e = e'
  | _, _ => False

/-- The operation of the runner for one of the model of dependents, on the item at the path. -/
inductive OpFor (unused : String → Prop) (name : List String → String) (p : List String) : GOp V → ROp V → Prop where
  | get : OpFor unused name p (.get (name p)) (.get p)
  | update (d persist kw) : (∀ d', d = some d' → ∀ x, unused x → d'.get? x = none) → (∀ x, unused x → kw.get? x = none) →
    OpFor unused name p (.update (name p) d persist kw) (.update d (some p) persist kw)
  | refresh : OpFor unused name p (.refresh (name p)) (.refresh p)
  | reset : OpFor unused name p (.reset (name p)) (.reset (some p) false)

/-- Whether an operation of the runner raised. -/
def endOf [BEq V] (s : RS V) : ROp V → Except PyErr Unit
  | .get p => (RM.get p s).1.map (fun _ => ())
  | .run p => (RM.run1 p s).1.map (fun _ => ())
  | .update d p persist kw => (RM.update d p persist kw s).1
  | .reset p allowCreate => (RM.reset p allowCreate s).1
  | .refresh p => (RM.refresh p s).1
  | .edit _ => .ok ()

/-! ## Lemmas -/

theorem atPath_wouldLoop [BEq V] (p : List String) (c : Conf V) (l : List (String × V)) :
    (atPath p c).wouldUpdateLoop l = c.wouldUpdateLoop l := by
  induction l with
  | nil => rfl
  | cons e l ih =>
    obtain ⟨k, v⟩ := e
    unfold Conf.wouldUpdateLoop
    show (match c.values.get? k with | none => _ | some orig => _) = _
    cases c.values.get? k with
    | none => exact ih
    | some o =>
      show (if _ then _ else _) = (if _ then _ else _)
      rw [ih]

theorem atPath_would [BEq V] (p : List String) (c : Conf V) (d : Option (Dict String V)) (kw : Dict String V) :
    CMM.determineWouldUpdate (atPath p c) d kw = CMM.determineWouldUpdate c d kw := by
  unfold CMM.determineWouldUpdate Conf.wouldUpdate
  simp only [atPath_wouldLoop]

theorem atPath_change [BEq V] (p : List String) (c : Conf V) (d : Dict String V) :
    (atPath p c).changeFromRefresh d = c.changeFromRefresh d := by
  unfold Conf.changeFromRefresh Conf.wouldUpdate
  simp only [atPath_wouldLoop]
  rfl

theorem atPath_refresh (p : List String) (c : Conf V) (d : Dict String V) :
    (atPath p c).refresh d = (c.refresh d).map (fun r => (atPath p r.1, r.2)) := by
  unfold Conf.refresh
  show (if Conf.clash Conf.updateReserved (d.update c.applied) then _ else _) = _
  simp only
  by_cases h : Conf.clash Conf.updateReserved (d.update c.applied) = true
  · rw [if_pos h, if_pos h]; rfl
  · rw [if_neg h, if_neg h]; rfl

theorem usual_ofFile {unused : String → Prop} {d : Dict String V} (h : ∀ x, unused x → d.get? x = none) :
    Usual unused (Conf.ofFile (.item []) d) :=
  ⟨rfl, fun x hx => ⟨h x hx, rfl⟩⟩

theorem usual_update {unused : String → Prop} {c : Conf V} (hc : Usual unused c) {d : Option (Dict String V)} {persist : Bool}
    {kw : Dict String V} (hd : ∀ d', d = some d' → ∀ x, unused x → d'.get? x = none) (hkw : ∀ x, unused x → kw.get? x = none) :
    Usual unused (c.update d persist kw) := by
  refine ⟨hc.1, fun x hx => ?_⟩
  obtain ⟨h1, h2⟩ := hc.2 x hx
  have h3 := hkw x hx
  unfold Conf.update
  cases d with
  | none =>
    refine ⟨by simp [Dict.get?_update, h1, h3], ?_⟩
    cases persist <;> simp [Dict.get?_update, h2, h3]
  | some d' =>
    have h4 := hd d' rfl x hx
    refine ⟨by simp [Dict.get?_update, h1, h3, h4], ?_⟩
    cases persist <;> simp [Dict.get?_update, h2, h3, h4]

theorem usual_refresh {unused : String → Prop} {c c' : Conf V} {d u : Dict String V} (hc : Usual unused c)
    (hd : ∀ x, unused x → d.get? x = none) (h : c.refresh d = .ok (c', u)) : Usual unused c' := by
  unfold Conf.refresh at h
  simp only at h
  split at h
  · cases h
  · cases h
    exact usual_update hc (fun d' h => by cases h) (fun x hx => by rw [Dict.get?_update, (hc.2 x hx).2, hd x hx]; rfl)

theorem setAt_id {α : Type} (f : String → α) {x : String} {a : α} (h : f x = a) : setAt f x a = f := by
  funext y
  unfold setAt
  split
  · rename_i hy; rw [hy, h]
  · rfl

theorem setAt_twice {α : Type} (f : String → α) (x : String) (a b : α) : setAt (setAt f x a) x b = setAt f x b := by
  funext y
  unfold setAt
  split <;> rfl

theorem GS.setConf_id (g : GS V) {q : String} {c : Conf V} (h : g.conf q = some c) :
    { g with conf := setAt g.conf q (some c) } = g := by
  rw [setAt_id _ h]

theorem filterKeys_sub {d : Dict String V} {f : String → Bool} (x : String) (v : V) (h : (d.filterKeys f).get? x = some v) :
    d.get? x = some v := by
  rw [Dict.get?_filterKeys] at h
  split at h
  · exact h
  · cases h

/-- Giving a configuration to an object. -/
theorem apply_hasValues {o : Obj V} (hk : o.isPartial = true ∨ o.isPartial = false ∧ Accepts o.callable) (d : Dict String V) :
    ∃ o', RM.applyConfig o d = .ok o' ∧ HasValues d o' := by
  rcases hk with hpart | ⟨hpart, ⟨names, hn⟩, hu⟩
  · cases ha : RM.applyConfig o d with
    | error e =>
      unfold RM.applyConfig at ha
      rw [hpart] at ha
      cases ha
    | ok o' =>
      have hpart' : o'.isPartial = true := by rw [(RM.applyConfig_same ha).1.isPartial]; exact hpart
      refine ⟨o', rfl, .inl hpart', ?_, fun hf => by rw [hpart'] at hf; cases hf⟩
      · intro x v v' hv hv'
        rw [RM.get?_apply hpart ha x] at hv
        split at hv
        · rw [hv'] at hv; cases hv; rfl
        · cases hv
  · refine ⟨{ o with kwargs := d.filterKeys (fun x => decide (x ∈ names)) }, ?_, .inr ⟨hpart, ⟨names, hn⟩, hu⟩, ?_,
      fun _ => filterKeys_sub⟩
    · unfold RM.applyConfig
      rw [hpart]
      simp only [hn, hu]
    · intro x v v' hv hv'
      simp only [Dict.get?_filterKeys] at hv
      split at hv
      · rw [hv'] at hv; cases hv; rfl
      · cases hv

/-- Creating an object of a class. -/
theorem construct_hasValues {unused : String → Prop} {k : Callable V} {names : List String} (hk : Accepts k ∧ (k.kind = .specific ∨
    unused (k.sig.args.headD "self") ∧ ∀ d, k.init d = .ok ())) (id : Nat) (c : Dict String V)
    (hc : ∀ x, unused x → c.get? x = none) :
    ∃ o, RM.construct id k (c.filterKeys (fun x => decide (x ∈ names))) = .ok o ∧ HasValues c o := by
  have hsub : ∀ x v v', (c.filterKeys (fun x => decide (x ∈ names))).get? x = some v → c.get? x = some v' → v = v' := by
    intro x v v' hv hv'
    simp only [Dict.get?_filterKeys] at hv
    split at hv
    · rw [hv'] at hv; cases hv; rfl
    · cases hv
  obtain ⟨⟨⟨n, hn⟩, hu⟩, hk⟩ := hk
  rcases hk with hs | ⟨hself, hinit⟩
  · obtain ⟨o, ho, hv⟩ := apply_hasValues (o := ⟨id, false, k, Dict.empty⟩) (.inr ⟨rfl, ⟨n, hn⟩, hu⟩)
      (c.filterKeys (fun x => decide (x ∈ names)))
    have hnp : o.isPartial = false := (RM.applyConfig_same ho).1.isPartial
    have hin := fun x v h => filterKeys_sub x v (hv.2.2 hnp x v h)
    refine ⟨o, ?_, hv.1, ?_, fun _ => hin⟩
    · unfold RM.construct
      rw [hs]
      exact ho
    · intro x v v' h1 h2
      rw [hin x v h1] at h2
      exact Option.some.inj h2
  · cases hkind : k.kind with
    | specific =>
      obtain ⟨o, ho, hv⟩ := apply_hasValues (o := ⟨id, false, k, Dict.empty⟩) (.inr ⟨rfl, ⟨n, hn⟩, hu⟩)
        (c.filterKeys (fun x => decide (x ∈ names)))
      have hnp : o.isPartial = false := (RM.applyConfig_same ho).1.isPartial
      have hin := fun x v h => filterKeys_sub x v (hv.2.2 hnp x v h)
      refine ⟨o, ?_, hv.1, ?_, fun _ => hin⟩
      · unfold RM.construct
        rw [hkind]
        exact ho
      · intro x v v' h1 h2
        rw [hin x v h1] at h2
        exact Option.some.inj h2
    | _ =>
      refine ⟨⟨id, false, k, c.filterKeys (fun x => decide (x ∈ names))⟩, ?_, .inr ⟨rfl, ⟨n, hn⟩, hu⟩, hsub, fun _ => filterKeys_sub⟩
      unfold RM.construct
      rw [hkind]
      simp only
      rw [if_neg (by
        unfold Dict.contains
        rw [Dict.get?_filterKeys, hc _ hself]
        simp)]
      rw [hinit]

/-- Without section configs and local config, the active configuration is the own one. -/
theorem active_bare {a : View V} {p : List String} (hb : ∀ k, k < p.length → a.slot (p.take k) = .sect none)
    (hl : a.localConf = Conf.ofDict Dict.empty) (c : Conf V) : CMM.active a p c = c := by
  unfold CMM.active
  split
  · rfl
  · unfold CMM.overridden
    have hlev : ∀ l ∈ a.levels p ++ [some a.localConf], l = none ∨ l = some (Conf.ofDict Dict.empty) := by
      intro l h
      rw [List.mem_append] at h
      rcases h with h | h
      · unfold View.levels at h
        rw [List.mem_map] at h
        obtain ⟨k, hk, rfl⟩ := h
        unfold View.sectCfg
        rw [hb k (List.mem_range.1 hk)]
        exact .inl rfl
      · rw [List.mem_singleton] at h
        rw [h, hl]
        exact .inr rfl
    generalize a.levels p ++ [some a.localConf] = ls at hlev
    induction ls with
    | nil => rfl
    | cons l ls ih =>
      have h1 : CMM.applyLevel c l = c := by
        rcases hlev l (List.mem_cons_self) with h | h
        · rw [h]; rfl
        · rw [h]
          unfold CMM.applyLevel
          exact if_neg (by intro hh; cases hh.1)
      rw [List.foldl_cons, h1]
      exact ih (fun l h => hlev l (List.mem_cons_of_mem _ h))

namespace Shows
variable {unused : String → Prop} {w : World V} {name : List String → String} {items : List (List String)} {g : GS V} {s : RS V} {p : List String}

/-- The config of an item, loaded if it is not yet. -/
theorem own (h : Shows unused w name items g s) (hp : p ∈ items) (n : Nat) :
    (∃ c, s.cm.view.own p = .ok (atPath p c) ∧ Usual unused c ∧
      GM.confOf (GM.evalFile w n (name p)) (name p) g =
        (.ok c, { g with conf := setAt g.conf (name p) (some c) })) ∨
    (∃ e, s.cm.view.own p = .error e ∧ g.conf (name p) = none ∧
      GM.confOf (GM.evalFile w n (name p)) (name p) g = (.error (.err e), g)) := by
  have hc := h.conf p hp
  have hf := h.files p hp
  unfold View.own GM.confOf
  rw [hc, M.bind_ok (M.get_run _)]
  cases hg : g.conf (name p) with
  | some c =>
    refine .inl ⟨c, rfl, h.usual _ _ hg, ?_⟩
    rw [GS.setConf_id g hg]
    rfl
  | none =>
    simp only
    unfold GM.evalFile
    rw [hf]
    unfold Files.load
    have hfs : s.cm.view.fs = s.cm.fs := rfl
    rw [hfs]
    cases hrd : s.cm.fs.read (.item p) with
    | ok d => exact .inl ⟨Conf.ofFile (.item []) d, rfl, usual_ofFile (h.clean p hp d hrd), rfl⟩
    | error e => exact .inr ⟨e, rfl, trivial, rfl⟩

/-- The file of an item. -/
theorem eval (h : Shows unused w name items g s) (hp : p ∈ items) (n : Nat) (t : GS V) :
    GM.evalFile w n (name p) t = ((match s.cm.fs.read (.item p) with
      | .ok d => .ok d
      | .error e => .error (.err e)), t) := by
  unfold GM.evalFile
  rw [h.files p hp]
  cases s.cm.fs.read (.item p) <;> rfl

variable (hi : ∀ p ∈ items, ∀ q ∈ items, name p = name q → p = q)
include hi

/-- The item has another config now. -/
theorem set (h : Shows unused w name items g s) (hp : p ∈ items) {c : Conf V} (hc : Usual unused c) {t : RS V}
    (hv : t.cm.view = s.cm.view.setConf p (atPath p c)) (hr : t.reg = s.reg) (ho : t.objs = s.objs) :
    Shows unused w name items { g with conf := setAt g.conf (name p) (some c) } t := by
  have hroot : t.cm.rootName = s.cm.rootName := congrArg View.rootName hv
  have hfs : t.cm.fs = s.cm.fs := congrArg View.fs hv
  have hlc : t.cm.localConf = s.cm.localConf := congrArg View.localConf hv
  have hit := h.item p hp
  refine ⟨?_, ?_, ?_, by rw [hfs]; exact h.clean, ?_, ?_, ?_, ?_, ?_, h.forced⟩
  · intro q hq
    have hq' := h.item q hq
    refine ⟨hq'.ne, by rw [hroot]; exact hq'.plain, ?_⟩
    rw [hv]
    by_cases hqp : q = p
    · rw [hqp, View.setConf_slot_self]; rfl
    · rw [View.setConf_slot_ne _ _ hqp]; exact hq'.item
  · intro q hq
    rw [hr]; exact h.made q hq
  · intro q hq
    rw [hfs]; exact h.files q hq
  · intro q hq k hk
    rw [hv, View.setConf_slot_ne]
    · exact h.bare q hq k hk
    · intro heq
      have h1 := h.bare q hq k hk
      have h2 := hit.item
      rw [← heq, h1] at h2
      cases h2
  · rw [hlc]; exact h.localConf
  · intro q hq
    rw [hv]
    by_cases hqp : q = p
    · subst hqp
      rw [View.setConf_slot_self]
      simp only [setAt_same]
    · rw [View.setConf_slot_ne _ _ hqp]
      simp only [setAt_ne g.conf _ (fun hn => hqp (hi q hq p hp hn))]
      exact h.conf q hq
  · intro q c' hq
    by_cases hqp : q = name p
    · subst hqp
      simp only [setAt_same] at hq
      cases hq
      exact hc
    · simp only [setAt_ne g.conf _ hqp] at hq
      exact h.usual q c' hq
  · intro q hq
    rw [ho]; exact h.obj q hq

/-- The item has an object now, or a changed one. -/
theorem setObj (h : Shows unused w name items g s) (hp : p ∈ items) {d : Dict String V} {o : Obj V} (hd : HasValues d o) {t : RS V}
    (hcm : t.cm = s.cm) (hr : t.reg = s.reg) (ho : t.objs = s.objs.set p o) :
    Shows unused w name items { g with obj := setAt g.obj (name p) (some d) } t := by
  refine ⟨by rw [hcm]; exact h.item, by rw [hr]; exact h.made, by rw [hcm]; exact h.files, by rw [hcm]; exact h.clean, by rw [hcm]; exact h.bare,
    by rw [hcm]; exact h.localConf, by rw [hcm]; exact h.conf, h.usual, ?_, h.forced⟩
  intro q hq
  rw [ho]
  by_cases hqp : q = p
  · subst hqp
    rw [Dict.get?_set_self]
    simp only [setAt_same]
    exact hd
  · rw [Dict.get?_set_ne _ _ (fun hh => hqp hh.symm)]
    simp only [setAt_ne g.obj _ (fun hn => hqp (hi q hq p hp hn))]
    exact h.obj q hq

/-- The created object takes over the configuration. -/
theorem apply (h : Shows unused w name items g s) (hp : p ∈ items) (r : String → GM V Unit) (n : Nat)
    (values announced : Dict String V) :
    SameEnd (GM.applyAndRefresh w r n (name p) values announced g).1 (RM.applyToLoaded p values announced s).1 ∧
    Shows unused w name items (GM.applyAndRefresh w r n (name p) values announced g).2
      (RM.applyToLoaded p values announced s).2 := by
  have ho := h.obj p hp
  unfold GM.applyAndRefresh RM.applyToLoaded
  rw [M.bind_ok (M.get_run g), M.bind_ok (M.get_run s)]
  cases hg : g.obj (name p) with
  | none =>
    rw [hg] at ho
    cases hs : s.objs.get? p with
    | none => exact ⟨trivial, h⟩
    | some o => rw [hs] at ho; exact ho.elim
  | some d =>
    rw [hg] at ho
    cases hs : s.objs.get? p with
    | none => rw [hs] at ho; exact ho.elim
    | some o =>
      rw [hs] at ho
      obtain ⟨hpart, _⟩ := ho
      simp only
      rw [M.bind_ok (M.modify_run _ _), M.bind_run, M.liftE_run]
      cases ha : RM.applyConfig o values with
      | error e =>
        exfalso
        obtain ⟨o', ho', _⟩ := apply_hasValues hpart values
        rw [ho'] at ha
        cases ha
      | ok o' =>
        simp only
        rw [M.bind_ok (M.modify_run _ _)]
        have hgiven : HasValues values o' := by
          obtain ⟨o'', ho', hg'⟩ := apply_hasValues hpart values
          rw [ho'] at ha
          cases ha
          exact hg'
        have hsh : Shows unused w name items { g with obj := setAt g.obj (name p) (some values) }
            { s with objs := s.objs.set p o' } := h.setObj hi hp hgiven rfl rfl rfl
        by_cases hcl : Conf.clash RM.trackReserved announced = true
        · rw [if_pos hcl, if_pos hcl]
          exact ⟨rfl, hsh⟩
        · rw [if_neg hcl, if_neg hcl]
          unfold GM.refreshDependents
          rw [M.bind_ok (M.get_run _)]
          have hfn : ({ g with obj := setAt g.obj (name p) (some values) } : GS V).forced (name p) = [] := h.forced _
          rw [hfn]
          unfold GM.dependentsLoop
          exact ⟨trivial, hsh⟩

/-- Its config is loaded. -/
theorem loaded (h : Shows unused w name items g s) (hp : p ∈ items) {c : Conf V} (hc : Usual unused c) {cm : CM V}
    (hv : cm.view = s.cm.view.setConf p (atPath p c)) :
    Shows unused w name items { g with conf := setAt g.conf (name p) (some c) } { s with cm := cm } :=
  h.set hi hp hc hv rfl rfl

omit hi in
/-- Nothing changed. -/
theorem same (h : Shows unused w name items g s) {cm : CM V} (hv : cm.view = s.cm.view) :
    Shows unused w name items g { s with cm := cm } := by
  have hroot : cm.rootName = s.cm.rootName := congrArg View.rootName hv
  have hfs : cm.fs = s.cm.fs := congrArg View.fs hv
  have hlc : cm.localConf = s.cm.localConf := congrArg View.localConf hv
  refine ⟨?_, h.made, ?_, by show ∀ p ∈ items, ∀ d, cm.fs.read _ = _ → _; rw [hfs]; exact h.clean, ?_, by show cm.localConf = _; rw [hlc]; exact h.localConf, ?_, h.usual, h.obj, h.forced⟩
  · intro q hq
    have hq' := h.item q hq
    exact ⟨hq'.ne, by show PlainPath cm.rootName q; rw [hroot]; exact hq'.plain, by
      show (cm.view.slot q).isItem = true
      rw [hv]; exact hq'.item⟩
  · intro q hq
    show _ = fileOf (cm.fs.read (.item q))
    rw [hfs]; exact h.files q hq
  · intro q hq k hk
    show cm.view.slot (q.take k) = _
    rw [hv]; exact h.bare q hq k hk
  · intro q hq
    show cm.view.slot q = _
    rw [hv]; exact h.conf q hq

theorem get (h : Shows unused w name items g s) (hp : p ∈ items) (n : Nat) :
    SameEnd (GM.getItem w (n + 1) (name p) g).1 (RM.get p s).1 ∧
    Shows unused w name items (GM.getItem w (n + 1) (name p) g).2 (RM.get p s).2 := by
  obtain ⟨k, hk, ⟨names, hnames⟩, hcreate⟩ := h.made p hp
  have ho := h.obj p hp
  have hit := h.item p hp
  have hgi : RM.getItem p k s = RM.getOneFunc p s ∧ k.kind = .func ∨
      RM.getItem p k s = RM.getOneObj p s ∧ Accepts k ∧
        (k.kind = .specific ∨ unused (k.sig.args.headD "self") ∧ ∀ d, k.init d = .ok ()) := by
    unfold RM.getItem
    by_cases hf : k.kind = .func
    · rw [hf]; exact .inl ⟨rfl, rfl⟩
    · rcases hcreate with hc | hc
      · exact absurd hc hf
      · refine .inr ⟨?_, hc⟩
        cases hkind : k.kind with
        | func => exact absurd hkind hf
        | _ => rfl
  rw [RM.get_item hk, M.bind_run]
  unfold GM.getItem
  rw [M.bind_ok (M.get_run g)]
  cases hg : g.obj (name p) with
  | some d =>
    rw [hg] at ho
    cases hs : s.objs.get? p with
    | none => rw [hs] at ho; exact ho.elim
    | some o =>
      have hst : RM.getItem p k s = (.ok o, s) := by
        rcases hgi with ⟨hgi, _⟩ | ⟨hgi, _⟩
        · rw [hgi]
          unfold RM.getOneFunc
          rw [M.bind_ok (M.get_run s), hs]
          rfl
        · rw [hgi]
          unfold RM.getOneObj
          rw [M.bind_ok (M.get_run s), hs]
          rfl
      rw [hst]
      exact ⟨trivial, h⟩
  | none =>
    rw [hg] at ho
    cases hs : s.objs.get? p with
    | some o => rw [hs] at ho; exact ho.elim
    | none =>
      simp only
      have hev : GM.runFile w (GM.getItem w n) (name p) (w.files (name p)) = GM.evalFile w n (name p) := rfl
      rw [hev]
      have hlk0 : RM.lookup p s = (.ok (.item k), s) := by
        show (s.reg.lookup p, s) = _
        rw [hk]
      rcases h.own hp n with ⟨c, hown, hcf, hco⟩ | ⟨e, hown, _, hco⟩
      · rw [M.bind_ok hco, M.bind_ok (M.modify_run _ _)]
        obtain ⟨g1, g2⟩ := CMM.get_of_own hit hown
        rw [active_bare (h.bare p hp) h.localConf] at g1 g2
        have hgc : RM.getConfig p s = (.ok (atPath p c), { s with cm := (CMM.get p s.cm).2 }) := by
          unfold RM.getConfig
          rw [M.bind_run]
          unfold RM.liftC
          simp only [g1]
          rfl
        have hfc : RM.funcAndConfig p s =
            (.ok (.item k, c.values.filterKeys (fun x => decide (x ∈ names))), { s with cm := (CMM.get p s.cm).2 }) := by
          unfold RM.funcAndConfig
          rw [M.bind_ok hgc]
          have hlk : RM.lookup p { s with cm := (CMM.get p s.cm).2 } =
              (.ok (.item k), { s with cm := (CMM.get p s.cm).2 }) := by
            show (s.reg.lookup p, _) = _
            rw [hk]
          rw [M.bind_ok hlk, M.bind_run, M.liftE_run]
          unfold RM.forFunction
          simp only [hnames]
          rfl
        have h1 := h.loaded hi hp hcf g2
        rcases hgi with ⟨hgi, _⟩ | ⟨hgi, hacc⟩
        · rw [hgi]
          unfold RM.getOneFunc
          rw [M.bind_ok (M.get_run s), hs]
          simp only
          rw [M.bind_ok hfc]
          simp only
          rw [M.bind_ok (M.get_run _)]
          refine ⟨trivial, ?_⟩
          refine h1.setObj hi hp (o := ⟨s.nextId, true, k, c.values.filterKeys (fun x => decide (x ∈ names))⟩) ⟨.inl rfl, ?_,
            fun hf => by cases hf⟩ rfl rfl rfl
          intro x v v' hv hv'
          have hv2 := hv
          simp only [Dict.get?_filterKeys] at hv2
          split at hv2
          · rw [hv'] at hv2; cases hv2; rfl
          · cases hv2
        · rw [hgi]
          obtain ⟨o, hcon, hval⟩ := construct_hasValues (names := names) hacc s.nextId c.values (fun x hx => (hcf.2 x hx).1)
          unfold RM.getOneObj
          rw [M.bind_ok (M.get_run s), hs]
          simp only
          rw [M.bind_ok hlk0, M.bind_ok hfc]
          simp only
          rw [M.bind_ok (M.get_run _), M.bind_run, M.liftE_run]
          simp only [hcon]
          exact ⟨trivial, h1.setObj hi hp hval rfl rfl rfl⟩
      · rw [M.bind_run, hco]
        obtain ⟨g1, g2⟩ := CMM.get_of_own_error hit hown
        have hfc : RM.funcAndConfig p s = (.error e, { s with cm := (CMM.get p s.cm).2 }) := by
          unfold RM.funcAndConfig RM.getConfig
          rw [M.bind_run, M.bind_run]
          unfold RM.liftC
          simp only [g1]
        rcases hgi with ⟨hgi, _⟩ | ⟨hgi, _⟩
        · rw [hgi]
          unfold RM.getOneFunc
          rw [M.bind_ok (M.get_run s), hs]
          simp only
          rw [M.bind_run, hfc]
          exact ⟨rfl, h.same g2⟩
        · rw [hgi]
          unfold RM.getOneObj
          rw [M.bind_ok (M.get_run s), hs]
          simp only
          rw [M.bind_ok hlk0, M.bind_run, hfc]
          exact ⟨rfl, h.same g2⟩

theorem update [BEq V] (h : Shows unused w name items g s) (hp : p ∈ items) (n : Nat) (d : Option (Dict String V)) (persist : Bool)
    (kw : Dict String V) (hd : ∀ d', d = some d' → ∀ x, unused x → d'.get? x = none) (hkw : ∀ x, unused x → kw.get? x = none) :
    SameEnd (GM.update w n (name p) d persist kw g).1 (RM.update d (some p) persist kw s).1 ∧
    Shows unused w name items (GM.update w n (name p) d persist kw g).2 (RM.update d (some p) persist kw s).2 := by
  have hit := h.item p hp
  have hv := CMM.vupdate_item hit.item d persist kw
  have hr := CMM.update_ref hit d persist kw
  unfold CMM.Ref at hr
  rw [hr] at hv
  unfold GM.update RM.update
  rw [M.bind_run (m := RM.liftC _)]
  unfold RM.liftC
  rcases h.own hp n with ⟨c, hown, hcf, hco⟩ | ⟨e, hown, _, hco⟩
  · rw [hown] at hv
    simp only [atPath_would] at hv
    rw [M.bind_ok hco]
    cases hw : CMM.determineWouldUpdate c d kw with
    | error e =>
      rw [hw] at hv
      simp only at hv
      have h1 := congrArg Prod.fst hv
      have h2 := congrArg Prod.snd hv
      simp only at h1 h2
      simp only [h1]
      exact ⟨rfl, h.loaded hi hp hcf h2⟩
    | ok b =>
      cases b with
      | false =>
        rw [hw] at hv
        simp only at hv
        have h1 := congrArg Prod.fst hv
        have h2 := congrArg Prod.snd hv
        simp only at h1 h2
        simp only [h1]
        exact ⟨trivial, h.loaded hi hp hcf h2⟩
      | true =>
        rw [hw] at hv
        simp only at hv
        have hge : (GM.ofExcept (.ok true) : GM V Bool) = pure true := rfl
        rw [hge, M.bind_ok (show (pure true : GM V Bool) _ = (.ok true, _) from rfl), if_pos rfl]
        by_cases hcl : Conf.clash Conf.updateReserved kw = true
        · rw [if_pos hcl] at hv ⊢
          have h1 := congrArg Prod.fst hv
          have h2 := congrArg Prod.snd hv
          simp only at h1 h2
          simp only [h1]
          exact ⟨rfl, h.loaded hi hp hcf h2⟩
        · rw [if_neg hcl] at hv ⊢
          have h1 := congrArg Prod.fst hv
          have h2 := congrArg Prod.snd hv
          simp only at h1 h2
          simp only [h1]
          rw [M.bind_ok (M.modify_run _ _)]
          simp only [setAt_twice]
          exact (h.loaded hi hp (c := c.update d persist kw) (usual_update hcf hd hkw) h2).apply hi hp _ n _ _
  · rw [hown] at hv
    simp only at hv
    have h1 := congrArg Prod.fst hv
    have h2 := congrArg Prod.snd hv
    simp only at h1 h2
    rw [M.bind_run, hco]
    simp only [h1]
    exact ⟨rfl, h.same h2⟩

theorem refresh [BEq V] (h : Shows unused w name items g s) (hp : p ∈ items) (n : Nat) :
    SameEnd (GM.refresh w (n + 1) (name p) g).1 (RM.refresh p s).1 ∧
    Shows unused w name items (GM.refresh w (n + 1) (name p) g).2 (RM.refresh p s).2 := by
  have hit := h.item p hp
  have hv := CMM.vrefresh_item hit.item
  have hr := CMM.refresh_ref hit
  unfold CMM.Ref at hr
  rw [hr] at hv
  unfold GM.refresh RM.refresh
  rw [M.bind_run (m := RM.liftC _)]
  unfold RM.liftC
  rcases h.own hp n with ⟨c, hown, hcf, hco⟩ | ⟨e, hown, _, hco⟩
  · rw [hown] at hv
    have hfile : (atPath p c).file = some (.item p) := rfl
    simp only [hfile, atPath_change, atPath_refresh] at hv
    rw [M.bind_ok hco, M.bind_run, h.eval hp n]
    have hld : s.cm.view.fs.load (.item p) = match s.cm.fs.read (.item p) with
        | .ok d => .ok (Conf.ofFile (.item p) d)
        | .error e => .error e := rfl
    rw [hld] at hv
    cases hrd : s.cm.fs.read (.item p) with
    | error e =>
      rw [hrd] at hv
      simp only at hv
      have h1 := congrArg Prod.fst hv
      have h2 := congrArg Prod.snd hv
      simp only at h1 h2
      simp only [h1]
      exact ⟨rfl, h.loaded hi hp hcf h2⟩
    | ok d =>
      rw [hrd] at hv
      simp only at hv ⊢
      have hval : (Conf.ofFile (FileLoc.item p) d).values = d := rfl
      rw [hval] at hv
      by_cases hch : (c.changeFromRefresh d).items.isEmpty = true
      · rw [if_pos hch] at hv ⊢
        have h1 := congrArg Prod.fst hv
        have h2 := congrArg Prod.snd hv
        simp only at h1 h2
        simp only [h1]
        rw [M.bind_ok (M.get_run _), if_neg (by simp)]
        exact ⟨trivial, h.loaded hi hp hcf h2⟩
      · rw [if_neg hch] at hv ⊢
        rw [M.bind_run, h.eval hp n, hrd]
        simp only
        cases hrf : c.refresh d with
        | error e =>
          rw [hrf] at hv
          have h1 := congrArg Prod.fst hv
          have h2 := congrArg Prod.snd hv
          simp only [Except.map] at h1 h2
          simp only [h1]
          exact ⟨rfl, h.loaded hi hp hcf h2⟩
        | ok r =>
          obtain ⟨c', us⟩ := r
          rw [hrf] at hv
          have h1 := congrArg Prod.fst hv
          have h2 := congrArg Prod.snd hv
          simp only [Except.map] at h1 h2
          simp only [h1]
          rw [M.bind_ok (M.modify_run _ _), M.bind_ok (M.get_run _)]
          simp only [setAt_twice]
          have hcf' : Usual unused c' := usual_refresh hcf (h.clean p hp d hrd) hrf
          have h3 := h.loaded hi hp hcf' h2
          generalize (CMM.refresh p s.cm).2 = cm2 at h3
          by_cases hcont : s.objs.contains p = true
          · rw [if_pos ⟨trivial, hcont⟩]
            have hown2 : cm2.view.own p = .ok (atPath p c') := by
              have := h3.conf p hp
              simp only [setAt_same] at this
              unfold View.own
              rw [this]
            obtain ⟨g1, g2⟩ := CMM.get_of_own (h3.item p hp) hown2
            have hab := active_bare (h3.bare p hp) h3.localConf (atPath p c')
            have hslot : cm2.view.slot p = .conf (atPath p c') := by
              have := h3.conf p hp
              simp only [setAt_same] at this
              exact this
            rw [hab] at g1 g2
            rw [View.setConf_self hslot] at g2
            have hgc : RM.getConfig p { s with cm := cm2 } = (.ok (atPath p c'), { s with cm := (CMM.get p cm2).2 }) := by
              unfold RM.getConfig
              rw [M.bind_run]
              unfold RM.liftC
              simp only [g1]
              rfl
            rw [M.bind_ok hgc]
            exact (h3.same g2).apply hi hp _ n _ _
          · rw [if_neg (fun hh => hcont hh.2)]
            have hap := h3.apply hi hp (GM.refresh w n) n c'.values Dict.empty
            have hnone : s.objs.get? p = none := by
              unfold Dict.contains at hcont
              simpa using hcont
            have hrt : RM.applyToLoaded p c'.values Dict.empty { s with cm := cm2 } = (.ok (), { s with cm := cm2 }) := by
              unfold RM.applyToLoaded
              rw [M.bind_ok (M.get_run _)]
              simp only [hnone]
              rfl
            rw [hrt] at hap
            exact hap
  · rw [hown] at hv
    simp only at hv
    have h1 := congrArg Prod.fst hv
    have h2 := congrArg Prod.snd hv
    simp only at h1 h2
    rw [M.bind_run, hco]
    simp only [h1]
    exact ⟨rfl, h.same h2⟩

theorem reset [BEq V] (h : Shows unused w name items g s) (hp : p ∈ items) (n : Nat) :
    SameEnd (GM.reset w n (name p) g).1 (RM.reset (some p) false s).1 ∧
    Shows unused w name items (GM.reset w n (name p) g).2 (RM.reset (some p) false s).2 := by
  have hit := h.item p hp
  have hv := CMM.vreset_item hit.item
  have hr := CMM.reset_ref hit
  unfold CMM.Ref at hr
  rw [hr] at hv
  unfold GM.reset RM.reset
  rw [M.bind_run (m := RM.liftC _), M.bind_run, h.eval hp n]
  unfold RM.liftC
  have hld : s.cm.view.fs.load (.item p) = match s.cm.fs.read (.item p) with
      | .ok d => .ok (Conf.ofFile (.item p) d)
      | .error e => .error e := rfl
  rw [hld] at hv
  cases hrd : s.cm.fs.read (.item p) with
  | error e =>
    rw [hrd] at hv
    simp only at hv
    have h1 := congrArg Prod.fst hv
    have h2 := congrArg Prod.snd hv
    simp only at h1 h2
    simp only [h1]
    exact ⟨rfl, h.same h2⟩
  | ok d =>
    rw [hrd] at hv
    simp only at hv ⊢
    have hval : (Conf.ofFile (FileLoc.item p) d).values = d := rfl
    rcases h.own hp n with ⟨c, hown, hcf, hco⟩ | ⟨e, hown, hnone, hco⟩
    · rw [hown] at hv
      simp only [atPath_would, hval] at hv
      have htc : ∀ handler : Stop → GM V (Option (Conf V)), M.tryCatch (do
          let c ← GM.confOf (GM.evalFile w n (name p)) (name p)
          pure (some c)) handler g = (.ok (some c), { g with conf := setAt g.conf (name p) (some c) }) := by
        intro handler
        unfold M.tryCatch
        rw [M.bind_ok hco]
        rfl
      rw [M.bind_ok (htc _)]
      simp only
      cases hw : CMM.determineWouldUpdate c none d with
      | error e =>
        rw [hw] at hv
        simp only at hv
        have h1 := congrArg Prod.fst hv
        have h2 := congrArg Prod.snd hv
        simp only at h1 h2
        simp only [h1]
        exact ⟨rfl, h.loaded hi hp hcf h2⟩
      | ok b =>
        cases b with
        | false =>
          rw [hw] at hv
          simp only at hv
          have h1 := congrArg Prod.fst hv
          have h2 := congrArg Prod.snd hv
          simp only at h1 h2
          simp only [h1]
          exact ⟨trivial, h.loaded hi hp hcf h2⟩
        | true =>
          rw [hw] at hv
          simp only at hv
          have h1 := congrArg Prod.fst hv
          have h2 := congrArg Prod.snd hv
          simp only at h1 h2
          simp only [h1]
          have hge : (GM.ofExcept (.ok true) : GM V Bool) = pure true := rfl
          rw [hge, M.bind_ok (show (pure true : GM V Bool) _ = (.ok true, _) from rfl), if_pos rfl,
            M.bind_ok (M.modify_run _ _)]
          simp only [setAt_twice]
          exact (h.loaded hi hp (c := Conf.ofFile (.item []) d) (usual_ofFile (h.clean p hp d hrd)) h2).apply hi hp _ n _ _
    · exfalso
      have hsl := h.conf p hp
      rw [hnone] at hsl
      unfold View.own at hown
      rw [hsl] at hown
      simp only at hown
      rw [hld, hrd] at hown
      cases hown

end Shows

/-! ## Theorems -/

/-- An operation on one of the items. -/
theorem C28_runner_partial [BEq V] {unused : String → Prop} {w : World V} {name : List String → String} {items : List (List String)}
    (hi : ∀ p ∈ items, ∀ q ∈ items, name p = name q → p = q) {g : GS V} {s : RS V} (h : Shows unused w name items g s)
    {p : List String} (hp : p ∈ items) {a : GOp V} {b : ROp V} (hab : OpFor unused name p a b) (n : Nat) :
    SameEnd (GM.op w (n + 1) a g).1 (endOf s b) ∧ Shows unused w name items (GM.op w (n + 1) a g).2 (s.step b) := by
  cases hab with
  | get =>
    obtain ⟨h1, h2⟩ := h.get hi hp n
    show SameEnd ((GM.getItem w (n + 1) (name p) >>= fun _ => pure ()) g).1 ((RM.get p s).1.map _) ∧
      Shows unused w name items ((GM.getItem w (n + 1) (name p) >>= fun _ => pure ()) g).2 (RM.get p s).2
    rw [M.bind_run]
    cases hx : GM.getItem w (n + 1) (name p) g with
    | mk r g' =>
      cases hy : RM.get p s with
      | mk r' s' =>
        rw [hx, hy] at h1 h2
        cases r with
        | ok _ => cases r' with
          | ok _ => exact ⟨trivial, h2⟩
          | error _ => exact h1.elim
        | error e => cases r' with
          | ok _ => cases e <;> exact h1.elim
          | error _ => exact ⟨by cases e <;> exact h1, h2⟩
  | update d persist kw hd hkw => exact h.update hi hp (n + 1) d persist kw hd hkw
  | refresh => exact h.refresh hi hp n
  | reset => exact h.reset hi hp (n + 1)

/-- Operations one after another, all on the items. -/
inductive OpsFor (unused : String → Prop) (name : List String → String) (items : List (List String)) : List (GOp V) → List (ROp V) → Prop where
  | nil : OpsFor unused name items [] []
  | cons {p a b as bs} : p ∈ items → OpFor unused name p a b → OpsFor unused name items as bs →
    OpsFor unused name items (a :: as) (b :: bs)

/-- After operations one after another, where those that raise are caught, the configs and objects are the same. -/
theorem C28_runner_all_partial [BEq V] {unused : String → Prop} {w : World V} {name : List String → String} {items : List (List String)}
    (hi : ∀ p ∈ items, ∀ q ∈ items, name p = name q → p = q) {as : List (GOp V)} {bs : List (ROp V)}
    (hops : OpsFor unused name items as bs) (n : Nat) {g : GS V} {s : RS V} (h : Shows unused w name items g s) :
    Shows unused w name items (as.foldl (fun g a => (GM.op w (n + 1) a g).2) g) (bs.foldl RS.step s) := by
  induction hops generalizing g s with
  | nil => exact h
  | cons hp hab _ ih => exact ih (C28_runner_partial hi h hp hab n).2

/-! ### A concrete project -/

/-- The project of `bareRunner`, its sections joined by points. -/
def bareWorld : World Nat where
  files _ := fileOf (bareFiles.read (.item ["main", "sub", "func"]))
  attr _ _ _ := .error .attributeError
  order _ l := l

/-- `bareRunner` with another item registered. -/
def bareRunnerOf (k : Callable Nat) : RS Nat :=
  { bareRunner with reg := ⟨[], .coll false [("main", .coll false [("sub", .coll false [("func", .item k)])])]⟩ }

theorem bare_shows {unused : String → Prop} {k : Callable Nat} (hk : NeverRaises unused k)
    (hc : ∀ d, bareFiles.read (.item ["main", "sub", "func"]) = .ok d → ∀ x, unused x → d.get? x = none) :
    Shows unused bareWorld (String.intercalate ".") [["main", "sub", "func"]] GS.new (bareRunnerOf k) := by
  refine ⟨?_, ?_, ?_, ?_, ?_, rfl, ?_, ?_, ?_, fun _ => rfl⟩
  · intro p hp
    rw [List.mem_singleton] at hp
    subst hp
    exact ⟨by simp, (by decide : PlainPath "defaults" _), rfl⟩
  · intro p hp
    rw [List.mem_singleton] at hp
    subst hp
    exact ⟨k, rfl, hk⟩
  · intro p hp
    rw [List.mem_singleton] at hp
    subst hp
    rfl
  · intro p hp
    rw [List.mem_singleton] at hp
    subst hp
    exact hc
  · intro p hp k hk
    rw [List.mem_singleton] at hp
    subst hp
    have h3 : k = 0 ∨ k = 1 ∨ k = 2 := by simp at hk; omega
    rcases h3 with rfl | rfl | rfl <;> rfl
  · intro p hp
    rw [List.mem_singleton] at hp
    subst hp
    rfl
  · intro q c h
    cases h
  · intro p hp
    rw [List.mem_singleton] at hp
    subst hp
    exact trivial

/-- The hypotheses hold for a function, and no name is unused. -/
example : Shows (fun _ => False) bareWorld (String.intercalate ".") [["main", "sub", "func"]] GS.new (bareRunnerOf demoFunc) :=
  bare_shows ⟨⟨_, rfl⟩, .inl rfl⟩ (fun _ _ _ h => h.elim)

/-- The hypotheses hold for a class with `self`. -/
example : Shows (fun x => x = "self") bareWorld (String.intercalate ".") [["main", "sub", "func"]] GS.new (bareRunnerOf demoClass) :=
  bare_shows ⟨⟨_, rfl⟩, .inr ⟨⟨⟨_, rfl⟩, fun _ => rfl⟩, .inr ⟨rfl, fun _ => rfl⟩⟩⟩ (by
    intro d hd x hx
    subst hx
    cases hd
    rfl)

/-- Getting the item and then updating it: the hypotheses hold. -/
example : OpsFor (V := Nat) (fun x => x = "self") (String.intercalate ".") [["main", "sub", "func"]]
    [.get "main.sub.func", .update "main.sub.func" none true (Dict.ofList [("a", 7)])]
    [.get ["main", "sub", "func"], .update none (some ["main", "sub", "func"]) true (Dict.ofList [("a", 7)])] := by
  have hn : String.intercalate "." ["main", "sub", "func"] = "main.sub.func" := by decide
  rw [← hn]
  exact .cons (by simp) .get (.cons (by simp) (.update _ _ _ (fun _ h => by cases h) (by rintro _ rfl; rfl)) .nil)

/-- The update reached the function, or the object. -/
example : ((after (bareRunnerOf demoFunc) [.get ["main", "sub", "func"],
    .update none (some ["main", "sub", "func"]) true (Dict.ofList [("a", 7)])]).objs.get?
      ["main", "sub", "func"]).bind (fun o => o.kwargs.get? "a") = some 7 ∧
    ((after (bareRunnerOf demoClass) [.get ["main", "sub", "func"],
    .update none (some ["main", "sub", "func"]) true (Dict.ofList [("a", 7)])]).objs.get?
      ["main", "sub", "func"]).bind (fun o => o.kwargs.get? "a") = some 7 := by
  constructor <;> decide +kernel

end Verif.Props

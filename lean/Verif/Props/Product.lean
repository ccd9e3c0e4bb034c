import Verif.Props.Iterate
import Verif.Props.Cascade
import Verif.Lemmas.Iterate

/-
Property theorems about the configuration in each case of an iterative run: C32, C33.
-/

namespace Verif.Props
open Verif.Py Verif.Model

variable {V : Type}

/-! ## C32 -/

/-! ### Specification -/

/-- The active configuration of an item of a manager, as `get` shows it. -/
def activeAt (s : Mgrs V) (m : String) (p : List String) : Option (Dict String V) :=
  match s.get? m with
  | none => none
  | some g => match (CMM.get p g.ms.rs.cm).1 with
    | .ok (some c) => some c.values
    | _ => none

/-- `p` is an item of the manager `m`. -/
def ItemAt (s : Mgrs V) (m : String) (p : List String) : Prop :=
  ∃ g, s.get? m = some g ∧ ConfigItem g.ms.rs.cm p

/-- The sections around the item, or the local config, define the key. -/
def DefinedAround (s : Mgrs V) (m : String) (p : List String) (k : String) : Prop :=
  ∃ g, s.get? m = some g ∧
    (k ∈ g.ms.rs.cm.localConf.values.keys ∨ ∃ d ∈ enclosingValues g.ms.rs.cm p, k ∈ d.keys)

/-- The item an update is for. -/
def Targets (base : Option String) (strip : Bool) (u : Upd V) (m : String) (p : List String) : Prop :=
  ∃ s, u.path = some (.str s) ∧ targetOf base strip (.str s) = some (m :: p)

/-- A case of updates of different items that exist, each given by keywords, all of them known. -/
structure PlainCase (s : Mgrs V) (base : Option String) (strip : Bool) (c : List (Upd V)) : Prop where
  distinct : (c.map (fun u => u.path)).Nodup
  keywords : ∀ u ∈ c, u.d = none
  item : ∀ u ∈ c, ∃ m p, Targets base strip u m p ∧ ItemAt s m p
  known : ∀ u ∈ c, ∀ m p d, Targets base strip u m p → activeAt s m p = some d →
    (∀ k ∈ u.kw.keys, k ∈ d.keys) ∧ "section_path_str" ∉ d.keys ∧ "pyfileconf_persist" ∉ d.keys

/-- A section of functions, which may have sections of functions in it and so on, all with configs. -/
def FunctionSection (s : RS V) (p : List String) : Prop :=
  p ≠ [] ∧ (∃ items, s.reg.lookup p = .ok (.coll false items)) ∧
  ∀ q b items, s.reg.lookup (p ++ q) = .ok (.coll b items) → ∀ x k, (x, Reg.item k) ∈ items →
    k.kind = .func ∧ ConfigItem s.cm (p ++ q ++ [x])

/-- The run items are registered items with a config, or sections of functions. -/
def RunsItems (s : Mgrs V) (sps : List SectionPath) : Prop :=
  ∀ sp ∈ sps, ∃ m p g, sp.sections = m :: p ∧ s.get? m = some g ∧
    ((ConfigItem g.ms.rs.cm p ∧ ∃ k, g.ms.rs.reg.lookup p = .ok (.item k)) ∨ FunctionSection g.ms.rs p)

/-- A runner just created in the state `s0`: no plugins, all cases are plain. -/
structure PlainRunner [BEq V] (h : IterHooks V) (s0 s1 : Mgrs V) (r : IRunner V) : Prop where
  preBatch : h.preBatch = fun _ => []
  plugins : h.run = RunHooks.none
  reachable : ∀ m g, s0.get? m = some g → g.ms.rs.Reachable
  created : ∃ items us, IRunner.new h items us r.base r.strip s0 = (.ok r, s1)
  base : r.base ≠ some ""
  cases : ∀ c ∈ r.cases, PlainCase s0 r.base r.strip c
  runs : RunsItems s0 r.runItems

/-! ### Lemmas -/

namespace Iter

/-- An item of the manager `m`. -/
def ItemOf (s : Mgrs V) (m : String) (p : List String) : Prop :=
  ∃ g, s.get? m = some g ∧ IsItem g.ms.rs.cm p

/-- The same shape of all managers. -/
def MShape (s t : Mgrs V) : Prop :=
  ∀ m g, s.get? m = some g → ∃ g', t.get? m = some g' ∧ g'.ms.rs.reg = g.ms.rs.reg ∧
    CM.Shape g.ms.rs.cm g'.ms.rs.cm

/-- Only lookups happened. -/
def MCalm (s t : Mgrs V) : Prop :=
  ∀ m g, s.get? m = some g → ∃ g', t.get? m = some g' ∧ RS.Calm g.ms.rs g'.ms.rs

/-- The own config of an item. -/
def OwnAt (t : Mgrs V) (m : String) (p : List String) (c : Conf V) : Prop :=
  ∃ g, t.get? m = some g ∧ g.ms.rs.cm.view.own p = .ok c

/-- What an own config shows in `s0`. -/
def actOf (s0 : Mgrs V) (m : String) (p : List String) (c : Conf V) : Conf V :=
  match s0.get? m with
  | some g => CMM.active g.ms.rs.cm.view p c
  | none => c

/-- The active configuration of an item. -/
def shownOf (s : Mgrs V) (m : String) (p : List String) : Option (Except PyErr (Conf V)) :=
  (s.get? m).map (fun g => g.ms.rs.cm.shownConf p)

theorem MCalm.shape {s t : Mgrs V} (h : MCalm s t) : MShape s t := by
  intro m g hg
  obtain ⟨g', hg', hc⟩ := h m g hg
  exact ⟨g', hg', hc.reg, hc.cm.toShape⟩

theorem MShape.trans {a b c : Mgrs V} (h1 : MShape a b) (h2 : MShape b c) : MShape a c := by
  intro m g hg
  obtain ⟨g', hg', r1, s1⟩ := h1 m g hg
  obtain ⟨g'', hg'', r2, s2⟩ := h2 m g' hg'
  exact ⟨g'', hg'', r2.trans r1, s1.trans s2⟩

theorem MCalm.trans {a b c : Mgrs V} (h1 : MCalm a b) (h2 : MCalm b c) : MCalm a c := by
  intro m g hg
  obtain ⟨g', hg', c1⟩ := h1 m g hg
  obtain ⟨g'', hg'', c2⟩ := h2 m g' hg'
  exact ⟨g'', hg'', c2.reg.trans c1.reg, c1.cm.trans c2.cm⟩

/-- Every manager is in a state where the configs belong to their files. -/
def Filed (s : Mgrs V) : Prop := ∀ m g, s.get? m = some g → OwnFiles g.ms.rs.cm.view

theorem MCalm.refl {s : Mgrs V} (h : Filed s) : MCalm s s :=
  fun m g hg => ⟨g, hg, rfl, .refl (h m g hg)⟩

theorem MShape.refl {s : Mgrs V} (h : Filed s) : MShape s s := (MCalm.refl h).shape

theorem MShape.filed_of {s t : Mgrs V} (h : MShape s t) {m : String} {g : Mgr V} (hg : s.get? m = some g)
    {g' : Mgr V} (hg' : t.get? m = some g') : OwnFiles g'.ms.rs.cm.view := by
  obtain ⟨g1, h1, _, h2⟩ := h m g hg
  rw [hg'] at h1
  cases h1
  exact h2.files

theorem MShape.itemOf {s t : Mgrs V} (h : MShape s t) {m : String} {p : List String} (hi : ItemOf s m p) :
    ItemOf t m p := by
  obtain ⟨g, hg, hi⟩ := hi
  obtain ⟨g', hg', _, hs⟩ := h m g hg
  exact ⟨g', hg', hs.isItem hi⟩

/-- An operation on the manager named first. -/
theorem onManager_run {α : Type} {sp : SectionPath} {m : String} {p : List String} (hs : sp.sections = m :: p)
    {s : Mgrs V} {g : Mgr V} (hg : s.get? m = some g) (f : RunSettings → MM V α) :
    BM.onManager sp f s = ((f g.settings g.ms).1, s.set m { g with ms := (f g.settings g.ms).2 }) := by
  unfold BM.onManager
  rw [hs]
  simp only [List.headD_cons, hg]

theorem relative_eq {sp : SectionPath} {m : String} {p : List String} (hs : sp.sections = m :: p) (hp : p ≠ []) :
    BM.relative sp = p := by
  unfold BM.relative
  rw [tail_sections, hs, List.tail_cons]
  cases p with
  | nil => exact absurd rfl hp
  | cons x p => rfl

theorem MCalm.set {s : Mgrs V} (hf : Filed s) {m : String} {g g' : Mgr V} (hg : s.get? m = some g)
    (hc : RS.Calm g.ms.rs g'.ms.rs) : MCalm s (s.set m g') := by
  intro m' g1 hg1
  rw [Dict.get?_set]
  by_cases h : m = m'
  · subst h
    rw [hg] at hg1
    cases hg1
    rw [if_pos rfl]
    exact ⟨g', rfl, hc⟩
  · rw [if_neg h]
    exact ⟨g1, hg1, rfl, .refl (hf m' g1 hg1)⟩

theorem Filed.set {s : Mgrs V} (hf : Filed s) {m : String} {g' : Mgr V} (h : OwnFiles g'.ms.rs.cm.view) :
    Filed (s.set m g') := by
  intro m' g1 hg1
  rw [Dict.get?_set] at hg1
  split at hg1
  · cases hg1; exact h
  · exact hf m' g1 hg1

/-! #### Runs -/

/-- As `RunsItems`, seen through views. -/
def Runs (s : Mgrs V) (sps : List SectionPath) : Prop :=
  ∀ sp ∈ sps, ∃ m p g, sp.sections = m :: p ∧ s.get? m = some g ∧ p ≠ [] ∧
    ((IsItem g.ms.rs.cm p ∧ ∃ k, g.ms.rs.reg.lookup p = .ok (.item k)) ∨
      ((∃ items, g.ms.rs.reg.lookup p = .ok (.coll false items)) ∧ RM.FuncsBelow g.ms.rs p))

theorem Runs.shape {s t : Mgrs V} (h : MShape s t) {sps : List SectionPath} (hr : Runs s sps) : Runs t sps := by
  intro sp hsp
  obtain ⟨m, p, g, h1, h2, hne, h3⟩ := hr sp hsp
  obtain ⟨g', hg', hreg, hs⟩ := h m g h2
  refine ⟨m, p, g', h1, hg', hne, ?_⟩
  rcases h3 with ⟨h3, h4⟩ | ⟨h3, h4⟩
  · exact .inl ⟨hs.isItem h3, by rw [hreg]; exact h4⟩
  · refine .inr ⟨by rw [hreg]; exact h3, fun q b items hl x k hk => ?_⟩
    rw [hreg] at hl
    obtain ⟨a1, a2⟩ := h4 q b items hl x k hk
    exact ⟨a1, hs.isItem a2⟩

theorem runEach_calm {h : IterHooks V} (hh : h.run = RunHooks.none) (sps : List SectionPath) (s : Mgrs V)
    (hf : Filed s) (hr : Runs s sps) :
    MCalm s (IRunner.runEach h sps s).2 ∧ Filed (IRunner.runEach h sps s).2 := by
  induction sps generalizing s with
  | nil => exact ⟨MCalm.refl hf, hf⟩
  | cons sp sps ih =>
    obtain ⟨m, p, g, h1, h2, hne, h3⟩ := hr sp List.mem_cons_self
    unfold IRunner.runEach
    rw [M.bind_run, onManager_run h1 h2, hh]
    have hrs := MM.run_rs g.settings (SectionPath.tail sp).pathStr g.ms
    have hsec : split '.' (SectionPath.tail sp).pathStr = p := by
      have := relative_eq h1 hne
      exact this
    rw [hsec] at hrs
    have hcalm : RS.Calm g.ms.rs (MM.run g.settings RunHooks.none
        (.single (.str (SectionPath.tail sp).pathStr)) g.ms).2.rs := by
      rw [hrs]
      rcases h3 with ⟨h3, k, h4⟩ | ⟨⟨items, h3⟩, h4⟩
      · exact RM.calm_run1 (hf m g h2) h3 h4
      · exact RM.calm_run1_section (hf m g h2) h3 h4
    have hc := MCalm.set (g' := { g with ms := (MM.run g.settings RunHooks.none
        (.single (.str (SectionPath.tail sp).pathStr)) g.ms).2 }) hf h2 hcalm
    have hf' := Filed.set (m := m) (g' := { g with ms := (MM.run g.settings RunHooks.none
        (.single (.str (SectionPath.tail sp).pathStr)) g.ms).2 }) hf hcalm.cm.files
    cases (MM.run g.settings RunHooks.none (.single (.str (SectionPath.tail sp).pathStr)) g.ms).1 with
    | error e => exact ⟨hc, hf'⟩
    | ok a =>
      simp only
      obtain ⟨i1, i2⟩ := ih _ hf' (Runs.shape hc.shape (fun sp' hsp' => hr sp' (List.mem_cons_of_mem _ hsp')))
      rw [M.bind_run]
      cases hre : IRunner.runEach h sps (s.set m { g with ms := (MM.run g.settings RunHooks.none
        (.single (.str (SectionPath.tail sp).pathStr)) g.ms).2 }) with
      | mk r t =>
        rw [hre] at i1 i2
        cases r with
        | error e => exact ⟨hc.trans i1, i2⟩
        | ok rs => exact ⟨hc.trans i1, i2⟩

theorem runOnce_calm {h : IterHooks V} (hh : h.run = RunHooks.none) (r : IRunner V) (s : Mgrs V)
    (hf : Filed s) (hr : Runs s r.runItems) :
    MCalm s (r.runOnce h s).2 ∧ Filed (r.runOnce h s).2 := by
  have := runEach_calm hh r.runItems s hf hr
  unfold IRunner.runOnce
  rw [M.bind_run]
  cases hre : IRunner.runEach h r.runItems s with
  | mk x t =>
    rw [hre] at this
    cases x with
    | error e => exact this
    | ok rs =>
      simp only
      split <;> exact this

/-! #### Defaults -/

/-- A config that shows itself. -/
def Settled (t : Mgrs V) (m : String) (p : List String) (d : Dict String V) : Prop :=
  ∃ g c, t.get? m = some g ∧ IsItem g.ms.rs.cm p ∧ g.ms.rs.cm.view.own p = .ok c ∧
    CMM.active g.ms.rs.cm.view p c = c ∧ c.values = d

theorem Settled.calm {s t : Mgrs V} (h : MCalm s t) {m : String} {p : List String} {d : Dict String V}
    (hs : Settled s m p d) : Settled t m p d := by
  obtain ⟨g, c, hg, hi, ho, ha, hd⟩ := hs
  obtain ⟨g', hg', hc⟩ := h m g hg
  exact ⟨g', c, hg', hc.cm.toShape.isItem hi, hc.cm.settled hi ho ha, (hc.cm.toShape.active hi c).trans ha, hd⟩

theorem defaultsLoop_spec (sps : List SectionPath) (s : Mgrs V) (hf : Filed s)
    (hi : ∀ sp ∈ sps, ∃ m p, sp.sections = m :: p ∧ ItemOf s m p) (acc : Dict String (Dict String V))
    (d : Dict String (Dict String V)) (t : Mgrs V) (hok : IRunner.defaultsLoop acc sps s = (.ok d, t)) :
    MCalm s t ∧ Filed t ∧ ∀ key D, d.get? key = some D → acc.get? key = some D ∨
      ∃ sp ∈ sps, sp.pathStr = key ∧ ∃ m p, sp.sections = m :: p ∧ Settled t m p D := by
  induction sps generalizing s acc with
  | nil =>
    cases hok
    exact ⟨MCalm.refl hf, hf, fun key D h => .inl h⟩
  | cons sp sps ih =>
    obtain ⟨m, p, h1, g, h2, h3⟩ := hi sp List.mem_cons_self
    unfold IRunner.defaultsLoop at hok
    rw [M.bind_run, onManager_run h1 h2, relative_eq h1 h3.ne] at hok
    simp only [MM.liftR, RM.liftC] at hok
    have hcm := CM.calm_get (hf m g h2) h3
    generalize hg' : ({ g with ms := { g.ms with rs := { g.ms.rs with cm := (CMM.get p g.ms.rs.cm).2 } } } : Mgr V) = g' at hok
    have hcm' : RS.Calm g.ms.rs g'.ms.rs := by subst hg'; exact ⟨rfl, hcm⟩
    have hc := MCalm.set (g' := g') hf h2 hcm'
    have hf' := Filed.set (m := m) (g' := g') hf hcm'.cm.files
    have hi' : ∀ sp' ∈ sps, ∃ m1 p1, sp'.sections = m1 :: p1 ∧ ItemOf (s.set m g') m1 p1 := by
      intro sp' hsp'
      obtain ⟨m', p', e1, e2⟩ := hi sp' (List.mem_cons_of_mem _ hsp')
      exact ⟨m', p', e1, hc.shape.itemOf e2⟩
    cases ho : g.ms.rs.cm.view.own p with
    | error e =>
      rw [(CMM.get_of_own_error h3 ho).1] at hok
      cases hok
    | ok c =>
      obtain ⟨e1, e2⟩ := CMM.get_of_own h3 ho
      rw [e1] at hok
      simp only at hok
      obtain ⟨i1, i2, i3⟩ := ih _ hf' hi' _ hok
      refine ⟨hc.trans i1, i2, ?_⟩
      intro key D hD
      rcases i3 key D hD with h | ⟨sp', hsp', h⟩
      · rw [Dict.get?_set] at h
        split at h
        · rename_i hkey
          injection h with hD'
          right
          refine ⟨sp, List.mem_cons_self, hkey, m, p, h1, ?_⟩
          apply Settled.calm i1
          have hview : g'.ms.rs.cm.view = g.ms.rs.cm.view.setConf p (CMM.active g.ms.rs.cm.view p c) := by
            rw [← e2, ← hg']
          have hact := hcm'.cm.toShape.active h3
          refine ⟨g', CMM.active g.ms.rs.cm.view p c, Dict.get?_set_self _ _ _, hcm'.cm.toShape.isItem h3, ?_, ?_, hD'⟩
          · unfold View.own
            rw [hview, View.setConf_slot_self]
          · rw [hact, CMM.active_idem (hf m g h2) h3 ((hf m g h2).own h3.plain ho)]
        · exact .inl h
      · exact .inr ⟨sp', List.mem_cons_of_mem _ hsp', h⟩

/-! #### Updates -/

section
variable [BEq V]

/-- The targets `T` with their defaults: items of `s0`, whose configs have exactly the keys of the
defaults; other items show what they showed. -/
structure Good (s0 : Mgrs V) (T : String → List String → Dict String V → Prop) (t : Mgrs V) : Prop where
  shape : MShape s0 t
  filed : Filed t
  keys : ∀ m p D, T m p D → ∃ c, OwnAt t m p c ∧ ∀ k, k ∈ c.values.keys ↔ k ∈ D.keys
  others : ∀ m q, ItemOf s0 m q → (∀ D, ¬ T m q D) → shownOf t m q = shownOf s0 m q

/-- An update for one of the targets, with all the keys of its default. -/
structure Full (T : String → List String → Dict String V → Prop) (base : Option String) (strip : Bool)
    (u : Upd V) : Prop where
  noDict : u.d = none
  target : ∃ m p D, T m p D ∧ Targets base strip u m p ∧ (∀ k, k ∈ u.kw.keys ↔ k ∈ D.keys) ∧
    "section_path_str" ∉ D.keys ∧ "pyfileconf_persist" ∉ D.keys

/-- The target of the update shows the given values, as far as the sections around it leave them. -/
def HoldsU (s0 : Mgrs V) (base : Option String) (strip : Bool) (t : Mgrs V) (u : Upd V) : Prop :=
  ∀ m p, Targets base strip u m p → ∃ c, OwnAt t m p c ∧
    ∀ k, (actOf s0 m p c).values.get? k = (actOf s0 m p ⟨u.kw, Dict.empty, some (.item p)⟩).values.get? k

omit [BEq V] in
theorem Targets.unique {base : Option String} {strip : Bool} {u : Upd V} {m m' : String} {p p' : List String}
    (h : Targets base strip u m p) (h' : Targets base strip u m' p') : m = m' ∧ p = p' := by
  obtain ⟨s, e1, e2⟩ := h
  obtain ⟨s', e1', e2'⟩ := h'
  rw [e1] at e1'
  cases e1'
  rw [e2] at e2'
  cases e2'
  exact ⟨rfl, rfl⟩

omit [BEq V] in
theorem Targets.path_eq {base : Option String} {strip : Bool} {u v : Upd V} {m : String} {p : List String}
    (h : Targets base strip u m p) (h' : Targets base strip v m p) : u.path = v.path := by
  obtain ⟨s, e1, e2⟩ := h
  obtain ⟨s', e1', e2'⟩ := h'
  rw [e1, e1']
  have : targetOf base strip (.str s) = targetOf base strip (.str s') := e2.trans e2'.symm
  simp only [targetOf, Option.some.injEq] at this
  have hs := List.append_cancel_left this
  have := congrArg (join '.') hs
  rw [join_split, join_split] at this
  rw [this]

omit [BEq V] in
theorem valuesOf_get? {T : String → List String → Dict String V → Prop} {base : Option String} {strip : Bool}
    {u : Upd V} (hu : Full T base strip u) (k : String) : (valuesOf u).get? k = u.kw.get? k := by
  obtain ⟨m, p, D, _, _, hk, h1, h2⟩ := hu.target
  unfold valuesOf
  rw [Dict.get?_filterKeys]
  split
  · rfl
  · rename_i h
    symm
    have : k = "section_path_str" ∨ k = "pyfileconf_persist" := by
      simp only [decide_eq_true_eq] at h
      by_cases hh : k = "section_path_str"
      · exact .inl hh
      · right
        by_cases hh' : k = "pyfileconf_persist"
        · exact hh'
        · exact absurd ⟨hh, hh'⟩ h
    have hn : k ∉ u.kw.keys := by
      rw [hk]
      rcases this with rfl | rfl
      · exact h1
      · exact h2
    cases hg : u.kw.get? k with
    | none => rfl
    | some v => exact absurd (Dict.mem_keys_of_get? hg) hn

theorem update1_spec (he : EqIsSame V) {s0 : Mgrs V} {T : String → List String → Dict String V → Prop}
    (hT : ∀ m p D, T m p D → ItemOf s0 m p) {base : Option String} {strip : Bool} {t t' : Mgrs V} {u : Upd V}
    (hg : Good s0 T t) (hu : Full T base strip u) (hok : BM.update1 base strip u t = (.ok (), t')) :
    Good s0 T t' ∧ HoldsU s0 base strip t' u ∧
    (∀ v, Full T base strip v → v.path ≠ u.path → HoldsU s0 base strip t v → HoldsU s0 base strip t' v) ∧
    ∀ m q c, ¬ Targets base strip u m q → OwnAt t m q c → OwnAt t' m q c := by
  have happ := applied_update1 base strip u t
  rw [hok] at happ
  simp only at happ
  obtain ⟨m, p, D, hTD, htgt, hkeys, hr1, hr2⟩ := hu.target
  have hvals := valuesOf_get? hu
  obtain ⟨str, hpath, htarget⟩ := htgt
  obtain ⟨g0, hg0, hi0⟩ := hT m p D hTD
  generalize hres : (Except.ok () : Except PyErr Unit) = res at happ
  cases happ with
  | noPath h => cases hres
  | notPath x h1 h2 => cases hres
  | noManager x m' p' h1 h2 h3 => cases hres
  | badKeyword x m' p' g _ h1 h2 h3 h4 h5 => cases hres
  | update x m' p' g _ h1 h2 h3 h4 h5 h6 h7 =>
    rw [hpath] at h1
    cases h1
    rw [htarget] at h2
    cases h2
    have hrest : restOf p = p := by
      cases p with
      | nil => exact absurd rfl hi0.ne
      | cons x p => rfl
    rw [hrest] at hres h7
    rw [hu.noDict] at hres h7
    obtain ⟨g1, hg1, hreg, hshape⟩ := hg.shape m g0 hg0
    rw [h3] at hg1
    cases hg1
    have hi := hshape.isItem hi0
    obtain ⟨c, ⟨g1, hg1, hown⟩, hck⟩ := hg.keys m p D hTD
    rw [h3] at hg1
    cases hg1
    have hkv : ∀ k ∈ (valuesOf u).keys, k ∈ c.values.keys := by
      intro k hk
      rw [Dict.mem_keys_iff, hvals, ← Dict.mem_keys_iff, hkeys] at hk
      exact (hck k).2 hk
    have hnew := RM.update_ok he hi hown hres.symm hkv
    obtain ⟨hview, hreg', _, _⟩ := RM.update_cm hi hown none (u.persist.getD true) (valuesOf u)
    have hsh := CM.shape_update hshape.files hi hown none (u.persist.getD true) (valuesOf u)
    change t'.get? m = some { g with ms := { g.ms with
      rs := (RM.update none (some p) (u.persist.getD true) (valuesOf u) g.ms.rs).2 } } at h7
    generalize hrs : (RM.update none (some p) (u.persist.getD true) (valuesOf u) g.ms.rs).2 = rs' at h7 hview hreg' hsh
    have hown' : OwnAt t' m p (c.updated none (u.persist.getD true) (valuesOf u)) := by
      refine ⟨_, h7, ?_⟩
      show rs'.cm.view.own p = _
      unfold View.own
      rw [hview, View.setConf_slot_self]
    have hother : ∀ m' q, ¬ (m' = m ∧ q = p) → ∀ c', OwnAt t m' q c' → OwnAt t' m' q c' := by
      rintro m' q hne c' ⟨g', hg', ho'⟩
      by_cases hm : m' = m
      · subst hm
        rw [h3] at hg'
        cases hg'
        refine ⟨_, h7, ?_⟩
        show rs'.cm.view.own q = _
        have hqp : q ≠ p := fun h => hne ⟨rfl, h⟩
        unfold View.own at ho' ⊢
        rw [hview, View.setConf_slot_ne _ _ hqp]
        exact ho'
      · exact ⟨g', by rw [h6 m' hm]; exact hg', ho'⟩
    have hshape' : MShape s0 t' := by
      intro m' g' hg'
      by_cases hm : m' = m
      · subst hm
        rw [hg0] at hg'
        cases hg'
        exact ⟨_, h7, hreg'.trans hreg, hshape.trans hsh⟩
      · rw [h6 m' hm]
        exact hg.shape m' g' hg'
    have hfiled' : Filed t' := by
      intro m' g' hg'
      by_cases hm : m' = m
      · subst hm
        rw [h7] at hg'
        cases hg'
        exact hsh.files
      · rw [h6 m' hm] at hg'
        exact hg.filed m' g' hg'
    refine ⟨⟨hshape', hfiled', ?_, ?_⟩, ?_, ?_, ?_⟩
    · intro m' p' D' hT'
      by_cases hh : m' = m ∧ p' = p
      · obtain ⟨rfl, rfl⟩ := hh
        obtain ⟨c', ⟨g', hg', ho'⟩, hk'⟩ := hg.keys _ _ D' hT'
        rw [h3] at hg'
        cases hg'
        rw [hown] at ho'
        cases ho'
        refine ⟨_, hown', ?_⟩
        intro k
        rw [← hk' k, Dict.mem_keys_iff, Dict.mem_keys_iff, hnew k]
        cases hkw : (valuesOf u).get? k with
        | none => rfl
        | some v =>
          have := hkv k (Dict.mem_keys_of_get? hkw)
          rw [Dict.mem_keys_iff] at this
          simp [this]
      · obtain ⟨c', ho', hk'⟩ := hg.keys m' p' D' hT'
        exact ⟨c', hother m' p' hh c' ho', hk'⟩
    · intro m' q hiq hn
      have hh : ¬ (m' = m ∧ q = p) := by
        rintro ⟨rfl, rfl⟩
        exact hn D hTD
      rw [← hg.others m' q hiq hn]
      by_cases hm : m' = m
      · subst hm
        have hqp : q ≠ p := fun h => hh ⟨rfl, h⟩
        obtain ⟨gq, hgq, hiq⟩ := hiq
        rw [hg0] at hgq
        cases hgq
        unfold shownOf
        rw [h7, h3]
        simp only [Option.map_some, Option.some.injEq]
        unfold CM.shownConf
        have hv : rs'.cm.view.own q = g.ms.rs.cm.view.own q := by
          unfold View.own
          rw [hview, View.setConf_slot_ne _ _ hqp]
          rfl
        rw [hv]
        cases g.ms.rs.cm.view.own q with
        | error e => rfl
        | ok c => exact congrArg Except.ok (hsh.active (hshape.isItem hiq) c)
      · unfold shownOf
        rw [h6 m' hm]
    · intro m' p' ht'
      obtain ⟨rfl, rfl⟩ := Targets.unique ht' ⟨str, hpath, htarget⟩
      refine ⟨_, hown', ?_⟩
      unfold actOf
      rw [hg0]
      simp only
      apply CMM.active_values_congr hshape.files0 hi0
      · obtain ⟨g'', hg'', ho''⟩ := hown'
        rw [h7] at hg''
        cases hg''
        exact hsh.files.own (by rw [show rs'.cm.view.rootName = g.ms.rs.cm.rootName from hsh.rest.2.2]; exact hi.plain) ho''
      · rfl
      · intro k
        rw [hnew k, hvals k]
        cases hkw : u.kw.get? k with
        | some v => rfl
        | none =>
          have : k ∉ c.values.keys := by
            rw [hck k, ← hkeys k]
            intro h
            rw [Dict.mem_keys_iff, hkw] at h
            cases h
          cases hc : c.values.get? k with
          | none => rfl
          | some v => exact absurd (Dict.mem_keys_of_get? hc) this
    · intro v _ hne hv m' p' ht'
      obtain ⟨c', ho', hk'⟩ := hv m' p' ht'
      refine ⟨c', hother m' p' ?_ c' ho', hk'⟩
      rintro ⟨rfl, rfl⟩
      exact hne (Targets.path_eq ht' ⟨str, hpath, htarget⟩)
    · intro m' q c' hn ho
      refine hother m' q ?_ c' ho
      rintro ⟨rfl, rfl⟩
      exact hn ⟨str, hpath, htarget⟩

theorem updates_spec (he : EqIsSame V) {s0 : Mgrs V} {T : String → List String → Dict String V → Prop}
    (hT : ∀ m p D, T m p D → ItemOf s0 m p) {base : Option String} {strip : Bool} (us : List (Upd V))
    {t t' : Mgrs V} (hg : Good s0 T t) (hu : ∀ u ∈ us, Full T base strip u)
    (hd : (us.map (fun u => u.path)).Nodup) (hok : BM.updates base strip us t = (.ok (), t')) :
    Good s0 T t' ∧ (∀ u ∈ us, HoldsU s0 base strip t' u) ∧
    (∀ v, Full T base strip v → v.path ∉ us.map (fun u => u.path) → HoldsU s0 base strip t v →
      HoldsU s0 base strip t' v) ∧
    ∀ m q c, (∀ u ∈ us, ¬ Targets base strip u m q) → OwnAt t m q c → OwnAt t' m q c := by
  induction us generalizing t with
  | nil => cases hok; exact ⟨hg, by simp, fun _ _ _ h => h, fun _ _ _ _ h => h⟩
  | cons u us ih =>
    unfold BM.updates at hok
    rw [M.bind_run] at hok
    cases h1 : BM.update1 base strip u t with
    | mk r t1 =>
      rw [h1] at hok
      cases r with
      | error e => cases hok
      | ok a =>
        simp only [List.map_cons, List.nodup_cons] at hd
        obtain ⟨g1, hu1, o1, w1⟩ := update1_spec he hT hg (hu u List.mem_cons_self) h1
        obtain ⟨g2, hu2, o2, w2⟩ := ih g1 (fun v hv => hu v (List.mem_cons_of_mem _ hv)) hd.2 hok
        refine ⟨g2, ?_, ?_, fun m q c hn ho => w2 m q c (fun v hv => hn v (List.mem_cons_of_mem _ hv))
          (w1 m q c (hn u List.mem_cons_self) ho)⟩
        · intro v hv
          rcases List.mem_cons.1 hv with h | h
          · subst h; exact o2 v (hu v List.mem_cons_self) hd.1 hu1
          · exact hu2 v h
        · intro v hv hn hh
          simp only [List.map_cons, List.mem_cons, not_or] at hn
          exact o2 v hv hn.2 (o1 v hv hn.1 hh)

end

theorem lastDef_isSome {k : String} {ds : List (Dict String V)} :
    (∃ d ∈ ds, k ∈ d.keys) ↔ (CMM.lastDef k ds).isSome = true := by
  induction ds with
  | nil => simp [CMM.lastDef]
  | cons d ds ih =>
    rw [CMM.lastDef]
    simp only [List.mem_cons, exists_eq_or_imp, ih]
    rw [Dict.mem_keys_iff]
    cases CMM.lastDef k ds <;> simp

/-- The keys of a config with the keys of a settled one do not change in a lookup. -/
theorem active_keys_settled {s0 : Mgrs V} {m : String} {p : List String} {D : Dict String V}
    (hs : Settled s0 m p D) {c : Conf V} (hf : c.file = some (.item p)) {g : Mgr V} (hg : s0.get? m = some g)
    (ho : OwnFiles g.ms.rs.cm.view) (hk : ∀ k, k ∈ c.values.keys ↔ k ∈ D.keys) (k : String) :
    k ∈ (CMM.active g.ms.rs.cm.view p c).values.keys ↔ k ∈ D.keys := by
  obtain ⟨g', c0, hg', hi, ho0, ha, rfl⟩ := hs
  rw [hg] at hg'
  cases hg'
  constructor
  · intro h
    rw [Dict.mem_keys_iff, CMM.active_get? ho hi hf] at h
    by_cases he : c.values.items.isEmpty = true
    · rw [if_pos he] at h; cases h
    · rw [if_neg he] at h
      cases hl : CMM.lastDef k ((g.ms.rs.cm.view.levels p ++ [some g.ms.rs.cm.view.localConf]).map CMM.levelValues) with
      | none =>
        rw [hl, Option.none_or, ← Dict.mem_keys_iff] at h
        exact (hk k).1 h
      | some v =>
        have h0 := CMM.active_get? ho hi (ho.own hi.plain ho0) k
        rw [ha, hl] at h0
        have he0 : ¬ c0.values.items.isEmpty = true := by
          intro h1
          apply he
          rw [List.isEmpty_iff] at h1 ⊢
          cases hb : c.values.items with
          | nil => rfl
          | cons e es =>
            have : e.1 ∈ c.values.keys := by unfold Dict.keys; rw [hb]; simp
            rw [hk] at this
            unfold Dict.keys at this
            rw [h1] at this
            cases this
        rw [if_neg he0] at h0
        exact Dict.mem_keys_of_get? h0
  · intro h
    exact CMM.active_keys _ _ _ _ ((hk k).2 h)

theorem OwnAt.file {s0 t : Mgrs V} (h : MShape s0 t) {m : String} {p : List String} (hi : ItemOf s0 m p) {c : Conf V}
    (ho : OwnAt t m p c) : c.file = some (.item p) := by
  obtain ⟨g0, hg0, hi⟩ := hi
  obtain ⟨g, hg, _, hs⟩ := h m g0 hg0
  obtain ⟨g', hg', ho⟩ := ho
  rw [hg] at hg'
  cases hg'
  exact hs.files.own (by rw [show g.ms.rs.cm.view.rootName = g0.ms.rs.cm.rootName from hs.rest.2.2]; exact hi.plain) ho

/-- What happens to an own config in a lookup. -/
theorem OwnAt.calm {s0 t t' : Mgrs V} (h : MShape s0 t) (hc : MCalm t t') {m : String} {p : List String}
    (hi : ItemOf s0 m p) {c : Conf V} (ho : OwnAt t m p c) :
    OwnAt t' m p c ∨ OwnAt t' m p (actOf s0 m p c) := by
  obtain ⟨g0, hg0, hi⟩ := hi
  obtain ⟨g, hg, _, hs⟩ := h m g0 hg0
  obtain ⟨g1, hg1, ho⟩ := ho
  rw [hg] at hg1
  cases hg1
  obtain ⟨g', hg', hcalm⟩ := hc m g hg
  rcases hcalm.cm.own p (hs.isItem hi) with e | ⟨c', e, e'⟩
  · exact .inl ⟨g', hg', by rw [e, ho]⟩
  · rw [ho] at e
    cases e
    refine .inr ⟨g', hg', ?_⟩
    unfold actOf
    rw [hg0]
    simp only
    rw [e', hs.active hi]

theorem Good.calm {s0 : Mgrs V} {T : String → List String → Dict String V → Prop}
    (hT : ∀ m p D, T m p D → Settled s0 m p D) (hf0 : Filed s0)
    {t t' : Mgrs V} (hg : Good s0 T t) (hc : MCalm t t') (hf : Filed t') : Good s0 T t' := by
  refine ⟨hg.shape.trans hc.shape, hf, ?_, ?_⟩
  · intro m p D hTD
    obtain ⟨c, ho, hk⟩ := hg.keys m p D hTD
    have hset := hT m p D hTD
    have hset' := hset
    obtain ⟨g0, c0, hg0, hi0, _⟩ := hset'
    rcases OwnAt.calm hg.shape hc ⟨g0, hg0, hi0⟩ ho with h | h
    · exact ⟨c, h, hk⟩
    · refine ⟨_, h, ?_⟩
      unfold actOf
      rw [hg0]
      exact active_keys_settled hset (OwnAt.file hg.shape ⟨g0, hg0, hi0⟩ ho) hg0 (hf0 m g0 hg0) hk
  · intro m q hi hn
    rw [← hg.others m q hi hn]
    obtain ⟨g0, hg0, hi0⟩ := hi
    obtain ⟨g, hg', _, hs⟩ := hg.shape m g0 hg0
    obtain ⟨g1, hg1, hcalm⟩ := hc m g hg'
    unfold shownOf
    rw [hg', hg1]
    simp only [Option.map_some, Option.some.injEq]
    exact hcalm.cm.shownConf (hs.isItem hi0)

theorem HoldsU.calm {s0 : Mgrs V} (hf0 : Filed s0) {t t' : Mgrs V} (hg : MShape s0 t) (hc : MCalm t t')
    {base : Option String} {strip : Bool} {u : Upd V} (hi : ∀ m p, Targets base strip u m p → ItemOf s0 m p)
    (h : HoldsU s0 base strip t u) : HoldsU s0 base strip t' u := by
  intro m p ht
  obtain ⟨c, ho, hk⟩ := h m p ht
  rcases OwnAt.calm hg hc (hi m p ht) ho with h | h
  · exact ⟨c, h, hk⟩
  · refine ⟨_, h, ?_⟩
    intro k
    rw [← hk k]
    obtain ⟨g0, hg0, hi0⟩ := hi m p ht
    unfold actOf
    rw [hg0]
    simp only
    rw [CMM.active_idem (hf0 m g0 hg0) hi0 (OwnAt.file hg ⟨g0, hg0, hi0⟩ ho)]

/-! #### Cases -/

theorem dictEq_get? [BEq V] (he : EqIsSame V) {a b : Dict String V} (h : dictEq a b = true) (k : String) :
    a.get? k = b.get? k := by
  unfold dictEq at h
  rw [Bool.and_eq_true, List.all_eq_true] at h
  obtain ⟨hl, ha⟩ := h
  have hsub : ∀ k v, a.get? k = some v → b.get? k = some v := by
    intro k v hv
    have := ha (k, v) ((Dict.mem_items_iff a k v).2 hv)
    simp only at this
    cases hb : b.get? k with
    | none => rw [hb] at this; cases this
    | some w => rw [hb] at this; rw [he v w this]
  cases hk : a.get? k with
  | some v => rw [hsub k v hk]
  | none =>
    cases hb : b.get? k with
    | none => rfl
    | some w =>
      exfalso
      have hlen : a.keys.length = b.keys.length := by
        unfold Dict.keys
        rw [List.length_map, List.length_map]
        exact beq_iff_eq.1 hl
      have hss : ∀ x ∈ k :: a.keys, x ∈ b.keys := by
        intro x hx
        rcases List.mem_cons.1 hx with h | h
        · subst h; exact Dict.mem_keys_of_get? hb
        · obtain ⟨v, hv⟩ := Dict.get?_isSome_of_mem h
          exact Dict.mem_keys_of_get? (hsub x v hv)
      have hnd : (k :: a.keys).Nodup := by
        rw [List.nodup_cons]
        refine ⟨?_, a.nodup⟩
        intro h
        rw [Dict.mem_keys_iff, hk] at h
        cases h
      have := hnd.length_le_of_subset hss
      simp only [List.length_cons] at this
      omega

theorem eq_of_nodup_map {α β : Type} {f : α → β} {l : List α} (h : (l.map f).Nodup) {a b : α} (ha : a ∈ l)
    (hb : b ∈ l) (hf : f a = f b) : a = b := by
  induction l with
  | nil => cases ha
  | cons x l ih =>
    simp only [List.map_cons, List.nodup_cons] at h
    rcases List.mem_cons.1 ha with ha | ha <;> rcases List.mem_cons.1 hb with hb | hb
    · rw [ha, hb]
    · exact absurd (List.mem_map.2 ⟨b, hb, by rw [← hf, ha]⟩) h.1
    · exact absurd (List.mem_map.2 ⟨a, ha, by rw [hf, hb]⟩) h.1
    · exact ih h.2 ha hb

theorem fill_spec {r : IRunner V} {c filled : List (Upd V)} (h : r.fill c = .ok filled) :
    filled.map (fun u => u.path) = c.map (fun u => u.path) ∧
    (∀ u ∈ c, ∃ s D, u.path = some (.str s) ∧ r.defaults.get? (fullPath r.base s).pathStr = some D ∧
      IRunner.fillOne D u ∈ filled) ∧
    (∀ u' ∈ filled, ∃ u ∈ c, ∃ s D, u.path = some (.str s) ∧
      r.defaults.get? (fullPath r.base s).pathStr = some D ∧ u' = IRunner.fillOne D u) := by
  induction c generalizing filled with
  | nil => cases h; simp
  | cons u us ih =>
    unfold IRunner.fill at h
    cases hp : u.pathStr with
    | error e => rw [hp] at h; cases h
    | ok s =>
      rw [hp] at h
      have hpath : u.path = some (.str s) := by
        unfold Upd.pathStr at hp
        split at hp
        · cases hp
        · rename_i h1; cases hp; exact h1
        · cases hp
      simp only [bind, Except.bind] at h
      cases hd : r.defaults.get? (fullPath r.base s).pathStr with
      | none => rw [hd] at h; cases h
      | some D =>
        rw [hd] at h
        simp only at h
        cases hf : r.fill us with
        | error e => rw [hf] at h; cases h
        | ok rest =>
          rw [hf] at h
          simp only [pure, Except.pure, Except.ok.injEq] at h
          subst h
          obtain ⟨i1, i2, i3⟩ := ih hf
          refine ⟨?_, ?_, ?_⟩
          · simp only [List.map_cons, i1]
            rfl
          · intro v hv
            rcases List.mem_cons.1 hv with h | h
            · subst h; exact ⟨s, D, hpath, hd, List.mem_cons_self⟩
            · obtain ⟨s', D', e1, e2, e3⟩ := i2 v h
              exact ⟨s', D', e1, e2, List.mem_cons_of_mem _ e3⟩
          · intro v hv
            rcases List.mem_cons.1 hv with h | h
            · exact ⟨u, List.mem_cons_self, s, D, hpath, hd, h⟩
            · obtain ⟨w, hw, rest⟩ := i3 v h
              exact ⟨w, List.mem_cons_of_mem _ hw, rest⟩

theorem fullPaths_spec {base : Option String} {c : List (Upd V)} {sps : List SectionPath}
    (h : IRunner.fullPaths base c = .ok sps) :
    ∀ sp ∈ sps, ∃ u ∈ c, ∃ s, u.path = some (.str s) ∧ sp = fullPath base s := by
  induction c generalizing sps with
  | nil => cases h; simp
  | cons u us ih =>
    unfold IRunner.fullPaths at h
    cases hp : u.pathStr with
    | error e => rw [hp] at h; cases h
    | ok s =>
      rw [hp] at h
      have hpath : u.path = some (.str s) := by
        unfold Upd.pathStr at hp
        split at hp
        · cases hp
        · rename_i h1; cases hp; exact h1
        · cases hp
      simp only [bind, Except.bind] at h
      cases hf : IRunner.fullPaths base us with
      | error e => rw [hf] at h; cases h
      | ok rest =>
        rw [hf] at h
        simp only [pure, Except.pure, Except.ok.injEq] at h
        subst h
        intro sp hsp
        rcases List.mem_cons.1 hsp with h | h
        · exact ⟨u, List.mem_cons_self, s, hpath, h⟩
        · obtain ⟨w, hw, r⟩ := ih hf sp h
          exact ⟨w, List.mem_cons_of_mem _ hw, r⟩

theorem fullPath_sections {base : Option String} (hb : base ≠ some "") (strip : Bool) (s : String) :
    targetOf base strip (.str s) = some (fullPath base s).sections := by
  cases base with
  | none => rfl
  | some b =>
    unfold fullPath
    simp only
    rw [if_neg (by intro h; subst h; exact hb rfl), joinSP_sections]
    rfl

/-- The targets with their defaults. -/
def Tgt (r : IRunner V) (m : String) (p : List String) (D : Dict String V) : Prop :=
  ∃ s, targetOf r.base r.strip (.str s) = some (m :: p) ∧ r.defaults.get? (fullPath r.base s).pathStr = some D

theorem itemAt_itemOf {s : Mgrs V} {m : String} {p : List String} (h : ItemAt s m p) : ItemOf s m p := by
  obtain ⟨g, hg, hc⟩ := h
  exact ⟨g, hg, hc.isItem⟩

theorem activeAt_eq {s : Mgrs V} {m : String} {p : List String} (h : ItemOf s m p) :
    activeAt s m p = match shownOf s m p with
      | some (.ok c) => some c.values
      | _ => none := by
  obtain ⟨g, hg, hi⟩ := h
  unfold activeAt shownOf
  rw [hg]
  simp only [Option.map_some]
  rw [CMM.get_shownConf hi]
  cases g.ms.rs.cm.shownConf p <;> rfl

/-- The state of a new runner. -/
theorem new_spec {h : IterHooks V} {items : PathLike ⊕ List PathLike} {us : List (Upd V)}
    {base : Option String} {strip : Bool} (hb : base ≠ some "") {s0 s1 : Mgrs V} {r : IRunner V} (hf : Filed s0)
    (hnew : IRunner.new h items us base strip s0 = (.ok r, s1))
    (hc : ∀ c ∈ r.cases, PlainCase s0 base strip c) :
    r.base = base ∧ r.strip = strip ∧ MCalm s0 s1 ∧ Filed s1 ∧ ∀ m p D, Tgt r m p D → Settled s1 m p D ∧
      ∃ c ∈ r.cases, ∃ u ∈ c, Targets base strip u m p := by
  unfold IRunner.new at hnew
  rw [M.bind_run, M.liftE_run] at hnew
  cases hri : SectionPath.listFromAmbiguous items strip base with
  | error e => rw [hri] at hnew; cases hnew
  | ok ri =>
    rw [hri] at hnew
    simp only at hnew
    rw [M.bind_run, M.liftE_run] at hnew
    cases hcs : IRunner.getCases h us with
    | error e => rw [hcs] at hnew; cases hnew
    | ok cs =>
      rw [hcs] at hnew
      simp only at hnew
      rw [M.bind_run] at hnew
      cases hd : IRunner.getDefaults base cs s0 with
      | mk x t =>
        rw [hd] at hnew
        cases x with
        | error e => cases hnew
        | ok ds =>
          simp only at hnew
          cases hnew
          cases cs with
          | nil => cases hd
          | cons c cs =>
            unfold IRunner.getDefaults at hd
            simp only at hd
            rw [M.bind_run, M.liftE_run] at hd
            cases hfp : IRunner.fullPaths base c with
            | error e => rw [hfp] at hd; cases hd
            | ok sps =>
              rw [hfp] at hd
              simp only at hd
              have hplain := hc c List.mem_cons_self
              have hits : ∀ sp ∈ sps, ∃ m p, sp.sections = m :: p ∧ ItemOf s0 m p := by
                intro sp hsp
                obtain ⟨u, hu, s, e1, e2⟩ := fullPaths_spec hfp sp hsp
                obtain ⟨m, p, ⟨s', e3, e4⟩, e5⟩ := hplain.item u hu
                rw [e1] at e3
                cases e3
                rw [fullPath_sections hb] at e4
                refine ⟨m, p, ?_, itemAt_itemOf e5⟩
                rw [e2]
                exact Option.some.inj e4
              obtain ⟨i1, i2, i3⟩ := defaultsLoop_spec sps s0 hf hits _ _ _ hd
              refine ⟨rfl, rfl, i1, i2, ?_⟩
              rintro m p D ⟨s, e1, e2⟩
              rcases i3 _ _ e2 with h | ⟨sp, hsp, e3, m', p', e4, e5⟩
              · cases h
              · have : sp = fullPath base s := by
                  cases sp
                  exact congrArg SectionPath.mk e3
                subst this
                have e1' : targetOf base strip (.str s) = some (m :: p) := e1
                rw [fullPath_sections hb, e4] at e1'
                cases e1'
                obtain ⟨u, hu, s', e6, e7⟩ := fullPaths_spec hfp _ hsp
                refine ⟨e5, c, List.mem_cons_self, u, hu, s', e6, ?_⟩
                rw [fullPath_sections hb, ← e7, e4]

section
variable [BEq V]

/-- Between the cases. -/
structure Inv (s1 : Mgrs V) (r : IRunner V) (t : IState V) : Prop where
  good : Good s1 (Tgt r) t.mgrs
  last : ∀ l, t.last = some l → ∀ u ∈ l, Full (Tgt r) r.base r.strip u ∧ HoldsU s1 r.base r.strip t.mgrs u

omit [BEq V] in
theorem fillOne_get? {D : Dict String V} {u : Upd V} (hd : u.d = none) (h1 : "section_path_str" ∉ D.keys)
    (h2 : "pyfileconf_persist" ∉ D.keys) (k : String) :
    (IRunner.fillOne D u).kw.get? k = (u.kw.get? k).or (D.get? k) := by
  unfold IRunner.fillOne
  simp only
  rw [Dict.get?_update, Dict.get?_filterKeys, hd]
  have key : ∀ k, k = "section_path_str" ∨ k = "pyfileconf_persist" → D.get? k = none := by
    intro k hk
    cases hg : D.get? k with
    | none => rfl
    | some v =>
      have := Dict.mem_keys_of_get? hg
      rcases hk with rfl | rfl
      · exact absurd this h1
      · exact absurd this h2
  by_cases hin : (decide (k ∉ "section_path_str" ::
      ((if (none : Option (Dict String V)).isSome then ["d_"] else []) ++
        (if u.persist.isSome then ["pyfileconf_persist"] else [])))) = true
  · rw [if_pos hin]
  · rw [if_neg hin]
    refine congrArg _ (key k ?_).symm
    by_cases hk : k = "section_path_str"
    · exact .inl hk
    · right
      cases hp : u.persist with
      | none => rw [hp] at hin; simp [hk] at hin
      | some b => rw [hp] at hin; simpa [hk] using hin

omit [BEq V] in
theorem fillOne_full {s0 s1 : Mgrs V} {r : IRunner V} (hcalm : MCalm s0 s1)
    (hset : ∀ m p D, Tgt r m p D → Settled s1 m p D) {c : List (Upd V)}
    (hc : PlainCase s0 r.base r.strip c) {u : Upd V} (hu : u ∈ c) {s : String} {D : Dict String V}
    (hp : u.path = some (.str s)) (hd : r.defaults.get? (fullPath r.base s).pathStr = some D) :
    Full (Tgt r) r.base r.strip (IRunner.fillOne D u) ∧ "section_path_str" ∉ D.keys ∧
    "pyfileconf_persist" ∉ D.keys ∧ (∀ k ∈ u.kw.keys, k ∈ D.keys) ∧
    ∀ m p, Targets r.base r.strip u m p → ItemOf s0 m p ∧ activeAt s0 m p = some D ∧ Settled s1 m p D := by
  obtain ⟨m, p, ht, hi⟩ := hc.item u hu
  have htgt : Tgt r m p D := by
    obtain ⟨s', e1, e2⟩ := ht
    rw [hp] at e1
    cases e1
    exact ⟨s, e2, hd⟩
  have hs := hset m p D htgt
  have hio := itemAt_itemOf hi
  have hact : activeAt s0 m p = some D := by
    rw [activeAt_eq hio]
    obtain ⟨g0, hg0, hi0⟩ := hio
    obtain ⟨g1, hg1, hcm⟩ := hcalm m g0 hg0
    obtain ⟨g, c', hg, _, ho, ha, hv⟩ := hs
    rw [hg1] at hg
    cases hg
    unfold shownOf
    rw [hg0]
    simp only [Option.map_some]
    rw [← hcm.cm.shownConf hi0]
    unfold CM.shownConf
    rw [ho]
    simp only [Except.map]
    rw [ha, hv]
  obtain ⟨k1, k2, k3⟩ := hc.known u hu m p D ht hact
  have hget := fillOne_get? (hc.keywords u hu) k2 k3
  refine ⟨⟨hc.keywords u hu, m, p, D, htgt, ?_, ?_, k2, k3⟩, k2, k3, k1, ?_⟩
  · obtain ⟨s', e1, e2⟩ := ht
    exact ⟨s', e1, e2⟩
  · intro k
    rw [Dict.mem_keys_iff, hget k, Dict.mem_keys_iff]
    cases hk : u.kw.get? k with
    | none => rfl
    | some v =>
      have := k1 k (Dict.mem_keys_of_get? hk)
      rw [Dict.mem_keys_iff] at this
      simp [this]
  · intro m' p' ht'
    obtain ⟨rfl, rfl⟩ := Targets.unique ht' ht
    exact ⟨hio, hact, hs⟩

theorem eq_holds (he : EqIsSame V) {s0 : Mgrs V} {base : Option String} {strip : Bool} {t : Mgrs V} {u v : Upd V}
    (h : u.eq v = true) (hi : ∀ m p, Targets base strip u m p → ItemOf s0 m p) (hf : Filed s0)
    (hv : HoldsU s0 base strip t v) : HoldsU s0 base strip t u := by
  unfold Upd.eq at h
  simp only [Bool.and_eq_true, decide_eq_true_eq] at h
  obtain ⟨⟨⟨h1, -⟩, h2⟩, -⟩ := h
  intro m p ht
  have ht' : Targets base strip v m p := by
    obtain ⟨s, e1, e2⟩ := ht
    exact ⟨s, by rw [← h1]; exact e1, e2⟩
  obtain ⟨c, ho, hk⟩ := hv m p ht'
  refine ⟨c, ho, ?_⟩
  intro k
  rw [hk k]
  obtain ⟨g, hg, hi⟩ := hi m p ht
  unfold actOf
  rw [hg]
  simp only
  exact CMM.active_values_congr (hf m g hg) hi rfl rfl (fun k => (dictEq_get? he h2 k).symm) k

theorem applyCase_spec (he : EqIsSame V) {s0 s1 : Mgrs V} {r : IRunner V} (hcalm : MCalm s0 s1) (hf1 : Filed s1)
    (hset : ∀ m p D, Tgt r m p D → Settled s1 m p D) {h : IterHooks V} (hh : h.preBatch = fun _ => [])
    {c : List (Upd V)} (hc : PlainCase s0 r.base r.strip c) {t t' : IState V} {filled : List (Upd V)}
    (hinv : Inv s1 r t) (hok : r.applyCase h c t = (.ok filled, t')) :
    r.fill c = .ok filled ∧ t'.last = t.last ∧ Good s1 (Tgt r) t'.mgrs ∧
    (∀ u ∈ filled, Full (Tgt r) r.base r.strip u ∧ HoldsU s1 r.base r.strip t'.mgrs u) ∧
    (∀ m q c, (∀ u ∈ filled, ¬ Targets r.base r.strip u m q) → OwnAt t.mgrs m q c → OwnAt t'.mgrs m q c) ∧
    (filled.map (fun u => u.path)).Nodup ∧
    BM.updates r.base r.strip (IRunner.changed t.last filled) t.mgrs = (.ok (), t'.mgrs) := by
  have hitem : ∀ m p D, Tgt r m p D → ItemOf s1 m p := by
    intro m p D hT
    obtain ⟨g, _, hg, hi, _⟩ := hset m p D hT
    exact ⟨g, hg, hi⟩
  unfold IRunner.applyCase at hok
  rw [M.bind_run, M.liftE_run] at hok
  cases hf : r.fill c with
  | error e => rw [hf] at hok; cases hok
  | ok fl =>
    rw [hf] at hok
    simp only at hok
    obtain ⟨f1, f2, f3⟩ := fill_spec hf
    have hfull : ∀ u ∈ fl, Full (Tgt r) r.base r.strip u := by
      intro u' hu'
      obtain ⟨u, hu, s, D, e1, e2, rfl⟩ := f3 u' hu'
      exact (fillOne_full hcalm hset hc hu e1 e2).1
    have hti : ∀ u ∈ fl, ∀ m p, Targets r.base r.strip u m p → ItemOf s1 m p := by
      intro u hu m p ht
      obtain ⟨m', p', D, hT, ht', _⟩ := (hfull u hu).target
      obtain ⟨rfl, rfl⟩ := Targets.unique ht ht'
      exact hitem _ _ D hT
    rw [M.bind_run] at hok
    unfold IRunner.updateForCase at hok
    rw [M.bind_ok (M.get_run t)] at hok
    unfold IRunner.liftB BM.update at hok
    rw [hh, List.nil_append] at hok
    cases hu : BM.updates r.base r.strip (IRunner.changed t.last fl) t.mgrs with
    | mk x t1 =>
      rw [hu] at hok
      cases x with
      | error e => cases hok
      | ok a =>
        injection hok with hok1 hok2
        injection hok1 with hok1
        subst hok1
        subst hok2
        have hnd : (fl.map (fun u => u.path)).Nodup := by rw [f1]; exact hc.distinct
        have hsub : ∀ u ∈ IRunner.changed t.last fl, u ∈ fl := by
          intro u hu
          unfold IRunner.changed at hu
          split at hu
          · exact hu
          · exact (List.mem_filter.1 hu).1
        have hnd' : ((IRunner.changed t.last fl).map (fun u => u.path)).Nodup := by
          unfold IRunner.changed
          split
          · exact hnd
          · exact hnd.sublist (List.filter_sublist.map _)
        obtain ⟨g, hh1, hh2, hh3⟩ := updates_spec he hitem _ hinv.good (fun u hu => hfull u (hsub u hu)) hnd' hu
        refine ⟨rfl, rfl, g, ?_, fun m q c hn ho => hh3 m q c (fun u hu => hn u (hsub u hu)) ho, hnd, hu⟩
        intro u hu'
        refine ⟨hfull u hu', ?_⟩
        by_cases hch : u ∈ IRunner.changed t.last fl
        · exact hh1 u hch
        · apply hh2 u (hfull u hu')
          · intro hmem
            obtain ⟨w, hw, hwp⟩ := List.mem_map.1 hmem
            have : w = u := eq_of_nodup_map hnd (hsub w hw) hu' hwp
            subst this
            exact hch hw
          · cases hl : t.last with
            | none =>
              rw [hl] at hch
              exact absurd hu' hch
            | some l =>
              rw [hl] at hch
              unfold IRunner.changed at hch
              simp only [List.mem_filter, hu', true_and, Bool.not_eq_true', Bool.not_eq_false] at hch
              rw [List.any_eq_true] at hch
              obtain ⟨v, hv, hev⟩ := hch
              exact eq_holds he hev (hti u hu') hf1 (hinv.last l hl v hv).2

theorem runCase_spec (he : EqIsSame V) {s0 s1 : Mgrs V} {r : IRunner V} (hcalm : MCalm s0 s1) (hf1 : Filed s1)
    (hset : ∀ m p D, Tgt r m p D → Settled s1 m p D) {h : IterHooks V} (hh : h.preBatch = fun _ => [])
    (hr : h.run = RunHooks.none) (hruns : Runs s1 r.runItems)
    {c : List (Upd V)} (hc : PlainCase s0 r.base r.strip c) {t t' : IState V} {res : IRes V}
    (hinv : Inv s1 r t) (hok : r.runCase h c t = (.ok res, t')) : Inv s1 r t' := by
  unfold IRunner.runCase at hok
  rw [M.bind_run] at hok
  cases ha : r.applyCase h c t with
  | mk x t1 =>
    rw [ha] at hok
    cases x with
    | error e => cases hok
    | ok filled =>
      simp only at hok
      obtain ⟨-, -, a3, a4, -, -, -⟩ := applyCase_spec he hcalm hf1 hset hh hc hinv ha
      rw [M.bind_run] at hok
      unfold IRunner.liftB at hok
      have hrc := runOnce_calm hr r t1.mgrs a3.filed (Runs.shape a3.shape hruns)
      cases hro : r.runOnce h t1.mgrs with
      | mk y t2 =>
        rw [hro] at hok hrc
        cases y with
        | error e => cases hok
        | ok v =>
          simp only at hok
          rw [M.bind_ok (M.modify_run _ _)] at hok
          cases hok
          refine ⟨a3.calm hset hf1 hrc.1 hrc.2, ?_⟩
          intro l hl u hu
          cases hl
          refine ⟨(a4 u hu).1, ?_⟩
          refine HoldsU.calm hf1 a3.shape hrc.1 ?_ (a4 u hu).2
          intro m p ht
          obtain ⟨m', p', D, hT, ht', _⟩ := (a4 u hu).1.target
          obtain ⟨rfl, rfl⟩ := Targets.unique ht ht'
          obtain ⟨g, _, hg, hi, _⟩ := hset _ _ D hT
          exact ⟨g, hg, hi⟩

theorem run_spec (he : EqIsSame V) {s0 s1 : Mgrs V} {r : IRunner V} (hcalm : MCalm s0 s1) (hf1 : Filed s1)
    (hset : ∀ m p D, Tgt r m p D → Settled s1 m p D) {h : IterHooks V} (hh : h.preBatch = fun _ => [])
    (hr : h.run = RunHooks.none) (hruns : Runs s1 r.runItems) {shouldRun : List (Upd V) → Bool} {collect : Bool}
    (cs : List (List (Upd V))) (hc : ∀ c ∈ cs, PlainCase s0 r.base r.strip c) {t t' : IState V}
    {res : List (List (Upd V) × IRes V)} (hinv : Inv s1 r t)
    (hok : r.run h shouldRun collect cs t = (.ok res, t')) : Inv s1 r t' := by
  induction cs generalizing t res with
  | nil => cases hok; exact hinv
  | cons c cs ih =>
    unfold IRunner.run at hok
    split at hok
    · exact ih (fun c hc' => hc c (List.mem_cons_of_mem _ hc')) hinv hok
    · rw [M.bind_run] at hok
      cases h1 : r.runCase h c t with
      | mk x t1 =>
        rw [h1] at hok
        cases x with
        | error e => cases hok
        | ok v =>
          simp only at hok
          have hinv' := runCase_spec he hcalm hf1 hset hh hr hruns (hc c List.mem_cons_self) hinv h1
          rw [M.bind_run] at hok
          cases h2 : r.run h shouldRun collect cs t1 with
          | mk y t2 =>
            rw [h2] at hok
            cases y with
            | error e => cases hok
            | ok w =>
              cases hok
              exact ih (fun c hc' => hc c (List.mem_cons_of_mem _ hc')) hinv' h2

end
end Iter

/-! ### Theorems -/

/-- Around an item: what a lookup adds. -/
theorem definedAround_iff {s : Mgrs V} {m : String} {p : List String} {g : Mgr V} (hg : s.get? m = some g) (k : String) :
    DefinedAround s m p k ↔ (CMM.lastDef k ((g.ms.rs.cm.view.levels p ++ [some g.ms.rs.cm.view.localConf]).map
      CMM.levelValues)).isSome = true := by
  rw [← Iter.lastDef_isSome]
  unfold DefinedAround
  constructor
  · rintro ⟨g', hg', h⟩
    rw [hg] at hg'
    cases hg'
    rw [enclosingValues_eq] at h
    rcases h with h | ⟨d, hd, hk⟩
    · exact ⟨g.ms.rs.cm.localConf.values, by rw [List.map_append]; simp [CMM.levelValues, CM.view], h⟩
    · exact ⟨d, by rw [List.map_append, List.mem_append]; exact .inl hd, hk⟩
  · rintro ⟨d, hd, hk⟩
    refine ⟨g, hg, ?_⟩
    rw [enclosingValues_eq]
    rw [List.map_append, List.mem_append] at hd
    rcases hd with hd | hd
    · exact .inr ⟨d, hd, hk⟩
    · simp only [List.map_cons, List.map_nil, List.mem_singleton] at hd
      subst hd
      exact .inl hk

section
variable [BEq V]

theorem PlainRunner.facts {h : IterHooks V} {s0 s1 : Mgrs V} {r : IRunner V} (hr : PlainRunner h s0 s1 r) :
    Iter.Filed s0 ∧ Iter.MCalm s0 s1 ∧ Iter.Filed s1 ∧
    (∀ m p D, Iter.Tgt r m p D → Iter.Settled s1 m p D ∧
      ∃ c ∈ r.cases, ∃ u ∈ c, Targets r.base r.strip u m p) ∧ Iter.Runs s1 r.runItems := by
  have hf0 : Iter.Filed s0 := fun m g hg => (hr.reachable m g hg).cm.good.ownFiles
  obtain ⟨items, us, hnew⟩ := hr.created
  obtain ⟨-, -, hcalm, hf1, hset⟩ := Iter.new_spec hr.base hf0 hnew hr.cases
  refine ⟨hf0, hcalm, hf1, hset, ?_⟩
  apply Iter.Runs.shape hcalm.shape
  intro sp hsp
  obtain ⟨m, p, g, h1, h2, h3⟩ := hr.runs sp hsp
  rcases h3 with ⟨h3, h4⟩ | ⟨hne, h3, h4⟩
  · exact ⟨m, p, g, h1, h2, h3.ne, .inl ⟨h3.isItem, h4⟩⟩
  · refine ⟨m, p, g, h1, h2, hne, .inr ⟨h3, fun q b items hl x k hk => ?_⟩⟩
    obtain ⟨a1, a2⟩ := h4 q b items hl x k hk
    exact ⟨a1, a2.isItem⟩

theorem PlainRunner.inv (he : EqIsSame V) {h : IterHooks V} {s0 s1 : Mgrs V} {r : IRunner V}
    (hr : PlainRunner h s0 s1 r) {shouldRun : List (Upd V) → Bool} {collect : Bool} (before : List (List (Upd V)))
    (hbefore : ∀ c ∈ before, c ∈ r.cases) {results : List (List (Upd V) × IRes V)} {t : IState V}
    (hran : r.run h shouldRun collect before ⟨s1, none⟩ = (.ok results, t)) : Iter.Inv s1 r t := by
  obtain ⟨hf0, hcalm, hf1, hset', hruns⟩ := hr.facts
  have hset := fun m p D hT => (hset' m p D hT).1
  have hinv0 : Iter.Inv s1 r ⟨s1, none⟩ := by
    refine ⟨⟨.refl hf1, hf1, ?_, fun _ _ _ _ => rfl⟩, fun l hl => by cases hl⟩
    intro m p D hT
    obtain ⟨g, c, hg, _, ho, _, hv⟩ := hset m p D hT
    exact ⟨c, ⟨g, hg, ho⟩, by rw [hv]; exact fun k => Iff.rfl⟩
  exact Iter.run_spec he hcalm hf1 hset hr.preBatch hr.plugins hruns before (fun c hc => hr.cases c (hbefore c hc))
    hinv0 hran

/-- What a case gives in a state in which the last case still holds. -/
theorem PlainRunner.case (he : EqIsSame V) {h : IterHooks V} {s0 s1 : Mgrs V} {r : IRunner V}
    (hr : PlainRunner h s0 s1 r) {t : IState V} (hinv : Iter.Inv s1 r t)
    (c : List (Upd V)) (hc : c ∈ r.cases) (filled : List (Upd V)) (t' : IState V)
    (happ : r.applyCase h c t = (.ok filled, t')) :
    (∀ u ∈ c, ∀ m p, Targets r.base r.strip u m p → ∃ d d', activeAt s0 m p = some d ∧
      activeAt t'.mgrs m p = some d' ∧ ∀ k, ¬ (k ∈ u.kw.keys ∧ DefinedAround s0 m p k) →
        d'.get? k = (u.kw.get? k).or (d.get? k)) ∧
    (∀ m q, ItemAt s0 m q → (∀ c ∈ r.cases, ∀ u ∈ c, ¬ Targets r.base r.strip u m q) →
      activeAt t'.mgrs m q = activeAt s0 m q) := by
  obtain ⟨hf0, hcalm, hf1, hset', hruns⟩ := hr.facts
  have hset := fun m p D hT => (hset' m p D hT).1
  have hcases := hr.cases
  obtain ⟨a1, -, a3, a4, -, -, -⟩ := Iter.applyCase_spec he hcalm hf1 hset hr.preBatch (hcases c hc) hinv happ
  obtain ⟨-, f2, -⟩ := Iter.fill_spec a1
  refine ⟨?_, ?_⟩
  · intro u hu m p ht
    obtain ⟨s, D, e1, e2, e3⟩ := f2 u hu
    obtain ⟨-, k2, k3, k1, hall⟩ := Iter.fillOne_full hcalm hset (hcases c hc) hu e1 e2
    obtain ⟨hi0, hact, hs⟩ := hall m p ht
    have hget := Iter.fillOne_get? ((hcases c hc).keywords u hu) k2 k3
    obtain ⟨c1, ho1, hval⟩ := (a4 _ e3).2 m p (by
      obtain ⟨s', e4, e5⟩ := ht
      exact ⟨s', e4, e5⟩)
    obtain ⟨g0, hg0, hig0⟩ := hi0
    obtain ⟨g1, hg1, hc1⟩ := hcalm m g0 hg0
    have hi1 := hc1.cm.toShape.isItem hig0
    obtain ⟨g2, hg2, _, hsh⟩ := a3.shape m g1 hg1
    obtain ⟨g3, hg3, ho3⟩ := ho1
    rw [hg2] at hg3
    cases hg3
    refine ⟨D, (CMM.active g1.ms.rs.cm.view p c1).values, hact, ?_, ?_⟩
    · rw [Iter.activeAt_eq (Iter.MShape.itemOf a3.shape ⟨g1, hg1, hi1⟩)]
      unfold Iter.shownOf
      rw [hg2]
      simp only [Option.map_some]
      unfold CM.shownConf
      rw [ho3]
      simp only [Except.map]
      rw [hsh.active hi1]
    · intro k hk
      have hv := hval k
      unfold Iter.actOf at hv
      rw [hg1] at hv
      simp only at hv
      rw [hv]
      have hlev : g1.ms.rs.cm.view.levels p = g0.ms.rs.cm.view.levels p := hc1.cm.toShape.levels hig0
      have hloc : g1.ms.rs.cm.view.localConf = g0.ms.rs.cm.view.localConf := hc1.cm.rest.2.1
      have hdef := definedAround_iff (p := p) hg0 k
      obtain ⟨g1', cD, hg1', _, hoD, haD, hvD⟩ := hs
      rw [hg1] at hg1'
      cases hg1'
      have hD := CMM.active_get? hc1.cm.files hi1 (hc1.cm.files.own hi1.plain hoD) k
      rw [haD, hvD] at hD
      rw [CMM.active_get? hc1.cm.files hi1 rfl]
      rw [hlev, hloc] at hD ⊢
      simp only
      by_cases hem : D.items.isEmpty = true
      · -- no keys at all
        rw [if_pos hem] at hD
        have hnone : ∀ k, D.get? k = none := by
          intro k
          rw [List.isEmpty_iff] at hem
          show AList.get? D.items k = none
          rw [hem]
          rfl
        have hkw : ∀ k, u.kw.get? k = none := by
          intro k
          cases hh : u.kw.get? k with
          | none => rfl
          | some v =>
            obtain ⟨w, hw⟩ := Dict.get?_isSome_of_mem (k1 k (Dict.mem_keys_of_get? hh))
            rw [hnone] at hw
            cases hw
        have : (IRunner.fillOne D u).kw.items.isEmpty = true := by
          rw [Dict.isEmpty_congr (b := Dict.empty) (fun k => by rw [hget k, hnone, hkw]; rfl)]
          rfl
        rw [if_pos this, hkw, hnone]
        rfl
      · have hne : ¬ (IRunner.fillOne D u).kw.items.isEmpty = true := by
          intro hh
          apply hem
          rw [List.isEmpty_iff] at hh ⊢
          cases hit : D.items with
          | nil => rfl
          | cons e es =>
            have h1 : D.get? e.1 = some e.2 := (Dict.mem_items_iff D e.1 e.2).1 (by rw [hit]; exact List.mem_cons_self)
            have h2 := hget e.1
            rw [h1] at h2
            rw [show (IRunner.fillOne D u).kw.get? e.1 = AList.get? (IRunner.fillOne D u).kw.items e.1 from rfl, hh] at h2
            cases hq : u.kw.get? e.1 with
            | none => rw [hq] at h2; cases h2
            | some v => rw [hq] at h2; cases h2
        rw [if_neg hem] at hD
        rw [if_neg hne, hget k]
        cases hl : CMM.lastDef k ((g0.ms.rs.cm.view.levels p ++ [some g0.ms.rs.cm.view.localConf]).map
            CMM.levelValues) with
        | none => rfl
        | some v =>
          rw [hl] at hD hdef
          have hku : u.kw.get? k = none := by
            cases hh : u.kw.get? k with
            | none => rfl
            | some w => exact absurd ⟨Dict.mem_keys_of_get? hh, hdef.2 rfl⟩ hk
          rw [hku, hD]
          rfl
  · intro m q hi hn
    have hio := Iter.itemAt_itemOf hi
    have hi1 := Iter.MShape.itemOf hcalm.shape hio
    have hnT : ∀ D, ¬ Iter.Tgt r m q D := by
      intro D hT
      obtain ⟨-, c, hc, u, hu, ht⟩ := hset' m q D hT
      exact hn c hc u hu ht
    have h1 := a3.others m q hi1 hnT
    rw [Iter.activeAt_eq (Iter.MShape.itemOf a3.shape hi1), h1, Iter.activeAt_eq hio]
    obtain ⟨g0, hg0, hig0⟩ := hio
    obtain ⟨g1, hg1, hc1⟩ := hcalm m g0 hg0
    unfold Iter.shownOf
    rw [hg0, hg1]
    simp only [Option.map_some]
    rw [hc1.cm.shownConf hig0]

/-- C32 (missing: cases given by `d_` or with keys the config does not have, values of keys that a
section around the item or the local config defines, and run items that are sections with classes,
whose runs fail; see the witnesses below).  Whatever cases were run before, when a case has been applied, the active
configuration of each item of the case gives every key the value named in the case, or else the
value it had when the runner was created; and every other item has the active configuration it
had then. -/
theorem C32_case_partial (he : EqIsSame V) (h : IterHooks V) (s0 s1 : Mgrs V) (r : IRunner V)
    (hr : PlainRunner h s0 s1 r) (shouldRun : List (Upd V) → Bool) (collect : Bool)
    (before : List (List (Upd V))) (hbefore : ∀ c ∈ before, c ∈ r.cases)
    (results : List (List (Upd V) × IRes V)) (t : IState V)
    (hran : r.run h shouldRun collect before ⟨s1, none⟩ = (.ok results, t))
    (c : List (Upd V)) (hc : c ∈ r.cases) (filled : List (Upd V)) (t' : IState V)
    (happ : r.applyCase h c t = (.ok filled, t')) :
    (∀ u ∈ c, ∀ m p, Targets r.base r.strip u m p → ∃ d d', activeAt s0 m p = some d ∧
      activeAt t'.mgrs m p = some d' ∧ ∀ k, ¬ (k ∈ u.kw.keys ∧ DefinedAround s0 m p k) →
        d'.get? k = (u.kw.get? k).or (d.get? k)) ∧
    (∀ m q, ItemAt s0 m q → (∀ c ∈ r.cases, ∀ u ∈ c, ¬ Targets r.base r.strip u m q) →
      activeAt t'.mgrs m q = activeAt s0 m q) :=
  hr.case he (hr.inv he before hbefore hran) c hc filled t' happ

/-! ## C33 -/

namespace Iter

/-- The same managers up to loading. -/
def MSame (s t : Mgrs V) : Prop :=
  (∀ m g, s.get? m = some g → ∃ g', t.get? m = some g' ∧ g'.settings = g.settings ∧ g'.ms.log = g.ms.log ∧
    RS.Same g.ms.rs g'.ms.rs) ∧ ∀ m, s.get? m = none → t.get? m = none

omit [BEq V] in
theorem MSame.refl (s : Mgrs V) : MSame s s := ⟨fun _ g hg => ⟨g, hg, rfl, rfl, .refl _⟩, fun _ h => h⟩

omit [BEq V] in
theorem MSame.isItem {s t : RS V} (h : RS.Same s t) {p : List String} (hp : IsItem s.cm p) : IsItem t.cm p :=
  ⟨hp.ne, by rw [show t.cm.rootName = s.cm.rootName from h.view.rest.2.2]; exact hp.plain,
    by rw [h.view.items p]; exact hp.item⟩

theorem update1_run {base : Option String} {strip : Bool} {u : Upd V} {m : String} {p : List String}
    (ht : Targets base strip u m p) (hp : p ≠ []) {s : Mgrs V} {g : Mgr V} (hg : s.get? m = some g)
    (h1 : "self" ∉ u.kw.keys) (h2 : "d_" ∉ u.kw.keys) :
    BM.update1 base strip u s =
      ((RM.update u.d (some p) (u.persist.getD true) (valuesOf u) g.ms.rs).1,
        s.set m { g with ms := { g.ms with
          rs := (RM.update u.d (some p) (u.persist.getD true) (valuesOf u) g.ms.rs).2 } }) := by
  obtain ⟨str, e1, e2⟩ := ht
  unfold BM.update1
  rw [M.bind_run, M.liftE_run]
  unfold BM.sectionPath
  rw [e1]
  simp only
  have hst := sectionPath_target base strip (.str str)
  rw [e2] at hst
  obtain ⟨sp, e3, e4⟩ := hst
  rw [e3]
  simp only
  rw [onManager_run e4 hg, relative_eq e4 hp]
  have hb : BM.updateOn p u g.ms = ((RM.update u.d (some p) (u.persist.getD true) (valuesOf u) g.ms.rs).1,
      { g.ms with rs := (RM.update u.d (some p) (u.persist.getD true) (valuesOf u) g.ms.rs).2 }) := by
    unfold BM.updateOn
    rw [if_neg (by rw [Dict.contains_iff, Dict.contains_iff]; exact fun h => h.elim h1 h2)]
    have : u.kw.filterKeys (fun k => decide (k ∉ ["section_path_str", "pyfileconf_persist"])) = valuesOf u := by
      unfold valuesOf
      refine congrArg (fun f => Dict.filterKeys u.kw f) (funext fun k => ?_)
      simp
    simp only [this]
    cases u.persist <;> rfl
  rw [hb]

theorem update1_ok_keys {base : Option String} {strip : Bool} {u : Upd V} {s t : Mgrs V}
    (h : BM.update1 base strip u s = (.ok (), t)) : "self" ∉ u.kw.keys ∧ "d_" ∉ u.kw.keys := by
  have happ := applied_update1 base strip u s
  rw [h] at happ
  simp only at happ
  generalize hres : (Except.ok () : Except PyErr Unit) = res at happ
  cases happ with
  | noPath h => cases hres
  | notPath x h1 h2 => cases hres
  | noManager x m' p' h1 h2 h3 => cases hres
  | badKeyword x m' p' g _ h1 h2 h3 h4 h5 => cases hres
  | update x m' p' g _ h1 h2 h3 h4 h5 h6 h7 => exact ⟨h4, h5⟩

omit [BEq V] in
theorem MSame.set {s t : Mgrs V} (h : MSame s t) (m : String) {a b : Mgr V} (h1 : b.settings = a.settings)
    (h2 : b.ms.log = a.ms.log) (h3 : RS.Same a.ms.rs b.ms.rs) : MSame (s.set m a) (t.set m b) := by
  refine ⟨?_, ?_⟩
  · intro m' g hg
    rw [Dict.get?_set] at hg ⊢
    split at hg
    · rename_i hm; rw [if_pos hm]; cases hg; exact ⟨b, rfl, h1, h2, h3⟩
    · rename_i hm; rw [if_neg hm]; exact h.1 m' g hg
  · intro m' hg
    rw [Dict.get?_set] at hg ⊢
    split at hg
    · cases hg
    · rename_i hm; rw [if_neg hm]; exact h.2 m' hg

omit [BEq V] in
theorem active_nothing {s : CM V} (ho : OwnFiles s.view) {p : List String} (hp : IsItem s p) {c : Conf V}
    (hc : c.file = some (.item p))
    (hn : ∀ k, CMM.lastDef k ((s.view.levels p ++ [some s.view.localConf]).map CMM.levelValues) = none) :
    ∀ k, (CMM.active s.view p c).values.get? k = c.values.get? k := by
  intro k
  rw [CMM.active_get? ho hp hc, hn k]
  split
  · rename_i h
    rw [List.isEmpty_iff] at h
    show none = AList.get? c.values.items k
    rw [h]
    rfl
  · rfl

/-- Leaving out updates that hold already. -/
theorem updates_skip (he : EqIsSame V) (her : ∀ a : V, (a == a) = true) {s0 : Mgrs V} (hf0 : Filed s0)
    {T : String → List String → Dict String V → Prop} (hT : ∀ m p D, T m p D → ItemOf s0 m p)
    {base : Option String} {strip : Bool}
    (hnone : ∀ m p D g, T m p D → s0.get? m = some g → ∀ k, CMM.lastDef k
      ((g.ms.rs.cm.view.levels p ++ [some g.ms.rs.cm.view.localConf]).map CMM.levelValues) = none)
    (keep : Upd V → Bool) (us : List (Upd V)) (hd : (us.map (fun u => u.path)).Nodup)
    (hu : ∀ u ∈ us, Full T base strip u) {t1 t2 : Mgrs V} (hg : Good s0 T t1) (hsame : MSame t1 t2)
    (hheld : ∀ u ∈ us, keep u = false → HoldsU s0 base strip t1 u) {t1' : Mgrs V}
    (hok : BM.updates base strip us t1 = (.ok (), t1')) :
    ∃ t2', BM.updates base strip (us.filter keep) t2 = (.ok (), t2') ∧ MSame t1' t2' := by
  induction us generalizing t1 t2 with
  | nil => cases hok; exact ⟨t2, rfl, hsame⟩
  | cons u us ih =>
    unfold BM.updates at hok
    rw [M.bind_run] at hok
    cases h1 : BM.update1 base strip u t1 with
    | mk x ta =>
      rw [h1] at hok
      cases x with
      | error e => cases hok
      | ok a =>
        simp only [List.map_cons, List.nodup_cons] at hd
        obtain ⟨g1, hu1, o1, -⟩ := update1_spec he hT hg (hu u List.mem_cons_self) h1
        have hheld' : ∀ v ∈ us, keep v = false → HoldsU s0 base strip ta v := by
          intro v hv hk
          refine o1 v (hu v (List.mem_cons_of_mem _ hv)) ?_ (hheld v (List.mem_cons_of_mem _ hv) hk)
          intro hp
          exact hd.1 (List.mem_map.2 ⟨v, hv, hp⟩)
        have hkeys := update1_ok_keys h1
        obtain ⟨m, p, D, hTD, htgt, hkw, hr1, hr2⟩ := (hu u List.mem_cons_self).target
        obtain ⟨g0, hg0, hi0⟩ := hT m p D hTD
        obtain ⟨ga, hga, _, hsh⟩ := hg.shape m g0 hg0
        have hi := hsh.isItem hi0
        have hrun := update1_run htgt hi0.ne hga hkeys.1 hkeys.2
        rw [(hu u List.mem_cons_self).noDict] at hrun
        rw [h1] at hrun
        injection hrun with e1 e2
        by_cases hk : keep u = true
        · rw [List.filter_cons, if_pos hk]
          obtain ⟨gb, hgb, b1, b2, b3⟩ := hsame.1 m ga hga
          have hrun' := update1_run htgt hi0.ne hgb hkeys.1 hkeys.2
          rw [(hu u List.mem_cons_self).noDict] at hrun'
          obtain ⟨c1, c2⟩ := RM.update_same b3 hi (MSame.isItem b3 hi) none (u.persist.getD true) (valuesOf u)
          rw [c1, ← e1] at hrun'
          have hs' : MSame ta (t2.set m { gb with ms := { gb.ms with
              rs := (RM.update none (some p) (u.persist.getD true) (valuesOf u) gb.ms.rs).2 } }) := by
            rw [e2]
            exact hsame.set m b1 b2 c2
          obtain ⟨t2', k1, k2⟩ := ih hd.2 (fun v hv => hu v (List.mem_cons_of_mem _ hv)) g1 hs' hheld' hok
          refine ⟨t2', ?_, k2⟩
          unfold BM.updates
          rw [M.bind_ok hrun']
          exact k1
        · rw [List.filter_cons, if_neg hk]
          refine ih hd.2 (fun v hv => hu v (List.mem_cons_of_mem _ hv)) g1 ?_ hheld' hok
          -- the update changed nothing
          obtain ⟨c, ⟨gc, hgc, hoc⟩, hval⟩ := hheld u List.mem_cons_self (by simpa using hk) m p htgt
          rw [hga] at hgc
          cases hgc
          have hcf : c.file = some (.item p) :=
            OwnAt.file hg.shape ⟨g0, hg0, hi0⟩ ⟨ga, hga, hoc⟩
          have hvals : ∀ k, c.values.get? k = u.kw.get? k := by
            intro k
            have := hval k
            unfold actOf at this
            rw [hg0] at this
            simp only at this
            rw [active_nothing (hf0 m g0 hg0) hi0 hcf (hnone m p D g0 hTD hg0),
              active_nothing (hf0 m g0 hg0) hi0 rfl (hnone m p D g0 hTD hg0)] at this
            exact this
          have hno := RM.update_noop her hi hoc (u.persist.getD true) (kw := valuesOf u) (by
            intro k v hv
            rw [valuesOf_get? (hu u List.mem_cons_self)] at hv
            rw [hvals k, hv]) e1.symm
          refine ⟨?_, ?_⟩
          · intro m' g' hg'
            rw [e2, Dict.get?_set] at hg'
            split at hg'
            · rename_i hm
              subst hm
              cases hg'
              obtain ⟨gb, hgb, b1, b2, b3⟩ := hsame.1 m ga hga
              exact ⟨gb, hgb, b1, b2, hno.symm.trans b3⟩
            · exact hsame.1 m' g' hg'
          · intro m' hg'
            rw [e2, Dict.get?_set] at hg'
            split at hg'
            · cases hg'
            · exact hsame.2 m' hg'

omit [BEq V] in
theorem holds_active {s1 t : Mgrs V} (h : MShape s1 t) {m : String} {p : List String} (hi : ItemOf s1 m p) {c : Conf V}
    (ho : OwnAt t m p c) : activeAt t m p = some (actOf s1 m p c).values := by
  rw [activeAt_eq (h.itemOf hi)]
  obtain ⟨g1, hg1, hi1⟩ := hi
  obtain ⟨g2, hg2, _, hsh⟩ := h m g1 hg1
  obtain ⟨g3, hg3, ho3⟩ := ho
  rw [hg2] at hg3
  cases hg3
  unfold shownOf actOf
  rw [hg2, hg1]
  simp only [Option.map_some]
  unfold CM.shownConf
  rw [ho3]
  simp only [Except.map]
  rw [hsh.active hi1]

end Iter

/-! ### Specification -/

/-- Two managers show the same: the same settings and log, the same registered items and created
objects, and the same own config of each item and section.  (Whether a config has been loaded yet
may differ.) -/
structure SameManager (a b : Mgr V) : Prop where
  settings : b.settings = a.settings
  log : b.ms.log = a.ms.log
  reg : b.ms.rs.reg = a.ms.rs.reg
  objs : b.ms.rs.objs = a.ms.rs.objs
  localConf : b.ms.rs.cm.localConf = a.ms.rs.cm.localConf
  own : ∀ p, ConfigItem a.ms.rs.cm p → ConfigItem b.ms.rs.cm p ∧ ownConfig b.ms.rs.cm p = ownConfig a.ms.rs.cm p
  sections : ∀ p, sectionValues b.ms.rs.cm p = sectionValues a.ms.rs.cm p

/-! ### Theorems -/

/-- The updates of a case all applied. -/
def applyAll (r : IRunner V) (filled : List (Upd V)) : BM V Unit := BM.updates r.base r.strip filled

/-- C33 (missing: created objects, which can differ if sections define values, see
`C33_section_violated`; and runs that fail).  Whatever cases were run before, applying only the
updates that differ from the last case leaves every item with the active configuration that
applying all updates of the case leaves. -/
theorem C33_active_partial (he : EqIsSame V) (h : IterHooks V) (s0 s1 : Mgrs V) (r : IRunner V)
    (hr : PlainRunner h s0 s1 r) (shouldRun : List (Upd V) → Bool) (collect : Bool)
    (before : List (List (Upd V))) (hbefore : ∀ c ∈ before, c ∈ r.cases)
    (results : List (List (Upd V) × IRes V)) (t : IState V)
    (hran : r.run h shouldRun collect before ⟨s1, none⟩ = (.ok results, t))
    (c : List (Upd V)) (hc : c ∈ r.cases) (filled : List (Upd V)) (t' : IState V)
    (happ : r.applyCase h c t = (.ok filled, t')) (all : Mgrs V)
    (hall : applyAll r filled t.mgrs = (.ok (), all)) (m : String) (p : List String) (hp : ItemAt s0 m p) (k : String) :
    (activeAt t'.mgrs m p).bind (·.get? k) = (activeAt all m p).bind (·.get? k) := by
  obtain ⟨hf0, hcalm, hf1, hset', hruns⟩ := hr.facts
  have hset := fun m p D hT => (hset' m p D hT).1
  have hinv := hr.inv he before hbefore hran
  obtain ⟨-, -, a3, a4, a5, a6, -⟩ := Iter.applyCase_spec he hcalm hf1 hset hr.preBatch (hr.cases c hc) hinv happ
  have hitem : ∀ m p D, Iter.Tgt r m p D → Iter.ItemOf s1 m p := by
    intro m p D hT
    obtain ⟨g, _, hg, hi, _⟩ := hset m p D hT
    exact ⟨g, hg, hi⟩
  obtain ⟨b1, b2, -, b4⟩ := Iter.updates_spec he hitem filled hinv.good (fun u hu => (a4 u hu).1) a6 hall
  have hi1 : Iter.ItemOf s1 m p := Iter.MShape.itemOf hcalm.shape (Iter.itemAt_itemOf hp)
  by_cases hT : ∃ D, Iter.Tgt r m p D
  · obtain ⟨D, hT⟩ := hT
    by_cases hu : ∃ u ∈ filled, Targets r.base r.strip u m p
    · obtain ⟨u, hu, ht⟩ := hu
      obtain ⟨c1, ho1, hv1⟩ := (a4 u hu).2 m p ht
      obtain ⟨c2, ho2, hv2⟩ := b2 u hu m p ht
      rw [Iter.holds_active a3.shape hi1 ho1, Iter.holds_active b1.shape hi1 ho2]
      simp only [Option.bind_some]
      rw [hv1, hv2]
    · have hn : ∀ u ∈ filled, ¬ Targets r.base r.strip u m p := fun u hu' ht => hu ⟨u, hu', ht⟩
      obtain ⟨c0, ho0, -⟩ := hinv.good.keys m p D hT
      rw [Iter.holds_active a3.shape hi1 (a5 m p c0 hn ho0), Iter.holds_active b1.shape hi1 (b4 m p c0 hn ho0)]
  · have hn : ∀ D, ¬ Iter.Tgt r m p D := fun D h => hT ⟨D, h⟩
    rw [Iter.activeAt_eq (Iter.MShape.itemOf a3.shape hi1), Iter.activeAt_eq (Iter.MShape.itemOf b1.shape hi1),
      a3.others m p hi1 hn, b1.others m p hi1 hn]

omit [BEq V] in
theorem sameManager {a b : Mgr V} (h1 : b.settings = a.settings) (h2 : b.ms.log = a.ms.log)
    (h : RS.Same a.ms.rs b.ms.rs) : SameManager a b := by
  refine ⟨h1, h2, h.reg, h.objs, h.view.rest.2.1, ?_, ?_⟩
  · intro p hp
    have hi := Iter.MSame.isItem h hp.isItem
    refine ⟨.of_isItem hi, ?_⟩
    rw [ownConfig_eq hp, ownConfig_eq (.of_isItem hi)]
    exact h.view.own p hp.isItem.item
  · intro p
    have key : ∀ s : CM V, sectionValues s p = match s.view.slot p with
        | .sect (some c) => c.values
        | _ => Dict.empty := by
      intro s
      unfold sectionValues
      show _ = match Node.slotOf (s.walk p) with
        | .sect (some c) => c.values
        | _ => Dict.empty
      cases s.walk p with
      | error e => rfl
      | ok n =>
        cases n with
        | sect cfg a m => cases cfg <;> rfl
        | _ => rfl
    rw [key, key]
    cases hi : (a.ms.rs.cm.view.slot p).isItem with
    | false => rw [h.view.others p hi]
    | true =>
      have hi' := h.view.items p
      rw [hi] at hi'
      cases hs : a.ms.rs.cm.view.slot p <;> rw [hs] at hi <;> cases hi <;>
        cases hs' : b.ms.rs.cm.view.slot p <;> rw [hs'] at hi' <;> cases hi' <;> rfl

/-- C33 where no section around the items of the cases and no local config defines anything: the
whole state, with created objects, is the same whether only the updates that differ are applied or
all of them. -/
theorem C33_state_partial (he : EqIsSame V) (her : ∀ a : V, (a == a) = true) (h : IterHooks V) (s0 s1 : Mgrs V)
    (r : IRunner V) (hr : PlainRunner h s0 s1 r)
    (hnone : ∀ c ∈ r.cases, ∀ u ∈ c, ∀ m p, Targets r.base r.strip u m p → ∀ k, ¬ DefinedAround s0 m p k)
    (shouldRun : List (Upd V) → Bool) (collect : Bool) (before : List (List (Upd V)))
    (hbefore : ∀ c ∈ before, c ∈ r.cases) (results : List (List (Upd V) × IRes V)) (t : IState V)
    (hran : r.run h shouldRun collect before ⟨s1, none⟩ = (.ok results, t))
    (c : List (Upd V)) (hc : c ∈ r.cases) (filled : List (Upd V)) (hfill : r.fill c = .ok filled) (all : Mgrs V)
    (hall : applyAll r filled t.mgrs = (.ok (), all)) :
    ∃ t', r.applyCase h c t = (.ok filled, t') ∧
      (∀ m g, all.get? m = some g → ∃ g', t'.mgrs.get? m = some g' ∧ SameManager g g') ∧
      ∀ m, all.get? m = none → t'.mgrs.get? m = none := by
  obtain ⟨hf0, hcalm, hf1, hset', hruns⟩ := hr.facts
  have hset := fun m p D hT => (hset' m p D hT).1
  have hinv := hr.inv he before hbefore hran
  have hitem : ∀ m p D, Iter.Tgt r m p D → Iter.ItemOf s1 m p := by
    intro m p D hT
    obtain ⟨g, _, hg, hi, _⟩ := hset m p D hT
    exact ⟨g, hg, hi⟩
  obtain ⟨f1, f2, f3⟩ := Iter.fill_spec hfill
  have hnd : (filled.map (fun u => u.path)).Nodup := by rw [f1]; exact (hr.cases c hc).distinct
  have hfull : ∀ u ∈ filled, Iter.Full (Iter.Tgt r) r.base r.strip u := by
    intro u' hu'
    obtain ⟨u, hu, s, D, e1, e2, rfl⟩ := f3 u' hu'
    exact (Iter.fillOne_full hcalm hset (hr.cases c hc) hu e1 e2).1
  have hno : ∀ m p D g, Iter.Tgt r m p D → s1.get? m = some g → ∀ k, CMM.lastDef k
      ((g.ms.rs.cm.view.levels p ++ [some g.ms.rs.cm.view.localConf]).map CMM.levelValues) = none := by
    intro m p D g1 hT hg1 k
    obtain ⟨-, c', hc', u, hu, ht⟩ := hset' m p D hT
    obtain ⟨m', p', ht', hi'⟩ := (hr.cases c' hc').item u hu
    obtain ⟨rfl, rfl⟩ := Iter.Targets.unique ht' ht
    obtain ⟨g0, hg0, hi0⟩ := Iter.itemAt_itemOf hi'
    obtain ⟨g1', hg1', hc1⟩ := hcalm _ g0 hg0
    rw [hg1] at hg1'
    cases hg1'
    have hd := hnone c' hc' u hu _ _ ht k
    rw [definedAround_iff hg0] at hd
    rw [hc1.cm.toShape.levels hi0, show g1.ms.rs.cm.view.localConf = g0.ms.rs.cm.view.localConf from hc1.cm.rest.2.1]
    simpa using hd
  -- the kept updates
  have hkeep : ∃ keep : Upd V → Bool, IRunner.changed t.last filled = filled.filter keep ∧
      ∀ u ∈ filled, keep u = false → Iter.HoldsU s1 r.base r.strip t.mgrs u := by
    cases hl : t.last with
    | none =>
      refine ⟨fun _ => true, ?_, fun _ _ h => by cases h⟩
      unfold IRunner.changed
      exact (List.filter_eq_self.2 (fun _ _ => rfl)).symm
    | some l =>
      refine ⟨fun u => !l.any (fun v => u.eq v), rfl, ?_⟩
      intro u hu hk
      simp only [Bool.not_eq_false'] at hk
      rw [List.any_eq_true] at hk
      obtain ⟨v, hv, hev⟩ := hk
      refine Iter.eq_holds he hev ?_ hf1 (hinv.last l hl v hv).2
      intro m p ht
      obtain ⟨m', p', D, hT, ht', _⟩ := (hfull u hu).target
      obtain ⟨rfl, rfl⟩ := Iter.Targets.unique ht ht'
      exact hitem _ _ D hT
  obtain ⟨keep, hch, hheld⟩ := hkeep
  obtain ⟨t2, ht2, hsame⟩ := Iter.updates_skip he her hf1 hitem hno keep filled hnd hfull hinv.good
    (Iter.MSame.refl _) hheld hall
  refine ⟨⟨t2, t.last⟩, ?_, ?_, hsame.2⟩
  · unfold IRunner.applyCase
    rw [M.bind_run, M.liftE_run, hfill]
    simp only
    rw [M.bind_run]
    unfold IRunner.updateForCase
    rw [M.bind_ok (M.get_run t)]
    unfold IRunner.liftB BM.update
    rw [hr.preBatch, List.nil_append, hch, ht2]
    rfl
  · intro m g hg
    obtain ⟨g', hg', e1, e2, e3⟩ := hsame.1 m g hg
    exact ⟨g', hg', sameManager e1 e2 e3⟩

end

/-! ### The hypotheses of C32 and C33 are met -/

/-- `main.data.func` of `one` with `a = 7` and that of `two` with `c = 1` and `c = 2`. -/
def demoTwoUpdates : List (Upd Nat) :=
  [⟨some (.str "one.main.data.func"), none, none, Dict.ofList [("a", 7)]⟩,
   ⟨some (.str "two.main.data.func"), none, none, Dict.ofList [("c", 1)]⟩,
   ⟨some (.str "two.main.data.func"), none, none, Dict.ofList [("c", 2)]⟩]

/-- The runner of `main.data.func` of `one` with them. -/
def demoTwo : IRunner Nat where
  runItems := [⟨"one.main.data.func"⟩]
  base := none
  strip := false
  cases := [1, 2].map (fun n =>
    [⟨some (.str "one.main.data.func"), none, none, Dict.ofList [("a", 7)]⟩,
     ⟨some (.str "two.main.data.func"), none, none, Dict.ofList [("c", n)]⟩])
  defaults := Dict.ofList [("one.main.data.func", Dict.ofList [("a", 2), ("b", 3), ("c", 0)]),
    ("two.main.data.func", Dict.ofList [("a", 2), ("b", 3), ("c", 0)])]

/-- The managers after its creation. -/
def demoTwoMgrs : Mgrs Nat :=
  (IRunner.new IterHooks.none (.inl (.str "one.main.data.func")) demoTwoUpdates none false demoMgrs).2

theorem demoMgrs_get (m : String) (g : Mgr Nat) (h : demoMgrs.get? m = some g) :
    g = ⟨⟨false, false⟩, ⟨demoRunner demoFunc, []⟩⟩ := by
  have h2 := (Dict.mem_items_iff _ _ _).2 h
  have : demoMgrs.items = [("one", ⟨⟨false, false⟩, ⟨demoRunner demoFunc, []⟩⟩),
    ("two", ⟨⟨false, false⟩, ⟨demoRunner demoFunc, []⟩⟩)] := by rfl
  rw [this] at h2
  simp only [List.mem_cons, Prod.mk.injEq, List.not_mem_nil, or_false] at h2
  rcases h2 with ⟨_, h⟩ | ⟨_, h⟩ <;> exact h

/-- A case that gives one item of each manager known keywords. -/
theorem demo_plainCase (kw kw' : Dict String Nat) (h : ∀ k ∈ kw.keys, k ∈ ["a", "b", "c"])
    (h' : ∀ k ∈ kw'.keys, k ∈ ["a", "b", "c"]) :
    PlainCase demoMgrs none false
      [⟨some (.str "one.main.data.func"), none, none, kw⟩, ⟨some (.str "two.main.data.func"), none, none, kw'⟩] := by
  have t1 : targetOf none false (.str "one.main.data.func") = some ("one" :: demoPath) := by decide +kernel
  have t2 : targetOf none false (.str "two.main.data.func") = some ("two" :: demoPath) := by decide +kernel
  have a1 : activeAt demoMgrs "one" demoPath = some (Dict.ofList [("a", 2), ("b", 3), ("c", 0)]) := by decide +kernel
  have a2 : activeAt demoMgrs "two" demoPath = some (Dict.ofList [("a", 2), ("b", 3), ("c", 0)]) := by decide +kernel
  have hk : (Dict.ofList [("a", 2), ("b", 3), ("c", 0)] : Dict String Nat).keys = ["a", "b", "c"] := by decide +kernel
  refine ⟨by simp, ?_, ?_, ?_⟩
  · intro u hu
    simp only [List.mem_cons, List.not_mem_nil, or_false] at hu
    rcases hu with rfl | rfl <;> rfl
  · intro u hu
    simp only [List.mem_cons, List.not_mem_nil, or_false] at hu
    rcases hu with rfl | rfl
    · exact ⟨_, _, ⟨_, rfl, t1⟩, ⟨_, rfl, demo_item⟩⟩
    · exact ⟨_, _, ⟨_, rfl, t2⟩, ⟨_, rfl, demo_item⟩⟩
  · intro u hu m p d ht ha
    simp only [List.mem_cons, List.not_mem_nil, or_false] at hu
    rcases hu with rfl | rfl
    · obtain ⟨rfl, rfl⟩ := Iter.Targets.unique ht ⟨_, rfl, t1⟩
      rw [a1] at ha
      cases ha
      rw [hk]
      exact ⟨h, by decide +kernel⟩
    · obtain ⟨rfl, rfl⟩ := Iter.Targets.unique ht ⟨_, rfl, t2⟩
      rw [a2] at ha
      cases ha
      rw [hk]
      exact ⟨h', by decide +kernel⟩

theorem demoTwo_plain : PlainRunner IterHooks.none demoMgrs demoTwoMgrs demoTwo := by
  refine ⟨rfl, rfl, ?_, ⟨.inl (.str "one.main.data.func"), demoTwoUpdates, ?_⟩, by decide, ?_, ?_⟩
  · intro m g hg
    rw [demoMgrs_get m g hg]
    exact demoRunner_reachable demoFunc
  · refine Prod.ext ?_ rfl
    rfl
  · intro c hc
    unfold demoTwo at hc
    simp only [List.map_cons, List.map_nil, List.mem_cons, List.not_mem_nil, or_false] at hc
    rcases hc with rfl | rfl <;> exact demo_plainCase _ _ (by decide +kernel) (by decide +kernel)
  · intro sp hsp
    unfold demoTwo at hsp
    simp only [List.mem_cons, List.not_mem_nil, or_false] at hsp
    subst hsp
    exact ⟨"one", demoPath, ⟨⟨false, false⟩, ⟨demoRunner demoFunc, []⟩⟩, by decide +kernel, rfl,
      .inl ⟨demo_item, demoFunc, rfl⟩⟩

/-- A section of functions. -/
theorem demo_section : FunctionSection (demoRunner demoFunc) ["main", "data"] := by
  refine ⟨by simp, ⟨_, rfl⟩, ?_⟩
  intro q b items hl x k hk
  cases q with
  | nil =>
    have hl' : (Except.ok (.coll false [("func", .item demoFunc), ("noargs", .item demoFunc)]) : Except PyErr (Reg Nat)) =
        .ok (.coll b items) := hl
    injection hl' with hl'
    injection hl' with _ hl'
    subst hl'
    simp only [List.mem_cons, List.not_mem_nil, or_false, Prod.mk.injEq, Reg.item.injEq] at hk
    rcases hk with ⟨rfl, rfl⟩ | ⟨rfl, rfl⟩
    · exact ⟨rfl, demo_item⟩
    · exact ⟨rfl, demo_noargs⟩
  | cons y ys =>
    exfalso
    have hnot : ∀ b items, Reg.walk collectionReserved (.coll false [("func", .item demoFunc), ("noargs", .item demoFunc)])
        (y :: ys) ≠ .ok (.coll b items) := by
      intro b items hw
      unfold Reg.walk at hw
      cases ha : Reg.attr collectionReserved (.coll false [("func", .item demoFunc), ("noargs", .item demoFunc)]) y with
      | error e => rw [ha] at hw; cases hw
      | ok n =>
        rw [ha] at hw
        have hn : n.isColl = false := by
          unfold Reg.attr at ha
          simp only at ha
          split at ha
          · cases ha; rfl
          · split at ha
            · rename_i hf
              have : (_, _) ∈ [("func", Reg.item demoFunc), ("noargs", Reg.item demoFunc)] := AList.mem_of_get? hf
              simp only [List.mem_cons, List.not_mem_nil, or_false, Prod.mk.injEq] at this
              cases ha
              rcases this with ⟨_, h⟩ | ⟨_, h⟩ <;> rw [h] <;> rfl
            · cases ha
        cases ys with
        | nil => cases hw; cases hn
        | cons z zs => cases n <;> first | cases hw | cases hn
    have hw : (demoRunner demoFunc).reg.general.walk registrarReserved ("main" :: "data" :: y :: ys) =
        Reg.walk collectionReserved (.coll false [("func", .item demoFunc), ("noargs", .item demoFunc)]) (y :: ys) := rfl
    unfold Registry.lookup at hl
    rw [show (demoRunner demoFunc).reg.specific = [] from rfl] at hl
    simp only [List.cons_append, List.nil_append, List.find?_nil, hw] at hl
    split at hl
    · cases hl
    · exact hnot b items hl

/-- The same cases, for a runner that runs the section. -/
def demoSectionRun : IRunner Nat := { demoTwo with runItems := [⟨"one.main.data"⟩] }

theorem demoSectionRun_plain : PlainRunner IterHooks.none demoMgrs demoTwoMgrs demoSectionRun := by
  refine ⟨rfl, rfl, demoTwo_plain.reachable, ⟨.inl (.str "one.main.data"), demoTwoUpdates, Prod.ext rfl rfl⟩, by decide,
    demoTwo_plain.cases, ?_⟩
  intro sp hsp
  unfold demoSectionRun at hsp
  simp only [List.mem_cons, List.not_mem_nil, or_false] at hsp
  subst hsp
  exact ⟨"one", ["main", "data"], ⟨⟨false, false⟩, ⟨demoRunner demoFunc, []⟩⟩, by decide +kernel, rfl, .inr demo_section⟩

/-- Both cases run, with both functions of the section each. -/
example : (demoSectionRun.run IterHooks.none (fun _ => true) true demoSectionRun.cases ⟨demoTwoMgrs, none⟩).1.toOption.map
    (fun rs => rs.length) = some 2 := by decide +kernel

/-- Both cases run. -/
example : (demoTwo.run IterHooks.none (fun _ => true) true demoTwo.cases ⟨demoTwoMgrs, none⟩).1.toOption.map
    (fun rs => rs.map (fun r => demoResult r.2)) = some [some 230, some 230] := by decide +kernel

/-- A project with one item, `func`, and a section config without values. -/
def plainFiles : Files Nat where
  read
    | .sect [] => .ok Dict.empty
    | .item ["func"] => .ok (Dict.ofList [("a", 0), ("b", 0), ("c", 0)])
    | _ => .error .osError
  tree := .mk true ["func"] []

/-- The runner state after loading it. -/
def plainRunner : RS Nat where
  cm := ⟨plainFiles, "defaults", .sect (some (Conf.ofFile (.sect []) Dict.empty)) []
    [("func", .file (.item ["func"]))], Conf.ofDict Dict.empty⟩
  reg := ⟨[], .coll false [("func", .item demoFunc)]⟩
  objs := Dict.empty
  nextId := 0

/-- A manager with it. -/
def plainMgrs : Mgrs Nat := Dict.ofList [("one", ⟨⟨false, false⟩, ⟨plainRunner, []⟩⟩)]

/-- Two cases of it. -/
def plainIter : IRunner Nat where
  runItems := [⟨"one.func"⟩]
  base := none
  strip := false
  cases := [1, 2].map (fun n => [⟨some (.str "one.func"), none, none, Dict.ofList [("a", n)]⟩])
  defaults := Dict.ofList [("one.func", Dict.ofList [("a", 0), ("b", 0), ("c", 0)])]

/-- The managers after its creation. -/
def plainMgrs1 : Mgrs Nat :=
  (IRunner.new IterHooks.none (.inl (.str "one.func"))
    [⟨some (.str "one.func"), none, none, Dict.ofList [("a", 1)]⟩,
     ⟨some (.str "one.func"), none, none, Dict.ofList [("a", 2)]⟩] none false plainMgrs).2

theorem plain_get (m : String) (g : Mgr Nat) (h : plainMgrs.get? m = some g) :
    g = ⟨⟨false, false⟩, ⟨plainRunner, []⟩⟩ := by
  have h2 := (Dict.mem_items_iff _ _ _).2 h
  have : plainMgrs.items = [("one", ⟨⟨false, false⟩, ⟨plainRunner, []⟩⟩)] := by rfl
  rw [this] at h2
  simp only [List.mem_cons, Prod.mk.injEq, List.not_mem_nil, or_false] at h2
  exact h2.2

theorem plain_item : ConfigItem plainRunner.cm ["func"] := ⟨by simp, by decide, .inr ⟨.item ["func"], rfl⟩⟩

theorem plain_target : targetOf none false (.str "one.func") = some ["one", "func"] := by decide +kernel

theorem plainIter_plain : PlainRunner IterHooks.none plainMgrs plainMgrs1 plainIter := by
  have hact : activeAt plainMgrs "one" ["func"] = some (Dict.ofList [("a", 0), ("b", 0), ("c", 0)]) := by
    decide +kernel
  refine ⟨rfl, rfl, ?_, ⟨.inl (.str "one.func"), _, Prod.ext (by rfl) rfl⟩, by decide, ?_, ?_⟩
  · intro m g hg
    rw [plain_get m g hg]
    exact ⟨plainRunner, [], ⟨rfl, rfl, plainFiles, "defaults", rfl⟩, by simp, rfl⟩
  · intro c hc
    obtain ⟨n, -, rfl⟩ := List.mem_map.1 hc
    refine ⟨by simp, ?_, ?_, ?_⟩
    · intro u hu
      rw [List.mem_singleton.1 hu]
    · intro u hu
      rw [List.mem_singleton.1 hu]
      exact ⟨_, _, ⟨_, rfl, plain_target⟩, ⟨_, rfl, plain_item⟩⟩
    · intro u hu m p d ht ha
      rw [List.mem_singleton.1 hu] at ht ⊢
      obtain ⟨rfl, rfl⟩ := Iter.Targets.unique ht ⟨_, rfl, plain_target⟩
      rw [hact] at ha
      cases ha
      exact ⟨fun k hk => by
        have : k = "a" := by simpa [Dict.keys, Dict.ofList, Dict.setAll, Dict.set, AList.set, Dict.empty] using hk
        rw [this]; decide +kernel, by decide +kernel⟩
  · intro sp hsp
    unfold plainIter at hsp
    simp only [List.mem_cons, List.not_mem_nil, or_false] at hsp
    subst hsp
    exact ⟨"one", ["func"], ⟨⟨false, false⟩, ⟨plainRunner, []⟩⟩, by decide +kernel, rfl,
      .inl ⟨plain_item, demoFunc, rfl⟩⟩

/-- The hypothesis of `C33_state_partial` about sections is met. -/
example : ∀ c ∈ plainIter.cases, ∀ u ∈ c, ∀ m p, Targets plainIter.base plainIter.strip u m p →
    ∀ k, ¬ DefinedAround plainMgrs m p k := by
  intro c hc u hu m p ht k
  obtain ⟨n, -, rfl⟩ := List.mem_map.1 hc
  rw [List.mem_singleton.1 hu] at ht
  obtain ⟨rfl, rfl⟩ := Iter.Targets.unique ht ⟨_, rfl, plain_target⟩
  rintro ⟨g, hg, h⟩
  rw [plain_get _ _ hg] at h
  have e1 : plainRunner.cm.localConf.values.keys = [] := by decide +kernel
  have e2 : ∀ d ∈ enclosingValues plainRunner.cm ["func"], d.keys = [] := by decide +kernel
  rcases h with h | ⟨d, hd, h⟩
  · rw [e1] at h; cases h
  · rw [e2 d hd] at h; cases h

/-- The first case runs, and all updates of the second can be applied. -/
example : (plainIter.run IterHooks.none (fun _ => true) true plainIter.cases ⟨plainMgrs1, none⟩).1.toOption.map
    (fun rs => rs.map (fun r => demoResult r.2)) = some [some 100, some 200] := by decide +kernel

/-! ### Where they fail -/

/-- The configuration of `main.data.func` of `one` that is active after an iterative run of it. -/
def demoAfter (us : List (Upd Nat)) : Option (Dict String Nat) :=
  match IRunner.new IterHooks.none (.inl (.str "one.main.data.func")) us none false demoMgrs with
  | (.ok r, s1) =>
    match r.run IterHooks.none (fun _ => true) true r.cases ⟨s1, none⟩ with
    | (.ok _, t) => activeAt t.mgrs "one" demoPath
    | _ => none
  | _ => none

/-- An update of it. -/
def demoOne (kw : List (String × Nat)) : Upd Nat := ⟨some (.str "one.main.data.func"), none, none, Dict.ofList kw⟩

/-- C32 fails for keys that the item's configuration does not have: given together with another
key that changes, one leaks into the later cases; given alone, it is dropped. -/
theorem C32_unknown_key_violated :
    (demoAfter [demoOne [("c", 1), ("z", 9)], demoOne [("c", 2)]]).map (fun d => (d.get? "c", d.get? "z")) =
      some (some 2, some 9) ∧
    (demoAfter [demoOne [("z", 9)]]).map (fun d => d.get? "z") = some none := by
  decide +kernel

/-- C32 fails for keys that a section around the item defines: the value of the case is not used
(`main/section.py` gives `a = 2`). -/
theorem C32_section_violated : (demoAfter [demoOne [("a", 7)]]).map (fun d => d.get? "a") = some (some 2) := by
  decide +kernel

/-- C32 fails for a case given with `d_`: the values at creation, given as keywords, win. -/
theorem C32_dict_violated :
    (demoAfter [⟨some (.str "one.main.data.func"), some (Dict.ofList [("c", 5)]), none, Dict.empty⟩]).map
      (fun d => d.get? "c") = some (some 0) := by
  decide +kernel

/-- C32 fails for a second run of the same runner if the item was updated in between: the updates
of the first case are taken to hold already. -/
theorem C32_second_run_violated :
    ∃ (s1 : Mgrs Nat) (r : IRunner Nat) (t : IState Nat) (s2 : Mgrs Nat) (t' : IState Nat),
      IRunner.new IterHooks.none (.inl (.str "one.main.data.func")) [demoOne [("c", 1)]] none false demoMgrs = (.ok r, s1) ∧
      r.run IterHooks.none (fun _ => true) false r.cases ⟨s1, none⟩ = (.ok [], t) ∧
      BM.updates none false [demoOne [("c", 5)]] t.mgrs = (.ok (), s2) ∧
      r.run IterHooks.none (fun _ => true) false r.cases ⟨s2, t.last⟩ = (.ok [], t') ∧
      (activeAt t'.mgrs "one" demoPath).map (fun d => d.get? "c") = some (some 5) :=
  ⟨_, _, _, _, _, rfl, rfl, rfl, rfl, by decide +kernel⟩

/-- C33 fails for the created object if a section around the item defines a key the case names
(`main/section.py` gives `a = 2`): the object of the second case has `a = 2`, but `a = 7` if the
update is applied again, and its result is different. -/
theorem C33_section_violated :
    ∃ (c c' : List (Upd Nat)) (t : IState Nat) (filled : List (Upd Nat)) (t' : IState Nat) (all : Mgrs Nat),
      PlainRunner IterHooks.none demoMgrs demoTwoMgrs demoTwo ∧ demoTwo.cases = [c, c'] ∧
      (demoTwo.run IterHooks.none (fun _ => true) false [c] ⟨demoTwoMgrs, none⟩) = (.ok [], t) ∧
      demoTwo.applyCase IterHooks.none c' t = (.ok filled, t') ∧
      applyAll demoTwo filled t.mgrs = (.ok (), all) ∧
      (demoTwo.runOnce IterHooks.none t'.mgrs).1.toOption.map demoResult = some (some 230) ∧
      (demoTwo.runOnce IterHooks.none all).1.toOption.map demoResult = some (some 730) :=
  ⟨_, _, _, _, _, _, demoTwo_plain, rfl, rfl, rfl, rfl, by decide +kernel, by decide +kernel⟩

end Verif.Props

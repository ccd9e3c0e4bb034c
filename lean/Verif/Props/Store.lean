import Verif.Lemmas.Frame

/-
Property theorems about the config manager: C10, C11, C13, C14, C15.

What they are stated with: `CM.Reachable` (the states after loading and any history of
calls and file edits), `CM.walk` (attribute lookup along a section path) and the small
specification below.
-/

namespace Verif.Props
open Verif.Py Verif.Model

variable {V : Type}

/-! ## Specification -/

/-- `p` is the section path of an item: walking it leads to a loaded config or to a config
file.  Excluded are paths with a section named like the section directly containing it
(see C53). -/
structure ConfigItem (s : CM V) (p : List String) : Prop where
  ne : p ≠ []
  plain : PlainPath s.rootName p
  found : (∃ c, s.walk p = .ok (.conf c)) ∨ ∃ l, s.walk p = .ok (.file l)

/-- The item's own config: the one in memory, or else what its file gives now. -/
def ownConfig (s : CM V) (p : List String) : Except PyErr (Conf V) :=
  match s.walk p with
  | .ok (.conf c) => .ok c
  | .ok (.file l) => s.fs.load l
  | .ok _ => .error .valueError
  | .error e => .error e

/-- The values configured for a section; `[]` is the project. -/
def sectionValues (s : CM V) (q : List String) : Dict String V :=
  match s.walk q with
  | .ok (.sect (some c) _ _) => c.values
  | _ => Dict.empty

/-- The values of the sections around `p`: the project, then from the outermost to the
innermost section. -/
def enclosingValues (s : CM V) (p : List String) : List (Dict String V) :=
  (List.range p.length).map (fun k => sectionValues s (p.take k))

/-- The value from the last dictionary that defines the key. -/
def lastDefining (k : String) (ds : List (Dict String V)) : Option V :=
  ds.reverse.findSome? (fun d => d.get? k)

/-! ### Relation to the lemmas -/

theorem lastDefining_eq (k : String) (ds : List (Dict String V)) : lastDefining k ds = CMM.lastDef k ds := by
  unfold lastDefining
  induction ds with
  | nil => rfl
  | cons d ds ih =>
    rw [List.reverse_cons, List.findSome?_append, ih, CMM.lastDef]
    simp

theorem ConfigItem.isItem {s : CM V} {p : List String} (h : ConfigItem s p) : IsItem s p := by
  refine ⟨h.ne, h.plain, ?_⟩
  show (Node.slotOf (s.walk p)).isItem = true
  rcases h.found with ⟨c, hc⟩ | ⟨l, hl⟩
  · rw [hc]; rfl
  · rw [hl]; rfl

theorem ConfigItem.of_isItem {s : CM V} {p : List String} (h : IsItem s p) : ConfigItem s p := by
  refine ⟨h.ne, h.plain, ?_⟩
  have hi := h.item
  cases hs : s.view.slot p with
  | conf c => exact .inl ⟨c, CM.walk_of_slot_conf hs⟩
  | file l => exact .inr ⟨l, CM.walk_of_slot_file hs⟩
  | sect _ => rw [hs] at hi; cases hi
  | absent => rw [hs] at hi; cases hi

theorem ownConfig_eq {s : CM V} {p : List String} (h : ConfigItem s p) : ownConfig s p = s.view.own p := by
  unfold ownConfig View.own
  have hs : s.view.slot p = Node.slotOf (s.walk p) := rfl
  rcases h.found with ⟨c, hc⟩ | ⟨l, hl⟩
  · rw [hs, hc]; rfl
  · rw [hs, hl]; rfl

theorem enclosingValues_eq (s : CM V) (p : List String) :
    enclosingValues s p = (s.view.levels p).map CMM.levelValues := by
  unfold enclosingValues View.levels
  rw [List.map_map]
  apply List.map_congr_left
  intro k _
  unfold sectionValues
  simp only [Function.comp, View.sectCfg]
  show _ = CMM.levelValues (match Node.slotOf (s.walk (p.take k)) with
    | .sect cfg => cfg
    | _ => none)
  cases s.walk (p.take k) with
  | error e => rfl
  | ok n =>
    cases n with
    | sect cfg a m => cases cfg <;> rfl
    | _ => rfl

/-- A run of an operation on the manager is a run of the corresponding operation on views. -/
theorem run_of_ref {α : Type} {m : CMM V α} {a : M PyErr (View V) α} {s : CM V} (h : CMM.Ref m a s)
    {r : Except PyErr α} {v : View V} (ha : a s.view = (r, v)) : (m s).1 = r ∧ (m s).2.view = v := by
  unfold CMM.Ref at h
  rw [ha] at h
  exact ⟨(congrArg Prod.fst h).symm, (congrArg Prod.snd h).symm⟩

/-! ## C10 -/

/-- C10 (missing: an item whose own config is empty, for which the property fails, see
`C10_empty_config_violated`): the active configuration of an item gives each key the value
from the last of the item's own config, the project config, the enclosing section configs
from outermost to innermost, and the local config that defines it. -/
theorem C10_inheritance_order_partial [BEq V] (s : CM V) (hs : s.Reachable) (p : List String)
    (hp : ConfigItem s p) (c : Conf V) (hc : ownConfig s p = .ok c) (hne : c.values ≠ Dict.empty) :
    ∃ c', (CMM.get p s).1 = .ok (some c') ∧
      ∀ k, c'.values.get? k =
        lastDefining k ([c.values] ++ enclosingValues s p ++ [s.localConf.values]) := by
  have hi := hp.isItem
  rw [ownConfig_eq hp] at hc
  have ho := hs.good.ownFiles
  have hcf := ho.own hi.plain hc
  have hv := CMM.vget_item hi.item
  rw [hc] at hv
  have hne' : ¬ c.values.items.isEmpty = true := by
    intro h
    apply hne
    apply Dict.ext_items
    exact List.isEmpty_iff.1 h
  simp only at hv
  rw [if_neg hne'] at hv
  obtain ⟨h1, _⟩ := run_of_ref (CMM.get_ref hi) hv
  refine ⟨_, h1, ?_⟩
  intro k
  unfold CMM.overridden
  rw [CMM.levels_setConf hi.item (fun k hk => hi.prefix_sect hk)]
  have hl := CMM.levels_otherFile ho hi hcf
  rw [show (s.view.setConf p c).localConf = s.view.localConf from rfl,
    CMM.foldl_applyLevel_values c _ hl, CMM.get?_foldl_update, lastDefining_eq, List.append_assoc,
    CMM.lastDef_append, enclosingValues_eq, List.map_append]
  simp [CMM.lastDef, CMM.levelValues, CM.view]

/-- C10, when the file of the item cannot be loaded: the lookup raises the same error. -/
theorem C10_unreadable_file (s : CM V) (p : List String) (hp : ConfigItem s p) (e : PyErr)
    (hc : ownConfig s p = .error e) : (CMM.get p s).1 = .error e := by
  have hi := hp.isItem
  rw [ownConfig_eq hp] at hc
  have hv := CMM.vget_item hi.item
  rw [hc] at hv
  exact (run_of_ref (CMM.get_ref hi) hv).1

/-! ### A concrete project -/

/-- `section.py`: `a = 1`; `main/section.py`: `a = 2, b = 2`; `main/data/section.py`: `b = 3`;
`main/data/func.py`: `a = 0, b = 0, c = 0`; `main/data/noargs.py`: nothing. -/
def demoFiles : Files Nat where
  read
    | .sect [] => .ok (Dict.ofList [("a", 1)])
    | .sect ["main"] => .ok (Dict.ofList [("a", 2), ("b", 2)])
    | .sect ["main", "data"] => .ok (Dict.ofList [("b", 3)])
    | .item ["main", "data", "func"] => .ok (Dict.ofList [("a", 0), ("b", 0), ("c", 0)])
    | .item ["main", "data", "noargs"] => .ok Dict.empty
    | .item _ => .error .osError
    | .sect _ => .error .osError
  tree := .mk true [] [("main", .mk true [] [("data", .mk true ["func", "noargs"] [])])]

/-- The manager after loading that project. -/
def demo : CM Nat where
  fs := demoFiles
  rootName := "defaults"
  root := .sect (some (Conf.ofFile (.sect []) (Dict.ofList [("a", 1)]))) []
    [("main", .sect (some (Conf.ofFile (.sect ["main"]) (Dict.ofList [("a", 2), ("b", 2)]))) []
      [("data", .sect (some (Conf.ofFile (.sect ["main", "data"]) (Dict.ofList [("b", 3)]))) []
        [("func", .file (.item ["main", "data", "func"])),
         ("noargs", .file (.item ["main", "data", "noargs"]))])])]
  localConf := Conf.ofDict Dict.empty

theorem demo_load : CM.load demoFiles "defaults" = .ok demo := by rfl

theorem demo_reachable : demo.Reachable := ⟨demoFiles, "defaults", demo, [], demo_load, by simp, rfl⟩

theorem demo_item : ConfigItem demo ["main", "data", "func"] :=
  ⟨by simp, by decide, .inr ⟨.item ["main", "data", "func"], rfl⟩⟩

theorem demo_noargs : ConfigItem demo ["main", "data", "noargs"] :=
  ⟨by simp, by decide, .inr ⟨.item ["main", "data", "noargs"], rfl⟩⟩

/-- The hypotheses of C10 are met, and the inherited values are as expected. -/
example : ∃ c, ownConfig demo ["main", "data", "func"] = .ok c ∧ c.values ≠ Dict.empty :=
  ⟨_, rfl, by decide⟩

example : ((CMM.get ["main", "data", "func"] demo).1.toOption.bind id).map (fun c => c.values.items) =
    some [("a", 2), ("b", 3), ("c", 0)] := by decide +kernel

/-- C10 fails for an item whose own config is empty: `main.data.noargs` inherits nothing,
although the project and two sections define `a` and `b`. -/
theorem C10_empty_config_violated :
    ∃ (s : CM Nat) (p : List String) (c c' : Conf Nat) (k : String) (v : Nat),
      s.Reachable ∧ ConfigItem s p ∧ ownConfig s p = .ok c ∧ (CMM.get p s).1 = .ok (some c') ∧
      lastDefining k ([c.values] ++ enclosingValues s p ++ [s.localConf.values]) = some v ∧
      c'.values.get? k = none :=
  ⟨demo, ["main", "data", "noargs"], Conf.ofFile (.item ["main", "data", "noargs"]) Dict.empty,
    Conf.ofFile (.item ["main", "data", "noargs"]) Dict.empty, "a", 2, demo_reachable, demo_noargs, rfl, rfl,
    by decide +kernel, rfl⟩

/-! ## C11 -/

/-- Look up the active configuration of each of the paths, one after the other. -/
def lookups (s : CM V) (qs : List (List String)) : CM V := qs.foldl (fun s q => (CMM.get q s).2) s

/-- What the lookups of items keep, relative to the state `s` before and an item `p` whose
active configuration was looked up in `s`. -/
structure LookupInv (s t : CM V) (p : List String) : Prop where
  good : t.Good
  fs : t.fs = s.fs
  localConf : t.localConf = s.localConf
  rootName : t.rootName = s.rootName
  items : ∀ q, IsItem s q → IsItem t q
  others : ∀ q, (s.view.slot q).isItem = false → t.view.slot q = s.view.slot q
  ok : ∀ c, s.view.own p = .ok c → t.view.slot p = .conf (CMM.active s.view p c)
  err : ∀ e, s.view.own p = .error e → t.view.slot p = s.view.slot p

theorem lookup_step {s t : CM V} {p q : List String} (h : LookupInv s t p) (hq : IsItem s q) :
    LookupInv s (CMM.get q t).2 p ∧ ∀ r, r ≠ q → (CMM.get q t).2.view.slot r = t.view.slot r := by
  have hqt := h.items q hq
  have ho := h.good.ownFiles
  have hgood : (CMM.get q t).2.Good := CMM.get_good hq.ne t h.good
  cases hown : t.view.own q with
  | error e =>
    obtain ⟨_, h2⟩ := CMM.get_of_own_error hqt hown
    have hfs : (CMM.get q t).2.view.fs = t.view.fs := by rw [h2]
    have hlc : (CMM.get q t).2.view.localConf = t.view.localConf := by rw [h2]
    have hrn : (CMM.get q t).2.view.rootName = t.view.rootName := by rw [h2]
    refine ⟨⟨hgood, hfs.trans h.fs, hlc.trans h.localConf, hrn.trans h.rootName, ?_, ?_, ?_, ?_⟩, ?_⟩
    · intro r hr
      have := h.items r hr
      exact ⟨this.ne, by rw [show (CMM.get q t).2.rootName = s.rootName from hrn.trans h.rootName]; exact hr.plain, by rw [h2]; exact this.item⟩
    · rw [h2]; exact h.others
    · rw [h2]; exact h.ok
    · rw [h2]; exact h.err
    · intro r _; rw [h2]
  | ok c =>
    obtain ⟨_, h2⟩ := CMM.get_of_own hqt hown
    have hfs : (CMM.get q t).2.view.fs = t.view.fs := by rw [h2]; rfl
    have hlc : (CMM.get q t).2.view.localConf = t.view.localConf := by rw [h2]; rfl
    have hrn : (CMM.get q t).2.view.rootName = t.view.rootName := by rw [h2]; rfl
    have hactive : CMM.active t.view q c = CMM.active s.view q c := by
      apply CMM.active_congr h.localConf
      intro k hk
      apply h.others
      obtain ⟨cfg, hs⟩ := hq.prefix_sect hk
      rw [hs]; rfl
    refine ⟨⟨hgood, hfs.trans h.fs, hlc.trans h.localConf, hrn.trans h.rootName, ?_, ?_, ?_, ?_⟩, ?_⟩
    · intro r hr
      have := h.items r hr
      refine ⟨this.ne, by rw [show (CMM.get q t).2.rootName = s.rootName from hrn.trans h.rootName]; exact hr.plain, ?_⟩
      rw [h2]
      by_cases hrq : r = q
      · subst hrq; rw [View.setConf_slot_self]; rfl
      · rw [View.setConf_slot_ne _ _ hrq]; exact this.item
    · intro r hr
      have hrq : r ≠ q := by
        intro hh; subst hh
        rw [hq.item] at hr; cases hr
      rw [h2, View.setConf_slot_ne _ _ hrq]; exact h.others r hr
    · intro c' hc'
      rw [h2]
      by_cases hpq : p = q
      · subst hpq
        rw [View.setConf_slot_self]
        have hslot := h.ok c' hc'
        have : c = CMM.active s.view p c' := by
          unfold View.own at hown
          rw [hslot] at hown
          cases hown; rfl
        rw [hactive, this]
        have hcf : c.file = some (.item p) := ho.own hqt.plain hown
        have hc'f : c'.file = some (.item p) := by rw [this, CMM.active_file] at hcf; exact hcf
        have hactive' : ∀ d, CMM.active t.view p d = CMM.active s.view p d := by
          intro d
          apply CMM.active_congr h.localConf
          intro k hk
          apply h.others
          obtain ⟨cfg, hs⟩ := hq.prefix_sect hk
          rw [hs]; rfl
        have := CMM.active_idem ho hqt hc'f
        rw [hactive', hactive'] at this
        rw [this]
      · rw [View.setConf_slot_ne _ _ hpq]; exact h.ok c' hc'
    · intro e he
      rw [h2]
      by_cases hpq : p = q
      · subst hpq
        exfalso
        have hs := h.err e he
        unfold View.own at he hown
        rw [hs] at hown
        rw [show t.view.fs = s.view.fs from h.fs] at hown
        cases hsl : s.view.slot p with
        | conf _ => rw [hsl] at he; cases he
        | file l => rw [hsl] at he hown; simp only at he hown; rw [he] at hown; cases hown
        | sect _ => rw [hsl] at hown; cases hown
        | absent => rw [hsl] at hown; cases hown
      · rw [View.setConf_slot_ne _ _ hpq]; exact h.err e he
    · intro r hr
      rw [h2, View.setConf_slot_ne _ _ hr]

theorem lookups_inv {s : CM V} {p : List String} (qs : List (List String)) :
    ∀ t, LookupInv s t p → (∀ q ∈ qs, IsItem s q) → LookupInv s (lookups t qs) p ∧
      ∀ r, r ∉ qs → (lookups t qs).view.slot r = t.view.slot r := by
  induction qs with
  | nil => intro t h _; exact ⟨h, fun _ _ => rfl⟩
  | cons q qs ih =>
    intro t h hqs
    obtain ⟨h1, h2⟩ := lookup_step h (hqs q List.mem_cons_self)
    obtain ⟨h3, h4⟩ := ih _ h1 (fun r hr => hqs r (List.mem_cons_of_mem _ hr))
    refine ⟨h3, ?_⟩
    intro r hr
    rw [List.mem_cons, not_or] at hr
    exact (h4 r hr.2).trans (h2 r hr.1)

/-- C11 (missing: the stored configuration of the item itself does change, see
`C11_lookup_stores_inherited_violated`, and looking up a section changes it, see
`C11_section_lookup_violated`): looking up the active configuration of an item again,
after lookups of any items, returns the same, and whatever was not looked up is as it was
before. -/
theorem C11_lookup_repeatable_partial [BEq V] (s : CM V) (hs : s.Reachable) (p : List String)
    (hp : ConfigItem s p) (qs : List (List String)) (hqs : ∀ q ∈ qs, ConfigItem s q) :
    (CMM.get p (lookups s (p :: qs))).1 = (CMM.get p s).1 ∧
    ∀ r, r ∉ p :: qs → (lookups s (p :: qs)).view.slot r = s.view.slot r := by
  have hi := hp.isItem
  have hqi : ∀ q ∈ qs, IsItem s q := fun q hq => (hqs q hq).isItem
  -- the first lookup
  have hgood := hs.good
  have hinv : LookupInv s (CMM.get p s).2 p ∧ ∀ r, r ≠ p → (CMM.get p s).2.view.slot r = s.view.slot r := by
    have hg2 : (CMM.get p s).2.Good := CMM.get_good hi.ne s hgood
    cases hown : s.view.own p with
    | error e =>
      obtain ⟨_, h2⟩ := CMM.get_of_own_error hi hown
      have hrn : (CMM.get p s).2.view.rootName = s.view.rootName := by rw [h2]
      refine ⟨⟨hg2, ?_, ?_, hrn, ?_, by rw [h2]; intros; rfl, ?_, by rw [h2]; intros; rfl⟩,
        by rw [h2]; intros; rfl⟩
      · exact (congrArg View.fs h2 : _)
      · exact (congrArg View.localConf h2 : _)
      · intro q hq
        exact ⟨hq.ne, by rw [show (CMM.get p s).2.rootName = s.rootName from hrn]; exact hq.plain,
          by rw [h2]; exact hq.item⟩
      · intro c hc; rw [hown] at hc; cases hc
    | ok c =>
      obtain ⟨_, h2⟩ := CMM.get_of_own hi hown
      have hrn : (CMM.get p s).2.view.rootName = s.view.rootName := by rw [h2]; rfl
      refine ⟨⟨hg2, ?_, ?_, hrn, ?_, ?_, ?_, ?_⟩, ?_⟩
      · exact (congrArg View.fs h2 : _)
      · exact (congrArg View.localConf h2 : _)
      · intro q hq
        refine ⟨hq.ne, by rw [show (CMM.get p s).2.rootName = s.rootName from hrn]; exact hq.plain, ?_⟩
        rw [h2]
        by_cases hqp : q = p
        · subst hqp; rw [View.setConf_slot_self]; rfl
        · rw [View.setConf_slot_ne _ _ hqp]; exact hq.item
      · intro q hq
        have : q ≠ p := by intro hh; subst hh; rw [hi.item] at hq; cases hq
        rw [h2, View.setConf_slot_ne _ _ this]
      · intro c' hc'
        rw [hown] at hc'
        cases hc'
        rw [h2, View.setConf_slot_self]
      · intro e he; rw [hown] at he; cases he
      · intro r hr; rw [h2, View.setConf_slot_ne _ _ hr]
  obtain ⟨h1, h2⟩ := lookups_inv qs _ hinv.1 hqi
  have hlk : lookups s (p :: qs) = lookups (CMM.get p s).2 qs := rfl
  rw [hlk]
  refine ⟨?_, ?_⟩
  · generalize lookups (CMM.get p s).2 qs = t at h1
    have hit := h1.items p hi
    cases hown : s.view.own p with
    | error e =>
      have hs2 := h1.err e hown
      rw [(CMM.get_of_own_error hi hown).1]
      apply (CMM.get_of_own_error hit _).1
      unfold View.own at hown ⊢
      rw [hs2, show t.view.fs = s.view.fs from h1.fs]
      exact hown
    | ok c =>
      have hs2 := h1.ok c hown
      have hown2 : t.view.own p = .ok (CMM.active s.view p c) := by unfold View.own; rw [hs2]
      rw [(CMM.get_of_own hi hown).1, (CMM.get_of_own hit hown2).1]
      have hcf := hgood.ownFiles.own hi.plain hown
      have hcongr : ∀ d, CMM.active t.view p d = CMM.active s.view p d := by
        intro d
        apply CMM.active_congr h1.localConf
        intro k hk
        apply h1.others
        obtain ⟨cfg, hs⟩ := hi.prefix_sect hk
        rw [hs]; rfl
      rw [hcongr, CMM.active_idem hgood.ownFiles hi hcf]
  · intro r hr
    rw [List.mem_cons, not_or] at hr
    exact (h2 r hr.2).trans (hinv.2 r hr.1)

/-- The hypotheses are met by a project with two items. -/
example : demo.Reachable ∧ ConfigItem demo ["main", "data", "func"] ∧
    ∀ q ∈ [["main", "data", "noargs"], ["main", "data", "func"]], ConfigItem demo q :=
  ⟨demo_reachable, demo_item, by
    intro q hq
    simp only [List.mem_cons, List.not_mem_nil, or_false] at hq
    rcases hq with rfl | rfl
    · exact demo_noargs
    · exact demo_item⟩

/-- C11 fails for the item itself: a lookup overwrites the item's own loaded configuration
with the inherited values (here after `update(a=7)` of the item). -/
theorem C11_lookup_stores_inherited_violated :
    ∃ (s : CM Nat) (p : List String) (c c' : Conf Nat), s.Reachable ∧ ConfigItem s p ∧
      s.walk p = .ok (.conf c) ∧ (CMM.get p s).2.walk p = .ok (.conf c') ∧
      c.values.get? "a" = some 7 ∧ c'.values.get? "a" = some 2 := by
  refine ⟨demo.step (.update none (some ["main", "data", "func"]) true (Dict.ofList [("a", 7)])),
    ["main", "data", "func"],
    ⟨Dict.ofList [("a", 7), ("b", 0), ("c", 0)], Dict.ofList [("a", 7)], some (.item ["main", "data", "func"])⟩,
    ⟨Dict.ofList [("a", 2), ("b", 3), ("c", 0)], Dict.ofList [("a", 2), ("b", 3)],
      some (.item ["main", "data", "func"])⟩, ?_, ?_, ?_, ?_, ?_, ?_⟩
  · exact demo_reachable.step _ (by simp [CMOp.Valid])
  · exact ⟨by simp, by decide, .inl ⟨_, rfl⟩⟩
  · rfl
  · rfl
  · decide
  · decide

/-- C11 also fails for lookups of sections: `get` of a section's configuration stores the
values of the outer sections in it.  Here `b` is 2 for `main` and 3 for `main.data`; after a
lookup of `main.data`, the item `main.data.func` gets 2 instead of 3. -/
theorem C11_section_lookup_violated :
    ∃ (s : CM Nat) (p q : List String) (c c' : Conf Nat), s.Reachable ∧ ConfigItem s p ∧
      (CMM.get p s).1 = .ok (some c) ∧ (CMM.get p (CMM.get q s).2).1 = .ok (some c') ∧
      c.values.get? "b" = some 3 ∧ c'.values.get? "b" = some 2 := by
  refine ⟨demo, ["main", "data", "func"], ["main", "data"],
    ⟨Dict.ofList [("a", 2), ("b", 3), ("c", 0)], Dict.ofList [("a", 2), ("b", 3)],
      some (.item ["main", "data", "func"])⟩,
    ⟨Dict.ofList [("a", 2), ("b", 2), ("c", 0)], Dict.ofList [("a", 2), ("b", 2)],
      some (.item ["main", "data", "func"])⟩, demo_reachable, demo_item, rfl, rfl, ?_, ?_⟩
  · decide
  · decide

/-! ## C12, the config manager

What a path shows is `View.slot`: the loaded config, the file still to be loaded, the config
of a section, or nothing. -/

/-- C12: update, refresh, reset, pop and lookup of one item leave what every other path shows
as it was, and the local config and the files. -/
theorem C12_item_frame [BEq V] (s : CM V) (p : List String) (hp : ConfigItem s p) (op : CMOp V)
    (ho : op.OnItem p) :
    (∀ q, q ≠ p → (s.step op).view.slot q = s.view.slot q) ∧
    (s.step op).localConf = s.localConf ∧ (s.step op).fs = s.fs :=
  ⟨fun _ hq => CMM.step_item_frame hp.isItem ho hq, (CMM.step_item_rest hp.isItem ho).2.1,
    (CMM.step_item_rest hp.isItem ho).1⟩

example : ConfigItem demo ["main", "data", "func"] ∧
    (CMOp.update none (some ["main", "data", "func"]) true (Dict.ofList [("a", 7)]) : CMOp Nat).OnItem
      ["main", "data", "func"] := ⟨demo_item, .update _ _ _⟩

/-- C12 for sections: update, refresh, pop and lookup of a section's configuration leave what
every other path shows as it was.  (Reset is different: it replaces the section, see
`C13_section_reset`.) -/
theorem C12_section_frame [BEq V] (s : CM V) (p : List String) (hp : PlainPath s.rootName p)
    (hs : ∃ cfg attrs map, s.walk p = .ok (.sect cfg attrs map)) (op : CMOp V) (ho : op.OnSection p)
    (q : List String) (hq : PlainPath s.rootName q) (hne : q ≠ p) :
    (s.step op).view.slot q = s.view.slot q := by
  obtain ⟨cfg, attrs, map, hw⟩ := hs
  refine CMM.step_section_frame ⟨hp, cfg, ?_⟩ ho hq hne
  show Node.slotOf (s.walk p) = _
  rw [hw]; rfl

example : PlainPath demo.rootName ["main"] ∧ (∃ cfg attrs map, demo.walk ["main"] = .ok (.sect cfg attrs map)) :=
  ⟨by decide, _, _, _, rfl⟩

/-! ## C13 -/

/-- Loading the item's file gives `v` now. -/
def FileGives (s : CM V) (p : List String) (v : Dict String V) : Prop := s.fs.read (.item p) = .ok v

/-- C13 (missing: keys that the file does not have, and updates recorded earlier, when no key
differs from the file, see `C13_extra_key_survives_violated`): after a reset every key that
both the item's configuration and the file have has the value from the file; and if any of
them differed before, the configuration is exactly what loading the file gives, with no
recorded update. -/
theorem C13_reset_partial [DecidableEq V] (s : CM V) (p : List String)
    (hp : ConfigItem s p) (v : Dict String V) (hv : FileGives s p v) (c : Conf V)
    (hc : ownConfig s p = .ok c) (hres : Conf.clash CMM.determineReserved v = false) :
    ∃ c', (CMM.reset (some p) false s).2.walk p = .ok (.conf c') ∧
      (∀ k x, v.get? k = some x → k ∈ c.values.keys → c'.values.get? k = some x) ∧
      ((∃ k x y, v.get? k = some x ∧ c.values.get? k = some y ∧ x ≠ y) → c' = Conf.ofFile (.item p) v) := by
  have hi := hp.isItem
  rw [ownConfig_eq hp] at hc
  have hload : s.view.fs.load (.item p) = .ok (Conf.ofFile (.item p) v) := by
    unfold Files.load
    rw [show s.view.fs = s.fs from rfl, show s.fs.read (.item p) = _ from hv]
  have hview := CMM.vreset_item (a := s.view) hi.item
  rw [hload, hc] at hview
  have hdet : CMM.determineWouldUpdate c none (Conf.ofFile (.item p) v).values =
      .ok (c.wouldUpdate (some v) Dict.empty) := by
    unfold CMM.determineWouldUpdate
    rw [show (Conf.ofFile (.item p) v).values = v from rfl, hres]
    simp
  simp only [hdet] at hview
  cases hb : c.wouldUpdate (some v) Dict.empty with
  | true =>
    rw [hb] at hview
    obtain ⟨_, h2⟩ := run_of_ref (CMM.reset_ref hi) hview
    refine ⟨Conf.ofFile (.item p) v, CM.walk_of_slot_conf (by rw [h2, View.setConf_slot_self]), ?_, ?_⟩
    · intro k x hk _; exact hk
    · intro _; rfl
  | false =>
    rw [hb] at hview
    obtain ⟨_, h2⟩ := run_of_ref (CMM.reset_ref hi) hview
    have hno : ∀ k x y, v.get? k = some x → c.values.get? k = some y → x = y := by
      intro k x y hx hy
      by_cases hxy : x = y
      · exact hxy
      · exfalso
        have : c.wouldUpdate (some v) Dict.empty = true := by
          rw [Conf.wouldUpdate_iff]
          refine ⟨k, x, y, by simpa using hx, hy, ?_⟩
          simpa using fun h => hxy h.symm
        rw [this] at hb; cases hb
    refine ⟨c, CM.walk_of_slot_conf (by rw [h2, View.setConf_slot_self]), ?_, ?_⟩
    · intro k x hk hmem
      obtain ⟨y, hy⟩ := Dict.get?_isSome_of_mem hmem
      rw [hy, hno k x y hk hy]
    · rintro ⟨k, x, y, h1, h3, h4⟩
      exact absurd (hno k x y h1 h3) h4

/-- C13, when the file cannot be loaded: the reset raises that error and changes nothing. -/
theorem C13_unreadable_file [BEq V] (s : CM V) (p : List String) (hp : ConfigItem s p) (e : PyErr)
    (hv : s.fs.read (.item p) = .error e) :
    (CMM.reset (some p) false s).1 = .error e ∧ (CMM.reset (some p) false s).2.view = s.view := by
  have hi := hp.isItem
  have hload : s.view.fs.load (.item p) = .error e := by
    unfold Files.load
    rw [show s.view.fs = s.fs from rfl, hv]
  have hview := CMM.vreset_item (a := s.view) hi.item
  rw [hload] at hview
  exact run_of_ref (CMM.reset_ref hi) hview

def demoUpdated : CM Nat :=
  demo.step (.update none (some ["main", "data", "func"]) true (Dict.ofList [("a", 7)]))

example : ∃ v c, FileGives demoUpdated ["main", "data", "func"] v ∧
    ownConfig demoUpdated ["main", "data", "func"] = .ok c ∧
    Conf.clash CMM.determineReserved v = false ∧ ∃ k x y, v.get? k = some x ∧ c.values.get? k = some y ∧ x ≠ y :=
  ⟨Dict.ofList [("a", 0), ("b", 0), ("c", 0)], _, rfl, rfl, by decide, "a", 0, 7, by decide, by decide, by decide⟩

/-- The state after `update(a=2, z=9)`, `update(a=0)` of an item whose file gives `a = 0`. -/
def demoBack : CM Nat :=
  (demo.step (.update none (some ["main", "data", "func"]) true (Dict.ofList [("a", 2), ("z", 9)]))).step
    (.update none (some ["main", "data", "func"]) true (Dict.ofList [("a", 0)]))

/-- C13 fails when every key that the file has was set back to the file's value: a key the
file does not have survives the reset and, being a recorded update, every later refresh. -/
theorem C13_extra_key_survives_violated :
    ∃ (s : CM Nat) (p : List String) (v : Dict String Nat) (c' : Conf Nat), s.Reachable ∧ ConfigItem s p ∧
      FileGives s p v ∧ v.get? "z" = none ∧
      (CMM.reset (some p) false s).2.walk p = .ok (.conf c') ∧ c'.values.get? "z" = some 9 ∧
      c'.applied.get? "z" = some 9 := by
  refine ⟨demoBack, ["main", "data", "func"], Dict.ofList [("a", 0), ("b", 0), ("c", 0)],
    ⟨Dict.ofList [("a", 0), ("b", 0), ("c", 0), ("z", 9)], Dict.ofList [("a", 0), ("z", 9)],
      some (.item ["main", "data", "func"])⟩, ?_, ?_, rfl, rfl, rfl, rfl, rfl⟩
  · exact (demo_reachable.step _ (by simp [CMOp.Valid])).step _ (by simp [CMOp.Valid])
  · exact ⟨by simp, by decide, .inl ⟨_, rfl⟩⟩

/-- C13 fails when the file assigns a name that is also a parameter of the function that
compares the configurations (`self`, `config_`, `section_path_str`, `d_`): the reset raises a
`TypeError` and the configuration stays as it was. -/
theorem C13_reserved_name_violated [BEq V] (s : CM V) (p : List String) (hp : ConfigItem s p)
    (v : Dict String V) (hv : FileGives s p v) (c : Conf V) (hc : ownConfig s p = .ok c)
    (hres : Conf.clash CMM.determineReserved v = true) :
    (CMM.reset (some p) false s).1 = .error .typeError ∧
    (CMM.reset (some p) false s).2.walk p = .ok (.conf c) := by
  have hi := hp.isItem
  rw [ownConfig_eq hp] at hc
  have hload : s.view.fs.load (.item p) = .ok (Conf.ofFile (.item p) v) := by
    unfold Files.load
    rw [show s.view.fs = s.fs from rfl, show s.fs.read (.item p) = _ from hv]
  have hview := CMM.vreset_item (a := s.view) hi.item
  rw [hload, hc] at hview
  have hdet : CMM.determineWouldUpdate c none (Conf.ofFile (.item p) v).values = .error .typeError := by
    unfold CMM.determineWouldUpdate
    rw [show (Conf.ofFile (.item p) v).values = v from rfl, hres]
    simp
  simp only [hdet] at hview
  obtain ⟨h1, h2⟩ := run_of_ref (CMM.reset_ref hi) hview
  exact ⟨h1, CM.walk_of_slot_conf (by rw [h2, View.setConf_slot_self])⟩

/-- C13 fails for sections that have a configuration: every reset of one raises, and changes
nothing. -/
theorem C13_section_reset_violated [BEq V] (s : CM V) (p : List String) (c : Conf V)
    (attrs map : List (String × Node V)) (hw : s.walk p = .ok (.sect (some c) attrs map)) (create : Bool) :
    (∃ e, (CMM.reset (some p) create s).1 = .error e) ∧ (CMM.reset (some p) create s).2 = s := by
  have hslot : s.view.slot p = .sect (some c) := by
    show Node.slotOf (s.walk p) = _
    rw [hw]; rfl
  show (∃ e, ((M.get >>= fun s => M.liftE (CMM.getDefault s p create) >>= fun value =>
    CMM.set p value create) s).1 = .error e) ∧ ((M.get >>= fun s => M.liftE (CMM.getDefault s p create) >>=
      fun value => CMM.set p value create) s).2 = s
  rw [M.bind_ok (M.get_run s), M.bind_run, M.liftE_run]
  cases hd : CMM.getDefault s p create with
  | error e => exact ⟨⟨e, rfl⟩, rfl⟩
  | ok value =>
    simp only
    have hsect : ∃ cfg a m, value = .sect cfg a m := by
      unfold CMM.getDefault CMM.defaultKind at hd
      rw [hw] at hd
      simp only at hd
      cases ht : s.fs.tree.at? p with
      | none => rw [ht] at hd; cases hd; exact ⟨_, _, _, rfl⟩
      | some t =>
        rw [ht] at hd
        obtain ⟨hasSection, files, dirs⟩ := t
        unfold fromFiles at hd
        simp only at hd
        split at hd
        · cases hd
        · split at hd
          · cases hd
          · cases hd; exact ⟨_, _, _, rfl⟩
    obtain ⟨cfg, a, m, rfl⟩ := hsect
    unfold CMM.set
    have hcur : M.tryCatch (CMM.getFuncOrSectionConfigs p)
        (fun e => if e = .keyError then pure none else M.raise e) s = (.ok (some c), s) := by
      unfold M.tryCatch
      rw [CMM.getFunc_sect hslot]
    rw [M.bind_ok hcur]
    exact ⟨⟨_, rfl⟩, rfl⟩

example : ∃ c attrs map, demo.walk ["main", "data"] = .ok (.sect (some c) attrs map) := ⟨_, _, _, rfl⟩

/-! ## C14 -/

/-- C14 fails in every reachable state: an update without a section path changes nothing at
all and reports no change, so that there never are any local values. -/
theorem C14_local_update_violated [BEq V] (s : CM V) (hs : s.Reachable) (d : Option (Dict String V))
    (persist : Bool) (kw : Dict String V) :
    (CMM.update d none persist kw s).2 = s ∧ s.localConf.values = Dict.empty ∧
    ∀ r, (CMM.update d none persist kw s).1 = .ok r → r.2 = false := by
  have hl : s.localConf.values = Dict.empty := by rw [hs.good.localConf]; rfl
  obtain ⟨h1, h2⟩ := CMM.update_local hl d persist kw
  exact ⟨h1, hl, fun r hr => by rw [h2 r hr]⟩

/-- The update is accepted, and lost. -/
example : ∃ r, (CMM.update none none true (Dict.ofList [("a", 5)]) demo).1 = .ok r ∧
    r.1.values.get? "a" = none := ⟨_, rfl, rfl⟩

/-! ## C15 -/

/-- The configuration of the item is in memory. -/
structure Loaded (s : CM V) (p : List String) : Prop where
  item : ConfigItem s p
  loaded : ∃ c, s.walk p = .ok (.conf c)

/-- Calls that should not look at the files: lookup, update and pop of loaded items. -/
inductive InMemory (s : CM V) : CMOp V → Prop where
  | get (p : List String) : Loaded s p → InMemory s (.get p)
  | update (d : Option (Dict String V)) (p : List String) (persist : Bool) (kw : Dict String V) :
    Loaded s p → InMemory s (.update d (some p) persist kw)
  | pop (key : String) (p : List String) : Loaded s p → InMemory s (.pop key (some p))

/-- What the caller of an operation sees. -/
inductive Seen (V : Type) where
  | got (r : Except PyErr (Option (Conf V)))
  | updated (r : Except PyErr (Conf V × Bool))
  | popped (r : Except PyErr V)
  | other

/-- What the caller sees when `op` happens in state `s`. -/
def see [BEq V] (s : CM V) : CMOp V → Seen V
  | .get p => .got (CMM.get p s).1
  | .update d p persist kw => .updated (CMM.update d p persist kw s).1
  | .pop key p => .popped (CMM.pop key p s).1
  | _ => .other

/-- The file edits among the operations. -/
def isEdit : CMOp V → Bool
  | .edit _ => true
  | _ => false

/-- Everything the caller sees during a history; file edits are not calls. -/
def trace [BEq V] : CM V → List (CMOp V) → List (Seen V)
  | _, [] => []
  | s, op :: ops => if isEdit op then trace (s.step op) ops else see s op :: trace (s.step op) ops

/-- Two states that differ only in the files (and in what is not visible along paths). -/
def SameMemory (s t : CM V) : Prop := ∃ fs, t.view = { s.view with fs := fs }

theorem Loaded.slot {s : CM V} {p : List String} (h : Loaded s p) : ∃ c, s.view.slot p = .conf c := by
  obtain ⟨c, hc⟩ := h.loaded
  exact ⟨c, by show Node.slotOf (s.walk p) = _; rw [hc]; rfl⟩

theorem Loaded.of_slot {s : CM V} {p : List String} (hne : p ≠ []) (hp : PlainPath s.rootName p) {c : Conf V}
    (h : s.view.slot p = .conf c) : Loaded s p :=
  ⟨.of_isItem ⟨hne, hp, by rw [h]; rfl⟩, c, CM.walk_of_slot_conf h⟩

theorem SameMemory.loaded {s t : CM V} (h : SameMemory s t) {p : List String} (hp : Loaded s p) : Loaded t p := by
  obtain ⟨fs, h⟩ := h
  obtain ⟨c, hc⟩ := hp.slot
  refine Loaded.of_slot hp.item.ne ?_ (c := c) ?_
  · rw [show t.rootName = s.rootName from congrArg View.rootName h]; exact hp.item.plain
  · rw [h]; exact hc

/-- Calls in memory see the same and do the same whatever the files are. -/
theorem inMemory_step [BEq V] {s t : CM V} (h : SameMemory s t) {op : CMOp V} (ho : InMemory s op) :
    see t op = see s op ∧ SameMemory (s.step op) (t.step op) ∧
    ∀ q, Loaded s q → Loaded (s.step op) q := by
  have hst := h
  obtain ⟨fs, h⟩ := h
  have hfin : ∀ (p : List String) (c : Conf V), Loaded s p → (s.step op).view = s.view.setConf p c →
      ∀ q, Loaded s q → Loaded (s.step op) q := by
    intro p c hp hv q hq
    obtain ⟨cq, hcq⟩ := hq.slot
    refine Loaded.of_slot hq.item.ne ?_ (c := if q = p then c else cq) ?_
    · rw [show (s.step op).rootName = s.rootName from congrArg View.rootName hv]; exact hq.item.plain
    · rw [hv]
      unfold View.setConf
      by_cases hqp : q = p <;> simp [hqp, hcq]
  cases ho with
  | get p hp =>
    obtain ⟨c, hc⟩ := hp.slot
    have hi := hp.item.isItem
    have hti := (hst.loaded hp).item.isItem
    have hown : s.view.own p = .ok c := by unfold View.own; rw [hc]
    have htown : t.view.own p = .ok c := by unfold View.own; rw [h]; simp only [hc]
    obtain ⟨h1, h2⟩ := CMM.get_of_own hi hown
    obtain ⟨h3, h4⟩ := CMM.get_of_own hti htown
    have hact : CMM.active t.view p c = CMM.active s.view p c := by
      apply CMM.active_congr
      · rw [h]
      · intro k _; rw [h]
    refine ⟨?_, ⟨fs, ?_⟩, hfin p _ hp h2⟩
    · simp only [see, h1, h3, hact]
    · show (CMM.get p t).2.view = { (CMM.get p s).2.view with fs := fs }
      rw [h2, h4, hact, h]; rfl
  | update d p persist kw hp =>
    obtain ⟨c, hc⟩ := hp.slot
    have hi := hp.item.isItem
    have hti := (hst.loaded hp).item.isItem
    have hown : s.view.own p = .ok c := by unfold View.own; rw [hc]
    have htown : t.view.own p = .ok c := by unfold View.own; rw [h]; simp only [hc]
    have hv := CMM.vupdate_item hi.item d persist kw
    have hvt := CMM.vupdate_item hti.item d persist kw
    rw [hown] at hv
    rw [htown] at hvt
    have key : ∃ r c', CMM.vupdate d p persist kw s.view = (r, s.view.setConf p c') ∧
        CMM.vupdate d p persist kw t.view = (r, t.view.setConf p c') := by
      rw [hv, hvt]
      simp only
      cases CMM.determineWouldUpdate c d kw with
      | error e => exact ⟨_, _, rfl, rfl⟩
      | ok b =>
        cases b
        · exact ⟨_, _, rfl, rfl⟩
        · simp only
          split
          · exact ⟨_, _, rfl, rfl⟩
          · exact ⟨_, _, rfl, rfl⟩
    obtain ⟨r, c', k1, k2⟩ := key
    obtain ⟨h1, h2⟩ := run_of_ref (CMM.update_ref hi d persist kw) k1
    obtain ⟨h3, h4⟩ := run_of_ref (CMM.update_ref hti d persist kw) k2
    refine ⟨?_, ⟨fs, ?_⟩, hfin p c' hp h2⟩
    · simp only [see, h1, h3]
    · show (CMM.update d (some p) persist kw t).2.view = { (CMM.update d (some p) persist kw s).2.view with fs := fs }
      rw [h2, h4, h]; rfl
  | pop key p hp =>
    obtain ⟨c, hc⟩ := hp.slot
    have hi := hp.item.isItem
    have hti := (hst.loaded hp).item.isItem
    have hown : s.view.own p = .ok c := by unfold View.own; rw [hc]
    have htown : t.view.own p = .ok c := by unfold View.own; rw [h]; simp only [hc]
    have hv := CMM.vpop_item hi.item key
    have hvt := CMM.vpop_item hti.item key
    rw [hown] at hv
    rw [htown] at hvt
    have key' : ∃ r c', CMM.vpop key p s.view = (r, s.view.setConf p c') ∧
        CMM.vpop key p t.view = (r, t.view.setConf p c') := by
      rw [hv, hvt]
      simp only
      cases c.values.get? key with
      | none => exact ⟨_, _, rfl, rfl⟩
      | some v => exact ⟨_, _, rfl, rfl⟩
    obtain ⟨r, c', k1, k2⟩ := key'
    obtain ⟨h1, h2⟩ := run_of_ref (CMM.pop_ref hi key) k1
    obtain ⟨h3, h4⟩ := run_of_ref (CMM.pop_ref hti key) k2
    refine ⟨?_, ⟨fs, ?_⟩, hfin p c' hp h2⟩
    · simp only [see, h1, h3]
    · show (CMM.pop key (some p) t).2.view = { (CMM.pop key (some p) s).2.view with fs := fs }
      rw [h2, h4, h]; rfl

theorem InMemory.not_edit {s : CM V} {op : CMOp V} (h : InMemory s op) : isEdit op = false := by
  cases h <;> rfl

theorem InMemory.mono {s t : CM V} (h : ∀ q, Loaded s q → Loaded t q) {op : CMOp V} (ho : InMemory s op) :
    InMemory t op := by
  cases ho with
  | get p hp => exact .get p (h p hp)
  | update d p persist kw hp => exact .update d p persist kw (h p hp)
  | pop key p hp => exact .pop key p (h p hp)

/-- C15: as long as only lookups, updates and pops of loaded items are called, edits of the
files make no difference to what the caller sees: the history with the edits left out shows
the same. -/
theorem C15_edits_not_visible [BEq V] (s : CM V) (ops : List (CMOp V))
    (hops : ∀ op ∈ ops, isEdit op = true ∨ InMemory s op) :
    trace s ops = trace s (ops.filter (fun op => !isEdit op)) := by
  have key : ∀ (ops : List (CMOp V)) (s t : CM V), SameMemory s t →
      (∀ op ∈ ops, isEdit op = true ∨ InMemory s op) →
      trace t ops = trace s (ops.filter (fun op => !isEdit op)) := by
    intro ops
    induction ops with
    | nil => intro s t _ _; rfl
    | cons op ops ih =>
      intro s t hst hops
      have hrest : ∀ o ∈ ops, isEdit o = true ∨ InMemory s o :=
        fun o ho => hops o (List.mem_cons_of_mem _ ho)
      by_cases he : isEdit op = true
      · rw [List.filter_cons_of_neg (by simp [he]), trace, if_pos he]
        apply ih _ _ _ hrest
        cases op with
        | edit fs' =>
          obtain ⟨fs, h⟩ := hst
          refine ⟨fs', ?_⟩
          show ({ t.view with fs := fs' } : View V) = _
          rw [h]
        | _ => cases he
      · have hm : InMemory s op := (hops op List.mem_cons_self).resolve_left he
        obtain ⟨h1, h2, h3⟩ := inMemory_step hst hm
        rw [List.filter_cons_of_pos (by simp [he]), trace, if_neg he, trace, if_neg he, h1,
          ih _ _ h2 (fun o ho => (hrest o ho).imp id (InMemory.mono h3))]
  exact key ops s s ⟨s.fs, rfl⟩ hops

/-- The hypotheses are met: an update, an edit and a lookup of a loaded item. -/
example : ∀ op ∈ ([.get ["main", "data", "func"], .edit { demoFiles with read := fun _ => .error .osError },
      .update none (some ["main", "data", "func"]) true (Dict.ofList [("a", 8)])] : List (CMOp Nat)),
    isEdit op = true ∨ InMemory demoUpdated op := by
  have hl : Loaded demoUpdated ["main", "data", "func"] :=
    ⟨⟨by simp, by decide, .inl ⟨_, rfl⟩⟩, _, rfl⟩
  intro op hop
  simp only [List.mem_cons, List.not_mem_nil, or_false] at hop
  rcases hop with rfl | rfl | rfl
  · exact .inr (.get _ hl)
  · exact .inl rfl
  · exact .inr (.update _ _ _ _ hl)

/-- C15, the edit becomes visible through refresh (missing: an edit that only adds keys, see
`C15_added_key_violated`): if the file now gives a different value for a key that the
configuration has and that was not updated, then after a successful refresh the configuration
has all the values of the file except for the updated keys. -/
theorem C15_refresh_reads_file_partial [DecidableEq V] (s : CM V) (hs : s.Reachable) (p : List String)
    (hp : Loaded s p) (c : Conf V) (hc : s.walk p = .ok (.conf c)) (v : Dict String V)
    (hv : FileGives s p v) (k : String) (x y : V) (hkv : v.get? k = some x) (hkc : c.values.get? k = some y)
    (hxy : x ≠ y) (hka : c.applied.get? k = none) (r) (hr : (CMM.refresh p s).1 = .ok r) :
    ∃ c', (CMM.refresh p s).2.walk p = .ok (.conf c') ∧
      ∀ k x, v.get? k = some x → c.applied.get? k = none → c'.values.get? k = some x := by
  have hi := hp.item.isItem
  have hslot : s.view.slot p = .conf c := by show Node.slotOf (s.walk p) = _; rw [hc]; rfl
  have hown : s.view.own p = .ok c := by unfold View.own; rw [hslot]
  have hcf := hs.good.ownFiles.own hi.plain hown
  have hload : s.view.fs.load (.item p) = .ok (Conf.ofFile (.item p) v) := by
    unfold Files.load
    rw [show s.view.fs = s.fs from rfl, show s.fs.read (.item p) = _ from hv]
  have hview := CMM.vrefresh_item (a := s.view) hi.item
  rw [hown] at hview
  simp only [hcf, hload] at hview
  have hvals : (Conf.ofFile (.item p) v).values = v := rfl
  rw [hvals] at hview
  have hch : ¬ (c.changeFromRefresh v).items.isEmpty = true := by
    have hw : c.wouldUpdate (some (v.update c.applied)) Dict.empty = true := by
      rw [Conf.wouldUpdate_iff]
      refine ⟨k, x, y, ?_, hkc, by simpa using fun h => hxy h.symm⟩
      simp [Dict.get?_update, hka, hkv]
    unfold Conf.changeFromRefresh
    simp only [hw, if_true]
    intro hemp
    have h0 : (v.update c.applied).get? k = some x := by simp [Dict.get?_update, hka, hkv]
    have : (v.update c.applied).items = [] := List.isEmpty_iff.1 hemp
    unfold Dict.get? at h0
    rw [this] at h0
    cases h0
  rw [if_neg hch] at hview
  cases href : c.refresh v with
  | error e =>
    rw [href] at hview
    obtain ⟨h1, _⟩ := run_of_ref (CMM.refresh_ref hi) hview
    rw [h1] at hr; cases hr
  | ok cu =>
    obtain ⟨c', u⟩ := cu
    rw [href] at hview
    obtain ⟨_, h2⟩ := run_of_ref (CMM.refresh_ref hi) hview
    refine ⟨c', CM.walk_of_slot_conf (by rw [h2, View.setConf_slot_self]), ?_⟩
    intro k x hk hka
    unfold Conf.refresh at href
    simp only at href
    split at href
    · cases href
    · cases href
      rw [Conf.get?_update_values]
      simp [Dict.get?_update, hka, hk]

/-- The file of `main.data.func` after someone adds `e = 5`. -/
def demoAdded : CM Nat := demoUpdated.step (.edit { demoFiles with
  read := fun
    | .item ["main", "data", "func"] => .ok (Dict.ofList [("a", 7), ("b", 0), ("c", 0), ("e", 5)])
    | l => demoFiles.read l })

/-- C15 fails for edits that only add a name: neither refresh nor reset of a loaded item brings
it in. -/
theorem C15_added_key_violated :
    ∃ (s : CM Nat) (p : List String) (v : Dict String Nat) (c c' : Conf Nat), s.Reachable ∧ Loaded s p ∧
      FileGives s p v ∧ v.get? "e" = some 5 ∧
      (CMM.refresh p s).2.walk p = .ok (.conf c) ∧ c.values.get? "e" = none ∧
      (CMM.reset (some p) false s).2.walk p = .ok (.conf c') ∧ c'.values.get? "e" = none := by
  refine ⟨demoAdded, ["main", "data", "func"], _, _, _, ?_, ?_, rfl, ?_, rfl, ?_, rfl, ?_⟩
  · exact (demo_reachable.step _ (by simp [CMOp.Valid])).step _ trivial
  · exact ⟨⟨by simp, by decide, .inl ⟨_, rfl⟩⟩, _, rfl⟩
  · rfl
  · rfl
  · rfl

end Verif.Props

import Verif.Lemmas.View

/-
Configs and the files they belong to; closed form of the inherited configuration.
-/

namespace Verif.Model
open Verif.Py
variable {V : Type}

/-- Every config belongs to the file at its own position. -/
structure OwnFiles (a : View V) : Prop where
  file : ∀ p l, a.slot p = .file l → PlainPath a.rootName p → l = .item p
  conf : ∀ p c, a.slot p = .conf c → PlainPath a.rootName p → c.file = some (.item p)
  sect : ∀ p c, a.slot p = .sect (some c) → PlainPath a.rootName p → c.file = some (.sect p)
  localConf : a.localConf.file = none

theorem Files.load_file {fs : Files V} {loc : FileLoc} {c : Conf V} (h : fs.load loc = .ok c) :
    c.file = some loc := by
  unfold Files.load at h
  cases hr : fs.read loc with
  | ok d => rw [hr] at h; simp at h; rw [← h]; rfl
  | error e => rw [hr] at h; simp at h

theorem Files.load_eq {fs : Files V} {loc : FileLoc} {c : Conf V} (h : fs.load loc = .ok c) :
    ∃ d, fs.read loc = .ok d ∧ c = Conf.ofFile loc d := by
  unfold Files.load at h
  cases hr : fs.read loc with
  | ok d => rw [hr] at h; simp at h; exact ⟨d, rfl, h.symm⟩
  | error e => rw [hr] at h; simp at h

namespace OwnFiles

theorem setConf {a : View V} (h : OwnFiles a) {p : List String} {c : Conf V}
    (hc : c.file = some (.item p)) : OwnFiles (a.setConf p c) := by
  refine ⟨?_, ?_, ?_, h.localConf⟩
  · intro q l hq hpl
    by_cases hqp : q = p
    · subst hqp; rw [View.setConf_slot_self] at hq; cases hq
    · rw [View.setConf_slot_ne _ _ hqp] at hq; exact h.file q l hq hpl
  · intro q l hq hpl
    by_cases hqp : q = p
    · subst hqp; rw [View.setConf_slot_self] at hq; cases hq; exact hc
    · rw [View.setConf_slot_ne _ _ hqp] at hq; exact h.conf q l hq hpl
  · intro q l hq hpl
    by_cases hqp : q = p
    · subst hqp; rw [View.setConf_slot_self] at hq; cases hq
    · rw [View.setConf_slot_ne _ _ hqp] at hq; exact h.sect q l hq hpl

theorem own {a : View V} (h : OwnFiles a) {p : List String} (hp : PlainPath a.rootName p) {c : Conf V}
    (hc : a.own p = .ok c) : c.file = some (.item p) := by
  unfold View.own at hc
  cases hs : a.slot p with
  | conf c' => rw [hs] at hc; cases hc; exact h.conf p _ hs hp
  | file l =>
    rw [hs] at hc
    have := h.file p l hs hp
    subst this
    exact Files.load_file hc
  | sect _ => simp [hs] at hc
  | absent => simp [hs] at hc

end OwnFiles

/-! ### A freshly loaded manager -/

theorem AList.get?_foldl_set {W : Type} (es : List (String × W)) (m : List (String × W)) (x : String) (v : W)
    (h : AList.get? (es.foldl (fun (m : List (String × W)) e => AList.set m e.1 e.2) m) x = some v) :
    (x, v) ∈ es ∨ AList.get? m x = some v := by
  induction es generalizing m with
  | nil => exact .inr h
  | cons e es ih =>
    rw [List.foldl_cons] at h
    rcases ih _ h with h | h
    · exact .inl (List.mem_cons_of_mem _ h)
    · rw [AList.get?_set] at h
      split at h
      · rename_i hx
        injection h with hv
        left
        rw [← hx, ← hv]
        exact List.mem_cons_self
      · exact .inr h

theorem fromFilesDirs_mem {fs : Files V} {p : List String} :
    ∀ {dirs : List (String × DirTree)} {ns : List (String × Node V)}, fromFilesDirs fs p dirs = .ok ns →
    ∀ x n, (x, n) ∈ ns → ∃ d, (x, d) ∈ dirs ∧ fromFiles fs (p ++ [x]) d = .ok n := by
  intro dirs
  induction dirs with
  | nil => intro ns h x n hx; simp [fromFilesDirs] at h; subst h; simp at hx
  | cons e ds ih =>
    obtain ⟨name, d⟩ := e
    intro ns h x n hx
    rw [fromFilesDirs] at h
    cases h1 : fromFiles fs (p ++ [name]) d with
    | error e => rw [h1] at h; simp at h
    | ok n1 =>
      rw [h1] at h
      cases h2 : fromFilesDirs fs p ds with
      | error e => rw [h2] at h; simp at h
      | ok ns' =>
        rw [h2] at h
        simp at h
        subst h
        rcases List.mem_cons.1 hx with hx | hx
        · cases hx; exact ⟨d, List.mem_cons_self, h1⟩
        · obtain ⟨d', hd', h'⟩ := ih h2 x n hx
          exact ⟨d', List.mem_cons_of_mem _ hd', h'⟩

/-- What a freshly loaded section shows: config files and sections with the config from
their own file. -/
def FreshSlot (p : List String) : Slot V → Prop
  | .conf _ => False
  | .file l => l = .item p
  | .sect (some c) => c.file = some (.sect p)
  | .sect none => True
  | .absent => True

theorem sectionConfig_file {fs : Files V} {p : List String} {b : Bool} {c : Conf V} (h : sectionConfig fs p b = .ok (some c)) :
    fs.load (.sect p) = .ok c ∧ c.file = some (.sect p) := by
  unfold sectionConfig at h
  split at h
  · cases hl : fs.load (.sect p) with
    | ok c' => rw [hl] at h; cases h; exact ⟨rfl, Files.load_file hl⟩
    | error e => rw [hl] at h; cases e <;> cases h
  · cases h

theorem fromFiles_fresh (fs : Files V) (q : List String) :
    ∀ (res nm) (pre : List String) (t : DirTree) (n : Node V), fromFiles fs pre t = .ok n → PlainPath nm q →
    FreshSlot (pre ++ q) (n.slot res nm q) := by
  induction q with
  | nil =>
    intro res nm pre t n h _
    obtain ⟨hasSection, files, dirs⟩ := t
    rw [fromFiles] at h
    simp only at h
    split at h
    · simp at h
    · rename_i cfg hcfg
      split at h
      · simp at h
      · simp at h
        subst h
        simp only [Node.slot, Node.walk, Node.slotOf, List.append_nil]
        cases cfg with
        | none => trivial
        | some c => exact (sectionConfig_file hcfg).2
  | cons x q ih =>
    intro res nm pre t n h hq
    obtain ⟨hasSection, files, dirs⟩ := t
    rw [fromFiles] at h
    simp only at h
    split at h
    · simp at h
    · rename_i cfg hcfg
      split at h
      · simp at h
      · rename_i sections hs
        simp at h
        subst h
        rw [Node.slot_cons, Node.child_sect _ _ _ _ _ hq.1]
        simp only [AList.get?]
        by_cases hres : x ∈ res
        · rw [if_pos hres]
          simp only [Node.slot_other]; trivial
        · rw [if_neg hres]
          cases hg : AList.get? (List.foldl (fun (m : List (String × Node V)) e => AList.set m e.1 e.2)
            (List.foldl (fun (m : List (String × Node V)) e => AList.set m e.1 e.2) []
              (List.map (fun f => (f, Node.file (FileLoc.item (pre ++ [f])))) files)) sections) x with
          | none => trivial
          | some n' =>
            simp only
            rcases AList.get?_foldl_set _ _ _ _ hg with hm | hg2
            · obtain ⟨d, _, hd⟩ := fromFilesDirs_mem hs x n' hm
              have := ih sectionReserved x (pre ++ [x]) d n' hd hq.2
              simpa using this
            · rcases AList.get?_foldl_set _ _ _ _ hg2 with hm | hg3
              · simp only [List.mem_map] at hm
                obtain ⟨f, _, hf⟩ := hm
                cases hf
                cases q with
                | nil => rfl
                | cons y q => rw [Node.slot_file_cons]; trivial
              · simp [AList.get?] at hg3

theorem CM.load_ownFiles {fs : Files V} {rootName : String} {s : CM V} (h : CM.load fs rootName = .ok s) :
    OwnFiles s.view := by
  unfold CM.load at h
  cases hf : fromFiles fs [] fs.tree with
  | error e => rw [hf] at h; simp at h
  | ok root =>
    rw [hf] at h
    simp at h
    subst h
    have key : ∀ p, PlainPath rootName p → FreshSlot p (Node.slot managerReserved rootName root p) := by
      intro p hp
      have := fromFiles_fresh fs p managerReserved rootName [] fs.tree root hf hp
      simpa using this
    refine ⟨?_, ?_, ?_, rfl⟩
    · intro p l hs hp
      have := key p hp
      simp only [CM.view] at hs
      rw [hs] at this; exact this
    · intro p l hs hp
      have := key p hp
      simp only [CM.view] at hs
      rw [hs] at this; exact this.elim
    · intro p l hs hp
      have := key p hp
      simp only [CM.view] at hs
      rw [hs] at this; exact this

/-- Nothing is loaded in a freshly loaded manager. -/
theorem CM.load_not_conf {fs : Files V} {rootName : String} {s : CM V} (h : CM.load fs rootName = .ok s)
    {p : List String} (hp : PlainPath rootName p) (c : Conf V) : s.view.slot p ≠ .conf c := by
  unfold CM.load at h
  cases hf : fromFiles fs [] fs.tree with
  | error e => rw [hf] at h; simp at h
  | ok root =>
    rw [hf] at h
    simp at h
    subst h
    have := fromFiles_fresh fs p managerReserved rootName [] fs.tree root hf hp
    intro hs
    simp only [CM.view] at hs
    rw [hs] at this
    exact this

/-! ### Inherited configuration -/

namespace CMM

/-- The values of a level; a section without config defines nothing. -/
def levelValues : Option (Conf V) → Dict String V
  | none => Dict.empty
  | some c => c.values

/-- The value of the last dictionary that defines a key. -/
def lastDef (k : String) : List (Dict String V) → Option V
  | [] => none
  | d :: ds => (lastDef k ds).or (d.get? k)

theorem lastDef_append (k : String) (ds es : List (Dict String V)) :
    lastDef k (ds ++ es) = (lastDef k es).or (lastDef k ds) := by
  induction ds with
  | nil => simp [lastDef]
  | cons d ds ih => simp [lastDef, ih, Option.or_assoc]

theorem applyLevel_file (c : Conf V) (l : Option (Conf V)) : (applyLevel c l).file = c.file := by
  unfold applyLevel
  cases l with
  | none => rfl
  | some l => dsimp only; split <;> rfl

theorem foldl_applyLevel_file (c : Conf V) (ls : List (Option (Conf V))) :
    (ls.foldl applyLevel c).file = c.file := by
  induction ls generalizing c with
  | nil => rfl
  | cons l ls ih => rw [List.foldl_cons, ih, applyLevel_file]

/-- A level from another file. -/
def OtherFile (f : Option FileLoc) (l : Option (Conf V)) : Prop :=
  ∀ c, l = some c → c.file = none ∨ c.file ≠ f

theorem applyLevel_eq {c : Conf V} {l : Option (Conf V)} (h : OtherFile c.file l) :
    applyLevel c l = c.update (some (levelValues l)) true Dict.empty := by
  unfold applyLevel
  cases l with
  | none => rfl
  | some l =>
    dsimp only
    have : ¬ (l.file.isSome = true ∧ l.file = c.file) := by
      rintro ⟨h1, h2⟩
      rcases h l rfl with h | h
      · rw [h] at h1; simp at h1
      · exact h h2
    rw [if_neg this]
    rfl

theorem foldl_applyLevel_values (c : Conf V) (ls : List (Option (Conf V)))
    (h : ∀ l ∈ ls, OtherFile c.file l) :
    (ls.foldl applyLevel c).values = (ls.map levelValues).foldl Dict.update c.values := by
  induction ls generalizing c with
  | nil => rfl
  | cons l ls ih =>
    rw [List.foldl_cons, List.map_cons, List.foldl_cons]
    rw [ih _ (fun l' hl' => by rw [applyLevel_file]; exact h l' (List.mem_cons_of_mem _ hl'))]
    rw [applyLevel_eq (h l List.mem_cons_self)]
    rfl

theorem foldl_applyLevel_applied (c : Conf V) (ls : List (Option (Conf V)))
    (h : ∀ l ∈ ls, OtherFile c.file l) :
    (ls.foldl applyLevel c).applied = (ls.map levelValues).foldl Dict.update c.applied := by
  induction ls generalizing c with
  | nil => rfl
  | cons l ls ih =>
    rw [List.foldl_cons, List.map_cons, List.foldl_cons]
    rw [ih _ (fun l' hl' => by rw [applyLevel_file]; exact h l' (List.mem_cons_of_mem _ hl'))]
    rw [applyLevel_eq (h l List.mem_cons_self)]
    rfl

theorem get?_foldl_update (d : Dict String V) (ds : List (Dict String V)) (k : String) :
    (ds.foldl Dict.update d).get? k = (lastDef k ds).or (d.get? k) := by
  induction ds generalizing d with
  | nil => simp [lastDef]
  | cons e ds ih =>
    rw [List.foldl_cons, ih, lastDef, Dict.get?_update, Option.or_assoc]

/-- The levels around an item come from other files than the item's. -/
theorem levels_otherFile {s : CM V} (ho : OwnFiles s.view) {p : List String} (hp : IsItem s p)
    {c : Conf V} (hc : c.file = some (.item p)) :
    ∀ l ∈ s.view.levels p ++ [some s.view.localConf], OtherFile c.file l := by
  intro l hl
  rw [List.mem_append] at hl
  rcases hl with hl | hl
  · simp only [View.levels, List.mem_map, List.mem_range] at hl
    obtain ⟨k, hk, hl⟩ := hl
    obtain ⟨cfg, hs⟩ := hp.prefix_sect hk
    have hpl : PlainPath s.rootName (p.take k) :=
      PlainPath.append_left (q := p.drop k) (by rw [List.take_append_drop]; exact hp.plain)
    simp only [View.sectCfg, hs] at hl
    subst hl
    intro c' hc'
    subst hc'
    right
    rw [ho.sect _ _ hs hpl, hc]
    simp
  · simp at hl
    subst hl
    intro c' hc'
    cases hc'
    exact .inl ho.localConf

end CMM
end Verif.Model

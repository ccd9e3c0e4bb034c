import Verif.Model.Objects
import Verif.Lemmas.SetAt
import Verif.Lemmas.Frame

/-
The objects of a config manager: what is found where, and what the changes of objects leave alone.
-/

namespace Verif.Model
open Verif.Py
variable {V : Type}

theorem notReserved_concat {res : List String} {q : List String} {x : String} :
    NotReserved res (q ++ [x]) ↔ NotReserved res q ∧ x ∉ (if q = [] then res else sectionReserved) := by
  induction q generalizing res with
  | nil => simp [NotReserved]
  | cons y q ih =>
    simp only [List.cons_append, NotReserved, ih, reduceCtorEq, if_false, and_assoc]
    by_cases h : q = [] <;> simp [h]

/-- The paths the property is about: no section in them has the name of the section around it, or that of an attribute. -/
def CleanPath (rn : String) (q : List String) : Prop := PlainPath rn q ∧ NotReserved managerReserved q

instance (rn q) : Decidable (CleanPath rn q) := inferInstanceAs (Decidable (_ ∧ _))

theorem CleanPath.nil (rn : String) : CleanPath rn [] := ⟨trivial, trivial⟩

theorem cleanPath_concat {rn : String} {q : List String} {x : String} : CleanPath rn (q ++ [x]) ↔
    CleanPath rn q ∧ x ≠ q.getLast?.getD rn ∧ x ∉ (if q = [] then managerReserved else sectionReserved) := by
  unfold CleanPath
  rw [Node.PlainPath_concat, notReserved_concat]
  constructor
  · rintro ⟨⟨a, b⟩, c, d⟩; exact ⟨⟨a, c⟩, b, d⟩
  · rintro ⟨⟨a, c⟩, b, d⟩; exact ⟨⟨a, b⟩, c, d⟩

theorem mem_managerReserved {x : String} (h : x ∉ managerReserved) : x ≠ "section" ∧ x ≠ "local_config" ∧
    x ∉ managerOther ∧ x ≠ "config" ∧ x ∉ sectionReserved := by
  simp only [managerReserved, managerOther, sectionReserved, List.mem_append, List.mem_cons, List.not_mem_nil, or_false,
    not_or] at h ⊢
  simp only [h, not_false_eq_true, ne_eq, and_self]

theorem mem_sectionReserved {x : String} (h : x ∉ sectionReserved) : x ≠ "config" := by
  intro hx; subst hx; exact h (by decide)

theorem snoc_induction {α : Type} {P : List α → Prop} (h0 : P []) (h1 : ∀ q x, P q → P (q ++ [x])) (q : List α) : P q := by
  have : ∀ r : List α, P r.reverse := by
    intro r
    induction r with
    | nil => exact h0
    | cons x r ih => rw [List.reverse_cons]; exact h1 _ _ ih
  rw [← List.reverse_reverse q]
  exact this _

namespace HS

/-- The step from an object to an object. -/
def child (s : HS V) (v : HVal) (x : String) : Option HVal :=
  match s.attr v x with
  | .ok (.ref r) => some (.ref r)
  | _ => none

/-- The object (or the manager) that a path leads to. -/
def find (s : HS V) (q : List String) : Option HVal :=
  match s.walk .mgr q with
  | .ok .mgr => some .mgr
  | .ok (.ref r) => some (.ref r)
  | _ => none

theorem walk_append (s : HS V) (v : HVal) (p q : List String) : s.walk v (p ++ q) =
    match s.walk v p with
    | .ok v' => s.walk v' q
    | .error e => .error e := by
  induction p generalizing v with
  | nil => rfl
  | cons x p ih =>
    simp only [List.cons_append, walk]
    cases s.attr v x with
    | error e => rfl
    | ok v' => exact ih v'

theorem sectAttr_ne_mgr {name cfg attrs map x} : sectAttr name cfg attrs map x ≠ .ok .mgr := by
  unfold sectAttr
  split
  · split <;> simp
  · split
    · simp
    · split
      · simp
      · split
        · split
          · simp
          · split <;> simp
        · simp
        · simp

theorem objAttr_ne_mgr {o : HObj V} {x} : objAttr o x ≠ .ok .mgr := by
  cases o with
  | sect => exact sectAttr_ne_mgr
  | conf c => unfold objAttr; dsimp only; split <;> simp
  | file l => simp [objAttr]

theorem attr_ne_mgr {s : HS V} {v : HVal} {x : String} : s.attr v x ≠ .ok .mgr := by
  unfold attr
  cases v with
  | mgr =>
    dsimp only
    split
    · simp
    · split
      · simp
      · split
        · simp
        · split
          · simp
          · split
            · exact objAttr_ne_mgr
            · simp
  | ref r =>
    dsimp only
    split
    · exact objAttr_ne_mgr
    · simp
  | none => simp
  | other => simp

theorem find_nil (s : HS V) : s.find [] = some .mgr := rfl

theorem find_concat (s : HS V) (q : List String) (x : String) : s.find (q ++ [x]) =
    match s.find q with
    | some v => s.child v x
    | none => none := by
  unfold find
  rw [walk_append]
  have key : ∀ v : HVal, (match s.walk v [x] with
      | .ok .mgr => some HVal.mgr
      | .ok (.ref r) => some (.ref r)
      | _ => none) = s.child v x := by
    intro v
    unfold child
    simp only [walk]
    cases h : s.attr v x with
    | error e => rfl
    | ok v' =>
      cases v' with
      | mgr => exact absurd h attr_ne_mgr
      | ref r => rfl
      | none => rfl
      | other => rfl
  cases h : s.walk .mgr q with
  | error e => rfl
  | ok v =>
    dsimp only
    cases v with
    | mgr => exact key _
    | ref r => exact key _
    | none => rfl
    | other => rfl

/-- What a section gives under a clean name. -/
def sectChild (attrs map : List (String × Nat)) (x : String) : Option HVal :=
  match AList.get? attrs x with
  | some r => some (.ref r)
  | none => match AList.get? map x with
    | some r => some (.ref r)
    | none => none

theorem child_sect {s : HS V} {r : Nat} {nm cfg attrs map} (h : s.heap[r]? = some (.sect nm cfg attrs map)) {x : String}
    (hx : x ≠ nm) (hr : x ∉ sectionReserved) : s.child (.ref r) x = sectChild attrs map x := by
  unfold child attr obj
  simp only [h, objAttr, sectAttr]
  rw [if_neg (mem_sectionReserved hr), if_neg hr]
  unfold sectChild
  cases AList.get? attrs x with
  | some r' => rfl
  | none =>
    cases cfg with
    | none => cases AList.get? map x <;> rfl
    | some c =>
      simp only [if_neg hx]
      cases AList.get? map x <;> rfl

theorem child_mgr {s : HS V} {nm cfg attrs map} (h : s.heap[s.section_]? = some (.sect nm cfg attrs map)) {x : String}
    (hx : x ≠ nm) (hr : x ∉ managerReserved) : s.child .mgr x =
      match AList.get? s.attrs x with
      | some r => some (.ref r)
      | none => sectChild attrs map x := by
  obtain ⟨h1, h2, h3, h4, h5⟩ := mem_managerReserved hr
  have hc := child_sect h hx h5
  unfold child attr at hc ⊢
  dsimp only at hc ⊢
  rw [if_neg h1, if_neg h2, if_neg h3]
  cases AList.get? s.attrs x with
  | some r => rfl
  | none => exact hc

theorem child_conf {s : HS V} {r : Nat} {c : Conf V} (h : s.heap[r]? = some (.conf c)) (x : String) :
    s.child (.ref r) x = none := by
  unfold child attr obj
  simp only [h, objAttr]
  cases c.getattr x <;> rfl

theorem child_file {s : HS V} {r : Nat} {l} (h : s.heap[r]? = some (.file l)) (x : String) :
    s.child (.ref r) x = none := by
  unfold child attr obj
  simp only [h, objAttr]

/-- The attribute `config` of the section at an address. -/
def cfgOf (s : HS V) (r : Nat) : Option Nat :=
  match s.heap[r]? with
  | some (.sect _ cfg _ _) => cfg
  | _ => none

end HS

/-- The places where objects are: items and sections by path, the configs of sections, the project's section and the local
config. -/
inductive Place where
  | item (q : List String)
  | cfg (q : List String)
  | root
  | loc
deriving DecidableEq

/-- Places at clean paths. -/
def Place.Clean (rn : String) : Place → Prop
  | .item q => CleanPath rn q
  | .cfg q => CleanPath rn q
  | .root => True
  | .loc => True

/-- The object at a place. -/
def HS.place (s : HS V) : Place → Option Nat
  | .item q => match s.find q with
    | some (.ref r) => some r
    | _ => none
  | .cfg q => match s.find q with
    | some .mgr => s.cfgOf s.section_
    | some (.ref r) => s.cfgOf r
    | _ => none
  | .root => some s.section_
  | .loc => some s.localConf

/-- Every place has an object of its own, of the right kind. -/
structure HInv (s : HS V) : Prop where
  bound : ∀ a r, a.Clean s.rootName → s.place a = some r → r < s.heap.length
  inj : ∀ a b r, a.Clean s.rootName → b.Clean s.rootName → s.place a = some r → s.place b = some r → a = b
  root : ∃ cfg attrs map, s.heap[s.section_]? = some (.sect s.rootName cfg attrs map)
  loc : ∃ c, s.heap[s.localConf]? = some (.conf c)
  cfg : ∀ q r, CleanPath s.rootName q → s.place (.cfg q) = some r → ∃ c, s.heap[r]? = some (.conf c)
  name : ∀ q r nm cfg attrs map, CleanPath s.rootName q → s.find q = some (.ref r) →
    s.heap[r]? = some (.sect nm cfg attrs map) → nm = q.getLast?.getD s.rootName

namespace HInv
variable {s : HS V}

theorem find_bound (hi : HInv s) {q : List String} (hq : CleanPath s.rootName q) {r : Nat}
    (h : s.find q = some (.ref r)) : r < s.heap.length :=
  hi.bound (.item q) r hq (by simp [HS.place, h])

theorem find_inj (hi : HInv s) {p q : List String} (hp : CleanPath s.rootName p) (hq : CleanPath s.rootName q) {r : Nat}
    (h : s.find p = some (.ref r)) (h' : s.find q = some (.ref r)) : p = q := by
  have := hi.inj (.item p) (.item q) r hp hq (by simp [HS.place, h]) (by simp [HS.place, h'])
  cases this; rfl

theorem find_ne_root (hi : HInv s) {p : List String} (hp : CleanPath s.rootName p) {r : Nat}
    (h : s.find p = some (.ref r)) : r ≠ s.section_ := by
  intro hr
  have := hi.inj (.item p) .root r hp trivial (by simp [HS.place, h]) (by simp [HS.place, hr])
  cases this

end HInv

theorem find_mgr {s : HS V} {q : List String} (h : s.find q = some .mgr) : q = [] := by
  revert h
  induction q using snoc_induction with
  | h0 => intro _; rfl
  | h1 q x ih =>
    intro h
    rw [HS.find_concat] at h
    split at h
    · unfold HS.child at h
      split at h <;> simp at h
    · simp at h

/-- The children of the objects at clean places, in a state that differs at the given addresses only. -/
theorem child_eq {s s' : HS V} (hi : HInv s) {v : HVal} {q : List String} {x : String} (hq : CleanPath s.rootName (q ++ [x]))
    (hv : s.find q = some v) (hattrs : q = [] → AList.get? s'.attrs x = AList.get? s.attrs x)
    (hsec : s'.section_ = s.section_)
    (hh : ∀ r, (v = .ref r ∨ v = .mgr ∧ r = s.section_) →
      (s'.heap[r]? = s.heap[r]? ∨
        ∃ nm cfg cfg' attrs attrs' map, s.heap[r]? = some (.sect nm cfg attrs map) ∧
          s'.heap[r]? = some (.sect nm cfg' attrs' map) ∧ AList.get? attrs' x = AList.get? attrs x) ∨
        (∃ c, s.heap[r]? = some (.conf c)) ∧ (∃ c, s'.heap[r]? = some (.conf c))) :
    s'.child v x = s.child v x := by
  obtain ⟨hq0, hx, hr⟩ := cleanPath_concat.1 hq
  cases v with
  | mgr =>
    have hq' := find_mgr hv
    subst hq'
    simp only [if_true, List.getLast?_nil, Option.getD_none] at hr hx
    obtain ⟨cfg, attrs, map, hs⟩ := hi.root
    rw [HS.child_mgr hs hx hr]
    rcases hh s.section_ (.inr ⟨rfl, rfl⟩) with (h | ⟨nm, c1, c2, a1, a2, m, h1, h2, h3⟩) | ⟨⟨c, h1⟩, c', h2⟩
    · rw [HS.child_mgr (by rw [hsec, h]; exact hs) hx hr, hattrs rfl]
    · rw [h1] at hs
      injection hs with hs
      injection hs with e1 e2 e3 e4
      subst e1; subst e3; subst e4
      rw [HS.child_mgr (by rw [hsec]; exact h2) hx hr, hattrs rfl]
      unfold HS.sectChild
      rw [h3]
    · rw [h1] at hs; cases hs
  | ref r =>
    have hr' : x ∉ sectionReserved := by
      by_cases hqn : q = []
      · subst hqn; rw [HS.find_nil] at hv; cases hv
      · rw [if_neg hqn] at hr; exact hr
    have hb := hi.find_bound hq0 hv
    have ho : s.heap[r]? = some (s.heap[r]'hb) := List.getElem?_eq_getElem hb
    rcases hh r (.inl rfl) with (h | ⟨nm, c1, c2, a1, a2, m, h1, h2, h3⟩) | ⟨⟨c, h1⟩, c', h2⟩
    · cases hobj : s.heap[r]'hb with
      | conf c => rw [hobj] at ho; rw [HS.child_conf ho, HS.child_conf (h.trans ho)]
      | file l => rw [hobj] at ho; rw [HS.child_file ho, HS.child_file (h.trans ho)]
      | sect nm cfg attrs map =>
        rw [hobj] at ho
        have hn := hi.name q r nm cfg attrs map hq0 hv ho
        rw [HS.child_sect ho (hn ▸ hx) hr', HS.child_sect (h.trans ho) (hn ▸ hx) hr']
    · have hn := hi.name q r _ _ _ _ hq0 hv h1
      rw [HS.child_sect h1 (hn ▸ hx) hr', HS.child_sect h2 (hn ▸ hx) hr']
      unfold HS.sectChild
      rw [h3]
    · rw [HS.child_conf h1, HS.child_conf h2]
  | none => rfl
  | other => rfl


/-! ### What is where -/

namespace HS

/-- The config at an address. -/
def confAt (s : HS V) (r : Nat) : Option (Conf V) :=
  match s.heap[r]? with
  | some (.conf c) => some c
  | _ => none

/-- What is at an address. -/
def slotAt (s : HS V) (r : Nat) : Slot V :=
  match s.heap[r]? with
  | some (.conf c) => .conf c
  | some (.file l) => .file l
  | some (.sect _ cfg _ _) => .sect (cfg.bind s.confAt)
  | none => .absent

/-- What a path leads to. -/
def hslot (s : HS V) (q : List String) : Slot V :=
  match s.find q with
  | some .mgr => s.slotAt s.section_
  | some (.ref r) => s.slotAt r
  | _ => .absent

/-- A config or a config file. -/
def Leaf (s : HS V) (r : Nat) : Prop := (∃ c, s.heap[r]? = some (.conf c)) ∨ ∃ l, s.heap[r]? = some (.file l)

theorem Leaf.child {s : HS V} {r : Nat} (h : s.Leaf r) (x : String) : s.child (.ref r) x = none := by
  rcases h with ⟨c, h⟩ | ⟨l, h⟩
  · exact child_conf h x
  · exact child_file h x

theorem Leaf.cfgOf {s : HS V} {r : Nat} (h : s.Leaf r) : s.cfgOf r = none := by
  unfold HS.cfgOf
  rcases h with ⟨c, h⟩ | ⟨l, h⟩ <;> rw [h]

theorem sect_of_child {s : HS V} {r : Nat} {x : String} {v : HVal} (h : s.child (.ref r) x = some v) :
    ∃ nm cfg attrs map, s.heap[r]? = some (.sect nm cfg attrs map) := by
  cases ho : s.heap[r]? with
  | none => unfold child attr obj at h; simp only [ho] at h; cases h
  | some o =>
    cases o with
    | conf c => rw [child_conf ho] at h; cases h
    | file l => rw [child_file ho] at h; cases h
    | sect nm cfg attrs map => exact ⟨nm, cfg, attrs, map, rfl⟩

end HS

/-- Objects are what they were, apart from the contents of configs and the attributes of sections. -/
def HS.Similar (s s' : HS V) (r : Nat) : Prop :=
  (s'.heap[r]? = s.heap[r]? ∨
    ∃ nm cfg attrs attrs' map, s.heap[r]? = some (.sect nm cfg attrs map) ∧ s'.heap[r]? = some (.sect nm cfg attrs' map)) ∨
    (∃ c, s.heap[r]? = some (.conf c)) ∧ (∃ c, s'.heap[r]? = some (.conf c))

theorem HS.Similar.cfgOf {s s' : HS V} {r : Nat} (h : s.Similar s' r) : s'.cfgOf r = s.cfgOf r := by
  unfold HS.cfgOf
  rcases h with (h | ⟨nm, c1, a1, a2, m, h1, h2⟩) | ⟨⟨c, h1⟩, c', h2⟩
  · rw [h]
  · rw [h1, h2]
  · rw [h1, h2]

theorem HS.Similar.conf {s s' : HS V} {r : Nat} (h : s.Similar s' r) (hc : ∃ c, s.heap[r]? = some (.conf c)) :
    ∃ c, s'.heap[r]? = some (.conf c) := by
  obtain ⟨c0, hc⟩ := hc
  rcases h with (h | ⟨nm, c1, a1, a2, m, h1, h2⟩) | ⟨⟨c, h1⟩, c', h2⟩
  · exact ⟨c0, h.trans hc⟩
  · rw [h1] at hc; cases hc
  · exact ⟨c', h2⟩

theorem HS.Similar.sect {s s' : HS V} {r : Nat} (h : s.Similar s' r) {nm cfg attrs map}
    (hc : s'.heap[r]? = some (.sect nm cfg attrs map)) : ∃ attrs, s.heap[r]? = some (.sect nm cfg attrs map) := by
  rcases h with (h | ⟨nm', c1, a1, a2, m, h1, h2⟩) | ⟨⟨c, h1⟩, c', h2⟩
  · exact ⟨attrs, h ▸ hc⟩
  · rw [h2] at hc
    injection hc with hc
    injection hc with e1 e2 e3 e4
    subst e1; subst e2; subst e4
    exact ⟨_, h1⟩
  · rw [h2] at hc; cases hc

/-- The object at the place of a leaf is another one now, all else is where it was. -/
structure HS.Moved (s s' : HS V) (p : List String) (r' : Nat) : Prop where
  rootName : s'.rootName = s.rootName
  section_ : s'.section_ = s.section_
  localConf : s'.localConf = s.localConf
  length : s.heap.length ≤ s'.heap.length
  similar : ∀ r, r < s.heap.length → s.Similar s' r
  find : ∀ q, CleanPath s.rootName q → s'.find q = if q = p then some (.ref r') else s.find q
  old : ∃ r, s.find p = some (.ref r) ∧ s.Leaf r
  new : s'.Leaf r'
  clean : CleanPath s.rootName p

namespace HS.Moved
variable {s s' : HS V} {p : List String} {r' : Nat}

theorem place (h : s.Moved s' p r') (hi : HInv s) (a : Place) (ha : a.Clean s.rootName) :
    s'.place a = if a = .item p then some r' else s.place a := by
  cases a with
  | item q =>
    simp only [HS.place, h.find q ha, Place.item.injEq]
    by_cases hq : q = p
    · rw [if_pos hq, if_pos hq]
    · rw [if_neg hq, if_neg hq]
  | cfg q =>
    simp only [HS.place, h.find q ha, reduceCtorEq, if_false]
    by_cases hq : q = p
    · subst hq
      obtain ⟨r, hr, hl⟩ := h.old
      rw [if_pos rfl, hr]
      simp only
      rw [h.new.cfgOf, hl.cfgOf]
    · rw [if_neg hq]
      cases hf : s.find q with
      | none => rfl
      | some v =>
        cases v with
        | mgr =>
          simp only
          rw [h.section_]
          exact (h.similar _ (hi.bound .root _ trivial rfl)).cfgOf
        | ref r => exact (h.similar _ (hi.find_bound ha hf)).cfgOf
        | none => rfl
        | other => rfl
  | root => simp [HS.place, h.section_]
  | loc => simp [HS.place, h.localConf]

theorem inv (h : s.Moved s' p r') (hi : HInv s) (hfree : ∀ a, a.Clean s.rootName → s.place a = some r' → a = .item p) :
    HInv s' := by
  have hb : r' < s'.heap.length := by
    rcases h.new with ⟨c, hc⟩ | ⟨c, hc⟩ <;> exact (List.getElem?_eq_some_iff.1 hc).1
  refine ⟨?_, ?_, ?_, ?_, ?_, ?_⟩
  · intro a r ha hp
    rw [h.rootName] at ha
    rw [h.place hi a ha] at hp
    split at hp
    · cases hp; exact hb
    · exact Nat.lt_of_lt_of_le (hi.bound a r ha hp) h.length
  · intro a b r ha hb' hpa hpb
    rw [h.rootName] at ha hb'
    rw [h.place hi a ha] at hpa
    rw [h.place hi b hb'] at hpb
    by_cases h1 : a = .item p
    · by_cases h2 : b = .item p
      · rw [h1, h2]
      · rw [if_pos h1] at hpa; rw [if_neg h2] at hpb
        cases hpa
        exact absurd (hfree b hb' hpb) h2
    · by_cases h2 : b = .item p
      · rw [if_neg h1] at hpa; rw [if_pos h2] at hpb
        cases hpb
        exact absurd (hfree a ha hpa) h1
      · rw [if_neg h1] at hpa; rw [if_neg h2] at hpb
        exact hi.inj a b r ha hb' hpa hpb
  · obtain ⟨cfg, attrs, map, hr⟩ := hi.root
    rw [h.section_, h.rootName]
    rcases h.similar s.section_ (hi.bound .root _ trivial rfl) with (hs | ⟨nm, c1, a1, a2, m, h1, h2⟩) | ⟨⟨c, h1⟩, c', h2⟩
    · exact ⟨cfg, attrs, map, hs.trans hr⟩
    · rw [h1] at hr
      injection hr with hr
      injection hr with e1
      subst e1
      exact ⟨_, _, _, h2⟩
    · rw [h1] at hr; cases hr
  · rw [h.localConf]
    exact (h.similar _ (hi.bound .loc _ trivial rfl)).conf hi.loc
  · intro q r hq hp
    rw [h.rootName] at hq
    rw [h.place hi (.cfg q) hq, if_neg (by simp)] at hp
    exact (h.similar _ (hi.bound (.cfg q) r hq hp)).conf (hi.cfg q r hq hp)
  · intro q r nm cfg attrs map hq hf ho
    rw [h.rootName] at hq ⊢
    rw [h.find q hq] at hf
    split at hf
    · cases hf
      rcases h.new with ⟨c, hc⟩ | ⟨c, hc⟩ <;> (rw [hc] at ho; cases ho)
    · obtain ⟨a, ha⟩ := (h.similar _ (hi.find_bound hq hf)).sect ho
      exact hi.name q r nm cfg a map hq hf ha

end HS.Moved

/-- Nothing is elsewhere than it was. -/
structure HS.Kept (s s' : HS V) : Prop where
  rootName : s'.rootName = s.rootName
  section_ : s'.section_ = s.section_
  length : s.heap.length ≤ s'.heap.length
  similar : ∀ r, r < s.heap.length → s.Similar s' r
  find : ∀ q, CleanPath s.rootName q → s'.find q = s.find q

namespace HS.Kept
variable {s s' : HS V}

theorem place (h : s.Kept s') (hi : HInv s) (a : Place) (ha : a.Clean s.rootName) (hl : a ≠ .loc) :
    s'.place a = s.place a := by
  cases a with
  | item q => simp only [HS.place, h.find q ha]
  | cfg q =>
    simp only [HS.place, h.find q ha]
    cases hf : s.find q with
    | none => rfl
    | some v =>
      cases v with
      | mgr =>
        simp only
        rw [h.section_]
        exact (h.similar _ (hi.bound .root _ trivial rfl)).cfgOf
      | ref r => exact (h.similar _ (hi.find_bound ha hf)).cfgOf
      | none => rfl
      | other => rfl
  | root => simp [HS.place, h.section_]
  | loc => exact absurd rfl hl

theorem inv (h : s.Kept s') (hi : HInv s) (hl : s'.localConf = s.localConf ∨ s.heap.length ≤ s'.localConf)
    (hc : ∃ c, s'.heap[s'.localConf]? = some (.conf c)) : HInv s' := by
  refine ⟨?_, ?_, ?_, hc, ?_, ?_⟩
  · intro a r ha hp
    rw [h.rootName] at ha
    by_cases hloc : a = .loc
    · subst hloc
      cases hp
      obtain ⟨c, hc⟩ := hc
      exact (List.getElem?_eq_some_iff.1 hc).1
    · rw [h.place hi a ha hloc] at hp
      exact Nat.lt_of_lt_of_le (hi.bound a r ha hp) h.length
  · intro a b r ha hb hpa hpb
    rw [h.rootName] at ha hb
    have key : ∀ b : Place, b.Clean s.rootName → b ≠ .loc → s'.place b ≠ some s'.localConf := by
      intro b hb hbl hpb
      rw [h.place hi b hb hbl] at hpb
      rcases hl with hl | hl
      · rw [hl] at hpb
        exact hbl (hi.inj b .loc _ hb trivial hpb rfl)
      · have := hi.bound b _ hb hpb
        omega
    by_cases h1 : a = .loc
    · by_cases h2 : b = .loc
      · rw [h1, h2]
      · subst h1; cases hpa; exact absurd hpb (key b hb h2)
    · by_cases h2 : b = .loc
      · subst h2; cases hpb; exact absurd hpa (key a ha h1)
      · rw [h.place hi a ha h1] at hpa
        rw [h.place hi b hb h2] at hpb
        exact hi.inj a b r ha hb hpa hpb
  · obtain ⟨cfg, attrs, map, hr⟩ := hi.root
    rw [h.section_, h.rootName]
    rcases h.similar s.section_ (hi.bound .root _ trivial rfl) with (hs | ⟨nm, c1, a1, a2, m, h1, h2⟩) | ⟨⟨c, h1⟩, c', h2⟩
    · exact ⟨cfg, attrs, map, hs.trans hr⟩
    · rw [h1] at hr
      injection hr with hr
      injection hr with e1
      subst e1
      exact ⟨_, _, _, h2⟩
    · rw [h1] at hr; cases hr
  · intro q r hq hp
    rw [h.rootName] at hq
    rw [h.place hi (.cfg q) hq (by simp)] at hp
    exact (h.similar _ (hi.bound (.cfg q) r hq hp)).conf (hi.cfg q r hq hp)
  · intro q r nm cfg attrs map hq hf ho
    rw [h.rootName] at hq ⊢
    rw [h.find q hq] at hf
    obtain ⟨a, ha⟩ := (h.similar _ (hi.find_bound hq hf)).sect ho
    exact hi.name q r nm cfg a map hq hf ha

end HS.Kept

/-- Objects that are added, or whose contents change, change nothing about what is where. -/
theorem HS.kept_of_heap {s s' : HS V} (hi : HInv s) (h1 : s'.rootName = s.rootName) (h2 : s'.section_ = s.section_)
    (h3 : s'.attrs = s.attrs) (h4 : s.heap.length ≤ s'.heap.length)
    (h5 : ∀ r, r < s.heap.length → s'.heap[r]? = s.heap[r]? ∨
      (∃ c, s.heap[r]? = some (.conf c)) ∧ (∃ c, s'.heap[r]? = some (.conf c))) : s.Kept s' := by
  refine ⟨h1, h2, h4, ?_, ?_⟩
  · intro r hr
    rcases h5 r hr with h | h
    · exact .inl (.inl h)
    · exact .inr h
  · intro q
    induction q using snoc_induction with
    | h0 => intro _; rfl
    | h1 q x ih =>
      intro hq
      have hq0 := (cleanPath_concat.1 hq).1
      rw [HS.find_concat, HS.find_concat, ih hq0]
      cases hf : s.find q with
      | none => rfl
      | some v =>
        simp only
        refine child_eq hi hq hf (fun _ => by rw [h3]) h2 ?_
        intro r hr
        have hb : r < s.heap.length := by
          rcases hr with hr | ⟨_, hr⟩
          · subst hr; exact hi.find_bound hq0 hf
          · subst hr; exact hi.bound .root _ trivial rfl
        rcases h5 r hb with h | h
        · exact .inl (.inl h)
        · exact .inr h

theorem HS.Kept.refl (s : HS V) : s.Kept s := ⟨rfl, rfl, Nat.le_refl _, fun _ _ => .inl (.inl rfl), fun _ _ => rfl⟩

/-- A new object. -/
theorem HS.kept_alloc {s : HS V} (hi : HInv s) (h : List (HObj V)) : s.Kept { s with heap := s.heap ++ h } := by
  refine HS.kept_of_heap hi rfl rfl rfl (by simp) ?_
  intro r hr
  exact .inl (by simp [List.getElem?_append_left hr])

theorem HS.write_get (s : HS V) (r : Nat) (c : Conf V) (hb : r < s.heap.length) (k : Nat) :
    (s.write r c).heap[k]? = if k = r then some (.conf c) else s.heap[k]? := by
  unfold HS.write
  simp only [List.getElem?_set]
  by_cases h : k = r
  · subst h; simp [hb]
  · rw [if_neg h, if_neg (fun e => h e.symm)]

/-- Another content of a config. -/
theorem HS.kept_write {s : HS V} (hi : HInv s) {r : Nat} {c0 : Conf V} (h : s.heap[r]? = some (.conf c0)) (c : Conf V) :
    s.Kept (s.write r c) := by
  have hb : r < s.heap.length := (List.getElem?_eq_some_iff.1 h).1
  refine HS.kept_of_heap hi rfl rfl rfl (by simp [HS.write]) ?_
  intro k _
  rw [HS.write_get s r c hb k]
  by_cases hk : k = r
  · subst hk; exact .inr ⟨⟨_, h⟩, c, if_pos rfl⟩
  · exact .inl (if_neg hk)

/-- Storing another leaf at the place of a leaf. -/
theorem HS.moved_setattr {s : HS V} (hi : HInv s) {q : List String} {x : String} (hp : CleanPath s.rootName (q ++ [x]))
    {r r' : Nat} (hf : s.find (q ++ [x]) = some (.ref r)) (hl : s.Leaf r) (hl' : s.Leaf r') {v : HVal}
    (hv : s.find q = some v) : s.Moved (s.setattr v x r') (q ++ [x]) r' := by
  obtain ⟨hq, hx, hr⟩ := cleanPath_concat.1 hp
  -- what the section or the manager is
  have hform : (v = .mgr ∧ q = [] ∧ s.setattr v x r' = { s with attrs := AList.set s.attrs x r' }) ∨
      ∃ k nm cfg attrs map, v = .ref k ∧ q ≠ [] ∧ s.heap[k]? = some (.sect nm cfg attrs map) ∧ x ≠ nm ∧
        s.setattr v x r' = { s with heap := s.heap.set k (.sect nm cfg (AList.set attrs x r') map) } := by
    cases v with
    | mgr =>
      have hq' := find_mgr hv
      subst hq'
      simp only [if_true] at hr
      obtain ⟨h1, h2, -⟩ := mem_managerReserved hr
      refine .inl ⟨rfl, rfl, ?_⟩
      unfold HS.setattr
      simp only
      rw [if_neg h1, if_neg h2]
    | ref k =>
      have hqn : q ≠ [] := by intro h; subst h; rw [HS.find_nil] at hv; cases hv
      rw [if_neg hqn] at hr
      rw [HS.find_concat, hv] at hf
      obtain ⟨nm, cfg, attrs, map, ho⟩ := HS.sect_of_child hf
      refine .inr ⟨k, nm, cfg, attrs, map, rfl, hqn, ho, hi.name q k nm cfg attrs map hq hv ho ▸ hx, ?_⟩
      unfold HS.setattr
      simp only [ho]
      rw [if_neg (mem_sectionReserved hr)]
    | none => rw [HS.find_concat, hv] at hf; cases hf
    | other => rw [HS.find_concat, hv] at hf; cases hf
  have hsim : ∀ k, s.Similar (s.setattr v x r') k := by
    intro k
    rcases hform with ⟨-, -, he⟩ | ⟨k0, nm, cfg, attrs, map, -, -, ho, -, he⟩
    · rw [he]; exact .inl (.inl rfl)
    · rw [he]
      by_cases hk : k = k0
      · subst hk
        exact .inl (.inr ⟨nm, cfg, attrs, _, map, ho, by
          simp [(List.getElem?_eq_some_iff.1 ho).1]; rfl⟩)
      · exact .inl (.inl (List.getElem?_set_ne (fun e => hk (Eq.symm e))))
  have hrest : (s.setattr v x r').rootName = s.rootName ∧ (s.setattr v x r').section_ = s.section_ ∧
      (s.setattr v x r').localConf = s.localConf ∧ (s.setattr v x r').heap.length = s.heap.length := by
    rcases hform with ⟨-, -, he⟩ | ⟨k0, nm, cfg, attrs, map, -, -, ho, -, he⟩ <;> rw [he] <;> simp
  have hnew : (s.setattr v x r').Leaf r' := by
    rcases hform with ⟨-, -, he⟩ | ⟨k0, nm, cfg, attrs, map, -, -, ho, -, he⟩
    · rw [he]; exact hl'
    · rw [he]
      have hne : k0 ≠ r' := by
        intro h; subst h
        rcases hl' with ⟨c, hc⟩ | ⟨c, hc⟩ <;> (rw [ho] at hc; cases hc)
      unfold HS.Leaf
      simp only [List.getElem?_set, if_neg hne]
      exact hl'
  refine ⟨hrest.1, hrest.2.1, hrest.2.2.1, by rw [hrest.2.2.2]; exact Nat.le_refl _, fun k _ => hsim k, ?_, ⟨r, hf, hl⟩, hnew, hp⟩
  intro q'
  induction q' using snoc_induction with
  | h0 =>
    intro _
    rw [if_neg (by simp)]; rfl
  | h1 q1 y ih =>
    intro hq1y
    obtain ⟨hq1, hy, hyr⟩ := cleanPath_concat.1 hq1y
    rw [HS.find_concat, ih hq1]
    by_cases h1 : q1 = q ++ [x]
    · rw [if_pos h1]
      simp only
      rw [hnew.child, if_neg (by rw [h1]; intro h; have := congrArg List.length h; simp at this),
        HS.find_concat, h1, hf]
      exact (hl.child y).symm
    · rw [if_neg h1, HS.find_concat s q1 y]
      by_cases h2 : q1 ++ [y] = q ++ [x]
      · rw [if_pos h2]
        obtain ⟨e1, e2⟩ := List.append_inj' h2 rfl
        simp at e2
        subst e1; subst e2
        rw [hv]
        simp only
        rcases hform with ⟨hv', hq', he⟩ | ⟨k0, nm, cfg, attrs, map, hv', hqn, ho, hxn, he⟩
        · subst hv'; subst hq'
          simp only [if_true, List.getLast?_nil, Option.getD_none] at hyr hy
          obtain ⟨cfg, attrs, map, hs⟩ := hi.root
          rw [he, HS.child_mgr (s := { s with attrs := AList.set s.attrs y r' }) hs hy hyr]
          simp [AList.get?_set_at]
        · subst hv'
          rw [if_neg hqn] at hyr
          have hb : k0 < s.heap.length := (List.getElem?_eq_some_iff.1 ho).1
          rw [he, HS.child_sect (nm := nm) (cfg := cfg) (attrs := AList.set attrs y r') (map := map)
            (by simp [hb]) hxn hyr]
          unfold HS.sectChild
          rw [AList.get?_set_at]
      · rw [if_neg h2]
        cases hf1 : s.find q1 with
        | none => rfl
        | some v1 =>
          simp only
          rcases hform with ⟨hv', hq', he⟩ | ⟨k0, nm, cfg, attrs, map, hv', hqn, ho, hxn, he⟩
          · refine child_eq hi hq1y hf1 ?_ hrest.2.1 (fun k _ => .inl (.inl (by rw [he])))
            intro hq1n
            subst hq'; subst hq1n
            rw [he]
            have hyx : x ≠ y := by rintro rfl; exact h2 rfl
            simp only [AList.get?_set, if_neg hyx]
          · refine child_eq hi hq1y hf1 (fun _ => by rw [he]) hrest.2.1 ?_
            intro k hk
            by_cases hkk : k = k0
            · subst hkk
              have hqq : q1 = q := by
                rcases hk with hk | ⟨hk, hk'⟩
                · subst hk; subst hv'; exact hi.find_inj hq1 hq hf1 hv
                · exfalso
                  subst hv'
                  exact hi.find_ne_root hq hv hk'
              subst hqq
              have hyx : x ≠ y := by rintro rfl; exact h2 rfl
              refine .inl (.inr ⟨nm, cfg, cfg, attrs, AList.set attrs x r', map, ho, ?_, ?_⟩)
              · rw [he]; simp [(List.getElem?_eq_some_iff.1 ho).1]
              · rw [AList.get?_set, if_neg hyx]
            · refine .inl (.inl ?_)
              rw [he]; exact List.getElem?_set_ne (fun e => hkk (Eq.symm e))

end Verif.Model

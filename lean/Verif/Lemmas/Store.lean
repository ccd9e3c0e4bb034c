import Verif.Model.Store
import Verif.Lemmas.Config

/-
Abstract view of the config manager: what is found at each section path.
-/

namespace Verif.Model
open Verif.Py

variable {V : Type}

/-- What a section path leads to. -/
inductive Slot (V : Type) where
  | conf (c : Conf V)
  | file (loc : FileLoc)
  | sect (cfg : Option (Conf V))
  | absent

namespace Slot

/-- A loaded config or a config file. -/
def isItem : Slot V → Bool
  | .conf _ => true
  | .file _ => true
  | _ => false

def mapConf (g : Conf V → Conf V) : Slot V → Slot V
  | .conf c => .conf (g c)
  | .sect cfg => .sect (cfg.map g)
  | s => s

end Slot

/-- No section of the path has the name of the section directly containing it. -/
def PlainPath : String → List String → Prop
  | _, [] => True
  | nm, x :: p => x ≠ nm ∧ PlainPath x p

instance : ∀ nm p, Decidable (PlainPath nm p)
  | _, [] => isTrue trivial
  | nm, x :: p =>
    have := instDecidablePlainPath x p
    inferInstanceAs (Decidable (x ≠ nm ∧ PlainPath x p))

theorem PlainPath.append_left {nm : String} {p q : List String} (h : PlainPath nm (p ++ q)) :
    PlainPath nm p := by
  induction p generalizing nm with
  | nil => trivial
  | cons x p ih => exact ⟨h.1, ih h.2⟩

namespace Node

/-- What a result of `walk` shows. -/
def slotOf : Except PyErr (Node V) → Slot V
  | .ok (.conf c) => .conf c
  | .ok (.file l) => .file l
  | .ok (.sect cfg _ _) => .sect cfg
  | _ => .absent

def slot (res : List String) (nm : String) (n : Node V) (p : List String) : Slot V :=
  slotOf (n.walk res nm p)

theorem slot_cons (res nm) (n : Node V) (x p) : slot res nm n (x :: p) =
    match n.child res nm x with
    | .error _ => .absent
    | .ok n' => slot sectionReserved x n' p := by
  unfold slot
  rw [walk]
  cases n.child res nm x <;> rfl

theorem slot_other (res nm) (p) : slot (V := V) res nm .other p = .absent := by
  cases p with
  | nil => rfl
  | cons x p => rw [slot_cons]; rfl

theorem slot_conf_cons (res nm) (c : Conf V) (x p) : slot res nm (.conf c) (x :: p) = .absent := by
  rw [slot_cons, show child res nm (.conf c) x = (match c.getattr x with
    | .ok _ => .ok .other
    | .error e => .error e) from rfl]
  cases h : c.getattr x with
  | ok u => exact slot_other _ _ _
  | error e => rfl

theorem slot_file_cons (res nm) (l) (x p) : slot (V := V) res nm (.file l) (x :: p) = .absent := by
  rw [slot_cons]; rfl

theorem slot_own (res nm) (p) : slot (V := V) res nm .own p = .absent := by
  cases p with
  | nil => rfl
  | cons x p => rw [slot_cons]; rfl

/-- `child` of a section under a name other than the section's own. -/
theorem child_sect (res nm) (cfg : Option (Conf V)) (attrs map) {x} (hx : x ≠ nm) :
    child res nm (.sect cfg attrs map) x =
      if x ∈ res then .ok .other
      else match AList.get? attrs x with
        | some .own => .error .keyError
        | some n' => .ok n'
        | none => match AList.get? map x with
          | some n' => .ok n'
          | none => .error .keyError := by
  simp only [child]
  by_cases hr : x ∈ res
  · rw [if_pos hr, if_pos hr]
  · rw [if_neg hr, if_neg hr]
    cases AList.get? attrs x with
    | some n' => cases n' <;> cases cfg <;> simp [hx]
    | none => cases cfg <;> cases AList.get? map x <;> simp [hx]

/-- The slots below a section do not depend on its own config. -/
theorem slot_sect_cfg (res nm) (cfg cfg' : Option (Conf V)) (attrs map) {q : List String}
    (hq : PlainPath nm q) (hne : q ≠ []) :
    slot res nm (.sect cfg attrs map) q = slot res nm (.sect cfg' attrs map) q := by
  cases q with
  | nil => exact absurd rfl hne
  | cons x q => rw [slot_cons, slot_cons, child_sect _ _ _ _ _ hq.1, child_sect _ _ _ _ _ hq.1]

theorem slot_mapConf (res nm) (n : Node V) (g : Conf V → Conf V) {q : List String}
    (hq : PlainPath nm q) :
    slot res nm (n.mapConf g) q = if q = [] then (slot res nm n []).mapConf g else slot res nm n q := by
  by_cases hne : q = []
  · subst hne
    rw [if_pos rfl]
    cases n with
    | sect cfg a m => cases cfg <;> rfl
    | _ => rfl
  · rw [if_neg hne]
    cases n with
    | conf c =>
      cases q with
      | nil => exact absurd rfl hne
      | cons x q => simp only [mapConf]; rw [slot_conf_cons, slot_conf_cons]
    | sect cfg a m =>
      cases cfg with
      | none => rfl
      | some c => exact slot_sect_cfg _ _ _ _ _ _ hq hne
    | file _ => rfl
    | own => rfl
    | other => rfl

theorem modifyAt_ne_own {f : Node V → Node V} (hf : ∀ n, n ≠ .own → f n ≠ .own) (res nm) (n : Node V)
    (p : List String) (hn : n ≠ .own) : n.modifyAt res nm p f ≠ .own := by
  cases p with
  | nil => exact hf n hn
  | cons x p =>
    cases n with
    | sect cfg attrs map =>
      rw [modifyAt]
      simp only [modifyAt.ownCase]
      repeat' split
      all_goals simp
    | _ => first | exact absurd rfl hn | (intro h; exact absurd h (by simp [modifyAt]))

theorem slot_modifyAt_nil (f : Node V → Node V) (res nm) (n : Node V) (x : String) (p : List String)
    (hx : x ≠ nm) : slot res nm (n.modifyAt res nm (x :: p) f) [] = slot res nm n [] := by
  cases n with
  | sect cfg attrs map =>
    rw [modifyAt]
    simp only [hx, and_false, if_false]
    repeat' split
    all_goals rfl
  | _ => rfl

theorem child_set_attrs_ne (res nm) (cfg : Option (Conf V)) (attrs map) (x v) {y} (h : y ≠ x) :
    child res nm (.sect cfg (AList.set attrs x v) map) y = child res nm (.sect cfg attrs map) y := by
  have h' : ¬ x = y := fun hh => h hh.symm
  simp only [child, AList.get?_set, if_neg h']

theorem child_set_map_ne (res nm) (cfg : Option (Conf V)) (attrs map) (x v) {y} (h : y ≠ x) :
    child res nm (.sect cfg attrs (AList.set map x v)) y = child res nm (.sect cfg attrs map) y := by
  have h' : ¬ x = y := fun hh => h hh.symm
  simp only [child, AList.get?_set, if_neg h']

/-- One step of an in-place change: below the name `x` the change continues, elsewhere
nothing changes. -/
theorem slot_modifyAt_cons {f : Node V → Node V} (hf : ∀ n, n ≠ .own → f n ≠ .own)
    (hother : f .other = .other) (res nm) (n : Node V) (x : String) (p : List String) (hx : x ≠ nm)
    (y : String) (q : List String) :
    slot res nm (n.modifyAt res nm (x :: p) f) (y :: q) =
      if y = x then match child res nm n x with
        | .ok n' => slot sectionReserved x (n'.modifyAt sectionReserved x p f) q
        | .error _ => .absent
      else slot res nm n (y :: q) := by
  have hoth : ∀ q, slot sectionReserved x (modifyAt sectionReserved x (.other : Node V) p f) q = .absent := by
    intro q
    cases p with
    | nil => rw [modifyAt, hother]; exact slot_other _ _ _
    | cons z p => exact slot_other _ _ _
  cases n with
  | sect cfg attrs map =>
    have hc := child_sect res nm cfg attrs map hx
    rw [hc]
    by_cases hres : x ∈ res
    · rw [modifyAt, if_pos hres, if_pos hres]
      simp only [hoth]
      split
      · rename_i h; subst h
        rw [slot_cons, hc, if_pos hres]; simp [slot_other]
      · rfl
    · rw [if_neg hres]
      cases hattr : AList.get? attrs x with
      | some n' =>
        by_cases hown : n' = .own
        · subst hown
          rw [modifyAt, if_neg hres, hattr]
          simp only [hx, if_false]
          split
          · rename_i h; subst h
            rw [slot_cons, hc, if_neg hres, hattr]
          · rfl
        · have hne := modifyAt_ne_own hf sectionReserved x n' p hown
          have h1 : modifyAt res nm (.sect cfg attrs map) (x :: p) f =
              .sect cfg (AList.set attrs x (modifyAt sectionReserved x n' p f)) map := by
            rw [modifyAt, if_neg hres, hattr]
            cases n' <;> first | rfl | exact absurd rfl hown
          have h2 : (match (some n' : Option (Node V)) with
              | some .own => (.error .keyError : Except PyErr (Node V))
              | some n' => .ok n'
              | none => match AList.get? map x with
                | some n' => .ok n'
                | none => .error .keyError) = .ok n' := by
            cases n' <;> first | rfl | exact absurd rfl hown
          rw [h1, h2, slot_cons]
          by_cases hyx : y = x
          · subst hyx
            rw [child_sect _ _ _ _ _ hx, AList.get?_set, if_pos rfl, if_neg hres, if_pos rfl]
            generalize hm : modifyAt sectionReserved y n' p f = m at hne ⊢
            cases m <;> first | exact absurd rfl hne | simp [hm]
          · rw [if_neg hyx, child_set_attrs_ne _ _ _ _ _ _ _ hyx, slot_cons]
      | none =>
        rw [modifyAt, if_neg hres, hattr]
        simp only [hx, and_false, if_false]
        cases hmap : AList.get? map x with
        | some n' =>
          dsimp only
          rw [slot_cons]
          by_cases hyx : y = x
          · subst hyx
            rw [child_sect _ _ _ _ _ hx, if_neg hres, hattr, AList.get?_set, if_pos rfl]; simp
          · rw [if_neg hyx, child_set_map_ne _ _ _ _ _ _ _ hyx, slot_cons]
        | none =>
          dsimp only
          split
          · rename_i h; subst h
            rw [slot_cons, hc, if_neg hres, hattr, hmap]
          · rfl
  | conf c =>
    rw [modifyAt]
    split
    · rename_i h; subst h
      rw [slot_conf_cons]
      simp only [child]
      cases c.getattr y <;> simp [hoth]
    · rfl
    all_goals simp
  | file l =>
    rw [modifyAt]
    split
    · rw [slot_file_cons]; rfl
    · rfl
    all_goals simp
  | own =>
    rw [modifyAt]
    split
    · rw [slot_own]; rfl
    · rfl
    all_goals simp
  | other =>
    rw [modifyAt]
    split
    · rw [slot_other]; rfl
    · rfl
    all_goals simp

theorem mapConf_ne_own (g : Conf V → Conf V) (n : Node V) (hn : n ≠ .own) : n.mapConf g ≠ .own := by
  unfold mapConf; split <;> simp_all

/-- Changing the config of a section or an item in place changes what that path shows and
nothing else, on plain paths. -/
theorem slot_modifyAt_mapConf_plain (g : Conf V → Conf V) (p : List String) :
    ∀ (res : List String) (nm : String) (n : Node V) (q : List String),
    PlainPath nm p → PlainPath nm q →
    slot res nm (n.modifyAt res nm p (mapConf g)) q =
      if q = p then (slot res nm n p).mapConf g else slot res nm n q := by
  have hf := mapConf_ne_own g
  induction p with
  | nil =>
    intro res nm n q _ hq
    rw [modifyAt, slot_mapConf _ _ _ _ hq]
  | cons x p ih =>
    intro res nm n q hp hq
    cases q with
    | nil => rw [slot_modifyAt_nil _ _ _ _ _ _ hp.1]; simp
    | cons y q =>
      rw [slot_modifyAt_cons hf rfl _ _ _ _ _ hp.1]
      by_cases hyx : y = x
      · subst hyx
        rw [if_pos rfl, slot_cons, slot_cons]
        cases hc : child res nm n y with
        | error e => simp [Slot.mapConf]
        | ok n' => simp only [ih _ _ n' q hp.2 hq.2]; simp
      · simp [hyx]

/-- Below an item there is nothing. -/
theorem slot_below_item (res nm) (n : Node V) (h : (slot res nm n []).isItem = true) (x q) :
    slot res nm n (x :: q) = .absent := by
  cases n with
  | conf c => exact slot_conf_cons _ _ _ _ _
  | file l => exact slot_file_cons _ _ _ _ _
  | sect _ _ _ => simp [slot, walk, slotOf, Slot.isItem] at h
  | own => exact slot_own _ _ _
  | other => exact slot_other _ _ _

/-- Changing the config of an item in place changes what that path shows and nothing
else. -/
theorem slot_modifyAt_mapConf (g : Conf V → Conf V) (p : List String) :
    ∀ (res : List String) (nm : String) (n : Node V) (q : List String),
    PlainPath nm p → (slot res nm n p).isItem = true →
    slot res nm (n.modifyAt res nm p (mapConf g)) q =
      if q = p then (slot res nm n p).mapConf g else slot res nm n q := by
  have hf := mapConf_ne_own g
  induction p with
  | nil =>
    intro res nm n q _ hit
    rw [modifyAt]
    cases q with
    | nil => exact slot_mapConf res nm n g trivial
    | cons y q =>
      rw [if_neg (by simp), slot_below_item _ _ _ hit, slot_below_item]
      rw [slot_mapConf _ _ _ _ (show PlainPath nm [] from trivial), if_pos rfl]
      cases hs : slot res nm n [] <;> rw [hs] at hit <;> simp_all [Slot.isItem, Slot.mapConf]
  | cons x p ih =>
    intro res nm n q hp hit
    cases q with
    | nil => rw [slot_modifyAt_nil _ _ _ _ _ _ hp.1]; simp
    | cons y q =>
      rw [slot_modifyAt_cons hf rfl _ _ _ _ _ hp.1]
      rw [slot_cons] at hit
      by_cases hyx : y = x
      · subst hyx
        rw [if_pos rfl, slot_cons, slot_cons]
        cases hc : child res nm n y with
        | error e => simp [Slot.mapConf]
        | ok n' =>
          rw [hc] at hit
          simp only [ih _ _ n' q hp.2 hit]; simp
      · simp [hyx]

/-- What storing a loaded config does to the section containing it. -/
def IsStore (x : String) (c : Conf V) (f : Node V → Node V) : Prop :=
  (∀ cfg attrs map, AList.get? attrs x ≠ some .own →
    f (.sect cfg attrs map) = .sect cfg (AList.set attrs x (.conf c)) map) ∧
  (∀ n, n ≠ .own → f n ≠ .own) ∧ f .other = .other

theorem PlainPath_concat {nm : String} {p : List String} {x : String} :
    PlainPath nm (p ++ [x]) ↔ PlainPath nm p ∧ x ≠ p.getLast?.getD nm := by
  induction p generalizing nm with
  | nil => simp [PlainPath]
  | cons y p ih =>
    simp only [List.cons_append, PlainPath, ih]
    cases p with
    | nil => simp [PlainPath]
    | cons z p => simp [and_assoc]; grind

/-- Storing a loaded config under the path of an item changes what that path shows and
nothing else. -/
theorem slot_modifyAt_store (x : String) (c : Conf V) {f : Node V → Node V} (hf : IsStore x c f)
    (p : List String) :
    ∀ (res : List String) (nm : String) (n : Node V) (q : List String),
    PlainPath nm (p ++ [x]) → (slot res nm n (p ++ [x])).isItem = true →
    slot res nm (n.modifyAt res nm p f) q =
      if q = p ++ [x] then .conf c else slot res nm n q := by
  induction p with
  | nil =>
    intro res nm n q hp hit
    have hx : x ≠ nm := hp.1
    rw [modifyAt]
    simp only [List.nil_append] at hit ⊢
    cases n with
    | sect cfg attrs map =>
      have hit0 := hit
      rw [slot_cons, child_sect _ _ _ _ _ hx] at hit
      have hres : x ∉ res := by
        intro h; rw [if_pos h] at hit; simp [slot, walk, slotOf, Slot.isItem] at hit
      rw [if_neg hres] at hit
      have hown : AList.get? attrs x ≠ some .own := by
        intro h; rw [h] at hit; simp [Slot.isItem] at hit
      rw [hf.1 _ _ _ hown]
      cases q with
      | nil => simp [slot, walk, slotOf]
      | cons y q =>
        by_cases hyx : y = x
        · subst hyx
          rw [slot_cons, child_sect _ _ _ _ _ hx, AList.get?_set, if_neg hres, if_pos rfl]
          cases q with
          | nil => simp [slot, walk, slotOf]
          | cons z q =>
            simp only [slot_conf_cons]
            rw [if_neg (by simp)]
            rw [slot_cons] at hit0 ⊢
            cases hc : child res nm (.sect cfg attrs map) y with
            | error e => rfl
            | ok n' => rw [hc] at hit0; exact (slot_below_item _ _ _ hit0 _ _).symm
        · rw [if_neg (show ¬ y :: q = [x] by simp [hyx]), slot_cons, child_set_attrs_ne _ _ _ _ _ _ _ hyx,
            ← slot_cons]
    | conf c => rw [slot_conf_cons] at hit; simp [Slot.isItem] at hit
    | file l => rw [slot_file_cons] at hit; simp [Slot.isItem] at hit
    | own => rw [slot_own] at hit; simp [Slot.isItem] at hit
    | other => rw [slot_other] at hit; simp [Slot.isItem] at hit
  | cons z p ih =>
    intro res nm n q hp hit
    cases q with
    | nil => rw [slot_modifyAt_nil _ _ _ _ _ _ hp.1]; simp
    | cons y q =>
      rw [slot_modifyAt_cons hf.2.1 hf.2.2 _ _ _ _ _ hp.1]
      rw [List.cons_append, slot_cons] at hit
      by_cases hyz : y = z
      · subst hyz
        rw [if_pos rfl, slot_cons]
        cases hc : child res nm n y with
        | error e => rw [hc] at hit; simp [Slot.isItem] at hit
        | ok n' =>
          rw [hc] at hit
          simp only [ih _ _ n' q hp.2 hit]; simp
      · simp [hyz]

end Node
end Verif.Model

import Verif.Lemmas.OwnAttr
import Verif.Lemmas.Tree

/-
Where the objects stored in the config tree are found afterwards, and what else changes.
-/

namespace Verif.Model
open Verif.Py
variable {V : Type}

theorem AList.get?_set_at {W : Type} (l : List (String × W)) (x : String) (v : W) : AList.get? (AList.set l x v) x = some v := by
  rw [AList.get?_set, if_pos rfl]

namespace Node

theorem walk_other {res nm} {q : List String} {n : Node V} (h : Node.walk res nm .other q = .ok n) : n = .other := by
  cases q with
  | nil => cases h; rfl
  | cons x q => simp [Node.walk, Node.child] at h

/-- Only a section leads to a section. -/
theorem sect_of_walk {res nm} {q : List String} {n : Node V} {cfg attrs map}
    (h : n.walk res nm q = .ok (.sect cfg attrs map)) : ∃ cfg attrs map, n = .sect cfg attrs map := by
  cases n with
  | sect cfg attrs map => exact ⟨_, _, _, rfl⟩
  | conf c => cases q with
    | nil => cases h
    | cons x q => exact absurd (NodeOK.walk_conf_cons h) (by simp)
  | file l => cases q with
    | nil => cases h
    | cons x q => simp [Node.walk, Node.child] at h
  | own => cases q with
    | nil => cases h
    | cons x q => simp [Node.walk, Node.child] at h
  | other => exact absurd (walk_other h) (by simp)

/-- The step to a section. -/
theorem child_sect_cases {res nm x} {cfg : Option (Conf V)} {attrs map c' a' m'}
    (h : child res nm (.sect cfg attrs map) x = .ok (.sect c' a' m')) : x ∉ res ∧
    (AList.get? attrs x = some (.sect c' a' m') ∨
      AList.get? attrs x = none ∧ ¬ (cfg.isSome = true ∧ x = nm) ∧ AList.get? map x = some (.sect c' a' m')) := by
  simp only [child] at h
  split at h
  · cases h
  · rename_i hr
    refine ⟨hr, ?_⟩
    split at h
    · split at h
      · split at h <;> cases h
      · cases h
    · rename_i ha; cases h; exact .inl ha
    · rename_i ha
      refine .inr ⟨ha, ?_⟩
      split at h
      · split at h
        · cases h
        · rename_i hx
          split at h
          · rename_i hm; cases h; exact ⟨by simpa using hx, hm⟩
          · cases h
      · rename_i hm; cases h; exact ⟨by simp, hm⟩
      · cases h

theorem child_attr {res nm x} {cfg : Option (Conf V)} {attrs map} {n : Node V} (hr : x ∉ res)
    (ha : AList.get? attrs x = some n) (hn : n ≠ .own) : child res nm (.sect cfg attrs map) x = .ok n := by
  simp only [child, if_neg hr, ha]

theorem child_map {res nm x} {cfg : Option (Conf V)} {attrs map} {n : Node V} (hr : x ∉ res)
    (ha : AList.get? attrs x = none) (hx : ¬ (cfg.isSome = true ∧ x = nm)) (hm : AList.get? map x = some n) :
    child res nm (.sect cfg attrs map) x = .ok n := by
  simp only [child, if_neg hr, ha, hm]
  cases cfg with
  | none => rfl
  | some c => simp at hx; simp [hx]

/-- What is found at and below a section that is replaced in place. -/
theorem walk_modifyAt_below {f : Node V → Node V} (hf : ∀ n, n ≠ .own → f n ≠ .own) (q r : List String) :
    ∀ {res nm} {n : Node V} {cfg attrs map}, n.walk res nm q = .ok (.sect cfg attrs map) →
    (n.modifyAt res nm q f).walk res nm (q ++ r) =
      (f (.sect cfg attrs map)).walk (if q = [] then res else sectionReserved) (q.getLast?.getD nm) r := by
  induction q with
  | nil => intro res nm n cfg attrs map h; cases h; rw [modifyAt]; rfl
  | cons x q ih =>
    intro res nm n cfg attrs map h
    rw [walk] at h
    cases hc : child res nm n x with
    | error e => rw [hc] at h; cases h
    | ok m =>
      rw [hc] at h
      simp only at h
      obtain ⟨c', a', m', rfl⟩ := sect_of_walk h
      have hn : ∃ cfg attrs map, n = .sect cfg attrs map := by
        cases n with
        | sect _ _ _ => exact ⟨_, _, _, rfl⟩
        | conf c => simp only [child] at hc; split at hc <;> cases hc
        | _ => cases hc
      obtain ⟨c0, a0, m0, rfl⟩ := hn
      have hih := ih h
      have hlast : (x :: q).getLast?.getD nm = q.getLast?.getD x := by
        cases q with
        | nil => rfl
        | cons y q => exact getLast_cons_cons x nm y q
      rw [if_neg (by simp), hlast, List.cons_append, walk]
      have hmod : (Node.sect c' a' m').modifyAt sectionReserved x q f ≠ .own :=
        modifyAt_ne_own hf _ _ _ _ (by simp)
      have hgoal : child res nm ((Node.sect c0 a0 m0).modifyAt res nm (x :: q) f) x =
          .ok ((Node.sect c' a' m').modifyAt sectionReserved x q f) := by
        rw [modifyAt]
        obtain ⟨hr, h | ⟨ha, hx, hm⟩⟩ := child_sect_cases hc
        · rw [if_neg hr, h]
          exact child_attr hr (AList.get?_set_at _ _ _) hmod
        · rw [if_neg hr, ha]
          dsimp only
          rw [if_neg hx, hm]
          exact child_map hr ha hx (AList.get?_set_at _ _ _)
      rw [hgoal]
      simp only
      rw [hih]
      cases q with
      | nil => simp
      | cons y q => simp

/-- What a change in place leaves as it is. -/
theorem slot_modifyAt_frame {f : Node V → Node V} (hf : ∀ n, n ≠ .own → f n ≠ .own) (hconf : ∀ c, f (.conf c) = .conf c)
    {Q : List String → Prop} (hq : ∀ res nm m r, Q r → slot res nm (f m) r = slot res nm m r) (q : List String) :
    ∀ {res nm} {n : Node V} (r : List String), (∀ r', r = q ++ r' → Q r') →
    slot res nm (n.modifyAt res nm q f) r = slot res nm n r := by
  induction q with
  | nil => intro res nm n r h; rw [modifyAt]; exact hq _ _ _ _ (h r rfl)
  | cons x q ih =>
    intro res nm n r h
    cases n with
    | sect cfg attrs map =>
      have hown : modifyAt.ownCase cfg attrs map q f = .sect cfg attrs map := by
        unfold modifyAt.ownCase
        split
        · rw [hconf]
        · rfl
      rw [modifyAt]
      split
      · rfl
      · rename_i hr
        split
        · split
          · rw [hown]
          · rfl
        · rename_i n' hne ha
          cases r with
          | nil => rfl
          | cons y r =>
            by_cases hy : y = x
            · subst hy
              rw [slot_cons, slot_cons, child_attr hr (AList.get?_set_at _ _ _) (modifyAt_ne_own hf _ _ _ _ hne),
                child_attr hr ha hne]
              exact ih r (fun r' he => h r' (by rw [he]; rfl))
            · rw [slot_cons, slot_cons, child_set_attrs_ne _ _ _ _ _ _ _ hy]
        · rename_i ha
          split
          · rw [hown]
          · rename_i hx
            split
            · rename_i n' hm
              cases r with
              | nil => rfl
              | cons y r =>
                by_cases hy : y = x
                · subst hy
                  rw [slot_cons, slot_cons, child_map hr ha hx (AList.get?_set_at _ _ _), child_map hr ha hx hm]
                  exact ih r (fun r' he => h r' (by rw [he]; rfl))
                · rw [slot_cons, slot_cons, child_set_map_ne _ _ _ _ _ _ _ hy]
            · rfl
    | _ => rfl

theorem slot_setAttr_ne (res nm) (n v : Node V) (x : String) (r : List String) (hr : ¬ [x] <+: r) :
    slot res nm (n.setAttr x v) r = slot res nm n r := by
  cases n with
  | sect cfg attrs map =>
    cases r with
    | nil => rfl
    | cons y r =>
      have hy : y ≠ x := by
        intro he; subst he
        exact hr ⟨r, rfl⟩
      simp only [setAttr]
      rw [slot_cons, slot_cons, child_set_attrs_ne _ _ _ _ _ _ _ hy]
  | _ => rfl

/-- What is missing, and may be created. -/
theorem child_missing {nm x res} {cfg : Option (Conf V)} {attrs map} (ho : OwnOK nm (.sect cfg attrs map))
    (h : child res nm (.sect cfg attrs map) x = .error .keyError) :
    x ∉ res ∧ AList.get? attrs x = none ∧ ¬ (cfg.isSome = true ∧ x = nm) := by
  simp only [child] at h
  split at h
  · cases h
  · rename_i hr
    refine ⟨hr, ?_⟩
    split at h
    · rename_i ha
      obtain ⟨hx, hc⟩ := ho.sect_inv.1 x ha
      cases cfg with
      | none => cases hc
      | some c => simp [hx] at h
    · cases h
    · rename_i ha
      refine ⟨ha, ?_⟩
      split at h
      · rename_i c _
        split at h
        · cases h
        · rename_i hx; simpa using hx
      · cases h
      · simp

end Node

namespace CMM
open Node

/-- Sections created around a value. -/
def nest (v : Node V) : List String → Node V
  | [] => v
  | y :: r => .sect none [] [(y, nest v r)]

theorem nest_ne_own {v : Node V} (hv : v ≠ .own) (r : List String) : nest v r ≠ .own := by
  cases r with
  | nil => exact hv
  | cons y r => simp [nest]

theorem awc_new (v : Node V) (r : List String) : ∀ (y nm : String), NotReserved sectionReserved (y :: r) →
    appendWithCreate sectionReserved nm (.sect none [] []) v (y :: r) = .ok (nest v (y :: r)) := by
  induction r with
  | nil => intro y nm _; rfl
  | cons z r ih =>
    intro y nm h
    rw [awc_cons]
    have hc : Node.child sectionReserved nm (.sect none [] [] : Node V) y = .error .keyError := by
      simp [Node.child, h.1, AList.get?]
    rw [hc]
    simp only
    rw [ih z y h.2]
    rfl

theorem walk_nest (v : Node V) (t : List String) (r : List String) : ∀ (nm : String), NotReserved sectionReserved r →
    (nest v r).walk sectionReserved nm (r ++ t) = v.walk sectionReserved (r.getLast?.getD nm) t := by
  induction r with
  | nil => intro nm _; rfl
  | cons y r ih =>
    intro nm h
    have hlast : (y :: r).getLast?.getD nm = r.getLast?.getD y := by
      cases r with
      | nil => rfl
      | cons z r => exact getLast_cons_cons y nm z r
    rw [nest, List.cons_append, walk, child_map (cfg := none) (attrs := []) (n := nest v r) h.1 (by rfl) (by simp)
      (by simp [AList.get?]), hlast]
    exact ih y h.2

/-- Creating what is missing in a section. -/
theorem awc_missing {v : Node V} {x : String} {r : List String} (hr : NotReserved sectionReserved r)
    {res nm} {cfg : Option (Conf V)} {attrs map} (ho : OwnOK nm (.sect cfg attrs map))
    (hc : Node.child res nm (.sect cfg attrs map) x = .error .keyError) :
    appendWithCreate res nm (.sect cfg attrs map) v (x :: r) = .ok (.sect cfg attrs (AList.set map x (nest v r))) := by
  cases r with
  | nil => rfl
  | cons y r =>
    rw [awc_cons, hc]
    simp only
    rw [awc_new v r y x hr]
    rfl

/-- Creating what is missing further below. -/
theorem awc_below {v : Node V} (hv : v ≠ .own) {x : String} {r : List String} (hr : NotReserved sectionReserved r) (q : List String) :
    ∀ {res nm} {n : Node V} {cfg attrs map}, OwnOK nm n → n.walk res nm q = .ok (.sect cfg attrs map) →
    n.walk res nm (q ++ [x]) = .error .keyError →
    ∃ n', appendWithCreate res nm n v (q ++ x :: r) = .ok n' ∧
      (∀ t, n'.walk res nm (q ++ x :: t) = (nest v r).walk sectionReserved x t) ∧
      ∀ t, ¬ (q ++ [x]) <+: t → slot res nm n' t = slot res nm n t := by
  induction q with
  | nil =>
    intro res nm n cfg attrs map ho hw hx
    cases hw
    have hc : Node.child res nm (.sect cfg attrs map) x = .error .keyError := by
      simp only [List.nil_append, walk] at hx
      split at hx
      · rename_i e he; cases hx; exact he
      · cases hx
    obtain ⟨h1, h2, h3⟩ := child_missing ho hc
    refine ⟨_, awc_missing hr ho hc, ?_, ?_⟩
    · intro t
      rw [List.nil_append, walk, child_map h1 h2 h3 (AList.get?_set_at _ _ _)]
    · intro t ht
      cases t with
      | nil => rfl
      | cons y t =>
        have hy : y ≠ x := by intro he; subst he; exact ht ⟨t, rfl⟩
        rw [slot_cons, slot_cons, child_set_map_ne _ _ _ _ _ _ _ hy]
  | cons y q ih =>
    intro res nm n cfg attrs map ho hw hx
    rw [walk] at hw
    rw [List.cons_append, walk] at hx
    cases hc : Node.child res nm n y with
    | error e => rw [hc] at hw; cases hw
    | ok m =>
      rw [hc] at hw hx
      simp only at hw hx
      obtain ⟨c', a', m', rfl⟩ := sect_of_walk hw
      have hn : ∃ cfg attrs map, n = .sect cfg attrs map := by
        cases n with
        | sect _ _ _ => exact ⟨_, _, _, rfl⟩
        | conf c => simp only [child] at hc; split at hc <;> cases hc
        | _ => cases hc
      obtain ⟨c0, a0, m0, rfl⟩ := hn
      obtain ⟨n', h1, h2, h3⟩ := ih (child_own ho hc) hw hx
      have hne : n' ≠ .own := appendWithCreate_ne_own (by simp) h1
      have hf : ∀ n : Node V, n ≠ .own → (fun _ => n') n ≠ .own := fun _ _ => hne
      have hw1 : (Node.sect c0 a0 m0).walk res nm [y] = .ok (.sect c' a' m') := by
        rw [walk, hc]; rfl
      refine ⟨(Node.sect c0 a0 m0).modifyAt res nm [y] (fun _ => n'), ?_, ?_, ?_⟩
      · have hcons : ∃ z l, q ++ x :: r = z :: l := by cases q <;> exact ⟨_, _, rfl⟩
        obtain ⟨z, l, hl⟩ := hcons
        rw [List.cons_append, hl, awc_cons, hc]
        simp only
        rw [← hl, h1]
      · intro t
        have := walk_modifyAt_below hf [y] (q ++ x :: t) hw1
        rw [List.cons_append, show y :: (q ++ x :: t) = [y] ++ (q ++ x :: t) from rfl, this]
        exact h2 t
      · intro t ht
        obtain ⟨hr', hcase⟩ := child_sect_cases hc
        rw [modifyAt, if_neg hr']
        cases t with
        | nil =>
          rcases hcase with ha | ⟨ha, hx', hm⟩
          · rw [ha]; rfl
          · rw [ha]; dsimp only; rw [if_neg hx', hm]; rfl
        | cons z t =>
          by_cases hz : z = y
          · subst hz
            have hz' : ¬ (q ++ [x]) <+: t := by
              rintro ⟨u, hu⟩
              exact ht ⟨u, by rw [← hu]; rfl⟩
            rw [slot_cons (n := .sect c0 a0 m0), hc]
            rcases hcase with ha | ⟨ha, hx', hm⟩
            · rw [ha]
              dsimp only
              rw [slot_cons, child_attr hr' (AList.get?_set_at _ _ _) (by rw [modifyAt]; exact hne)]
              rw [modifyAt]
              exact h3 t hz'
            · rw [ha]; dsimp only; rw [if_neg hx', hm]
              dsimp only
              rw [slot_cons, child_map hr' ha hx' (AList.get?_set_at _ _ _), modifyAt]
              exact h3 t hz'
          · rcases hcase with ha | ⟨ha, hx', hm⟩
            · rw [ha]
              dsimp only
              rw [slot_cons, slot_cons, child_set_attrs_ne _ _ _ _ _ _ _ hz]
            · rw [ha]; dsimp only; rw [if_neg hx', hm]
              dsimp only
              rw [slot_cons, slot_cons, child_set_map_ne _ _ _ _ _ _ _ hz]

/-- Appending what the attribute of the same name hides. -/
theorem awc_hidden {v : Node V} {x : String} (q : List String) :
    ∀ {res nm} {n : Node V} {cfg attrs map m}, n.walk res nm q = .ok (.sect cfg attrs map) → AList.get? attrs x = some m →
    ∃ n', appendWithCreate res nm n v (q ++ [x]) = .ok n' ∧ ∀ t, slot res nm n' t = slot res nm n t := by
  induction q with
  | nil =>
    intro res nm n cfg attrs map m hw hx
    cases hw
    refine ⟨.sect cfg attrs (AList.set map x v), rfl, ?_⟩
    intro t
    cases t with
    | nil => rfl
    | cons y t =>
      by_cases hy : y = x
      · subst hy
        have : Node.child res nm (.sect cfg attrs (AList.set map y v)) y = Node.child res nm (.sect cfg attrs map) y := by
          simp only [Node.child, hx]
          cases m <;> rfl
        rw [slot_cons, slot_cons, this]
      · rw [slot_cons, slot_cons, child_set_map_ne _ _ _ _ _ _ _ hy]
  | cons y q ih =>
    intro res nm n cfg attrs map m hw hx
    rw [walk] at hw
    cases hc : Node.child res nm n y with
    | error e => rw [hc] at hw; cases hw
    | ok k =>
      rw [hc] at hw
      simp only at hw
      obtain ⟨c', a', m', rfl⟩ := sect_of_walk hw
      have hn : ∃ cfg attrs map, n = .sect cfg attrs map := by
        cases n with
        | sect _ _ _ => exact ⟨_, _, _, rfl⟩
        | conf c => simp only [child] at hc; split at hc <;> cases hc
        | _ => cases hc
      obtain ⟨c0, a0, m0, rfl⟩ := hn
      obtain ⟨n', h1, h3⟩ := ih hw hx
      have hne : n' ≠ .own := appendWithCreate_ne_own (by simp) h1
      refine ⟨(Node.sect c0 a0 m0).modifyAt res nm [y] (fun _ => n'), ?_, ?_⟩
      · have hcons : ∃ z l, q ++ [x] = z :: l := by cases q <;> exact ⟨_, _, rfl⟩
        obtain ⟨z, l, hl⟩ := hcons
        rw [List.cons_append, hl, awc_cons, hc]
        simp only
        rw [← hl, h1]
      · intro t
        obtain ⟨hr', hcase⟩ := child_sect_cases hc
        rw [modifyAt, if_neg hr']
        cases t with
        | nil =>
          rcases hcase with ha | ⟨ha, hx', hm⟩
          · rw [ha]; rfl
          · rw [ha]; dsimp only; rw [if_neg hx', hm]; rfl
        | cons z t =>
          by_cases hz : z = y
          · subst hz
            rw [slot_cons (n := .sect c0 a0 m0), hc]
            rcases hcase with ha | ⟨ha, hx', hm⟩
            · rw [ha]
              dsimp only
              rw [slot_cons, child_attr hr' (AList.get?_set_at _ _ _) (by rw [modifyAt]; exact hne)]
              rw [modifyAt]
              exact h3 t
            · rw [ha]; dsimp only; rw [if_neg hx', hm]
              dsimp only
              rw [slot_cons, child_map hr' ha hx' (AList.get?_set_at _ _ _), modifyAt]
              exact h3 t
          · rcases hcase with ha | ⟨ha, hx', hm⟩
            · rw [ha]
              dsimp only
              rw [slot_cons, slot_cons, child_set_attrs_ne _ _ _ _ _ _ _ hz]
            · rw [ha]; dsimp only; rw [if_neg hx', hm]
              dsimp only
              rw [slot_cons, slot_cons, child_set_map_ne _ _ _ _ _ _ _ hz]

end CMM

end Verif.Model

import Verif.Lemmas.Reach

/-
A freshly loaded config manager leads from a section path to the file at that path.
-/

namespace Verif.Model
open Verif.Py
variable {V : Type}

theorem AList.get?_foldl_set_const {W : Type} (es : List (String × W)) (x : String) (v : W)
    (hall : ∀ v', (x, v') ∈ es → v' = v) : ∀ (m : List (String × W)),
    ((x, v) ∈ es ∨ AList.get? m x = some v) →
    AList.get? (es.foldl (fun (m : List (String × W)) e => AList.set m e.1 e.2) m) x = some v := by
  induction es with
  | nil => intro m h; exact h.resolve_left (by simp)
  | cons e es ih =>
    intro m h
    rw [List.foldl_cons]
    apply ih (fun v' hv' => hall v' (List.mem_cons_of_mem _ hv'))
    rw [AList.get?_set]
    by_cases hx : e.1 = x
    · right
      rw [if_pos hx]
      congr 1
      apply hall
      rw [← hx]; exact List.mem_cons_self
    · rw [if_neg hx]
      rcases h with h | h
      · rcases List.mem_cons.1 h with h | h
        · rw [← h] at hx; exact absurd rfl hx
        · exact .inl h
      · exact .inr h

theorem AList.get?_foldl_set_not {W : Type} (es : List (String × W)) (x : String)
    (hx : x ∉ es.map Prod.fst) : ∀ (m : List (String × W)),
    AList.get? (es.foldl (fun (m : List (String × W)) e => AList.set m e.1 e.2) m) x = AList.get? m x := by
  induction es with
  | nil => intro m; rfl
  | cons e es ih =>
    intro m
    simp only [List.map_cons, List.mem_cons, not_or] at hx
    rw [List.foldl_cons, ih hx.2, AList.get?_set, if_neg (Ne.symm hx.1)]

/-- The folder tree has a config file at the path, in a folder that has no folder of that
name; folder names are unique. -/
inductive DirTree.HasItem : DirTree → List String → Prop where
  | here {b files dirs x} : x ∈ files → x ∉ dirs.map Prod.fst → HasItem (.mk b files dirs) [x]
  | there {b files dirs x t p} : (x, t) ∈ dirs → (dirs.map Prod.fst).Nodup → HasItem t p →
    HasItem (.mk b files dirs) (x :: p)

/-- None of the names is an attribute that the manager or its sections have anyway. -/
def NotReserved : List String → List String → Prop
  | _, [] => True
  | res, x :: p => x ∉ res ∧ NotReserved sectionReserved p

instance : ∀ res p, Decidable (NotReserved res p)
  | _, [] => isTrue trivial
  | res, x :: p =>
    have := instDecidableNotReserved sectionReserved p
    inferInstanceAs (Decidable (x ∉ res ∧ NotReserved sectionReserved p))

theorem fromFilesDirs_keys {fs : Files V} {p : List String} :
    ∀ {dirs : List (String × DirTree)} {ns : List (String × Node V)}, fromFilesDirs fs p dirs = .ok ns →
    ns.map Prod.fst = dirs.map Prod.fst := by
  intro dirs
  induction dirs with
  | nil => intro ns h; simp [fromFilesDirs] at h; subst h; rfl
  | cons e ds ih =>
    obtain ⟨name, d⟩ := e
    intro ns h
    rw [fromFilesDirs] at h
    cases h1 : fromFiles fs (p ++ [name]) d with
    | error e => rw [h1] at h; simp at h
    | ok n1 =>
      rw [h1] at h
      cases h2 : fromFilesDirs fs p ds with
      | error e => rw [h2] at h; simp at h
      | ok ns' =>
        rw [h2] at h
        simp at h
        subst h
        simp [ih h2]

theorem nodup_fst_unique {α : Type} {l : List (String × α)} (h : (l.map Prod.fst).Nodup) {x : String} {a b : α}
    (ha : (x, a) ∈ l) (hb : (x, b) ∈ l) : a = b := by
  have h1 := AList.get?_of_mem h ha
  have h2 := AList.get?_of_mem h hb
  rw [h1] at h2
  exact Option.some.inj h2

theorem fromFiles_item {fs : Files V} {t : DirTree} {q : List String} (hi : t.HasItem q) :
    ∀ (res nm) (pre : List String) (n : Node V), fromFiles fs pre t = .ok n → PlainPath nm q →
    NotReserved res q → n.walk res nm q = .ok (.file (.item (pre ++ q))) := by
  induction hi with
  | @here b files dirs x hx hnd =>
    intro res nm pre n h hq hr
    rw [fromFiles] at h
    simp only at h
    split at h
    · simp at h
    · rename_i cfg hcfg
      split at h
      · simp at h
      · rename_i sections hs
        simp only [Except.ok.injEq] at h
        subst h
        rw [Node.walk, Node.child_sect _ _ _ _ _ hq.1, if_neg hr.1, List.foldl_append]
        rw [AList.get?_foldl_set_not sections x (by rw [fromFilesDirs_keys hs]; exact hnd)]
        rw [AList.get?_foldl_set_const _ x (Node.file (.item (pre ++ [x])))]
        · rfl
        · intro v' hv'
          rw [List.mem_map] at hv'
          obtain ⟨f, _, hf⟩ := hv'
          cases hf; rfl
        · left
          exact List.mem_map.2 ⟨x, hx, rfl⟩
  | @there b files dirs x t p hx hnd _ ih =>
    intro res nm pre n h hq hr
    rw [fromFiles] at h
    simp only at h
    split at h
    · simp at h
    · rename_i cfg hcfg
      split at h
      · simp at h
      · rename_i sections hs
        simp only [Except.ok.injEq] at h
        subst h
        have hkeys := fromFilesDirs_keys hs
        have hxs : x ∈ sections.map Prod.fst := by
          rw [hkeys]; exact List.mem_map.2 ⟨_, hx, rfl⟩
        obtain ⟨⟨x', m⟩, hm, hxx⟩ := List.mem_map.1 hxs
        simp only at hxx
        subst hxx
        obtain ⟨d, hd, hfd⟩ := fromFilesDirs_mem hs _ _ hm
        have : d = t := nodup_fst_unique hnd hd hx
        subst this
        rw [Node.walk, Node.child_sect _ _ _ _ _ hq.1, if_neg hr.1, List.foldl_append,
          AList.get?_foldl_set_const sections _ m]
        · show Node.walk sectionReserved _ m p = _
          rw [ih _ _ _ _ hfd hq.2 hr.2]
          simp
        · intro v' hv'
          exact nodup_fst_unique (by rw [hkeys]; exact hnd) hv' hm
        · exact .inl hm

/-- The folder tree has a folder at the path, with (or without) a `section.py`; folder names are unique. -/
inductive DirTree.HasFolder : DirTree → List String → Bool → Prop where
  | here {b files dirs} : HasFolder (.mk b files dirs) [] b
  | there {b files dirs x t p b'} : (x, t) ∈ dirs → (dirs.map Prod.fst).Nodup → HasFolder t p b' →
    HasFolder (.mk b files dirs) (x :: p) b'

theorem fromFiles_folder {fs : Files V} {t : DirTree} {q : List String} {b : Bool} (hi : t.HasFolder q b) :
    ∀ (res nm) (pre : List String) (n : Node V), fromFiles fs pre t = .ok n → PlainPath nm q →
    NotReserved res q →
    ∃ cfg attrs map, n.walk res nm q = .ok (.sect cfg attrs map) ∧ sectionConfig fs (pre ++ q) b = .ok cfg := by
  induction hi with
  | here =>
    intro res nm pre n h hq hr
    rw [fromFiles] at h
    split at h
    · simp at h
    · rename_i cfg hcfg
      split at h
      · simp at h
      · simp only [Except.ok.injEq] at h
        subst h
        exact ⟨cfg, _, _, rfl, by rw [List.append_nil]; exact hcfg⟩
  | @there b files dirs x t p b' hx hnd _ ih =>
    intro res nm pre n h hq hr
    rw [fromFiles] at h
    simp only at h
    split at h
    · simp at h
    · rename_i cfg hcfg
      split at h
      · simp at h
      · rename_i sections hs
        simp only [Except.ok.injEq] at h
        subst h
        have hkeys := fromFilesDirs_keys hs
        have hxs : x ∈ sections.map Prod.fst := by
          rw [hkeys]; exact List.mem_map.2 ⟨_, hx, rfl⟩
        obtain ⟨⟨x', m⟩, hm, hxx⟩ := List.mem_map.1 hxs
        simp only at hxx
        subst hxx
        obtain ⟨d, hd, hfd⟩ := fromFilesDirs_mem hs _ _ hm
        have : d = t := nodup_fst_unique hnd hd hx
        subst this
        rw [Node.walk, Node.child_sect _ _ _ _ _ hq.1, if_neg hr.1, List.foldl_append,
          AList.get?_foldl_set_const sections _ m]
        · obtain ⟨cfg', attrs, map, h1, h2⟩ := ih sectionReserved _ (pre ++ [x']) m hfd hq.2 hr.2
          refine ⟨cfg', attrs, map, h1, ?_⟩
          rw [← h2]; simp
        · intro v' hv'
          exact nodup_fst_unique (by rw [hkeys]; exact hnd) hv' hm
        · exact .inl hm

mutual
theorem fromFiles_error {fs : Files V} : ∀ (t : DirTree) (pre : List String) (e : PyErr), fromFiles fs pre t = .error e →
    ∃ q, fs.load (.sect (pre ++ q)) = .error e ∧ e ≠ .valueError
  | .mk b files dirs, pre, e, h => by
    rw [fromFiles] at h
    split at h
    · rename_i e' he
      cases h
      refine ⟨[], ?_⟩
      rw [List.append_nil]
      unfold sectionConfig at he
      split at he
      · cases hl : fs.load (.sect pre) with
        | ok c => rw [hl] at he; cases he
        | error e' => rw [hl] at he; cases e' <;> cases he <;> exact ⟨rfl, by simp⟩
      · cases he
    · split at h
      · rename_i e' he
        cases h
        exact fromFilesDirs_error dirs pre _ he
      · cases h
theorem fromFilesDirs_error {fs : Files V} : ∀ (dirs : List (String × DirTree)) (pre : List String) (e : PyErr),
    fromFilesDirs fs pre dirs = .error e → ∃ q, fs.load (.sect (pre ++ q)) = .error e ∧ e ≠ .valueError
  | [], pre, e, h => by rw [fromFilesDirs] at h; cases h
  | (name, d) :: ds, pre, e, h => by
    rw [fromFilesDirs] at h
    split at h
    · rename_i e' he
      cases h
      obtain ⟨q, h1, h2⟩ := fromFiles_error d (pre ++ [name]) _ he
      exact ⟨name :: q, by simpa using h1, h2⟩
    · split at h
      · rename_i e' he
        cases h
        exact fromFilesDirs_error ds pre _ he
      · cases h
end

end Verif.Model

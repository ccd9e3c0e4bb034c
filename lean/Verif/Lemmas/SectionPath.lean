import Verif.Model.SectionPath

/- Helper lemmas about section paths and file paths. -/

namespace Verif.Py

theorem splitL_append (sep : Char) (w rest : List Char) :
    splitL sep (w ++ sep :: rest) = splitL sep w ++ splitL sep rest := by
  induction w with
  | nil => simp [splitL]
  | cons c w ih =>
    by_cases hc : c = sep
    · simp [splitL, hc, ih]
    · simp only [List.cons_append, splitL, if_neg hc, ih]
      cases h : splitL sep w with
      | nil => exact absurd h (splitL_ne_nil sep w)
      | cons x xs => simp

theorem split_append (s t : String) :
    split '/' (s ++ "/" ++ t) = split '/' s ++ split '/' t := by
  simp only [split, String.toList_append]
  have : "/".toList = ['/'] := rfl
  rw [this, List.append_assoc, List.singleton_append, splitL_append, List.map_append]

theorem split_slash_single : split '/' "" = [""] := rfl

theorem toList_ofList_eq (s : String) : String.ofList s.toList = s := String.ofList_toList

theorem hasChar_append (c : Char) (s t : String) :
    hasChar c (s ++ t) = (hasChar c s || hasChar c t) := by
  simp [hasChar]

theorem intercalateL (sep : Char) (xs : List (List Char)) :
    joinL sep xs = List.intercalate [sep] xs := by
  induction xs with
  | nil => rfl
  | cons x xs ih =>
    cases xs with
    | nil => simp [joinL, List.intercalate, List.intersperse]
    | cons y ys =>
      simp only [joinL, ih, List.intercalate, List.intersperse, List.flatten_cons,
        List.singleton_append]

/-- `join` is Lean's `String.intercalate`. -/
theorem join_eq_intercalate (c : Char) (xs : List String) :
    join c xs = (String.ofList [c]).intercalate xs := by
  rw [← String.toList_inj, join, String.toList_ofList, String.toList_intercalate, intercalateL]
  simp

end Verif.Py

namespace Verif.Py.Path
open Verif.Py

/-- A file name that `normpath` leaves alone. -/
def Plain (x : String) : Prop := x ≠ "" ∧ x ≠ "." ∧ x ≠ ".." ∧ hasChar '/' x = false

theorem normStep_plain {x : String} (h : Plain x) (new : List String) :
    normStep true new x = new ++ [x] := by
  unfold normStep
  rw [if_neg (by rintro (h' | h'); exact h.1 h'; exact h.2.1 h'), if_pos (Or.inl h.2.2.1)]

theorem foldl_normStep_plain {xs : List String} (h : ∀ x ∈ xs, Plain x) (new : List String) :
    xs.foldl (normStep true) new = new ++ xs := by
  induction xs generalizing new with
  | nil => simp
  | cons x xs ih =>
    rw [List.foldl_cons, normStep_plain (h x (by simp)), ih (fun y hy => h y (by simp [hy]))]
    simp

theorem normStep_empty (abs : Bool) (new : List String) : normStep abs new "" = new := by
  simp [normStep]

theorem mem_normStep {abs : Bool} {new : List String} {c x : String}
    (h : x ∈ normStep abs new c) : x ∈ new ∨ (x = c ∧ c ≠ "") := by
  unfold normStep at h
  split at h
  · exact Or.inl h
  · rename_i hc
    split at h
    · rcases List.mem_append.1 h with h | h
      · exact Or.inl h
      · simp at h; exact Or.inr ⟨h, fun hh => hc (Or.inl hh)⟩
    · exact Or.inl (List.dropLast_subset _ h)

theorem mem_foldl_normStep {abs : Bool} {cs new : List String} {x : String}
    (h : x ∈ cs.foldl (normStep abs) new) : x ∈ new ∨ (x ∈ cs ∧ x ≠ "") := by
  induction cs generalizing new with
  | nil => exact Or.inl h
  | cons c cs ih =>
    rw [List.foldl_cons] at h
    rcases ih h with h | h
    · rcases mem_normStep h with h | ⟨rfl, h⟩
      · exact Or.inl h
      · exact Or.inr ⟨by simp, h⟩
    · exact Or.inr ⟨by simp [h.1], h.2⟩

theorem normComps_mem {p x : String} (h : x ∈ normComps p) : x ≠ "" ∧ hasChar '/' x = false := by
  rcases mem_foldl_normStep h with h | ⟨h, hne⟩
  · cases h
  · exact ⟨hne, hasChar_of_mem_split '/' p x h⟩

theorem startsWith_iff (s p : String) : startsWith s p = true ↔ ∃ t, s = p ++ t := by
  unfold startsWith
  rw [List.isPrefixOf_iff_prefix]
  constructor
  · rintro ⟨t, ht⟩
    refine ⟨String.ofList t, ?_⟩
    rw [← String.toList_inj]; simp [ht]
  · rintro ⟨t, rfl⟩
    simp

theorem endsWith_iff (s p : String) : endsWith s p = true ↔ ∃ t, s = t ++ p := by
  unfold endsWith
  rw [List.isSuffixOf_iff_suffix]
  constructor
  · rintro ⟨t, ht⟩
    refine ⟨String.ofList t, ?_⟩
    rw [← String.toList_inj]; simp [ht]
  · rintro ⟨t, rfl⟩
    simp

theorem isAbs_append {p : String} (h : isAbs p = true) (q : String) : isAbs (p ++ q) = true := by
  unfold isAbs at *
  rw [startsWith_iff] at *
  obtain ⟨t, rfl⟩ := h
  exact ⟨t ++ q, by rw [String.append_assoc]⟩

/-- The pieces of a normalised path are its components. -/
theorem pieces_normpath {p : String} (habs : isAbs p = true) : pieces (normpath p) = normComps p := by
  have hne : p ≠ "" := by rintro rfl; simp [isAbs, startsWith] at habs
  have key : ∀ cs : List String, (∀ x ∈ cs, x ≠ "" ∧ hasChar '/' x = false) →
      (split '/' (join '/' cs)).filter (fun x => decide (x ≠ "")) = cs := by
    intro cs hcs
    cases cs with
    | nil => decide
    | cons c cs =>
      rw [split_join '/' (by simp) (fun x hx => (hcs x hx).2)]
      apply List.filter_eq_self.2
      intro x hx
      simpa using (hcs x hx).1
  have hmem := fun x hx => @normComps_mem p x hx
  unfold normpath
  rw [if_neg hne]
  simp only [habs, if_true]
  split
  · -- two slashes
    have h2 : ("//" ++ join '/' (normComps p)) ≠ "" := by
      intro hh; have := congrArg String.toList hh; simp at this
    rw [if_neg h2]
    unfold pieces
    have : ("//" ++ join '/' (normComps p)) = "" ++ "/" ++ ("" ++ "/" ++ join '/' (normComps p)) := by
      rw [← String.toList_inj]; simp
    rw [this, split_append, split_append]
    rw [List.filter_append, List.filter_append, key _ hmem, split_slash_single]
    simp
  · have h2 : ("/" ++ join '/' (normComps p)) ≠ "" := by
      intro hh; have := congrArg String.toList hh; simp at this
    rw [if_neg h2]
    unfold pieces
    have : ("/" ++ join '/' (normComps p)) = "" ++ "/" ++ join '/' (normComps p) := by
      rw [← String.toList_inj]; simp
    rw [this, split_append]
    rw [List.filter_append, key _ hmem, split_slash_single]
    simp

/-- The absolute form of a path given to `abspath`. -/
def full (cwd p : String) : String := if isAbs p then p else join2 cwd p

theorem isAbs_join2 {a : String} (h : isAbs a = true) (b : String) : isAbs (join2 a b) = true := by
  unfold join2
  split
  · assumption
  · split
    · exact isAbs_append h b
    · rw [String.append_assoc]; exact isAbs_append h _

theorem isAbs_full {cwd : String} (h : isAbs cwd = true) (p : String) : isAbs (full cwd p) = true := by
  unfold full
  split
  · assumption
  · exact isAbs_join2 h p

theorem normComps_trailing (p : String) (h : isAbs p = true) :
    normComps (p ++ "/") = normComps p := by
  unfold normComps
  have : p ++ "/" = p ++ "/" ++ "" := by simp
  rw [this, split_append, split_slash_single, List.foldl_append]
  have h2 : isAbs (p ++ "/" ++ "") = true := isAbs_append (isAbs_append h _) _
  rw [h2, h]
  simp [normStep_empty]

theorem normComps_append {p : String} (h : isAbs p = true) {ws : List String} (hne : ws ≠ [])
    (hw : ∀ w ∈ ws, Plain w) : normComps (p ++ "/" ++ join '/' ws) = normComps p ++ ws := by
  unfold normComps
  rw [split_append, split_join '/' hne (fun x hx => (hw x hx).2.2.2), List.foldl_append]
  have h2 : isAbs (p ++ "/" ++ join '/' ws) = true := isAbs_append (isAbs_append h _) _
  rw [h2, h, foldl_normStep_plain hw]

theorem isAbs_join_plain {ws : List String} (hw : ∀ w ∈ ws, Plain w) :
    isAbs (join '/' ws) = false := by
  rw [Bool.eq_false_iff]
  intro h
  cases ws with
  | nil => simp [isAbs, join, joinL, startsWith] at h
  | cons w ws =>
    have hp := hw w (by simp)
    have hwl : w.toList ≠ [] := by
      intro hh; apply hp.1; rw [← String.toList_inj, hh]; rfl
    obtain ⟨c, cs, hc⟩ := List.exists_cons_of_ne_nil hwl
    have hslash : '/' ∉ w.toList := by
      have := hp.2.2.2; simpa [hasChar] using this
    have : ∃ rest, (join '/' (w :: ws)).toList = c :: rest := by
      unfold join
      rw [String.toList_ofList]
      cases ws with
      | nil => exact ⟨cs, by simp [joinL, hc]⟩
      | cons v vs => exact ⟨_, by simp [joinL, hc]; rfl⟩
    obtain ⟨rest, hr⟩ := this
    unfold isAbs startsWith at h
    rw [hr] at h
    simp [List.isPrefixOf] at h
    apply hslash
    rw [hc, ← h]
    simp

/-- Components of `abspath(join(base, rel))` for a plain relative path. -/
theorem normComps_full_join2 {cwd : String} (hcwd : isAbs cwd = true) (base : String)
    {ws : List String} (hne : ws ≠ []) (hw : ∀ w ∈ ws, Plain w) :
    normComps (full cwd (join2 base (join '/' ws))) = normComps (full cwd base) ++ ws := by
  have hrel := isAbs_join_plain hw
  have hj : ∀ a, join2 a (join '/' ws) =
      if a = "" ∨ endsWith a "/" = true then a ++ join '/' ws else a ++ "/" ++ join '/' ws := by
    intro a; unfold join2; rw [hrel]; rfl
  -- absolute prefix
  have habs : ∀ a, isAbs a = true → normComps (join2 a (join '/' ws)) = normComps a ++ ws := by
    intro a ha
    rw [hj]
    split
    · rename_i h
      rcases h with rfl | h
      · simp [isAbs, startsWith] at ha
      · obtain ⟨t, rfl⟩ := (endsWith_iff a "/").1 h
        by_cases ht : isAbs t = true
        · rw [normComps_append ht hne hw, normComps_trailing t ht]
        · -- t is empty: the path is "/"
          have : t = "" := by
            rw [isAbs, startsWith_iff] at ha
            obtain ⟨u, hu⟩ := ha
            have hu' := congrArg String.toList hu
            simp only [String.toList_append] at hu'
            have h1 : "/".toList = ['/'] := rfl
            rw [h1] at hu'
            cases htl : t.toList with
            | nil => rw [← String.toList_inj, htl]; rfl
            | cons c cs =>
              rw [htl] at hu'
              simp at hu'
              exfalso; apply ht
              rw [isAbs, startsWith_iff]
              refine ⟨String.ofList cs, ?_⟩
              rw [← String.toList_inj, htl, String.toList_append]
              simp [hu'.1]
          subst this
          have e1 : "" ++ "/" ++ join '/' ws = "" ++ "/" ++ join '/' ws := rfl
          unfold normComps
          rw [split_append, split_join '/' hne (fun x hx => (hw x hx).2.2.2)]
          have h2 : isAbs ("" ++ "/" ++ join '/' ws) = true := by
            rw [isAbs, startsWith_iff]; exact ⟨join '/' ws, by simp⟩
          have h3 : isAbs ("" ++ "/") = true := by decide
          rw [h2, h3, List.foldl_append, foldl_normStep_plain hw]
          have h4 : split '/' ("" ++ "/") = ["", ""] := by decide
          rw [h4, split_slash_single]
          simp [normStep_empty]
    · exact normComps_append ha hne hw
  by_cases hb : isAbs base = true
  · have h1 : full cwd base = base := by unfold full; rw [if_pos hb]
    have h2 : full cwd (join2 base (join '/' ws)) = join2 base (join '/' ws) := by
      unfold full; rw [if_pos (isAbs_join2 hb _)]
    rw [h1, h2, habs base hb]
  · have h1 : full cwd base = join2 cwd base := by unfold full; rw [if_neg hb]
    by_cases hbe : base = ""
    · subst hbe
      have h2 : join2 "" (join '/' ws) = join '/' ws := by rw [hj]; simp
      have h3 : full cwd (join '/' ws) = join2 cwd (join '/' ws) := by
        unfold full; rw [hrel]; simp
      rw [h2, h3, h1, habs cwd hcwd]
      congr 1
      unfold join2
      simp only [show isAbs "" = false from by decide, Bool.false_eq_true, if_false]
      split
      · simp
      · simp [normComps_trailing cwd hcwd]
    · -- relative non-empty base
      have hab : isAbs (join2 base (join '/' ws)) = false := by
        rw [hj, Bool.eq_false_iff]
        intro hh
        apply hb
        have hbl : base.toList ≠ [] := by
          intro e; apply hbe; rw [← String.toList_inj, e]; rfl
        obtain ⟨c, cs, hc⟩ := List.exists_cons_of_ne_nil hbl
        have : ∀ t, isAbs (base ++ t) = true → isAbs base = true := by
          intro t ht
          unfold isAbs startsWith at ht ⊢
          rw [String.toList_append, hc] at ht
          rw [hc]
          simpa [List.isPrefixOf] using ht
        split at hh
        · exact this _ hh
        · rw [String.append_assoc] at hh; exact this _ hh
      have h2 : full cwd (join2 base (join '/' ws)) = join2 cwd (join2 base (join '/' ws)) := by
        unfold full; rw [hab]; simp
      have h3 : join2 cwd (join2 base (join '/' ws)) = join2 (join2 cwd base) (join '/' ws) := by
        have e1 : join2 cwd (join2 base (join '/' ws)) =
            if cwd = "" ∨ endsWith cwd "/" = true then cwd ++ join2 base (join '/' ws)
            else cwd ++ "/" ++ join2 base (join '/' ws) := by
          rw [join2.eq_1 cwd, hab]; rfl
        have e2 : join2 cwd base =
            if cwd = "" ∨ endsWith cwd "/" = true then cwd ++ base else cwd ++ "/" ++ base := by
          rw [join2.eq_1 cwd, if_neg hb]
        have hends : ∀ a, endsWith (a ++ base) "/" = endsWith base "/" := by
          intro a
          rw [Bool.eq_iff_iff, endsWith_iff, endsWith_iff]
          have hbl : base.toList ≠ [] := by
            intro e; apply hbe; rw [← String.toList_inj, e]; rfl
          constructor
          · rintro ⟨t, ht⟩
            have ht' := congrArg String.toList ht
            simp only [String.toList_append] at ht'
            have hl := List.dropLast_concat_getLast hbl
            have h1 : "/".toList = ['/'] := rfl
            rw [h1, ← hl, ← List.append_assoc] at ht'
            have := List.append_inj_right' ht' (by simp)
            refine ⟨String.ofList base.toList.dropLast, ?_⟩
            rw [← String.toList_inj, String.toList_append, String.toList_ofList, h1, ← this, hl]
          · rintro ⟨t, rfl⟩
            exact ⟨a ++ t, by rw [String.append_assoc]⟩
        have hne' : ∀ a, a ++ base ≠ "" := by
          intro a e
          have := congrArg String.toList e
          simp at this
          exact hbe this.2
        rw [e1, e2, hj, hj]
        by_cases hc : cwd = "" ∨ endsWith cwd "/" = true
        · rw [if_pos hc, if_pos hc, hends]
          simp only [hbe, false_or, hne' cwd]
          split <;> simp [String.append_assoc]
        · rw [if_neg hc, if_neg hc, hends]
          simp only [hbe, false_or, hne' (cwd ++ "/")]
          split <;> simp [String.append_assoc]
      rw [h2, h3, habs _ (isAbs_join2 hcwd base), h1]

theorem commonLen_append (as bs : List String) : commonLen as (as ++ bs) = as.length := by
  induction as with
  | nil => cases bs <;> rfl
  | cons a as ih => simp [commonLen, ih]

/-- `relpath` of a file below `base`. -/
theorem relpath_below {cwd : String} (hcwd : isAbs cwd = true) (base : String)
    {ws : List String} (hne : ws ≠ []) (hw : ∀ w ∈ ws, Plain w) :
    relpath cwd (join2 base (join '/' ws)) base = some (join '/' ws) := by
  have hp : join2 base (join '/' ws) ≠ "" := by
    intro h
    have h0 : (join '/' ws) ≠ "" := by
      intro e
      have := congrArg (split '/') e
      rw [split_join '/' hne (fun x hx => (hw x hx).2.2.2), split_slash_single] at this
      exact (hw "" (by rw [this]; simp)).1 rfl
    have hrel := isAbs_join_plain hw
    unfold join2 at h
    rw [hrel] at h
    simp only [Bool.false_eq_true, if_false] at h
    split at h
    · have := congrArg String.toList h
      simp at this; exact h0 this.2
    · have := congrArg String.toList h
      simp at this
  have e1 : pieces (abspath cwd base) = normComps (full cwd base) :=
    pieces_normpath (isAbs_full hcwd base)
  have e2 : pieces (abspath cwd (join2 base (join '/' ws))) = normComps (full cwd base) ++ ws := by
    have := pieces_normpath (isAbs_full hcwd (join2 base (join '/' ws)))
    rw [normComps_full_join2 hcwd base hne hw] at this
    exact this
  unfold relpath
  rw [if_neg hp]
  simp only [e1, e2, commonLen_append, Nat.sub_self, List.replicate_zero, List.nil_append,
    List.drop_left]
  rw [if_neg hne]

end Verif.Py.Path

namespace Verif.Model.SectionPath
open Verif.Py

theorem sections_ne_nil (sp : SectionPath) : sp.sections ≠ [] := split_ne_nil _ _

theorem sections_fromSectionStrList {xs : List String} (hne : xs ≠ [])
    (h : ∀ x ∈ xs, hasChar '.' x = false) : (fromSectionStrList xs).sections = xs :=
  split_join '.' hne h

theorem hasDot_sections (sp : SectionPath) : ∀ x ∈ sp.sections, hasChar '.' x = false :=
  hasChar_of_mem_split _ _

theorem sections_joinSP (a b : SectionPath) : (joinSP a b).sections = a.sections ++ b.sections := by
  apply sections_fromSectionStrList
  · simp [sections_ne_nil]
  · intro x hx
    rcases List.mem_append.1 hx with h | h
    · exact hasDot_sections _ _ h
    · exact hasDot_sections _ _ h

theorem ext_sections {a b : SectionPath} (h : a.sections = b.sections) : a = b := by
  cases a; cases b
  simp only [SectionPath.mk.injEq]
  exact split_injective '.' h

theorem mapLast_append (f : String → String) (xs : List String) (x : String) :
    mapLast f (xs ++ [x]) = xs ++ [f x] := by
  induction xs with
  | nil => rfl
  | cons y ys ih =>
    cases ys with
    | nil => rfl
    | cons z zs => simp only [List.cons_append] at ih ⊢; simp only [mapLast, ih]

theorem stripPy_append (x : String) : stripPy (x ++ ".py") = x := by
  have h : endsWith (x ++ ".py") ".py" = true := (Path.endsWith_iff _ _).2 ⟨x, rfl⟩
  unfold stripPy
  rw [if_pos h, ← String.toList_inj, String.toList_ofList, String.toList_append]
  have : ".py".toList = ['.', 'p', 'y'] := rfl
  rw [this]
  simp

theorem stripPy_of_no_dot {x : String} (h : hasChar '.' x = false) : stripPy x = x := by
  unfold stripPy
  split
  · rename_i hh
    obtain ⟨t, rfl⟩ := (Path.endsWith_iff _ _).1 hh
    rw [hasChar_append] at h
    simp only [Bool.or_eq_false_iff] at h
    exact absurd h.2 (by decide)
  · rfl

theorem partsMatch_iff (ps qs : List String) : partsMatch ps qs = true ↔ ps <+: qs := by
  induction ps generalizing qs with
  | nil => simp [partsMatch]
  | cons p ps ih =>
    cases qs with
    | nil => simp [partsMatch]
    | cons q qs =>
      by_cases hpq : p = q
      · subst hpq; simp [partsMatch, ih, List.cons_prefix_cons]
      · simp [partsMatch, hpq, List.cons_prefix_cons]

end Verif.Model.SectionPath

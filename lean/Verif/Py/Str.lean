/-
Python string operations used by pyfileconf, on Lean `String`s through their
character lists.  `str.split(sep)` and `sep.join(xs)` for a one character
separator, `startswith`, `endswith`.
-/

namespace Verif.Py

/-- `s.split(sep)` on characters: always at least one piece, empty pieces kept. -/
def splitL (sep : Char) : List Char → List (List Char)
  | [] => [[]]
  | c :: cs =>
    if c = sep then [] :: splitL sep cs
    else match splitL sep cs with
      | [] => [[c]]
      | w :: ws => (c :: w) :: ws

/-- `sep.join(xs)` on characters. -/
def joinL (sep : Char) : List (List Char) → List Char
  | [] => []
  | [w] => w
  | w :: v :: ws => w ++ sep :: joinL sep (v :: ws)

/-- Python `s.split(sep)` for a one character separator. -/
def split (sep : Char) (s : String) : List String :=
  (splitL sep s.toList).map String.ofList

/-- Python `sep.join(xs)` for a one character separator. -/
def join (sep : Char) (xs : List String) : String :=
  String.ofList (joinL sep (xs.map String.toList))

/-- Python `s.startswith(p)`. -/
def startsWith (s p : String) : Bool := p.toList.isPrefixOf s.toList

/-- Python `s.endswith(p)`. -/
def endsWith (s p : String) : Bool := p.toList.isSuffixOf s.toList

/-- `c in s` for a character. -/
def hasChar (c : Char) (s : String) : Bool := s.toList.contains c

/-! ### split and join are inverse to each other -/

theorem splitL_ne_nil (sep : Char) (cs : List Char) : splitL sep cs ≠ [] := by
  cases cs with
  | nil => simp [splitL]
  | cons c cs =>
    simp only [splitL]
    split
    · simp
    · split <;> simp

theorem joinL_cons_of_ne_nil (sep : Char) (w : List Char) {ws : List (List Char)} (h : ws ≠ []) :
    joinL sep (w :: ws) = w ++ sep :: joinL sep ws := by
  cases ws with
  | nil => exact absurd rfl h
  | cons v ws => rfl

theorem joinL_splitL (sep : Char) (cs : List Char) : joinL sep (splitL sep cs) = cs := by
  induction cs with
  | nil => rfl
  | cons c cs ih =>
    simp only [splitL]
    split
    · rename_i h
      rw [joinL_cons_of_ne_nil sep [] (splitL_ne_nil sep cs), ih, h]; rfl
    · split
      · rename_i h; exact absurd h (splitL_ne_nil sep cs)
      · rename_i w ws h
        rw [h] at ih
        cases ws with
        | nil => simpa [joinL] using ih
        | cons v ws => simpa [joinL] using ih

theorem splitL_of_not_mem (sep : Char) {w : List Char} (h : sep ∉ w) : splitL sep w = [w] := by
  induction w with
  | nil => rfl
  | cons c w ih =>
    simp only [List.mem_cons, not_or] at h
    simp only [splitL, if_neg (Ne.symm h.1), ih h.2]

theorem splitL_append_sep (sep : Char) {w : List Char} (h : sep ∉ w) (rest : List Char) :
    splitL sep (w ++ sep :: rest) = w :: splitL sep rest := by
  induction w with
  | nil => simp [splitL]
  | cons c w ih =>
    simp only [List.mem_cons, not_or] at h
    simp only [List.cons_append, splitL, if_neg (Ne.symm h.1), ih h.2]

theorem splitL_joinL (sep : Char) {ws : List (List Char)} (hne : ws ≠ [])
    (h : ∀ w ∈ ws, sep ∉ w) : splitL sep (joinL sep ws) = ws := by
  induction ws with
  | nil => exact absurd rfl hne
  | cons w ws ih =>
    cases ws with
    | nil => exact splitL_of_not_mem sep (h w (by simp))
    | cons v ws =>
      simp only [joinL]
      rw [splitL_append_sep sep (h w (by simp)), ih (by simp)]
      intro x hx
      exact h x (List.mem_cons_of_mem _ hx)

theorem not_mem_of_mem_splitL (sep : Char) (cs : List Char) :
    ∀ w ∈ splitL sep cs, sep ∉ w := by
  induction cs with
  | nil => simp [splitL]
  | cons c cs ih =>
    simp only [splitL]
    split
    · intro w hw
      rcases List.mem_cons.1 hw with rfl | hw
      · simp
      · exact ih w hw
    · rename_i hc
      split
      · intro w hw; simp at hw; subst hw; simp [Ne.symm hc]
      · rename_i w ws h
        rw [h] at ih
        intro x hx
        rcases List.mem_cons.1 hx with rfl | hx
        · simp only [List.mem_cons, not_or]
          exact ⟨Ne.symm hc, ih w (by simp)⟩
        · exact ih x (List.mem_cons_of_mem _ hx)

theorem joinL_append (sep : Char) {as bs : List (List Char)} (ha : as ≠ []) (hb : bs ≠ []) :
    joinL sep (as ++ bs) = joinL sep as ++ sep :: joinL sep bs := by
  induction as with
  | nil => exact absurd rfl ha
  | cons a as ih =>
    cases as with
    | nil =>
      simp only [List.cons_append, List.nil_append]
      rw [joinL_cons_of_ne_nil sep a hb]; rfl
    | cons a' as =>
      have := ih (by simp)
      simp only [List.cons_append] at this ⊢
      simp only [joinL, this, List.append_assoc, List.cons_append]

theorem split_ne_nil (sep : Char) (s : String) : split sep s ≠ [] := by
  simp [split, splitL_ne_nil]

theorem join_split (sep : Char) (s : String) : join sep (split sep s) = s := by
  simp [join, split, Function.comp_def, joinL_splitL]

theorem split_join (sep : Char) {xs : List String} (hne : xs ≠ [])
    (h : ∀ x ∈ xs, hasChar sep x = false) : split sep (join sep xs) = xs := by
  have h' : ∀ w ∈ xs.map String.toList, sep ∉ w := by
    intro w hw
    obtain ⟨x, hx, rfl⟩ := List.mem_map.1 hw
    have := h x hx
    simpa [hasChar] using this
  simp [join, split, splitL_joinL sep (ws := xs.map String.toList) (by simpa using hne) h',
    Function.comp_def]

theorem hasChar_of_mem_split (sep : Char) (s : String) :
    ∀ x ∈ split sep s, hasChar sep x = false := by
  intro x hx
  obtain ⟨w, hw, rfl⟩ := List.mem_map.1 hx
  have := not_mem_of_mem_splitL sep s.toList w hw
  simpa [hasChar] using this

theorem split_injective (sep : Char) {s t : String} (h : split sep s = split sep t) : s = t := by
  rw [← join_split sep s, ← join_split sep t, h]

end Verif.Py

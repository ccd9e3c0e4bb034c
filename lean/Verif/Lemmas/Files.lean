import Verif.Model.Files

/-
Lemmas about the text of written config files.
-/

namespace Verif.Model
open Verif.Py

/-! ### Joining lines -/

theorem join_append (sep : Char) {as bs : List String} (ha : as ≠ []) (hb : bs ≠ []) :
    join sep (as ++ bs) = join sep as ++ String.ofList [sep] ++ join sep bs := by
  apply String.toList_inj.1
  unfold join
  rw [List.map_append, joinL_append sep (by simpa using ha) (by simpa using hb)]
  simp

theorem join_singleton (sep : Char) (s : String) : join sep [s] = s := by
  unfold join
  simp [joinL]

theorem joinS_newline (xs : List String) : joinS "\n" xs = join '\n' xs := by
  induction xs with
  | nil => rfl
  | cons x xs ih =>
    cases xs with
    | nil => rw [join_singleton]; rfl
    | cons y ys =>
      rw [joinS, ih]
      have := join_append '\n' (as := [x]) (bs := y :: ys) (by simp) (by simp)
      rw [List.singleton_append, join_singleton] at this
      rw [this]

/-- Joining texts that consist of lines gives the text of all lines. -/
theorem joinS_joins {Ls : List (List String)} (h : ∀ L ∈ Ls, L ≠ []) :
    joinS "\n" (Ls.map (join '\n')) = join '\n' Ls.flatten := by
  induction Ls with
  | nil => rfl
  | cons L Ls ih =>
    have ih := ih (fun M hM => h M (List.mem_cons_of_mem _ hM))
    cases Ls with
    | nil => simp [joinS]
    | cons M Ms =>
      rw [List.map_cons, List.map_cons, joinS, ← List.map_cons (f := join '\n'), ih,
        List.flatten_cons (l := L), join_append '\n' (h L List.mem_cons_self)]
      · rw [List.flatten_cons]
        have := h M (List.mem_cons_of_mem _ List.mem_cons_self)
        simp [this]

theorem join_eq_empty {sep : Char} {ls : List String} : join sep ls = "" ↔ ls = [] ∨ ls = [""] := by
  constructor
  · intro h
    cases ls with
    | nil => exact .inl rfl
    | cons l ls =>
      right
      cases ls with
      | nil => rw [join_singleton] at h; rw [h]
      | cons m ms =>
        have := join_append sep (as := [l]) (bs := m :: ms) (by simp) (by simp)
        rw [List.singleton_append, h] at this
        have := congrArg String.toList this
        simp at this
  · rintro (rfl | rfl)
    · rfl
    · exact join_singleton _ _

/-- Lines, each with its newline. -/
def linesText (ls : List String) : String := ls.foldl (fun acc l => acc ++ l ++ "\n") ""

theorem foldl_lines (ls : List String) (acc : String) :
    ls.foldl (fun acc l => acc ++ l ++ "\n") acc = acc ++ linesText ls := by
  induction ls generalizing acc with
  | nil => simp [linesText]
  | cons l ls ih =>
    unfold linesText
    rw [List.foldl_cons, List.foldl_cons, ih, ih ("" ++ l ++ "\n")]
    simp [String.append_assoc]

theorem linesText_append (as bs : List String) : linesText (as ++ bs) = linesText as ++ linesText bs := by
  unfold linesText
  rw [List.foldl_append, foldl_lines]
  rfl

theorem linesText_eq_join (ls : List String) : linesText ls = join '\n' (ls ++ [""]) := by
  induction ls with
  | nil => rw [List.nil_append, join_singleton]; rfl
  | cons l ls ih =>
    have h1 : linesText (l :: ls) = l ++ "\n" ++ linesText ls := by
      rw [← List.singleton_append, linesText_append]
      rfl
    have h2 := join_append '\n' (as := [l]) (bs := ls ++ [""]) (by simp) (by simp)
    rw [join_singleton, ← ih] at h2
    rw [h1, List.cons_append]
    exact h2.symm

/-- The lines printed for an assignment. -/
def Assign.lines (lang : Lang) (a : Assign) : List String := lang.source a.target a.annotation a.value

theorem assignsStr_eq_join (lang : Lang) (as : List Assign) (h : ∀ a ∈ as, a.origStr = none) :
    assignsStr lang as = join '\n' (as.flatMap (Assign.lines lang) ++ [""]) := by
  rw [← linesText_eq_join]
  have key : ∀ (as : List Assign) (acc : String), (∀ a ∈ as, a.origStr = none) →
      as.foldl (fun acc a => acc ++ a.str lang) acc = acc ++ linesText (as.flatMap (Assign.lines lang)) := by
    intro as
    induction as with
    | nil => intro acc _; simp [linesText]
    | cons a as ih =>
      intro acc h
      have ha : a.str lang = linesText (a.lines lang) := by
        unfold Assign.str
        rw [h a List.mem_cons_self]
        rfl
      rw [List.foldl_cons, ih _ (fun b hb => h b (List.mem_cons_of_mem _ hb)), List.flatMap_cons, linesText_append, ha,
        String.append_assoc]
  have := key as "" h
  rw [String.empty_append] at this
  exact this

/-! ### The lines of a written file -/

/-- A last line that is empty is not seen by `readlines`. -/
def dropLastBlank (ls : List String) : List String := if ls.getLast? = some "" then ls.dropLast else ls

theorem readLines_join {ls : List String} (hne : ls ≠ []) (h : ∀ l ∈ ls, hasChar '\n' l = false) :
    readLines (join '\n' ls) = dropLastBlank ls := by
  unfold readLines dropLastBlank
  rw [split_join '\n' hne h]

theorem dropLastBlank_concat (ls : List String) : dropLastBlank (ls ++ [""]) = ls := by
  unfold dropLastBlank
  simp

/-- The lines of the import section. -/
def importLines (is : List Imp) : List String := if is = [] then [""] else is.map Imp.str

theorem importsStr_eq (is : List Imp) : importsStr is = join '\n' (importLines is) := by
  unfold importsStr importLines
  rw [joinS_newline]
  split
  · rename_i h
    subst h
    exact (join_singleton _ _).symm
  · rfl

theorem importLines_ne_nil (is : List Imp) : importLines is ≠ [] := by
  unfold importLines
  split
  · simp
  · rename_i h
    simpa using h

/-- The lines of a written file: the imports, an empty line, the new assignments for the beginning,
the old body and the new assignments. -/
theorem readLines_fileText (lang : Lang) {imports : List Imp} {begins ends : List Assign} {body B : List String}
    (hb : assignsStr lang begins = join '\n' B) (hB : B ≠ [""]) (hbody : body ≠ [""])
    (he : ∀ a ∈ ends, a.origStr = none) (hEl : ∀ a ∈ ends, a.lines lang ≠ [])
    (n1 : ∀ i ∈ imports, hasChar '\n' i.str = false) (n2 : ∀ l ∈ B, hasChar '\n' l = false)
    (n3 : ∀ l ∈ body, hasChar '\n' l = false) (n4 : ∀ a ∈ ends, ∀ l ∈ a.lines lang, hasChar '\n' l = false) :
    readLines (fileText lang imports begins body ends) =
      if ends = [] then dropLastBlank (importLines imports ++ [""] ++ B ++ body)
      else importLines imports ++ [""] ++ B ++ body ++ ends.flatMap (Assign.lines lang) := by
  have nI : ∀ l ∈ importLines imports, hasChar '\n' l = false := by
    unfold importLines
    split
    · intro l hl
      rw [List.mem_singleton] at hl
      subst hl
      rfl
    · intro l hl
      obtain ⟨i, hi, rfl⟩ := List.mem_map.1 hl
      exact n1 i hi
  have hI : importsStr imports ++ "\n" = join '\n' (importLines imports ++ [""]) := by
    rw [join_append '\n' (importLines_ne_nil _) (by simp), join_singleton, importsStr_eq, String.append_empty]
  have hIne : join '\n' (importLines imports ++ [""]) ≠ "" := by
    intro h
    rcases join_eq_empty.1 h with h | h
    · simp at h
    · have := importLines_ne_nil imports
      cases hl : importLines imports with
      | nil => exact this hl
      | cons x xs =>
        rw [hl] at h
        simp at h
  unfold fileText
  rw [hI, hb, assignsStr_eq_join lang ends he]
  have hfilter : ∀ (L : List String), L ≠ [""] →
      ([join '\n' L].filter (fun s => decide (s ≠ ""))) = ((if L = [] then [] else [L]).map (join '\n')) := by
    intro L hL
    by_cases h : L = []
    · subst h
      rfl
    · have : join '\n' L ≠ "" := by
        intro he
        rcases join_eq_empty.1 he with h' | h'
        · exact h h'
        · exact hL h'
      simp [this, h]
  have e4 : [join '\n' (importLines imports ++ [""]), join '\n' B, join '\n' body,
      join '\n' (ends.flatMap (Assign.lines lang) ++ [""])] =
      [join '\n' (importLines imports ++ [""])] ++ [join '\n' B] ++ [join '\n' body] ++
      [join '\n' (ends.flatMap (Assign.lines lang) ++ [""])] := rfl
  have hIne2 : importLines imports ++ [""] ≠ [""] := by
    intro h
    rw [h, join_singleton] at hIne
    exact hIne rfl
  rw [e4, List.filter_append, List.filter_append, List.filter_append, hfilter _ hIne2, hfilter B hB, hfilter body hbody]
  have flat : ∀ L : List String, (if L = [] then ([] : List (List String)) else [L]).flatten = L := by
    intro L
    split
    · rename_i h
      subst h; rfl
    · simp
  have mem : ∀ L : List String, ∀ M ∈ (if L = [] then ([] : List (List String)) else [L]), M ≠ [] := by
    intro L M hM
    split at hM
    · cases hM
    · rename_i h
      rw [List.mem_singleton] at hM
      subst hM
      exact h
  by_cases hends : ends = []
  · subst hends
    rw [if_pos rfl]
    have : [join '\n' (([] : List Assign).flatMap (Assign.lines lang) ++ [""])].filter (fun s => decide (s ≠ "")) = [] := by
      rw [List.flatMap_nil, List.nil_append, join_singleton]
      rfl
    rw [this, List.append_nil, ← List.map_append, ← List.map_append, joinS_joins]
    · rw [List.flatten_append, List.flatten_append, flat, flat, flat, readLines_join]
      · simp
      · intro l hl
        simp only [List.mem_append, List.mem_singleton] at hl
        rcases hl with ((hl | hl) | hl) | hl
        · exact nI l hl
        · subst hl; rfl
        · exact n2 l hl
        · exact n3 l hl
    · intro L hL
      simp only [List.mem_append] at hL
      rcases hL with (hL | hL) | hL
      · exact mem _ _ hL
      · exact mem _ _ hL
      · exact mem _ _ hL
  · rw [if_neg hends]
    have hEne : ends.flatMap (Assign.lines lang) ≠ [] := by
      cases ends with
      | nil => exact absurd rfl hends
      | cons a as =>
        rw [List.flatMap_cons]
        have := hEl a List.mem_cons_self
        simp [this]
    have hE2 : ends.flatMap (Assign.lines lang) ++ [""] ≠ [""] := by
      intro h
      cases hl : ends.flatMap (Assign.lines lang) with
      | nil => exact hEne hl
      | cons x xs => rw [hl] at h; simp at h
    rw [hfilter _ hE2, ← List.map_append, ← List.map_append, ← List.map_append, joinS_joins]
    · rw [List.flatten_append, List.flatten_append, List.flatten_append, flat, flat, flat, flat, ← List.append_assoc,
        readLines_join, dropLastBlank_concat]
      · simp
      · intro l hl
        simp only [List.mem_append, List.mem_singleton] at hl
        rcases hl with ((((hl | hl) | hl) | hl) | hl) | hl
        · exact nI l hl
        · subst hl; rfl
        · exact n2 l hl
        · exact n3 l hl
        · obtain ⟨a, ha, hl⟩ := List.mem_flatMap.1 hl
          exact n4 a ha l hl
        · subst hl; rfl
    · intro L hL
      simp only [List.mem_append] at hL
      rcases hL with ((hL | hL) | hL) | hL
      · exact mem _ _ hL
      · exact mem _ _ hL
      · exact mem _ _ hL
      · exact mem _ _ hL

/-! ### The sections of a file -/

theorem splitSections_append (ls : List String) : (splitSections ls).1 ++ (splitSections ls).2 = ls := by
  induction ls with
  | nil => rfl
  | cons l ls ih =>
    rw [splitSections]
    split
    · simp [ih]
    · rfl

theorem splitSections_fst (ls : List String) : ∀ l ∈ (splitSections ls).1, importish l = true := by
  induction ls with
  | nil => intro l hl; cases hl
  | cons l ls ih =>
    intro x hx
    rw [splitSections] at hx
    split at hx
    · rename_i h
      rcases List.mem_cons.1 hx with rfl | hx
      · exact h
      · exact ih x hx
    · cases hx

theorem splitSections_snd (ls : List String) : (splitSections ls).2 = [] ∨
    ∃ l rest, (splitSections ls).2 = l :: rest ∧ importish l = false := by
  induction ls with
  | nil => exact .inl rfl
  | cons l ls ih =>
    rw [splitSections]
    split
    · exact ih
    · rename_i h
      exact .inr ⟨l, ls, rfl, by simpa using h⟩

/-- The sections of lines of which the first ones belong to the import section and the next one does
not. -/
theorem splitSections_of {as bs : List String} (ha : ∀ l ∈ as, importish l = true)
    (hb : ∀ l, bs.head? = some l → importish l = false) : splitSections (as ++ bs) = (as, bs) := by
  induction as with
  | nil =>
    cases bs with
    | nil => rfl
    | cons b bs =>
      rw [List.nil_append, splitSections, if_neg (by rw [hb b rfl]; simp)]
  | cons a as ih =>
    rw [List.cons_append, splitSections, if_pos (ha a List.mem_cons_self),
      ih (fun l hl => ha l (List.mem_cons_of_mem _ hl))]

theorem body_ne_blank (ls : List String) : (splitSections ls).2 ≠ [""] := by
  intro h
  rcases splitSections_snd ls with h' | ⟨l, rest, h', hl⟩
  · rw [h'] at h; cases h
  · rw [h'] at h
    cases h
    revert hl
    decide

theorem mem_readLines_noNewline {text : String} : ∀ l ∈ readLines text, hasChar '\n' l = false := by
  intro l hl
  apply hasChar_of_mem_split '\n' text
  unfold readLines at hl
  dsimp only at hl
  split at hl
  · exact List.dropLast_subset _ hl
  · exact hl

/-! ### New assignments -/

theorem newAssigns_ends (existing : List Assign) (b : List Assign) (as : List Assign) (e : List Assign)
    (hp : ∀ a ∈ as, a.preferBeginning = false) (hn : ((e ++ as).map (fun a => a.target.varname)).Nodup) :
    newAssigns existing as (b, e) =
      (b, e ++ as.filter (fun a => !containsVarname existing a.target.varname)) := by
  induction as generalizing e with
  | nil => simp [newAssigns]
  | cons a as ih =>
    rw [newAssigns]
    have hp' : ∀ a ∈ as, a.preferBeginning = false := fun x hx => hp x (List.mem_cons_of_mem _ hx)
    by_cases hc : containsVarname existing a.target.varname = true
    · rw [if_pos hc, ih e hp']
      · simp [hc]
      · refine List.Nodup.sublist ?_ hn
        apply List.Sublist.map
        exact List.Sublist.append (List.Sublist.refl _) (List.sublist_cons_self _ _)
    · rw [if_neg hc, if_neg (by simp [hp a List.mem_cons_self])]
      have happ : appendAssign e a = e ++ [a] := by
        unfold appendAssign
        rw [if_neg]
        rw [List.any_eq_true]
        rintro ⟨x, hx, hs⟩
        unfold Assign.same at hs
        simp only [Bool.and_eq_true, decide_eq_true_eq] at hs
        rw [List.map_append, List.nodup_append] at hn
        exact hn.2.2 _ (List.mem_map_of_mem hx) _ (List.mem_map.2 ⟨a, List.mem_cons_self, rfl⟩) hs.1
      rw [happ, ih (e ++ [a]) hp' (by simpa using hn)]
      simp [hc]

/-- `items` of a dictionary after an update with keys that are filtered out. -/
theorem items_filter_setAll {V : Type} (es : List (String × V)) (d : Dict String V) (p : String → Bool)
    (h : ∀ e ∈ es, p e.1 = false) :
    (d.setAll es).items.filter (fun e => p e.1) = d.items.filter (fun e => p e.1) := by
  have hset : ∀ (l : List (String × V)) (k : String) (v : V), p k = false →
      (AList.set l k v).filter (fun e => p e.1) = l.filter (fun e => p e.1) := by
    intro l k v hk
    induction l with
    | nil => simp [AList.set, hk]
    | cons e l ih =>
      obtain ⟨a, b⟩ := e
      rw [AList.set]
      split
      · rename_i hak
        subst hak
        simp [hk]
      · rw [List.filter_cons, List.filter_cons, ih]
  induction es generalizing d with
  | nil => rfl
  | cons e es ih =>
    have := ih (d.set e.1 e.2) (fun x hx => h x (List.mem_cons_of_mem _ hx))
    unfold Dict.setAll at this ⊢
    rw [List.foldl_cons, this]
    exact hset _ _ _ (h e List.mem_cons_self)

/-- Every key of the dictionary of a file is assigned in it. -/
theorem defaultsFrom_keys {as : List Assign} {d : Dict String (Option Expr)} {ann : Dict String Expr}
    {r : Dict String (Option Expr) × Dict String Expr} (h : defaultsFrom as d ann = .ok r) :
    ∀ k ∈ r.1.keys, k ∈ d.keys ∨ containsVarname as k = true := by
  induction as generalizing d ann with
  | nil =>
    cases h
    exact fun k hk => .inl hk
  | cons a as ih =>
    rw [defaultsFrom] at h
    cases ha : a.toDefault with
    | error e => rw [ha] at h; cases h
    | ok xy =>
      rw [ha] at h
      obtain ⟨x, y⟩ := xy
      intro k hk
      rcases ih h k hk with hk | hk
      · rw [Dict.mem_keys_setAll] at hk
        rcases hk with hk | hk
        · exact .inl hk
        · right
          unfold Assign.toDefault at ha
          unfold containsVarname
          rw [List.any_cons, Bool.or_eq_true]
          left
          cases ht : a.target with
          | name id =>
            rw [ht] at ha
            cases ha
            simp only [List.map_cons, List.map_nil, List.mem_singleton] at hk
            simp [Target.varname, hk]
          | «attribute» src =>
            rw [ht] at ha
            cases hn : a.annotation with
            | none => rw [hn] at ha; cases ha; cases hk
            | some e => rw [hn] at ha; cases ha
          | other src => rw [ht] at ha; cases ha
      · right
        unfold containsVarname at hk ⊢
        rw [List.any_cons, hk, Bool.or_true]

end Verif.Model

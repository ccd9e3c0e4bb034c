import Verif.Model.Definition
import Verif.Props.Definition

/-
Property theorems about writing and reading nested definitions: C38.
-/

namespace Verif.Props
open Verif.Py Verif.Model

/-! ### Specification: reading a Python literal of dictionaries, lists, names and strings -/

/-- Tokens. -/
inductive Tok where
  | punct (c : Char)
  | name (s : List Char)
  | str (s : List Char)
deriving DecidableEq, Repr

/-- Characters of identifiers. -/
def identChar (c : Char) : Bool := c.isAlphanum || c == '_' || decide (128 ≤ c.toNat)

/-- Punctuation of literals and assignments. -/
def punctChar (c : Char) : Bool := decide (c ∈ ['{', '}', '[', ']', ':', ',', '='])

/-- Where in a token the reader is. -/
inductive Mode where
  | out
  | ident (acc : List Char)
  | str (quote : Char) (acc : List Char)
  | esc (quote : Char) (acc : List Char)

/-- The character an escape stands for. -/
def escaped (c : Char) : Option Char :=
  if c = 'n' then some '\n'
  else if c = 'r' then some '\r'
  else if c = 't' then some '\t'
  else if c = '\\' ∨ c = '\'' ∨ c = '"' then some c
  else none

/-- A character between tokens. -/
def outside (c : Char) (k : Mode → Option (List Tok)) : Option (List Tok) :=
  if c = ' ' ∨ c = '\n' then k .out
  else if punctChar c then (k .out).map (.punct c :: ·)
  else if c = '"' ∨ c = '\'' then k (.str c [])
  else if identChar c then k (.ident [c])
  else none

/-- The tokens of a text. -/
def tokens : Mode → List Char → Option (List Tok)
  | .out, [] => some []
  | .ident acc, [] => some [.name acc]
  | .str _ _, [] => none
  | .esc _ _, [] => none
  | .out, c :: s => outside c (fun m => tokens m s)
  | .ident acc, c :: s =>
    if identChar c then tokens (.ident (acc ++ [c])) s
    else (outside c (fun m => tokens m s)).map (.name acc :: ·)
  | .str quote acc, c :: s =>
    if c = quote then (tokens .out s).map (.str acc :: ·)
    else if c = '\\' then tokens (.esc quote acc) s
    else if c = '\n' ∨ c = '\r' then none
    else tokens (.str quote (acc ++ [c])) s
  | .esc quote acc, c :: s => match escaped c with
    | none => none
    | some d => tokens (.str quote (acc ++ [d])) s

/-- A comma before a closing bracket has no meaning. -/
def dropTrailing : List Tok → List Tok
  | [] => []
  | [t] => [t]
  | t :: t' :: ts =>
    if t = .punct ',' ∧ (t' = .punct '}' ∨ t' = .punct ']') then dropTrailing (t' :: ts)
    else t :: dropTrailing (t' :: ts)

/-- What a text says, apart from its layout: its tokens without trailing commas. -/
def layoutFree (text : String) : Option (List Tok) := (tokens .out text.toList).map dropTrailing

mutual
/-- Read a value; the first argument bounds the number of steps. -/
def readValue : Nat → List Tok → Option (Def Leaf × List Tok)
  | 0, _ => none
  | n + 1, ts => match ts with
    | .punct '{' :: .punct '}' :: r => some (.dict [], r)
    | .punct '{' :: r => (readEntries n r).map (fun p => (.dict p.1, p.2))
    | .punct '[' :: .punct ']' :: r => some (.list [], r)
    | .punct '[' :: r => (readItems n r).map (fun p => (.list p.1, p.2))
    | .name s :: r => some (.leaf (.name (String.ofList s)), r)
    | .str s :: r => some (.leaf (.str (String.ofList s)), r)
    | _ => none
/-- Read the entries of a dictionary, at least one, and its end. -/
def readEntries : Nat → List Tok → Option (List (String × Def Leaf) × List Tok)
  | 0, _ => none
  | n + 1, ts => match ts with
    | .str k :: .punct ':' :: r => match readValue n r with
      | some (v, .punct '}' :: r) => some ([(String.ofList k, v)], r)
      | some (v, .punct ',' :: r) => (readEntries n r).map (fun p => ((String.ofList k, v) :: p.1, p.2))
      | _ => none
    | _ => none
/-- Read the items of a list, at least one, and its end. -/
def readItems : Nat → List Tok → Option (List (Def Leaf) × List Tok)
  | 0, _ => none
  | n + 1, ts => match readValue n ts with
    | some (v, .punct ']' :: r) => some ([v], r)
    | some (v, .punct ',' :: r) => (readItems n r).map (fun p => (v :: p.1, p.2))
    | _ => none
end

/-- Read an assignment of a literal to a name. -/
def readAssignment (target : String) (text : String) : Option (Def Leaf) :=
  match layoutFree text with
  | some (.name t :: .punct '=' :: ts) =>
    if t = target.toList then
      match readValue (ts.length + 1) ts with
      | some (v, []) => some v
      | _ => none
    else none
  | _ => none

/-- An identifier. -/
def Ident (s : String) : Prop := s.toList ≠ [] ∧ ∀ c ∈ s.toList, identChar c = true

/-- A section name without quotes, backslashes and line ends. -/
def PlainKey (s : String) : Prop := ∀ c ∈ s.toList, c ≠ '"' ∧ c ≠ '\\' ∧ c ≠ '\n' ∧ c ≠ '\r'

mutual
/-- A definition as it is in the general definition: lists of names in dictionaries, with distinct
plain keys. -/
inductive OfNames : Def Leaf → Prop
  | name {id : String} : Ident id → OfNames (.leaf (.name id))
  | list {xs : List (Def Leaf)} : (∀ x ∈ xs, ∃ id, Ident id ∧ x = .leaf (.name id)) → OfNames (.list xs)
  | dict {es : List (String × Def Leaf)} : OfNamesAll es → (es.map Prod.fst).Nodup → OfNames (.dict es)
/-- For all entries. -/
inductive OfNamesAll : List (String × Def Leaf) → Prop
  | nil : OfNamesAll []
  | cons {k : String} {v : Def Leaf} {es : List (String × Def Leaf)} : PlainKey k → OfNames v → OfNamesAll es →
      OfNamesAll ((k, v) :: es)
end

mutual
/-- A definition as it is in the definition of a specific class: dictionaries and lists of strings,
with distinct keys. -/
inductive OfStrings : Def Leaf → Prop
  | str {s : String} : OfStrings (.leaf (.str s))
  | list {xs : List (Def Leaf)} : OfStringsItems xs → OfStrings (.list xs)
  | dict {es : List (String × Def Leaf)} : OfStringsAll es → (es.map Prod.fst).Nodup → OfStrings (.dict es)
/-- For all entries. -/
inductive OfStringsAll : List (String × Def Leaf) → Prop
  | nil : OfStringsAll []
  | cons {k : String} {v : Def Leaf} {es : List (String × Def Leaf)} : OfStrings v → OfStringsAll es →
      OfStringsAll ((k, v) :: es)
/-- For all items. -/
inductive OfStringsItems : List (Def Leaf) → Prop
  | nil : OfStringsItems []
  | cons {v : Def Leaf} {xs : List (Def Leaf)} : OfStrings v → OfStringsItems xs → OfStringsItems (v :: xs)
end

/-! ### Lemmas -/

namespace Literal

/-! #### The tokens of a definition, without trailing commas -/

mutual
/-- The tokens of a value. -/
def toks : Def Leaf → List Tok
  | .leaf (.name s) => [.name s.toList]
  | .leaf (.str s) => [.str s.toList]
  | .leaf .other => []
  | .dict [] => [.punct '{', .punct '}']
  | .dict ((k, v) :: es) => .punct '{' :: .str k.toList :: .punct ':' :: (toks v ++ toksEntries es)
  | .list [] => [.punct '[', .punct ']']
  | .list (x :: xs) => .punct '[' :: (toks x ++ toksItems xs)
/-- The tokens of further entries, to the end of the dictionary. -/
def toksEntries : List (String × Def Leaf) → List Tok
  | [] => [.punct '}']
  | (k, v) :: es => .punct ',' :: .str k.toList :: .punct ':' :: (toks v ++ toksEntries es)
/-- The tokens of further items, to the end of the list. -/
def toksItems : List (Def Leaf) → List Tok
  | [] => [.punct ']']
  | x :: xs => .punct ',' :: (toks x ++ toksItems xs)
end

mutual
/-- No leaf is another AST node. -/
inductive Good : Def Leaf → Prop
  | name (s : String) : Good (.leaf (.name s))
  | str (s : String) : Good (.leaf (.str s))
  | dict {es : List (String × Def Leaf)} : GoodEntries es → Good (.dict es)
  | list {xs : List (Def Leaf)} : GoodItems xs → Good (.list xs)
inductive GoodEntries : List (String × Def Leaf) → Prop
  | nil : GoodEntries []
  | cons {k : String} {v : Def Leaf} {es : List (String × Def Leaf)} : Good v → GoodEntries es → GoodEntries ((k, v) :: es)
inductive GoodItems : List (Def Leaf) → Prop
  | nil : GoodItems []
  | cons {v : Def Leaf} {xs : List (Def Leaf)} : Good v → GoodItems xs → GoodItems (v :: xs)
end

theorem toks_head {v : Def Leaf} (h : Good v) : ∃ t ts, toks v = t :: ts
    ∧ (t = .punct '{' ∨ t = .punct '[' ∨ (∃ s, t = .name s) ∨ ∃ s, t = .str s) := by
  cases h with
  | name s => exact ⟨_, _, by rw [toks], .inr (.inr (.inl ⟨_, rfl⟩))⟩
  | str s => exact ⟨_, _, by rw [toks], .inr (.inr (.inr ⟨_, rfl⟩))⟩
  | dict h =>
    cases h with
    | nil => exact ⟨_, _, by rw [toks], .inl rfl⟩
    | cons _ _ => exact ⟨_, _, by rw [toks], .inl rfl⟩
  | list h =>
    cases h with
    | nil => exact ⟨_, _, by rw [toks], .inr (.inl rfl)⟩
    | cons _ _ => exact ⟨_, _, by rw [toks], .inr (.inl rfl)⟩

/-! #### Reading the tokens -/

theorem ofList_toList (s : String) : String.ofList s.toList = s := by simp

theorem readValue_dict (n : Nat) (k : List Char) (r : List Tok) :
    readValue (n + 1) (.punct '{' :: .str k :: r) = (readEntries n (.str k :: r)).map (fun p => (.dict p.1, p.2)) := by
  simp [readValue]

theorem readValue_list (n : Nat) (t : Tok) (r : List Tok) (ht : t ≠ .punct ']') :
    readValue (n + 1) (.punct '[' :: t :: r) = (readItems n (t :: r)).map (fun p => (.list p.1, p.2)) := by
  rw [readValue]
  · intro r' h
    injection h with h _
    exact ht h

mutual
theorem read_toks {v : Def Leaf} (h : Good v) (n : Nat) (r : List Tok) (hn : (toks v).length ≤ n) :
    readValue n (toks v ++ r) = some (v, r) := by
  match v, h, n with
  | v, h, 0 =>
    obtain ⟨t, ts, e, _⟩ := toks_head h
    rw [e] at hn
    cases hn
  | _, .name s, n + 1 => rw [toks]; simp [readValue]
  | _, .str s, n + 1 => rw [toks]; simp [readValue]
  | .dict [], _, n + 1 => rw [toks]; simp [readValue]
  | .list [], _, n + 1 => rw [toks]; simp [readValue]
  | .dict ((k, v) :: es), .dict (.cons hv he), n + 1 =>
    rw [toks] at hn ⊢
    simp only [List.length_cons, List.length_append] at hn
    rw [List.cons_append, List.cons_append, readValue_dict, ← List.cons_append]
    have := read_entries k hv he n r (by simp only [List.length_cons, List.length_append]; omega)
    simp only [List.cons_append] at this ⊢
    rw [this]
    rfl
  | .list (x :: xs), .list (.cons hx hxs), n + 1 =>
    rw [toks] at hn ⊢
    simp only [List.length_cons, List.length_append] at hn
    have := read_items hx hxs n r (by simp only [List.length_append]; omega)
    obtain ⟨t, ts, e, ht⟩ := toks_head hx
    rw [e] at this ⊢
    have hne : t ≠ .punct ']' := by
      rcases ht with h | h | ⟨_, h⟩ | ⟨_, h⟩ <;> rw [h] <;> simp
    simp only [List.cons_append] at this ⊢
    rw [readValue_list n t _ hne, this]
    rfl
theorem read_entries (k : String) {v : Def Leaf} (hv : Good v) {es : List (String × Def Leaf)} (he : GoodEntries es)
    (n : Nat) (r : List Tok)
    (hn : (Tok.str k.toList :: Tok.punct ':' :: (toks v ++ toksEntries es)).length ≤ n) :
    readEntries n (Tok.str k.toList :: Tok.punct ':' :: (toks v ++ toksEntries es) ++ r) = some ((k, v) :: es, r) := by
  match n, es, he with
  | 0, _, _ => cases hn
  | n + 1, [], _ =>
    simp only [List.length_cons, List.length_append] at hn
    have := read_toks hv n (.punct '}' :: r) (by omega)
    simp only [List.cons_append, List.append_assoc, toksEntries, readEntries, List.nil_append]
    rw [this]
    simp
  | n + 1, (k', v') :: es, .cons hv' he' =>
    simp only [toksEntries, List.length_cons, List.length_append] at hn
    have h1 := read_toks hv n (.punct ',' :: .str k'.toList :: .punct ':' :: (toks v' ++ toksEntries es) ++ r) (by omega)
    have h2 := read_entries k' hv' he' n r (by simp only [List.length_cons, List.length_append]; omega)
    simp only [List.cons_append, List.append_assoc, toksEntries, readEntries] at h1 h2 ⊢
    rw [h1]
    simp only
    rw [h2]
    simp
theorem read_items {x : Def Leaf} (hx : Good x) {xs : List (Def Leaf)} (hxs : GoodItems xs) (n : Nat) (r : List Tok)
    (hn : (toks x ++ toksItems xs).length ≤ n) : readItems n (toks x ++ toksItems xs ++ r) = some (x :: xs, r) := by
  match n, xs, hxs with
  | 0, _, _ =>
    obtain ⟨t, ts, e, _⟩ := toks_head hx
    rw [e] at hn
    cases hn
  | n + 1, [], _ =>
    simp only [List.length_append, toksItems, List.length_cons, List.length_nil] at hn
    have := read_toks hx n (.punct ']' :: r) (by omega)
    simp only [List.cons_append, List.append_assoc, toksItems, readItems, List.nil_append]
    rw [this]
    simp
  | n + 1, y :: ys, .cons hy hys =>
    simp only [toksItems, List.length_cons, List.length_append] at hn
    have h1 := read_toks hx n (.punct ',' :: (toks y ++ toksItems ys) ++ r) (by omega)
    have h2 := read_items hy hys n r (by simp only [List.length_append]; omega)
    simp only [List.cons_append, List.append_assoc, toksItems, readItems] at h1 h2 ⊢
    rw [h1]
    simp only
    rw [h2]
    rfl
end

/-! #### Tokens of texts -/

theorem tokens_space (s : List Char) : tokens .out (' ' :: s) = tokens .out s := by
  simp [tokens, outside]

theorem tokens_punct (c : Char) (h : punctChar c = true) (s : List Char) :
    tokens .out (c :: s) = (tokens .out s).map (.punct c :: ·) := by
  have h1 : ¬ (c = ' ' ∨ c = '\n') := by
    rintro (rfl | rfl) <;> exact absurd h (by decide)
  simp only [tokens, outside]
  rw [if_neg h1, if_pos h]

theorem ident_cases {c : Char} (h : identChar c = true) : ¬ (c = ' ' ∨ c = '\n') ∧ ¬ punctChar c = true
    ∧ ¬ (c = '"' ∨ c = '\'') := by
  refine ⟨?_, ?_, ?_⟩
  · rintro (rfl | rfl) <;> exact absurd h (by decide)
  · intro hp
    simp only [punctChar, decide_eq_true_eq, List.mem_cons, List.not_mem_nil, or_false] at hp
    rcases hp with rfl | rfl | rfl | rfl | rfl | rfl | rfl <;> exact absurd h (by decide)
  · rintro (rfl | rfl) <;> exact absurd h (by decide)

theorem tokens_in_ident (id : List Char) (h : ∀ c ∈ id, identChar c = true) (acc : List Char) (c : Char)
    (hc : identChar c = false) (s : List Char) :
    tokens (.ident acc) (id ++ c :: s) = (tokens .out (c :: s)).map (.name (acc ++ id) :: ·) := by
  induction id generalizing acc with
  | nil => simp [tokens, hc]
  | cons d id ih =>
    rw [List.cons_append, show ∀ r, tokens (.ident acc) (d :: r) = if identChar d then tokens (.ident (acc ++ [d])) r
      else (outside d (fun m => tokens m r)).map (.name acc :: ·) from fun _ => rfl, if_pos (h d List.mem_cons_self),
      ih (fun c hc => h c (List.mem_cons_of_mem _ hc))]
    simp

theorem tokens_ident (id : List Char) (hne : id ≠ []) (h : ∀ c ∈ id, identChar c = true) (c : Char)
    (hc : identChar c = false) (s : List Char) :
    tokens .out (id ++ c :: s) = (tokens .out (c :: s)).map (.name id :: ·) := by
  cases id with
  | nil => exact absurd rfl hne
  | cons d id =>
    obtain ⟨h1, h2, h3⟩ := ident_cases (h d List.mem_cons_self)
    rw [List.cons_append, tokens]
    unfold outside
    rw [if_neg h1, if_neg h2, if_neg h3, if_pos (h d List.mem_cons_self)]
    exact tokens_in_ident id (fun c hc => h c (List.mem_cons_of_mem _ hc)) [d] c hc s

theorem tokens_in_plain (k : List Char) (h : ∀ c ∈ k, c ≠ '"' ∧ c ≠ '\\' ∧ c ≠ '\n' ∧ c ≠ '\r') (acc : List Char)
    (s : List Char) : tokens (.str '"' acc) (k ++ '"' :: s) = (tokens .out s).map (.str (acc ++ k) :: ·) := by
  induction k generalizing acc with
  | nil => simp [tokens]
  | cons c k ih =>
    obtain ⟨h1, h2, h3, h4⟩ := h c List.mem_cons_self
    rw [List.cons_append, tokens, if_neg h1, if_neg h2, if_neg (by simp [h3, h4]),
      ih (fun c hc => h c (List.mem_cons_of_mem _ hc))]
    simp

theorem tokens_plain (k : List Char) (h : ∀ c ∈ k, c ≠ '"' ∧ c ≠ '\\' ∧ c ≠ '\n' ∧ c ≠ '\r') (s : List Char) :
    tokens .out ('"' :: k ++ '"' :: s) = (tokens .out s).map (.str k :: ·) := by
  rw [List.cons_append, tokens]
  unfold outside
  rw [if_neg (by decide), if_neg (by decide), if_pos (by decide)]
  exact tokens_in_plain k h [] s

theorem tokens_in_repr (quote : Char) (hq : quote = '"' ∨ quote = '\'') (k : List Char) (acc : List Char)
    (s : List Char) : tokens (.str quote acc) (k.flatMap (reprChar quote) ++ quote :: s)
      = (tokens .out s).map (.str (acc ++ k) :: ·) := by
  induction k generalizing acc with
  | nil => simp [tokens]
  | cons c k ih =>
    rw [List.flatMap_cons, List.append_assoc]
    have hb : ¬ ('\\' = quote) := by rcases hq with rfl | rfl <;> decide
    rw [reprChar]
    by_cases h1 : c = quote ∨ c = '\\'
    · rw [if_pos h1]
      have he : escaped c = some c := by
        rcases h1 with rfl | rfl
        · rcases hq with rfl | rfl <;> rfl
        · rfl
      simp only [List.cons_append, List.nil_append, tokens]
      rw [if_neg hb, if_pos trivial, he]
      simp only
      rw [ih]
      simp
    · rw [if_neg h1]
      have hc1 : ¬ c = quote := fun h => h1 (.inl h)
      have hc2 : ¬ c = '\\' := fun h => h1 (.inr h)
      by_cases h2 : c = '\n'
      · subst h2
        rw [if_pos rfl]
        simp only [List.cons_append, List.nil_append, tokens]
        rw [if_neg hb, if_pos trivial]
        simp only [escaped, if_true]
        rw [ih]
        simp
      · rw [if_neg h2]
        by_cases h3 : c = '\r'
        · subst h3
          rw [if_pos rfl]
          simp only [List.cons_append, List.nil_append, tokens]
          rw [if_neg hb, if_pos trivial, show escaped 'r' = some '\r' from rfl]
          simp only
          rw [ih]
          simp
        · rw [if_neg h3]
          by_cases h4 : c = '\t'
          · subst h4
            rw [if_pos rfl]
            simp only [List.cons_append, List.nil_append, tokens]
            rw [if_neg hb, if_pos trivial, show escaped 't' = some '\t' from rfl]
            simp only
            rw [ih]
            simp
          · rw [if_neg h4]
            simp only [List.cons_append, List.nil_append, tokens]
            rw [if_neg hc1, if_neg hc2, if_neg (by simp [h2, h3]), ih]
            simp

theorem tokens_repr (k : List Char) (s : List Char) :
    tokens .out (pyReprStr k ++ s) = (tokens .out s).map (.str k :: ·) := by
  unfold pyReprStr
  simp only
  have hq : (if '\'' ∈ k ∧ '"' ∉ k then '"' else '\'') = '"' ∨ (if '\'' ∈ k ∧ '"' ∉ k then '"' else '\'') = '\'' := by
    split
    · exact .inl rfl
    · exact .inr rfl
  generalize (if '\'' ∈ k ∧ '"' ∉ k then '"' else '\'') = quote at hq
  rw [List.cons_append, List.cons_append, List.append_assoc, List.singleton_append, tokens]
  unfold outside
  rw [if_neg (by rcases hq with rfl | rfl <;> decide), if_neg (by rcases hq with rfl | rfl <;> decide), if_pos hq]
  exact tokens_in_repr quote hq k [] s

/-! #### Trailing commas -/

theorem drop_cons {t : Tok} (h : t ≠ .punct ',') (r : List Tok) : dropTrailing (t :: r) = t :: dropTrailing r := by
  cases r with
  | nil => rfl
  | cons t' r => rw [dropTrailing, if_neg (fun h' => h h'.1)]

theorem drop_comma {t : Tok} (h : t ≠ .punct '}' ∧ t ≠ .punct ']') (r : List Tok) :
    dropTrailing (.punct ',' :: t :: r) = .punct ',' :: dropTrailing (t :: r) := by
  rw [dropTrailing, if_neg (fun h' => h'.2.elim h.1 h.2)]

theorem drop_close {t : Tok} (h : t = .punct '}' ∨ t = .punct ']') (r : List Tok) :
    dropTrailing (.punct ',' :: t :: r) = t :: dropTrailing r := by
  rw [dropTrailing, if_pos ⟨rfl, h⟩, drop_cons (by rcases h with rfl | rfl <;> simp)]

/-- Without commas before closing brackets, nothing is dropped. -/
theorem drop_toks_name (s : List Char) (r : List Tok) : dropTrailing (.name s :: r) = .name s :: dropTrailing r :=
  drop_cons (by simp) r

/-! #### The text of the general definition -/

/-- The tokens of the items of a list as they are written. -/
def rawItems : List (Def Leaf) → List Tok
  | [] => []
  | .leaf (.name id) :: xs => .name id.toList :: .punct ',' :: rawItems xs
  | _ :: xs => rawItems xs

mutual
/-- The tokens of a value as it is written. -/
def rawVal : Def Leaf → List Tok
  | .leaf (.name id) => [.name id.toList]
  | .leaf _ => []
  | .list xs => .punct '[' :: (rawItems xs ++ [.punct ']'])
  | .dict es => .punct '{' :: (rawEntries es ++ [.punct '}'])
/-- The tokens of the entries of a dictionary as they are written. -/
def rawEntries : List (String × Def Leaf) → List Tok
  | [] => []
  | (k, v) :: es => .str k.toList :: .punct ':' :: (rawVal v ++ .punct ',' :: rawEntries es)
end

theorem tokens_items (xs : List (Def Leaf)) (h : ∀ x ∈ xs, ∃ id, Ident id ∧ x = .leaf (.name id)) :
    ∃ text, renderList xs = .ok text ∧ ∀ s, tokens .out (text ++ s) = (tokens .out s).map (rawItems xs ++ ·) := by
  induction xs with
  | nil => exact ⟨[], rfl, fun s => by simp [rawItems]⟩
  | cons x xs ih =>
    obtain ⟨id, hid, rfl⟩ := h x List.mem_cons_self
    obtain ⟨text, h1, h2⟩ := ih (fun x hx => h x (List.mem_cons_of_mem _ hx))
    refine ⟨id.toList ++ ',' :: text, ?_, fun s => ?_⟩
    · rw [renderList, h1]; rfl
    · rw [List.append_assoc, List.cons_append, tokens_ident id.toList hid.1 hid.2 ',' (by decide),
        tokens_punct ',' (by decide), h2]
      simp [rawItems, Function.comp_def]

mutual
theorem tokens_entries (es : List (String × Def Leaf)) (h : OfNamesAll es) :
    ∃ text, renderEntries es = .ok text ∧ ∀ s, tokens .out (text ++ s) = (tokens .out s).map (rawEntries es ++ ·) := by
  match es, h with
  | [], _ => exact ⟨[], by rw [renderEntries], fun s => by simp [rawEntries]⟩
  | (k, v) :: es, .cons hk hv he =>
    obtain ⟨text, h1, h2⟩ := tokens_entries es he
    match v, hv with
    | .leaf (.name id), .name hid =>
      refine ⟨'"' :: k.toList ++ '"' :: ':' :: ' ' :: id.toList ++ ',' :: text, ?_, fun s => ?_⟩
      · rw [renderEntries, h1]; rfl
      · simp only [List.append_assoc, List.cons_append]
        rw [← List.cons_append, tokens_plain k.toList hk, tokens_punct ':' (by decide), tokens_space,
          tokens_ident id.toList hid.1 hid.2 ',' (by decide), tokens_punct ',' (by decide), h2]
        simp [rawEntries, rawVal, Function.comp_def]
    | .list xs, .list hx =>
      obtain ⟨ltext, l1, l2⟩ := tokens_items xs hx
      refine ⟨'"' :: k.toList ++ '"' :: ':' :: ' ' :: '[' :: ltext ++ ']' :: ',' :: text, ?_, fun s => ?_⟩
      · rw [renderEntries, l1, h1]; rfl
      · simp only [List.append_assoc, List.cons_append]
        rw [← List.cons_append, tokens_plain k.toList hk, tokens_punct ':' (by decide), tokens_space,
          tokens_punct '[' (by decide), l2, tokens_punct ']' (by decide), tokens_punct ',' (by decide), h2]
        simp [rawEntries, rawVal, Function.comp_def]
    | .dict inner, .dict hi _ =>
      obtain ⟨dtext, d1, d2⟩ := tokens_entries inner hi
      refine ⟨'"' :: k.toList ++ '"' :: ':' :: ' ' :: '{' :: dtext ++ '}' :: ',' :: text, ?_, fun s => ?_⟩
      · rw [renderEntries, d1, h1]; rfl
      · simp only [List.append_assoc, List.cons_append]
        rw [← List.cons_append, tokens_plain k.toList hk, tokens_punct ':' (by decide), tokens_space,
          tokens_punct '{' (by decide), d2, tokens_punct '}' (by decide), tokens_punct ',' (by decide), h2]
        simp [rawEntries, rawVal, Function.comp_def]
end

theorem drop_items (xs : List (Def Leaf)) (h : ∀ x ∈ xs, ∃ id, Ident id ∧ x = .leaf (.name id)) (id : String) (r : List Tok) :
    dropTrailing (.name id.toList :: .punct ',' :: (rawItems xs ++ .punct ']' :: r))
      = .name id.toList :: (toksItems xs ++ dropTrailing r) := by
  induction xs generalizing id with
  | nil => rw [drop_cons (by simp), rawItems, List.nil_append, drop_close (.inr rfl)]; simp [toksItems]
  | cons x xs ih =>
    obtain ⟨id', hid, rfl⟩ := h x List.mem_cons_self
    rw [drop_cons (by simp), rawItems]
    simp only [List.cons_append]
    rw [drop_comma (by simp), ih (fun x hx => h x (List.mem_cons_of_mem _ hx)), toksItems, toks]
    rfl

mutual
theorem drop_val (v : Def Leaf) (h : OfNames v) (r : List Tok) :
    dropTrailing (rawVal v ++ r) = toks v ++ dropTrailing r := by
  match v, h with
  | .leaf (.name id), _ => rw [rawVal, toks]; exact drop_cons (by simp) r
  | .list [], _ => rw [rawVal, toks]; simp [rawItems, drop_cons]
  | .list (x :: xs), .list hx =>
    obtain ⟨id, hid, rfl⟩ := hx x List.mem_cons_self
    rw [rawVal, toks, rawItems, toks]
    simp only [List.cons_append, List.append_assoc, List.nil_append]
    rw [drop_cons (by simp), drop_items xs (fun x hx' => hx x (List.mem_cons_of_mem _ hx'))]
  | .dict [], _ => rw [rawVal, toks]; simp [rawEntries, drop_cons]
  | .dict ((k, v) :: es), .dict (.cons hk hv he) _ =>
    rw [rawVal, toks, rawEntries]
    simp only [List.cons_append, List.append_assoc, List.nil_append]
    rw [drop_cons (by simp), drop_cons (by simp), drop_cons (by simp), drop_val v hv, drop_entries es he]
theorem drop_entries (es : List (String × Def Leaf)) (h : OfNamesAll es) (r : List Tok) :
    dropTrailing (.punct ',' :: (rawEntries es ++ .punct '}' :: r)) = toksEntries es ++ dropTrailing r := by
  match es, h with
  | [], _ => rw [rawEntries, List.nil_append, drop_close (.inl rfl), toksEntries]; rfl
  | (k, v) :: es, .cons hk hv he =>
    rw [rawEntries, toksEntries]
    simp only [List.cons_append, List.append_assoc]
    rw [drop_comma (by simp), drop_cons (by simp), drop_cons (by simp), drop_val v hv, drop_entries es he]
end

/-! #### The text of the definition of a specific class -/

mutual
theorem tokens_reprDef (v : Def Leaf) (h : OfStrings v) :
    ∃ text, reprDef v = .ok text ∧ ∀ s, tokens .out (text ++ s) = (tokens .out s).map (toks v ++ ·) := by
  match v, h with
  | .leaf (.str t), _ =>
    refine ⟨pyReprStr t.toList, by rw [reprDef], fun s => ?_⟩
    rw [tokens_repr]; simp [toks]
  | .dict [], _ =>
    refine ⟨['{', '}'], by rw [reprDef], fun s => ?_⟩
    simp only [List.cons_append, List.nil_append]
    rw [tokens_punct '{' (by decide), tokens_punct '}' (by decide)]
    simp [toks, Function.comp_def]
  | .dict ((k, v) :: es), .dict (.cons hv he) _ =>
    obtain ⟨t1, a1, b1⟩ := tokens_reprDef v hv
    obtain ⟨t2, a2, b2⟩ := tokens_reprEntries es he
    refine ⟨'{' :: pyReprStr k.toList ++ ':' :: ' ' :: t1 ++ t2, by rw [reprDef, a1, a2]; rfl, fun s => ?_⟩
    simp only [List.append_assoc, List.cons_append]
    rw [tokens_punct '{' (by decide), tokens_repr, tokens_punct ':' (by decide), tokens_space, b1, b2]
    simp [toks, Function.comp_def]
  | .list [], _ =>
    refine ⟨['[', ']'], by rw [reprDef], fun s => ?_⟩
    simp only [List.cons_append, List.nil_append]
    rw [tokens_punct '[' (by decide), tokens_punct ']' (by decide)]
    simp [toks, Function.comp_def]
  | .list (x :: xs), .list (.cons hx hxs) =>
    obtain ⟨t1, a1, b1⟩ := tokens_reprDef x hx
    obtain ⟨t2, a2, b2⟩ := tokens_reprItems xs hxs
    refine ⟨'[' :: t1 ++ t2, by rw [reprDef, a1, a2]; rfl, fun s => ?_⟩
    simp only [List.append_assoc, List.cons_append]
    rw [tokens_punct '[' (by decide), b1, b2]
    simp [toks, Function.comp_def]
theorem tokens_reprEntries (es : List (String × Def Leaf)) (h : OfStringsAll es) :
    ∃ text, reprEntries es = .ok text ∧ ∀ s, tokens .out (text ++ s) = (tokens .out s).map (toksEntries es ++ ·) := by
  match es, h with
  | [], _ =>
    refine ⟨['}'], by rw [reprEntries], fun s => ?_⟩
    simp only [List.cons_append, List.nil_append]
    rw [tokens_punct '}' (by decide)]
    simp [toksEntries]
  | (k, v) :: es, .cons hv he =>
    obtain ⟨t1, a1, b1⟩ := tokens_reprDef v hv
    obtain ⟨t2, a2, b2⟩ := tokens_reprEntries es he
    refine ⟨',' :: ' ' :: pyReprStr k.toList ++ ':' :: ' ' :: t1 ++ t2, by rw [reprEntries, a1, a2]; rfl, fun s => ?_⟩
    simp only [List.append_assoc, List.cons_append]
    rw [tokens_punct ',' (by decide), tokens_space, tokens_repr, tokens_punct ':' (by decide), tokens_space, b1, b2]
    simp [toksEntries, Function.comp_def]
theorem tokens_reprItems (xs : List (Def Leaf)) (h : OfStringsItems xs) :
    ∃ text, reprItems xs = .ok text ∧ ∀ s, tokens .out (text ++ s) = (tokens .out s).map (toksItems xs ++ ·) := by
  match xs, h with
  | [], _ =>
    refine ⟨[']'], by rw [reprItems], fun s => ?_⟩
    simp only [List.cons_append, List.nil_append]
    rw [tokens_punct ']' (by decide)]
    simp [toksItems]
  | x :: xs, .cons hx hxs =>
    obtain ⟨t1, a1, b1⟩ := tokens_reprDef x hx
    obtain ⟨t2, a2, b2⟩ := tokens_reprItems xs hxs
    refine ⟨',' :: ' ' :: t1 ++ t2, by rw [reprItems, a1, a2]; rfl, fun s => ?_⟩
    simp only [List.append_assoc, List.cons_append]
    rw [tokens_punct ',' (by decide), tokens_space, b1, b2]
    simp [toksItems, Function.comp_def]
end

mutual
theorem drop_toks (v : Def Leaf) (h : Good v) (r : List Tok) : dropTrailing (toks v ++ r) = toks v ++ dropTrailing r := by
  match v, h with
  | _, .name s => rw [toks]; exact drop_cons (by simp) r
  | _, .str s => rw [toks]; exact drop_cons (by simp) r
  | .dict [], _ => rw [toks]; simp [drop_cons]
  | .list [], _ => rw [toks]; simp [drop_cons]
  | .dict ((k, v) :: es), .dict (.cons hv he) =>
    rw [toks]
    simp only [List.cons_append, List.append_assoc]
    rw [drop_cons (by simp), drop_cons (by simp), drop_cons (by simp), drop_toks v hv, drop_toksEntries es he]
  | .list (x :: xs), .list (.cons hx hxs) =>
    rw [toks]
    simp only [List.cons_append, List.append_assoc]
    rw [drop_cons (by simp), drop_toks x hx, drop_toksItems xs hxs]
theorem drop_toksEntries (es : List (String × Def Leaf)) (h : GoodEntries es) (r : List Tok) :
    dropTrailing (toksEntries es ++ r) = toksEntries es ++ dropTrailing r := by
  match es, h with
  | [], _ => rw [toksEntries]; exact drop_cons (by simp) r
  | (k, v) :: es, .cons hv he =>
    rw [toksEntries]
    simp only [List.cons_append, List.append_assoc]
    rw [drop_comma (by simp), drop_cons (by simp), drop_cons (by simp), drop_toks v hv, drop_toksEntries es he]
theorem drop_toksItems (xs : List (Def Leaf)) (h : GoodItems xs) (r : List Tok) :
    dropTrailing (toksItems xs ++ r) = toksItems xs ++ dropTrailing r := by
  match xs, h with
  | [], _ => rw [toksItems]; exact drop_cons (by simp) r
  | x :: xs, .cons hx hxs =>
    obtain ⟨t, ts, e, ht⟩ := toks_head hx
    have := drop_toks x hx (toksItems xs ++ r)
    rw [toksItems]
    rw [e] at this ⊢
    simp only [List.cons_append, List.append_assoc] at this ⊢
    rw [drop_comma (by rcases ht with h | h | ⟨_, h⟩ | ⟨_, h⟩ <;> rw [h] <;> simp), this, drop_toksItems xs hxs]
end

/-! #### Definitions that are read as they are -/

mutual
theorem OfNames.good (v : Def Leaf) (h : OfNames v) : Good v := by
  match v, h with
  | .leaf (.name id), _ => exact .name id
  | .list xs, .list hx => exact .list (items_good xs hx)
  | .dict es, .dict he _ => exact .dict (OfNamesAll.good es he)
theorem OfNamesAll.good (es : List (String × Def Leaf)) (h : OfNamesAll es) : GoodEntries es := by
  match es, h with
  | [], _ => exact .nil
  | (_, v) :: es, .cons _ hv he => exact .cons (OfNames.good v hv) (OfNamesAll.good es he)
theorem items_good (xs : List (Def Leaf)) (h : ∀ x ∈ xs, ∃ id, Ident id ∧ x = .leaf (.name id)) : GoodItems xs := by
  match xs with
  | [] => exact .nil
  | x :: xs =>
    refine .cons ?_ (items_good xs (fun x hx => h x (List.mem_cons_of_mem _ hx)))
    obtain ⟨id, _, rfl⟩ := h x List.mem_cons_self
    exact .name id
end

mutual
theorem OfStrings.good (v : Def Leaf) (h : OfStrings v) : Good v := by
  match v, h with
  | .leaf (.str s), _ => exact .str s
  | .list xs, .list hx => exact .list (OfStringsItems.good xs hx)
  | .dict es, .dict he _ => exact .dict (OfStringsAll.good es he)
theorem OfStringsAll.good (es : List (String × Def Leaf)) (h : OfStringsAll es) : GoodEntries es := by
  match es, h with
  | [], _ => exact .nil
  | (_, v) :: es, .cons hv he => exact .cons (OfStrings.good v hv) (OfStringsAll.good es he)
theorem OfStringsItems.good (xs : List (Def Leaf)) (h : OfStringsItems xs) : GoodItems xs := by
  match xs, h with
  | [], _ => exact .nil
  | x :: xs, .cons hx hxs => exact .cons (OfStrings.good x hx) (OfStringsItems.good xs hxs)
end

mutual
/-- Distinct keys everywhere. -/
inductive Distinct : Def Leaf → Prop
  | leaf {a : Leaf} : Distinct (.leaf a)
  | dict {es : List (String × Def Leaf)} : DistinctAll es → (es.map Prod.fst).Nodup → Distinct (.dict es)
  | list {xs : List (Def Leaf)} : DistinctItems xs → Distinct (.list xs)
inductive DistinctAll : List (String × Def Leaf) → Prop
  | nil : DistinctAll []
  | cons {k : String} {v : Def Leaf} {es : List (String × Def Leaf)} : Distinct v → DistinctAll es → DistinctAll ((k, v) :: es)
inductive DistinctItems : List (Def Leaf) → Prop
  | nil : DistinctItems []
  | cons {v : Def Leaf} {xs : List (Def Leaf)} : Distinct v → DistinctItems xs → DistinctItems (v :: xs)
end

theorem set_new {α : Type} (acc : List (String × α)) (k : String) (v : α) (h : k ∉ acc.map Prod.fst) :
    AList.set acc k v = acc ++ [(k, v)] := by
  induction acc with
  | nil => rfl
  | cons e acc ih =>
    obtain ⟨y, w⟩ := e
    have hy : ¬ y = k := fun e => h (by rw [← e]; exact List.mem_cons_self)
    rw [AList.set, if_neg hy, ih (fun hm => h (List.mem_cons_of_mem _ hm))]
    rfl

mutual
theorem normalize_self (v : Def Leaf) (h : Distinct v) : normalize v = v := by
  match v, h with
  | .leaf a, _ => rw [normalize]
  | .list xs, .list hx => rw [normalize, normalizeList_self xs hx]
  | .dict es, .dict he hn => rw [normalize, normalizeDict_self es he [] (by simpa using hn)]; rfl
theorem normalizeDict_self (es : List (String × Def Leaf)) (h : DistinctAll es) (acc : List (String × Def Leaf))
    (hn : ((acc ++ es).map Prod.fst).Nodup) : normalizeDict acc es = acc ++ es := by
  match es, h with
  | [], _ => rw [normalizeDict, List.append_nil]
  | (k, v) :: es, .cons hv he =>
    have hk : k ∉ acc.map Prod.fst := by
      rw [List.map_append, List.nodup_append] at hn
      intro hm
      exact hn.2.2 k hm k (by simp) rfl
    rw [normalizeDict, normalize_self v hv, set_new acc k v hk,
      normalizeDict_self es he (acc ++ [(k, v)]) (by simpa using hn)]
    simp
theorem normalizeList_self (xs : List (Def Leaf)) (h : DistinctItems xs) : normalizeList xs = xs := by
  match xs, h with
  | [], _ => rw [normalizeList]
  | x :: xs, .cons hx hxs => rw [normalizeList, normalize_self x hx, normalizeList_self xs hxs]
end

mutual
theorem OfNames.distinct (v : Def Leaf) (h : OfNames v) : Distinct v := by
  match v, h with
  | .leaf (.name id), _ => exact .leaf
  | .list xs, .list hx => exact .list (items_distinct xs hx)
  | .dict es, .dict he hn => exact .dict (OfNamesAll.distinct es he) hn
theorem OfNamesAll.distinct (es : List (String × Def Leaf)) (h : OfNamesAll es) : DistinctAll es := by
  match es, h with
  | [], _ => exact .nil
  | (_, v) :: es, .cons _ hv he => exact .cons (OfNames.distinct v hv) (OfNamesAll.distinct es he)
theorem items_distinct (xs : List (Def Leaf)) (h : ∀ x ∈ xs, ∃ id, Ident id ∧ x = .leaf (.name id)) :
    DistinctItems xs := by
  match xs with
  | [] => exact .nil
  | x :: xs =>
    refine .cons ?_ (items_distinct xs (fun x hx => h x (List.mem_cons_of_mem _ hx)))
    obtain ⟨id, _, rfl⟩ := h x List.mem_cons_self
    exact .leaf
end

mutual
theorem OfStrings.distinct (v : Def Leaf) (h : OfStrings v) : Distinct v := by
  match v, h with
  | .leaf (.str s), _ => exact .leaf
  | .list xs, .list hx => exact .list (OfStringsItems.distinct xs hx)
  | .dict es, .dict he hn => exact .dict (OfStringsAll.distinct es he) hn
theorem OfStringsAll.distinct (es : List (String × Def Leaf)) (h : OfStringsAll es) : DistinctAll es := by
  match es, h with
  | [], _ => exact .nil
  | (_, v) :: es, .cons hv he => exact .cons (OfStrings.distinct v hv) (OfStringsAll.distinct es he)
theorem OfStringsItems.distinct (xs : List (Def Leaf)) (h : OfStringsItems xs) : DistinctItems xs := by
  match xs, h with
  | [], _ => exact .nil
  | x :: xs, .cons hx hxs => exact .cons (OfStrings.distinct x hx) (OfStringsItems.distinct xs hxs)
end

theorem read_assignment {target : String} {text : String} {v : Def Leaf} (hg : Good v)
    (h : layoutFree text = some (.name target.toList :: .punct '=' :: toks v)) : readAssignment target text = some v := by
  unfold readAssignment
  rw [h]
  simp only [if_true]
  have := read_toks hg ((toks v).length + 1) [] (Nat.le_succ _)
  rw [List.append_nil] at this
  rw [this]

end Literal

/-! ### Theorems -/

/-- C38: the general definition can be written, and any text that differs from what is written by
layout only (white space, kind of quotes, trailing commas: what `black` changes) reads back as the
same definition. -/
theorem C38_general (es : List (String × Def Leaf)) (h : OfNames (.dict es)) :
    ∃ text, renderDefinition es = .ok text ∧ ∀ text', layoutFree text' = layoutFree text →
      (readAssignment "pipeline_dict" text').map normalize = some (.dict es) := by
  cases h with
  | dict he hn =>
    obtain ⟨t, h1, h2⟩ := Literal.tokens_entries es he
    refine ⟨String.ofList ("pipeline_dict = {".toList ++ t ++ ['}']), by rw [renderDefinition, h1]; rfl, fun text' hl => ?_⟩
    have hlay : layoutFree text' = some (.name "pipeline_dict".toList :: .punct '=' :: Literal.toks (.dict es)) := by
      rw [hl]
      unfold layoutFree
      rw [String.toList_ofList, show "pipeline_dict = {".toList = "pipeline_dict".toList ++ ' ' :: '=' :: ' ' :: '{' :: [] by
        decide +kernel]
      simp only [List.append_assoc, List.cons_append, List.nil_append]
      rw [Literal.tokens_ident "pipeline_dict".toList (by decide +kernel) (by decide +kernel) ' ' (by decide),
        Literal.tokens_space, Literal.tokens_punct '=' (by decide), Literal.tokens_space, Literal.tokens_punct '{' (by decide),
        h2, Literal.tokens_punct '}' (by decide)]
      simp only [tokens, Option.map_some]
      rw [Literal.drop_cons (by simp), Literal.drop_cons (by simp)]
      have := Literal.drop_val (.dict es) (.dict he hn) []
      rw [Literal.rawVal, List.append_nil] at this
      rw [this]
      simp [dropTrailing]
    rw [Literal.read_assignment (Literal.OfNames.good _ (.dict he hn)) hlay, Option.map_some,
      Literal.normalize_self _ (Literal.OfNames.distinct _ (.dict he hn))]

/-- C38 for the definition of a specific class, with any names whatever. -/
theorem C38_specific (es : List (String × Def Leaf)) (h : OfStrings (.dict es)) :
    ∃ text, renderSpecific es = .ok text ∧ ∀ text', layoutFree text' = layoutFree text →
      (readAssignment "class_dict" text').map normalize = some (.dict es) := by
  obtain ⟨t, h1, h2⟩ := Literal.tokens_reprDef (.dict es) h
  refine ⟨String.ofList ("class_dict = ".toList ++ t), by rw [renderSpecific, h1]; rfl, fun text' hl => ?_⟩
  have hlay : layoutFree text' = some (.name "class_dict".toList :: .punct '=' :: Literal.toks (.dict es)) := by
    rw [hl]
    unfold layoutFree
    rw [String.toList_ofList, show "class_dict = ".toList = "class_dict".toList ++ ' ' :: '=' :: ' ' :: [] by decide +kernel]
    simp only [List.append_assoc, List.cons_append, List.nil_append]
    have h3 := h2 []
    rw [List.append_nil] at h3
    rw [Literal.tokens_ident "class_dict".toList (by decide +kernel) (by decide +kernel) ' ' (by decide),
      Literal.tokens_space, Literal.tokens_punct '=' (by decide), Literal.tokens_space, h3]
    simp only [tokens, Option.map_some]
    rw [Literal.drop_cons (by simp), Literal.drop_cons (by simp)]
    rw [Literal.drop_toks _ (Literal.OfStrings.good _ h)]
    simp [dropTrailing]
  rw [Literal.read_assignment (Literal.OfStrings.good _ h) hlay, Option.map_some,
    Literal.normalize_self _ (Literal.OfStrings.distinct _ h)]

/-- A definition with a section in a section, an empty one and three items. -/
def demoNames : List (String × Def Leaf) :=
  [("a", .dict [("b", .list [.leaf (.name "f"), .leaf (.name "g_2")]), ("a b", .list [])]), ("d", .list [.leaf (.name "f")])]

/-- A definition of a specific class with quotes in a name. -/
def demoStrings : List (String × Def Leaf) :=
  [("a", .list [.leaf (.str "it's"), .leaf (.str "say \"it's\""), .dict [("b", .list [.leaf (.str "\\")])]])]

/-- Non-vacuity. -/
example : OfNames (.dict demoNames) := by
  have h1 : Ident "f" := by unfold Ident; decide +kernel
  have h2 : Ident "g_2" := by unfold Ident; decide +kernel
  refine .dict (.cons (by unfold PlainKey; decide +kernel) (.dict (.cons (by unfold PlainKey; decide +kernel) (.list ?_)
    (.cons (by unfold PlainKey; decide +kernel) (.list (by simp)) .nil)) (by decide +kernel))
    (.cons (by unfold PlainKey; decide +kernel) (.list ?_) .nil)) (by decide +kernel)
  · intro x hx
    simp only [List.mem_cons, List.not_mem_nil, or_false] at hx
    rcases hx with rfl | rfl
    · exact ⟨_, h1, rfl⟩
    · exact ⟨_, h2, rfl⟩
  · intro x hx
    simp only [List.mem_cons, List.not_mem_nil, or_false] at hx
    exact ⟨_, h1, hx⟩

example : OfStrings (.dict demoStrings) :=
  .dict (.cons (.list (.cons .str (.cons .str (.cons (.dict (.cons (.list (.cons .str .nil)) .nil) (by decide +kernel)) .nil))))
    .nil) (by decide +kernel)

/-- What is written, and a text with another layout. -/
example : renderDefinition demoNames
    = .ok "pipeline_dict = {\"a\": {\"b\": [f,g_2,],\"a b\": [],},\"d\": [f,],}" := by
  simp [renderDefinition, demoNames, renderEntries, renderList]
  rfl

example : layoutFree "pipeline_dict = {\"a\": {\"b\": [f,g_2,],\"a b\": [],},\"d\": [f,],}"
    = layoutFree "pipeline_dict = {\n    'a': {'b': [f, g_2], 'a b': []},\n    'd': [\n        f\n    ]\n}\n" := by
  decide +kernel

/-- C38 does not hold with a quote in a section name: what is written is not a literal. -/
theorem C38_quote_needed : ∃ text, renderDefinition [("a\"b", .list [])] = .ok text
    ∧ readAssignment "pipeline_dict" text = none := by
  refine ⟨"pipeline_dict = {\"a\"b\": [],}", ?_, ?_⟩
  · simp [renderDefinition, renderEntries, renderList]
    rfl
  · have h : layoutFree "pipeline_dict = {\"a\"b\": [],}" = none := by decide +kernel
    unfold readAssignment
    rw [h]

/-- C38: a definition with a section inside a list can be loaded (C36) but not written, so no item can
be created in it. -/
theorem C38_section_in_list_violated (rest : List (Def Leaf)) (es inner : List (String × Def Leaf)) (k : String) :
    renderDefinition ((k, .list (.dict inner :: rest)) :: es) = .error .attributeError := by
  simp [renderDefinition, renderEntries, renderList, bind, Except.bind]

mutual
/-- What can be written as the definition of a manager: names and strings, lists of names, and sections of such. -/
def writable : Def Leaf → Bool
  | .leaf .other => false
  | .leaf _ => true
  | .list xs => xs.all (fun x => match x with | .leaf (.name _) => true | _ => false)
  | .dict es => writableAll es
/-- For all entries. -/
def writableAll : List (String × Def Leaf) → Bool
  | [] => true
  | (_, v) :: es => writable v && writableAll es
end

mutual
/-- All leaves are strings. -/
def onlyStrings : Def Leaf → Bool
  | .leaf (.str _) => true
  | .leaf _ => false
  | .list xs => onlyStringsItems xs
  | .dict es => onlyStringsAll es
/-- For all items. -/
def onlyStringsItems : List (Def Leaf) → Bool
  | [] => true
  | x :: xs => onlyStrings x && onlyStringsItems xs
/-- For all entries. -/
def onlyStringsAll : List (String × Def Leaf) → Bool
  | [] => true
  | (_, v) :: es => onlyStrings v && onlyStringsAll es
end

namespace Literal

theorem renderList_isOk (xs : List (Def Leaf)) : (renderList xs).isOk = xs.all (fun x => match x with
    | .leaf (.name _) => true | _ => false) := by
  induction xs with
  | nil => rfl
  | cons x xs ih =>
    rw [List.all_cons, ← ih]
    match x with
    | .leaf (.name id) => rw [renderList]; cases renderList xs <;> rfl
    | .leaf (.str s) => rfl
    | .leaf .other => rfl
    | .list ys => rfl
    | .dict es => rfl

theorem renderEntries_isOk (es : List (String × Def Leaf)) : (renderEntries es).isOk = writableAll es := by
  match es with
  | [] => simp [renderEntries, writableAll, Except.isOk, Except.toBool]
  | (k, .leaf (.name id)) :: es =>
    have ih := renderEntries_isOk es
    rw [renderEntries, writableAll, writable, ← ih]
    cases renderEntries es <;> rfl
    all_goals simp
  | (k, .leaf (.str s)) :: es =>
    have ih := renderEntries_isOk es
    rw [renderEntries, writableAll, writable, ← ih]
    cases renderEntries es <;> rfl
    all_goals simp
  | (k, .leaf .other) :: es => simp [renderEntries, writableAll, writable, Except.isOk, Except.toBool]
  | (k, .list xs) :: es =>
    have ih := renderEntries_isOk es
    rw [renderEntries, writableAll, writable, ← ih, ← renderList_isOk]
    cases renderList xs <;> cases renderEntries es <;> rfl
  | (k, .dict ds) :: es =>
    have ih := renderEntries_isOk es
    have ih' := renderEntries_isOk ds
    rw [renderEntries, writableAll, writable, ← ih, ← ih']
    cases renderEntries ds <;> cases renderEntries es <;> rfl

mutual
theorem reprDef_isOk (d : Def Leaf) : (reprDef d).isOk = onlyStrings d := by
  match d with
  | .leaf (.str s) => simp [reprDef, onlyStrings, Except.isOk, Except.toBool]
  | .leaf (.name s) => simp [reprDef, onlyStrings, Except.isOk, Except.toBool]
  | .leaf .other => simp [reprDef, onlyStrings, Except.isOk, Except.toBool]
  | .dict [] => simp [reprDef, onlyStrings, onlyStringsAll, Except.isOk, Except.toBool]
  | .dict ((k, v) :: es) =>
    have h1 := reprDef_isOk v
    have h2 := reprEntries_isOk es
    rw [reprDef, onlyStrings, onlyStringsAll, ← h1, ← h2]
    cases reprDef v <;> cases reprEntries es <;> rfl
  | .list [] => simp [reprDef, onlyStrings, onlyStringsItems, Except.isOk, Except.toBool]
  | .list (x :: xs) =>
    have h1 := reprDef_isOk x
    have h2 := reprItems_isOk xs
    rw [reprDef, onlyStrings, onlyStringsItems, ← h1, ← h2]
    cases reprDef x <;> cases reprItems xs <;> rfl
theorem reprEntries_isOk (es : List (String × Def Leaf)) : (reprEntries es).isOk = onlyStringsAll es := by
  match es with
  | [] => simp [reprEntries, onlyStringsAll, Except.isOk, Except.toBool]
  | (k, v) :: es =>
    have h1 := reprDef_isOk v
    have h2 := reprEntries_isOk es
    rw [reprEntries, onlyStringsAll, ← h1, ← h2]
    cases reprDef v <;> cases reprEntries es <;> rfl
theorem reprItems_isOk (xs : List (Def Leaf)) : (reprItems xs).isOk = onlyStringsItems xs := by
  match xs with
  | [] => simp [reprItems, onlyStringsItems, Except.isOk, Except.toBool]
  | x :: xs =>
    have h1 := reprDef_isOk x
    have h2 := reprItems_isOk xs
    rw [reprItems, onlyStringsItems, ← h1, ← h2]
    cases reprDef x <;> cases reprItems xs <;> rfl
end

end Literal

/-- C38. A definition of a manager is written exactly if it has nothing but names, strings, lists of names and sections;
otherwise writing it fails, and no entry is left out. -/
theorem C38_general_succeeds_iff (es : List (String × Def Leaf)) :
    (∃ text, renderDefinition es = .ok text) ↔ writableAll es = true := by
  rw [← Literal.renderEntries_isOk]
  unfold renderDefinition
  cases renderEntries es with
  | error e => exact ⟨fun ⟨_, h⟩ => by (cases h), fun h => by (cases h)⟩
  | ok s => exact ⟨fun _ => rfl, fun _ => ⟨_, rfl⟩⟩

/-- C38. A definition of a specific class is written exactly if all leaves are strings. -/
theorem C38_specific_succeeds_iff (es : List (String × Def Leaf)) :
    (∃ text, renderSpecific es = .ok text) ↔ onlyStringsAll es = true := by
  have : onlyStringsAll es = onlyStrings (.dict es) := by rw [onlyStrings]
  rw [this, ← Literal.reprDef_isOk]
  unfold renderSpecific
  cases reprDef (.dict es) with
  | error e => exact ⟨fun ⟨_, h⟩ => by (cases h), fun h => by (cases h)⟩
  | ok s => exact ⟨fun _ => rfl, fun _ => ⟨_, rfl⟩⟩

/-- Non-vacuity. -/
example : writableAll [("a", .list [.leaf (.name "f")]), ("b", .dict [("c", .list [])])] = true ∧
    writableAll [("a", .list [.leaf (.str "f")])] = false ∧ onlyStringsAll [("a", .list [.leaf (.str "f")])] = true := by
  decide +kernel

/-! ### Creating an item in the file -/

namespace Literal

theorem ofNamesAll_get? {es : List (String × Def Leaf)} (h : OfNamesAll es) {x : String} {v : Def Leaf}
    (hx : AList.get? es x = some v) : OfNames v := by
  induction es with
  | nil => cases hx
  | cons e es ih =>
    obtain ⟨k, w⟩ := e
    cases h with
    | cons _ hw he =>
      unfold AList.get? at hx
      split at hx
      · cases hx; exact hw
      · exact ih he hx

theorem ofNamesAll_set {es : List (String × Def Leaf)} (h : OfNamesAll es) {x : String} {v : Def Leaf}
    (hx : PlainKey x) (hv : OfNames v) : OfNamesAll (AList.set es x v) := by
  induction es with
  | nil => exact .cons hx hv .nil
  | cons e es ih =>
    obtain ⟨k, w⟩ := e
    cases h with
    | cons hk hw he =>
      unfold AList.set
      split
      · exact .cons hk hv he
      · exact .cons hk hw (ih he)

theorem ofNames_addItem (item : String) (hi : Ident item) (p : List String) (hp : ∀ x ∈ p, PlainKey x) :
    ∀ es, OfNames (.dict es) → OfNames (.dict (addItem (.name item) es p).2) := by
  induction p with
  | nil => intro es h; exact h
  | cons x p ih =>
    intro es h
    cases h with
    | dict he hn =>
      have hx := hp x List.mem_cons_self
      have hp' : ∀ y ∈ p, PlainKey y := fun y hy => hp y (List.mem_cons_of_mem _ hy)
      cases p with
      | nil =>
        unfold addItem
        cases hg : AList.get? es x with
        | none =>
          exact .dict (ofNamesAll_set he hx (.list (by simpa using hi))) (AList.nodup_set hn _ _)
        | some d =>
          cases d with
          | dict _ => exact .dict he hn
          | leaf _ => exact .dict he hn
          | list xs =>
            cases ofNamesAll_get? he hg with
            | list hxs =>
              refine .dict (ofNamesAll_set he hx (.list fun y hy => ?_)) (AList.nodup_set hn _ _)
              rcases List.mem_append.1 hy with hy | hy
              · exact hxs y hy
              · simp only [List.mem_cons, List.not_mem_nil, or_false] at hy
                exact ⟨item, hi, hy⟩
      | cons y p =>
        unfold addItem
        cases hg : AList.get? es x with
        | none =>
          exact .dict (ofNamesAll_set he hx (ih hp' [] (.dict .nil List.nodup_nil))) (AList.nodup_set hn _ _)
        | some d =>
          cases d with
          | dict inner =>
            exact .dict (ofNamesAll_set he hx (ih hp' inner (ofNamesAll_get? he hg))) (AList.nodup_set hn _ _)
          | leaf _ => exact .dict he hn
          | list xs => exact .dict he hn

end Literal

/-- C37 and C38 together, in the file: if what was read is a definition of names and no other thing
than a section is in the way, then the text that is written after adding an item reads as a definition
that has the item at the end of its section, and everything else as before.  The definition is again
one of names, so that this holds for any number of items created one after the other. -/
theorem C38_create (es : List (String × Def Leaf)) (p : List String) (item : String) (hes : OfNames (.dict es))
    (hi : Ident item) (hne : p ≠ []) (hp : ∀ x ∈ p, PlainKey x) (hcan : CanAdd es p) :
    ∃ es' text', addItem (.name item) es p = (.ok (), es') ∧ renderDefinition es' = .ok text' ∧ OfNames (.dict es')
      ∧ ∀ text'', layoutFree text'' = layoutFree text' →
        (readAssignment "pipeline_dict" text'').map normalize = some (.dict es')
        ∧ keyedAt (.dict es') p = some (.list (listed (keyedAt (.dict es) p) ++ [.leaf (.name item)]))
        ∧ ∀ q, ¬ q <+: p → keyedAt (.dict es') q = keyedAt (.dict es) q := by
  have hok := (C37_succeeds_iff (.name item) p hne es).2 hcan
  have hnames := Literal.ofNames_addItem item hi p hp es hes
  obtain ⟨text', h1, h2⟩ := C38_general _ hnames
  exact ⟨(addItem (.name item) es p).2, text', Prod.ext hok rfl, h1, hnames, fun text'' hl =>
    ⟨h2 text'' hl, C37_added _ p hne es hok, fun q hq => C37_others _ p es q hq⟩⟩

end Verif.Props

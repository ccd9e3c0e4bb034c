import Verif.Props.Listing
import Verif.Props.ViewType

/-
Property theorems about names that do not exist, followed from a selector: C87.
-/

namespace Verif.Props
open Verif.Py Verif.Model

variable {V : Type}

/-! ### Specification -/

/-- A section whose path can be written with periods: no name in it is an attribute of something on the way. -/
structure AttrSection (g : Registry V) (p : List String) (inner : List (String × Reg V)) : Prop where
  sections : Sections p
  registered : HasSection g p inner
  manager : p.headD "" ∉ managerAttrs
  runner : ∀ x ∈ p, x ∉ runnerAttrs
  registrar : ∀ x ∈ p, x ∉ registrarReserved

/-- A name that nothing in the section has: no entry, and no attribute of a view, a runner, a registrar or a collection. -/
structure Misspelled (inner : List (String × Reg V)) (x : String) : Prop where
  entry : x ∉ inner.map Prod.fst
  view : x ∉ viewNames
  runner : x ∉ runnerAttrs
  registrar : x ∉ registrarReserved
  dot : hasChar '.' x = false

/-- The managers after some views were used. -/
def afterUses (s : VS V) (paths : List String) : VS V := paths.foldl (fun s p => (realItem p s).2) s

/-- A path to an item of the manager that can be written with periods. -/
def ItemPath (m : String) (g : Registry V) (path : String) : Prop :=
  ∃ p k, (SectionPath.mk path).sections = m :: p ∧ AttrItem g p k

/-! ### Lemmas -/

theorem sectionAt_walk {c : Reg V} {p : List String} {inner : List (String × Reg V)} (h : SectionAt c p inner) :
    ∀ (res : List String), (∀ x ∈ p, x ∉ res) → (∀ x ∈ p, x ∉ collectionReserved) →
      ∃ b, c.walk res p = .ok (.coll b inner) := by
  induction h with
  | here b items => exact fun _ _ _ => ⟨b, rfl⟩
  | child b items x r p inner hx _ ih =>
    intro res h1 h2
    obtain ⟨b', hb'⟩ := ih collectionReserved (fun y hy => h2 y (by simp [hy])) (fun y hy => h2 y (by simp [hy]))
    refine ⟨b', ?_⟩
    rw [Reg.walk, Reg.attr, if_neg (h1 x (by simp)), Reg.get?_nameDict, hx]
    exact hb'

theorem lookup_section {g : Registry V} {p : List String} {inner : List (String × Reg V)} (h : HasSection g p inner)
    (hd : (g.specific.map Prod.fst).Nodup) (hp : ∀ x ∈ p, x ∉ registrarReserved) :
    ∃ b, g.lookup p = .ok (.coll b inner) := by
  have hc : ∀ x ∈ p, x ∉ collectionReserved := fun x hx hr => hp x hx (List.mem_append_right _ hr)
  cases p with
  | nil => exact absurd h id
  | cons x q =>
    rw [HasSection] at h
    unfold Registry.lookup
    simp only
    by_cases hx : x ∈ g.specific.map Prod.fst
    · rw [if_pos hx] at h
      obtain ⟨c, hc', hs⟩ := h
      have hf := find_get g.specific x hd
      rw [hc'] at hf
      cases hfe : g.specific.find? (fun e => e.1 = x) with
      | none => rw [hfe] at hf; cases hf
      | some e =>
        obtain ⟨a, reg⟩ := e
        rw [hfe] at hf
        cases hf
        simp only
        cases q with
        | nil => cases hs; exact ⟨_, rfl⟩
        | cons y q =>
          exact sectionAt_walk hs registrarReserved (fun z hz => hp z (by simp [List.mem_cons.1 hz]))
            (fun z hz => hc z (by simp [List.mem_cons.1 hz]))
    · rw [if_neg hx] at h
      have hf : g.specific.find? (fun e => e.1 = x) = none := by
        rw [List.find?_eq_none]
        intro e he hex
        exact hx (List.mem_map.2 ⟨e, he, by simpa using hex⟩)
      rw [hf]
      obtain ⟨b, hb⟩ := sectionAt_walk h registrarReserved hp hc
      exact ⟨b, by simp only; rw [hb]⟩

theorem walk_missing {b : Bool} {inner : List (String × Reg V)} {y : String} {rest : List String} (hy : y ∉ inner.map Prod.fst)
    (hr : y ∉ registrarReserved) (p : List String) : ∀ (res : List String) (n : Reg V), (∀ z ∈ res, z ∈ registrarReserved) →
      n.walk res p = .ok (.coll b inner) → n.walk res (p ++ y :: rest) = .error .attributeError := by
  induction p with
  | nil =>
    intro res n hres h
    rw [Reg.walk] at h
    cases h
    rw [List.nil_append, Reg.walk, Reg.attr, if_neg (fun hc => hr (hres y hc)), Reg.get?_nameDict]
    have : AList.get? inner.reverse y = none := by
      rw [AList.get?_eq_none_iff]
      simpa using hy
    rw [this]
  | cons x p ih =>
    intro res n hres h
    rw [Reg.walk] at h
    rw [List.cons_append, Reg.walk]
    cases ha : Reg.attr res n x with
    | error e => rw [ha] at h; cases h
    | ok n' =>
      rw [ha] at h
      exact ih _ _ (fun z hz => List.mem_append_right _ hz) h

theorem lookup_missing {g : Registry V} {b : Bool} {inner : List (String × Reg V)} {p : List String} {y : String}
    {rest : List String} (h : g.lookup p = .ok (.coll b inner)) (hy : y ∉ inner.map Prod.fst) (hr : y ∉ registrarReserved) :
    g.lookup (p ++ y :: rest) = .error .attributeError := by
  cases p with
  | nil => cases h
  | cons x q =>
    unfold Registry.lookup at h ⊢
    rw [List.cons_append]
    simp only at h ⊢
    cases hf : g.specific.find? (fun e => e.1 = x) with
    | some e =>
      obtain ⟨a, reg⟩ := e
      rw [hf] at h
      simp only at h ⊢
      cases q with
      | nil =>
        simp only at h
        rw [List.nil_append]
        simp only
        exact walk_missing hy hr [] _ _ (fun z hz => hz) h
      | cons z q =>
        simp only at h
        rw [List.cons_append]
        simp only
        exact walk_missing hy hr (z :: q) _ _ (fun z hz => hz) h
    | none =>
      rw [hf] at h
      simp only at h ⊢
      have hw : g.general.walk registrarReserved (x :: q) = .ok (.coll b inner) := by
        split at h
        · cases h
        · exact h
      rw [← List.cons_append, walk_missing hy hr (x :: q) _ _ (fun z hz => hz) hw]

theorem missing_error {s : AS V} {x : String} (h : s.rs.reg.lookup (split '.' (s.full ++ x)) = .error .attributeError) :
    AM.missing x s = (.error .attributeError, ⟨s.rs, s.full ++ x⟩) := by
  unfold AM.missing
  rw [M.bind_ok (show AM.setFull _ s = (.ok (), ⟨s.rs, s.full ++ x⟩) from rfl), M.bind_ok (M.get_run _)]
  simp only [h]
  rfl

theorem accessFrom_section {g : Registry V} {b : Bool} {inner : List (String × Reg V)} (rest : List String) :
    ∀ (q : List String) (s : AS V), q ≠ [] → s.rs.reg = g → s.full = join '.' q ++ "." →
    (∀ x ∈ q ++ rest, hasChar '.' x = false) → (∀ x ∈ rest, x ∉ runnerAttrs) →
    g.lookup (q ++ rest) = .ok (.coll b inner) →
    AM.accessFrom .runner rest s = (.ok .runner, ⟨s.rs, join '.' (q ++ rest) ++ "."⟩) := by
  induction rest with
  | nil =>
    intro q s _ _ hf _ _ _
    rw [List.append_nil, ← hf]
    rfl
  | cons x rest ih =>
    intro q s hq hg hf hd hr hl
    have hsplit : split '.' (s.full ++ x) = q ++ [x] := by
      rw [hf, join_snoc hq, split_join '.' (by simp)]
      intro y hy
      apply hd y
      rcases List.mem_append.1 hy with h | h
      · exact List.mem_append_left _ h
      · rw [List.mem_singleton] at h
        subst h
        simp
    have heq : q ++ x :: rest = (q ++ [x]) ++ rest := by simp
    have hc : ∃ b items, g.lookup (q ++ [x]) = .ok (.coll b items) := by
      cases rest with
      | nil => exact ⟨b, inner, hl⟩
      | cons y ys => exact Registry.lookup_prefixes (p := q ++ [x]) (q := y :: ys) (by simp) (by simp) (by rw [← heq]; exact hl)
    obtain ⟨b', items', hc⟩ := hc
    rw [← hg] at hc
    show (AM.runnerAttr x >>= fun r => AM.accessFrom r rest) s = _
    rw [runnerAttr_missing (hr x List.mem_cons_self), M.bind_ok (missing_coll (by rw [hsplit]; exact hc)), heq]
    exact ih (q ++ [x]) ⟨s.rs, s.full ++ x ++ "."⟩ (by simp) hg (by show s.full ++ x ++ "." = _; rw [hf, join_snoc hq])
      (by rw [← heq]; exact hd) (fun z hz => hr z (List.mem_cons_of_mem _ hz)) (by rw [← heq]; exact hl)

/-- Access to a section gives the runner, which remembers the path. -/
theorem access_section {a : AS V} (hclean : a.full = "") {p : List String} {inner : List (String × Reg V)}
    (hp : AttrSection a.rs.reg p inner) (hd : (a.rs.reg.specific.map Prod.fst).Nodup) :
    AM.access p a = (.ok .runner, ⟨a.rs, join '.' p ++ "."⟩) := by
  obtain ⟨⟨hne, hdot⟩, hl, hm, hr, hres⟩ := hp
  obtain ⟨b, hl⟩ := lookup_section hl hd hres
  cases p with
  | nil => exact absurd rfl hne
  | cons x rest =>
    have hx := hdot x List.mem_cons_self
    have hsplit : split '.' (a.full ++ x) = [x] := by
      rw [hclean, String.empty_append]
      exact split_plain hx
    have hc : ∃ b items, a.rs.reg.lookup [x] = .ok (.coll b items) := by
      cases rest with
      | nil => exact ⟨b, inner, hl⟩
      | cons y ys => exact Registry.lookup_prefixes (p := [x]) (q := y :: ys) (by simp) (by simp) hl
    obtain ⟨b', items', hc⟩ := hc
    show (AM.managerAttr x >>= fun r => AM.accessFrom r rest) a = _
    unfold AM.managerAttr
    rw [if_neg (by simpa using hm), runnerAttr_missing (hr x List.mem_cons_self),
      M.bind_ok (missing_coll (by rw [hsplit]; exact hc))]
    have hj : join '.' [x] = x := by simp [join, joinL]
    exact accessFrom_section rest [x] ⟨a.rs, a.full ++ x ++ "."⟩ (by simp) rfl
      (by show a.full ++ x ++ "." = _; rw [hclean, String.empty_append, hj]) hdot
      (fun z hz => hr z (List.mem_cons_of_mem _ hz)) hl

theorem managers_set_set (s : VS V) (m : String) (a b : AS V) : AList.set (AList.set s m a) m b = AList.set s m b := by
  induction s with
  | nil => simp [AList.set]
  | cons e s ih =>
    obtain ⟨k, c⟩ := e
    by_cases h : k = m
    · simp [AList.set, h]
    · simp [AList.set, h, ih]

theorem splitL_prefix {w : List Char} (h : '.' ∉ w) (t : List Char) : ∃ t' rest, splitL '.' (w ++ t) = (w ++ t') :: rest := by
  induction w with
  | nil =>
    cases ht : splitL '.' t with
    | nil => exact absurd ht (splitL_ne_nil '.' t)
    | cons x xs => exact ⟨x, xs, ht⟩
  | cons c w ih =>
    simp only [List.mem_cons, not_or] at h
    obtain ⟨t', rest, ih⟩ := ih h.2
    refine ⟨t', rest, ?_⟩
    rw [List.cons_append, splitL, if_neg (fun e => h.1 e.symm), ih]
    rfl

theorem split_prefix {x : String} (h : hasChar '.' x = false) (t : String) : ∃ t' rest, split '.' (x ++ t) = (x ++ t') :: rest := by
  have hx : '.' ∉ x.toList := by
    intro hc
    simp [hasChar, hc] at h
  obtain ⟨t', rest, hs⟩ := splitL_prefix hx t.toList
  refine ⟨String.ofList t', rest.map String.ofList, ?_⟩
  rw [split, String.toList_append, hs, List.map_cons]
  congr 1
  apply String.toList_injective
  simp

theorem split_dot_append (s t : String) : split '.' (s ++ "." ++ t) = split '.' s ++ split '.' t := by
  simp only [split, String.toList_append]
  have : ".".toList = ['.'] := rfl
  rw [this, List.append_assoc, List.singleton_append, splitL_append, List.map_append]

/-- Whatever is added to the text the runner remembers, nothing is found. -/
def Stuck (a : AS V) : Prop := ∀ t, a.rs.reg.lookup (split '.' (a.full ++ t)) = .error .attributeError

theorem stuck_access {a : AS V} (h : Stuck a) {p : List String} {k : Callable V} (hp : AttrItem a.rs.reg p k) :
    (AM.access p a).1 = .error .attributeError ∧ (AM.access p a).2.rs = a.rs ∧ Stuck (AM.access p a).2 := by
  obtain ⟨⟨hne, _⟩, _, hm, hr⟩ := hp
  cases p with
  | nil => exact absurd rfl hne
  | cons y ys =>
    have : AM.access (y :: ys) a = (.error .attributeError, ⟨a.rs, a.full ++ y⟩) := by
      show (AM.managerAttr y >>= fun r => AM.accessFrom r ys) a = _
      unfold AM.managerAttr
      rw [if_neg (by simpa using hm), runnerAttr_missing (hr y List.mem_cons_self), M.bind_error (missing_error (h y))]
    rw [this]
    refine ⟨rfl, rfl, fun t => ?_⟩
    show a.rs.reg.lookup (split '.' (a.full ++ y ++ t)) = _
    rw [String.append_assoc]
    exact h _

theorem stuck_realItem {s : VS V} {m : String} {a : AS V} (ha : AList.get? s m = some a) (h : Stuck a) {path : String}
    (hp : ItemPath m a.rs.reg path) :
    (realItem path s).1 = .error .attributeError ∧
      ∃ a', AList.get? (realItem path s).2 m = some a' ∧ a'.rs = a.rs ∧ Stuck a' := by
  obtain ⟨p, k, hv, hp⟩ := hp
  obtain ⟨h1, h2, h3⟩ := stuck_access h hp
  unfold realItem
  rw [hv]
  simp only
  rw [belowManager_eq hv hp.sections.1, on_some ha]
  refine ⟨h1, _, ?_, h2, h3⟩
  simp only
  rw [AList.get?_set]
  simp

theorem stuck_uses {m : String} {g : Registry V} (paths : List String) : ∀ {s : VS V} {a : AS V}, AList.get? s m = some a → Stuck a →
    a.rs.reg = g → (∀ path ∈ paths, ItemPath m g path) →
    ∃ a', AList.get? (afterUses s paths) m = some a' ∧ a'.rs = a.rs ∧ Stuck a' := by
  induction paths with
  | nil => exact fun ha h _ _ => ⟨_, ha, rfl, h⟩
  | cons path paths ih =>
    intro s a ha h hg hps
    obtain ⟨_, a', ha', hrs, h'⟩ := stuck_realItem ha h (by rw [hg]; exact hps path (by simp))
    obtain ⟨a'', h1, h2, h3⟩ := ih ha' h' (by rw [hrs, hg]) (fun p hp => hps p (by simp [hp]))
    exact ⟨a'', h1, h2.trans hrs, h3⟩

/-! ## C87 -/

/-- A name that does not exist in a section is an `AttributeError` where it is used; no config and no object has changed, but the
runner remembers the name. -/
theorem C87_raises_partial (sel : Sel V) (own : Obj V → String → Except PyErr V) (s : VS V) (path m : String) (p : List String)
    (hv : (SectionPath.mk path).sections = m :: p) (a : AS V) (ha : AList.get? s m = some a) (hclean : a.full = "")
    (hsel : AList.get? sel m = some a.rs.reg) (hd : DistinctClasses a.rs.reg) (inner : List (String × Reg V))
    (hp : AttrSection a.rs.reg p inner) (hreal : ∀ e ∈ inner, e.2 ≠ .other) (x : String) (hx : Misspelled inner x) :
    viewGet sel own path x s = (.error .attributeError, AList.set s m ⟨a.rs, join '.' p ++ "." ++ x⟩) := by
  have hne := hp.sections.1
  have hc : ∀ y ∈ p ++ [x], y ∉ collectionReserved := by
    intro y hy hr
    rcases List.mem_append.1 hy with h | h
    · exact hp.registrar y h (List.mem_append_right _ hr)
    · rw [List.mem_singleton] at h
      rw [h] at hr
      exact hx.registrar (List.mem_append_right _ hr)
  unfold viewGet
  rw [if_neg hx.view]
  have hin : selContains sel (path ++ "." ++ x) = .ok false := by
    rcases C52_contains_partial sel m (p ++ [x]) _ hsel hd.general hc _ (sections_snoc hv hx.dot) with ⟨_, h⟩ | ⟨h, _⟩
    · exact absurd ((hasSection_child hp.registered x hreal).1 h) hx.entry
    · exact h
  rw [hin]
  simp only
  have hri : realItem path s = (.ok .runner, AList.set s m ⟨a.rs, join '.' p ++ "."⟩) := by
    unfold realItem
    rw [hv]
    simp only
    rw [belowManager_eq hv hne, on_some ha, access_section hclean hp hd.nodup]
  rw [M.bind_ok hri]
  simp only
  rw [hv]
  simp only
  have hget : AList.get? (AList.set s m ⟨a.rs, join '.' p ++ "."⟩) m = some (⟨a.rs, join '.' p ++ "."⟩ : AS V) := by
    rw [AList.get?_set]
    simp
  obtain ⟨b, hl⟩ := lookup_section hp.registered hd.nodup hp.registrar
  have hsplit : split '.' (join '.' p ++ "." ++ x) = p ++ [x] := by
    rw [join_snoc hne, split_join '.' (by simp)]
    intro y hy
    rcases List.mem_append.1 hy with h | h
    · exact hp.sections.2 y h
    · rw [List.mem_singleton] at h
      rw [h]
      exact hx.dot
  have hacc : AM.accessFrom .runner [x] (⟨a.rs, join '.' p ++ "."⟩ : AS V) =
      (.error .attributeError, ⟨a.rs, join '.' p ++ "." ++ x⟩) := by
    show (AM.runnerAttr x >>= fun r => AM.accessFrom r []) _ = _
    rw [runnerAttr_missing hx.runner, M.bind_error (missing_error _)]
    rw [hsplit]
    exact lookup_missing hl hx.entry hx.registrar
  rw [M.bind_run, on_some hget, hacc]
  simp only
  rw [managers_set_set]

/-- A name that does not exist directly below a manager is an `AttributeError`, and nothing changes. -/
theorem C87_top (sel : Sel V) (own : Obj V → String → Except PyErr V) (s : VS V) (m : String) (hdot : hasChar '.' m = false)
    (a : AS V) (ha : AList.get? s m = some a) (hclean : a.full = "") (hsel : AList.get? sel m = some a.rs.reg)
    (hd : DistinctClasses a.rs.reg) (hempty : a.rs.reg.lookup [""] = .error .attributeError) (x : String)
    (hn : ¬ HasItem a.rs.reg [x]) (hxc : x ∉ collectionReserved) (hxv : x ∉ viewNames) (hxd : hasChar '.' x = false) :
    viewGet sel own m x s = (.error .attributeError, AList.set s m a) := by
  have hp : (SectionPath.mk m).sections = [m] := split_plain hdot
  unfold viewGet
  rw [if_neg hxv]
  have hin : selContains sel (m ++ "." ++ x) = .ok false := by
    rcases C52_contains_partial sel m ([] ++ [x]) _ hsel hd.general (fun y hy => by
        rw [List.nil_append, List.mem_singleton] at hy
        rw [hy]
        exact hxc) _ (sections_snoc hp hxd) with ⟨_, h2⟩ | ⟨h1, _⟩
    · exact absurd h2 hn
    · exact h1
  rw [hin]
  simp only
  have hri : realItem m s = (.error .attributeError, AList.set s m a) := by
    unfold realItem
    rw [hp]
    simp only
    rw [show belowManager [] = [""] by decide +kernel, on_some ha]
    have he := C25_after_failed_access a hclean "" (by decide) (by decide) (by
      rw [show split '.' "" = [""] from by decide +kernel]
      exact hempty)
    rw [he.1, ← hclean]
  rw [M.bind_error hri]

/-- A name that is not that of a manager is a `KeyError` when something is looked for below it, and nothing changes. -/
theorem C87_unknown (sel : Sel V) (own : Obj V → String → Except PyErr V) (s : VS V) (path m : String) (p : List String)
    (hv : (SectionPath.mk path).sections = m :: p) (hm : AList.get? sel m = none) (x : String) (hxv : x ∉ viewNames)
    (hxd : hasChar '.' x = false) : viewGet sel own path x s = (.error .keyError, s) := by
  unfold viewGet
  rw [if_neg hxv, C52_unknown_violated sel m (p ++ [x]) hm _ (sections_snoc hv hxd)]
  rfl

/-- C87 does not hold in full: once a name that does not exist was looked for in a section, every use of the view of any item of
the manager fails, and all later uses too, although the item was found that way before and is still found by `get`; for
every manager, every section, every name that no entry (or attribute) begins with, and every history of uses. -/
theorem C87_broken_violated (sel : Sel V) (own : Obj V → String → Except PyErr V) (s : VS V) (path m : String) (p : List String)
    (hv : (SectionPath.mk path).sections = m :: p) (a : AS V) (ha : AList.get? s m = some a) (hclean : a.full = "")
    (hsel : AList.get? sel m = some a.rs.reg) (hd : DistinctClasses a.rs.reg) (inner : List (String × Reg V))
    (hp : AttrSection a.rs.reg p inner) (hreal : ∀ e ∈ inner, e.2 ≠ .other) (x : String) (hx : Misspelled inner x)
    (hpre : ∀ t, x ++ t ∉ inner.map Prod.fst ∧ x ++ t ∉ registrarReserved) (uses : List String)
    (huses : ∀ u ∈ uses, ItemPath m a.rs.reg u) (item : String) (q : List String) (k : Callable V)
    (hi : (SectionPath.mk item).sections = m :: q) (hq : AttrItem a.rs.reg q k) :
    (realItem item s).1 = asAttr (RM.get q a.rs).1 ∧
    (realItem item (afterUses (viewGet sel own path x s).2 uses)).1 = .error .attributeError ∧
    (AList.get? (afterUses (viewGet sel own path x s).2 uses) m).map AS.rs = some a.rs := by
  refine ⟨?_, ?_⟩
  · rw [realItem_eq hi hq.sections.1 ha, C25_access_partial a hclean q k hq]
  · rw [C87_raises_partial sel own s path m p hv a ha hclean hsel hd inner hp hreal x hx]
    simp only
    have hget : AList.get? (AList.set s m ⟨a.rs, join '.' p ++ "." ++ x⟩) m = some (⟨a.rs, join '.' p ++ "." ++ x⟩ : AS V) := by
      rw [AList.get?_set]
      simp
    have hst : Stuck (⟨a.rs, join '.' p ++ "." ++ x⟩ : AS V) := by
      intro t
      show a.rs.reg.lookup (split '.' (join '.' p ++ "." ++ x ++ t)) = _
      obtain ⟨t', rest, hs⟩ := split_prefix hx.dot t
      obtain ⟨b, hl⟩ := lookup_section hp.registered hd.nodup hp.registrar
      rw [String.append_assoc, split_dot_append, split_join '.' hp.sections.1 hp.sections.2, hs]
      exact lookup_missing hl (hpre t').1 (hpre t').2
    obtain ⟨a', h1, h2, h3⟩ := stuck_uses uses hget hst rfl huses
    refine ⟨(stuck_realItem h1 h3 (by rw [h2]; exact ⟨q, k, hi, hq⟩)).1, ?_⟩
    rw [h1, Option.map_some, h2]

/-- C87 for a wrong name of an attribute of an item: the exception of the object is raised, the item has been got, and
afterwards every item of the manager can be used as after getting this one. -/
theorem C87_attribute (sel : Sel V) (own : Obj V → String → Except PyErr V) (s : VS V) (path m : String) (p : List String)
    (hv : (SectionPath.mk path).sections = m :: p) (a : AS V) (ha : AList.get? s m = some a) (hclean : a.full = "")
    (k : Callable V) (hp : AttrItem a.rs.reg p k) (x : String) (hx : x ∉ viewNames)
    (hsel : selContains sel (path ++ "." ++ x) = .ok false) (o : Obj V) (rs' : RS V)
    (hget : RM.get p a.rs = (.ok (.obj o), rs')) (e : PyErr) (hwrong : o.attr own x = .error e) :
    viewGet sel own path x s = (.error e, AList.set s m ⟨rs', ""⟩) ∧
    ∀ item q k', (SectionPath.mk item).sections = m :: q → AttrItem rs'.reg q k' →
      realItem item (viewGet sel own path x s).2 =
        (asAttr (RM.get q rs').1, AList.set (viewGet sel own path x s).2 m ⟨(RM.get q rs').2, ""⟩) := by
  have hr := realItem_item hv ha hclean hp
  have h1 : viewGet sel own path x s = (.error e, AList.set s m ⟨rs', ""⟩) := by
    unfold viewGet
    rw [if_neg hx, hsel]
    simp only
    rw [hget] at hr
    rw [M.bind_ok hr]
    simp only
    rw [M.bind_run, hwrong]
    rfl
  refine ⟨h1, fun item q k' hi hq => ?_⟩
  rw [h1]
  have hg : AList.get? (AList.set s m (⟨rs', ""⟩ : AS V)) m = some ⟨rs', ""⟩ := by
    rw [AList.get?_set]
    simp
  exact realItem_item (a := ⟨rs', ""⟩) hi hg rfl hq

/-- A function has no attribute of this name. -/
example (o : Obj Nat) (h : o.isPartial = true) : o.attr (fun _ _ => .ok 5) "typo" = .error .attributeError := by
  rw [Obj.attr, if_pos ⟨h, by decide⟩]

/-! ### Examples -/

/-- Whether the item of a view can be used. -/
def usable (path : String) (s : VS Nat) : Bool := (realItem path s).1.toOption.isSome

/-- The hypotheses are met in the demo project, and `pm.main.data.func` cannot be used after `pm.main.data.fun`. -/
example : let s : VS Nat := [("pm", ⟨demoRunner demoFunc, ""⟩)]
    AttrSection (demoRunner demoFunc).reg ["main", "data"] [("func", .item demoFunc), ("noargs", .item demoFunc)] ∧
    Misspelled [("func", (.item demoFunc : Reg Nat)), ("noargs", .item demoFunc)] "typo" ∧ DistinctClasses (demoRunner demoFunc).reg ∧
    ItemPath "pm" (demoRunner demoFunc).reg "pm.main.data.func" ∧ (demoRunner demoFunc).reg.lookup [""] = .error .attributeError ∧
    usable "pm.main.data.func" s = true ∧
    usable "pm.main.data.func" (viewGet (managersSel s) (fun _ _ => .ok 5) "pm.main.data" "typo" s).2 = false ∧
    usable "pm.main.data.func" (viewGet (managersSel s) (fun _ _ => .ok 5) "pm.main.data" "fun" s).2 = false := by
  refine ⟨⟨⟨by decide, by decide⟩, ?_, by decide, by decide, by decide⟩, ⟨by decide, by decide, by decide, by decide,
    by decide +kernel⟩, ⟨by decide, by decide⟩, ⟨demoPath, demoFunc, by decide +kernel, demoAttrItem⟩, by rfl, by decide +kernel,
    by decide +kernel, by decide +kernel⟩
  rw [HasSection, if_neg (by decide)]
  exact .child _ _ _ _ _ _ rfl (.child _ _ _ _ _ _ rfl (.here _ _))

/-- No name of the section, and no attribute, begins with `typo`. -/
example (t : String) : "typo" ++ t ∉ [("func", (.item demoFunc : Reg Nat)), ("noargs", .item demoFunc)].map Prod.fst ∧ "typo" ++ t ∉ registrarReserved := by
  have h : ∀ z ∈ ["func", "noargs"] ++ registrarReserved, startsWith z "typo" = false := by decide +kernel
  have key : "typo" ++ t ∉ ["func", "noargs"] ++ registrarReserved := fun hc => by
    have h1 := h _ hc
    rw [(Path.startsWith_iff _ _).2 ⟨t, rfl⟩] at h1
    cases h1
  exact ⟨fun hc => key (List.mem_append_left _ hc), fun hc => key (List.mem_append_right _ hc)⟩

end Verif.Props

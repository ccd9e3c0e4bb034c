import Verif.Lemmas.Swaps
import Verif.Props.OwnCalls

/-
C101 for lookups among the calls of the config manager: calls that have nothing to do with each other can be swapped.
-/

namespace Verif.Props
open Verif.Py Verif.Model

variable {V : Type}

/-! ## Specification -/

/-- The config that an update, a refresh, a pop or a lookup is for. -/
def callAbout : CMOp V → Option (Option (List String))
  | .update _ p _ _ => some p
  | .refresh p => some (some p)
  | .pop _ p => some p
  | .get p => some (some p)
  | .reset _ _ => none
  | .edit _ => none

/-- The configs that a call looks at: its own, and those that a lookup inherits from, of the project, of the sections around and the
local one. -/
def looksAt : CMOp V → Option (List String) → Prop
  | .get _, none => True
  | .get p, some q => q <+: p
  | o, q => callAbout o = some q

/-- Neither call changes what the other one looks at. -/
def Unrelated (o o' : CMOp V) : Prop := (∀ q, callAbout o = some q → ¬ looksAt o' q) ∧ ∀ q, callAbout o' = some q → ¬ looksAt o q

/-- The same calls, in an order that is got by swapping neighbours that have nothing to do with each other. -/
inductive SwappedCalls : List (CMOp V) → List (CMOp V) → Prop
  | refl (l) : SwappedCalls l l
  | swap (u v) {o o'} (h : Unrelated o o') : SwappedCalls (u ++ o :: o' :: v) (u ++ o' :: o :: v)
  | trans {l l' l''} (h : SwappedCalls l l') (h' : SwappedCalls l' l'') : SwappedCalls l l''

/-- Updates, refreshes, pops and lookups, for paths that are not made of attribute names of managers or sections. -/
def ConfCalls (rn : String) (l : List (CMOp V)) : Prop := ∀ o ∈ l, ∃ q, callAbout o = some q ∧ CleanArg rn q ∧ q ≠ some []

/-- The calls with their answers. -/
def answered [BEq V] (t : CM V) (l : List (CMOp V)) : List (CMOp V × Except PyErr (CallAnswer V)) := l.zip (treeAnswers t l)

/-! ## Lemmas -/

theorem callAbout_about (o : CMOp V) : callAbout o = o.about := by cases o <;> rfl

theorem looksAt_reads {o : CMOp V} {q : Option (List String)} (h : ¬ looksAt o q) : o.about ≠ some q ∧ ¬ o.Reads q := by
  rw [← callAbout_about]
  cases o with
  | get p =>
    cases q with
    | none => exact absurd trivial h
    | some q => exact ⟨fun e => h (by cases e; exact List.prefix_refl _), h⟩
  | update d p persist kw => exact ⟨h, fun e => e⟩
  | refresh p => exact ⟨h, fun e => e⟩
  | pop key p => exact ⟨h, fun e => e⟩
  | reset p b => exact ⟨h, fun e => e⟩
  | edit fs => exact ⟨h, fun e => e⟩

theorem Unrelated.meet {o o' : CMOp V} (h : Unrelated o o') : (∀ q, o.about = some q → o'.about ≠ some q ∧ ¬ o'.Reads q) ∧
    ∀ q, o'.about = some q → o.about ≠ some q ∧ ¬ o.Reads q :=
  ⟨fun q hq => looksAt_reads (h.1 q (by rw [callAbout_about, hq])), fun q hq => looksAt_reads (h.2 q (by rw [callAbout_about, hq]))⟩

theorem SwappedCalls.perm {l l' : List (CMOp V)} (h : SwappedCalls l l') : l.Perm l' := by
  induction h with
  | refl l => exact .refl _
  | swap u v _ => exact List.Perm.append_left u (.swap _ _ v)
  | trans _ _ h1 h2 => exact h1.trans h2

theorem asked_conf {s : HS V} {o : CMOp V} {q : Option (List String)} (hq : callAbout o = some q) (hc : CleanArg s.rootName q)
    (hne : q ≠ some []) : s.Asked o := by
  cases o with
  | get p => cases hq; exact ⟨hc, fun e => hne (by rw [e])⟩
  | update d p persist kw => exact asked_own (o := .update d p persist kw) hq hc hne
  | refresh p => exact asked_own (o := .refresh p) hq hc hne
  | pop key p => exact asked_own (o := .pop key p) hq hc hne
  | reset p b => cases hq
  | edit fs => cases hq

/-- What there is to see after such calls. -/
theorem conf_view [BEq V] {l : List (CMOp V)} : ∀ {s : HS V} {t : CM V}, Matched s t → ConfCalls s.rootName l →
    AllAsked s l ∧ (CM.afterCalls t l).view.clean = l.foldl View.ask t.view.clean := by
  induction l with
  | nil => intro s t _ _; exact ⟨trivial, rfl⟩
  | cons o l ih =>
    intro s t h hl
    obtain ⟨q, hq, hc, hne⟩ := hl o (by simp)
    have ha := asked_conf hq hc hne
    have hv := h.linked.ask h.solid (by rw [← callAbout_about]; exact hq) hc hne
    have h2 := (h.step ha).2
    have hrn : (s.step o).rootName = s.rootName := by
      rw [h2.linked.rootName, h.linked.rootName]
      have := congrArg View.rootName hv
      rw [(View.ask_other t.view.clean o).2.1] at this
      exact this
    obtain ⟨h3, h4⟩ := ih h2 (by rw [hrn]; exact fun o ho => hl o (List.mem_cons_of_mem _ ho))
    refine ⟨⟨ha, h3⟩, ?_⟩
    show (CM.afterCalls (t.step o) l).view.clean = _
    rw [h4, hv]
    rfl

theorem swapped_view [BEq V] {l l' : List (CMOp V)} (h : SwappedCalls l l') : ∀ a : View V, l.foldl View.ask a = l'.foldl View.ask a := by
  induction h with
  | refl l => intro a; rfl
  | swap u v h =>
    intro a
    rw [List.foldl_append, List.foldl_append]
    show v.foldl View.ask ((View.ask _ _).ask _) = v.foldl View.ask ((View.ask _ _).ask _)
    rw [View.ask_comm h.meet.1 h.meet.2]
  | trans _ _ h1 h2 => intro a; exact (h1 a).trans (h2 a)

/-- The calls with their answers, for what there is to see. -/
def View.answered [BEq V] (a : View V) : List (CMOp V) → List (CMOp V × Except PyErr (CallAnswer V))
  | [] => []
  | o :: l => (o, a.told o) :: View.answered (a.ask o) l

theorem answered_append [BEq V] (u v : List (CMOp V)) : ∀ a : View V, View.answered a (u ++ v) = View.answered a u ++ View.answered (u.foldl View.ask a) v := by
  induction u with
  | nil => intro a; rfl
  | cons o u ih =>
    intro a
    show (o, a.told o) :: View.answered (a.ask o) (u ++ v) = (o, a.told o) :: (View.answered (a.ask o) u ++ View.answered (u.foldl View.ask (a.ask o)) v)
    rw [ih]

theorem swapped_answered [BEq V] {l l' : List (CMOp V)} (h : SwappedCalls l l') : ∀ a : View V, (View.answered a l).Perm (View.answered a l') := by
  induction h with
  | refl l => intro a; exact .refl _
  | @swap u v o o' h =>
    intro a
    rw [answered_append, answered_append]
    apply List.Perm.append_left
    generalize u.foldl View.ask a = b
    show ((o, b.told o) :: (o', (b.ask o).told o') :: View.answered ((b.ask o).ask o') v).Perm
      ((o', b.told o') :: (o, (b.ask o').told o) :: View.answered ((b.ask o').ask o) v)
    rw [(View.does_after (a := b) h.meet.1).2, (View.does_after (a := b) h.meet.2).2, View.ask_comm h.meet.1 h.meet.2]
    exact .swap _ _ _
  | trans _ _ h1 h2 => intro a; exact (h1 a).trans (h2 a)

theorem target_of_place {s : HS V} {q : Option (List String)} {pl : Place} (hc : CleanArg s.rootName q) (hne : q ≠ some [])
    (h : s.view.placeOf q = some pl) : s.Target q pl := by
  cases q with
  | none => cases h; exact .loc
  | some p =>
    have hp : CleanPath s.rootName p := hc
    unfold View.placeOf at h
    simp only at h
    rw [HS.view_slot hp] at h
    cases hs : s.hslot p with
    | conf c => rw [hs] at h; cases h; exact .item hp (by rw [hs]; rfl)
    | file l => rw [hs] at h; cases h; exact .item hp (by rw [hs]; rfl)
    | sect c => rw [hs] at h; cases h; exact .sect hp (fun e => hne (by rw [e])) hs
    | absent => rw [hs] at h; cases h

theorem conf_answered [BEq V] {l : List (CMOp V)} : ∀ {s : HS V} {t : CM V}, Matched s t →
    (∀ o ∈ l, ∃ q pl, callAbout o = some q ∧ s.Target q pl) → answered t l = View.answered t.view.clean l := by
  induction l with
  | nil => intro s t _ _; rfl
  | cons o l ih =>
    intro s t h hl
    obtain ⟨q, pl, hq, ht⟩ := hl o (by simp)
    have clean : ∀ {q pl}, s.Target q pl → CleanArg s.rootName q ∧ q ≠ some [] := by
      intro q pl ht
      refine ⟨?_, ?_⟩
      · cases ht with
        | item hp _ => exact hp
        | sect hp _ _ => exact hp
        | loc => trivial
      · rintro rfl
        exact HS.Target.ne_nil h.linked.fine.inv ht rfl
    obtain ⟨hc, hne⟩ := clean ht
    have hv := h.linked.ask h.solid (by rw [← callAbout_about]; exact hq) hc hne
    have h2 := (h.step (asked_conf hq hc hne)).2
    have hrn : (s.step o).rootName = s.rootName := by
      rw [h2.linked.rootName, h.linked.rootName]
      have := congrArg View.rootName hv
      rw [(View.ask_other t.view.clean o).2.1] at this
      exact this
    show (o, t.answer o) :: answered (t.step o) l = (o, _) :: _
    rw [CM.answer_told (by rw [← callAbout_about]; exact hq) (h.linked.target ht), ih h2 ?_, hv]
    intro o' ho'
    obtain ⟨q', pl', hq', ht'⟩ := hl o' (List.mem_cons_of_mem _ ho')
    refine ⟨q', pl', hq', ?_⟩
    obtain ⟨hc', hne'⟩ := clean ht'
    have hpl := CM.place_of_target (h.linked.target ht')
    rw [← View.ask_placeOf _ o, ← hv, ← h2.linked.view] at hpl
    exact target_of_place (by rw [hrn]; exact hc') hne' hpl

/-! ## C101 -/

/-- C101 for any state of the config manager reached by calls: updates, refreshes, pops and lookups, of items, of sections and of the
local config, of which neither changes what the other one looks at, can be swapped; after two series of such calls, all later calls
answer the same, of whatever kind and however many they are.  (Missing: the runner's objects.  As in C114, paths not made of attribute
names, and no resets with creation of sections without config later.) -/
theorem C101_swaps_partial [BEq V] {fs : Files V} {rn : String} {s0 : HS V} (hl : HS.load fs rn = .ok s0) {t0 : CM V}
    (ht : CM.load fs rn = .ok t0) (before : List (CMOp V)) (hb : AllAsked s0 before) (l l' : List (CMOp V))
    (h : ConfCalls (before.foldl HS.step s0).rootName l) (hs : SwappedCalls l l') (later : List (CMOp V))
    (ha : AllAsked (l.foldl HS.step (before.foldl HS.step s0)) later) :
    treeAnswers (CM.afterCalls (CM.afterCalls t0 before) l) later = treeAnswers (CM.afterCalls (CM.afterCalls t0 before) l') later := by
  have hm := Matched.all (load_matched hl ht) hb
  generalize before.foldl HS.step s0 = s at *
  generalize CM.afterCalls t0 before = t at *
  obtain ⟨a1, v1⟩ := conf_view hm h
  obtain ⟨a2, v2⟩ := conf_view hm (l := l') (fun o ho => h o (hs.perm.mem_iff.2 ho))
  have m1 := Matched.all hm a1
  have m2 := Matched.all hm a2
  have m : Matched (l.foldl HS.step s) (CM.afterCalls t l') :=
    ⟨⟨m1.linked.fine, by rw [m1.linked.view, v1, v2, swapped_view hs]⟩, m2.solid, m2.own⟩
  rw [← Matched.answers m1 ha, ← Matched.answers m ha]

/-- C101: every one of these calls answers the same in both orders, if the configs that they are for are there. -/
theorem C101_swaps_answers_partial [BEq V] {fs : Files V} {rn : String} {s0 : HS V} (hl : HS.load fs rn = .ok s0) {t0 : CM V}
    (ht : CM.load fs rn = .ok t0) (before : List (CMOp V)) (hb : AllAsked s0 before) (l l' : List (CMOp V))
    (h : ∀ o ∈ l, ∃ q pl, callAbout o = some q ∧ (before.foldl HS.step s0).Target q pl) (hs : SwappedCalls l l') :
    (answered (CM.afterCalls t0 before) l).Perm (answered (CM.afterCalls t0 before) l') := by
  have hm := Matched.all (load_matched hl ht) hb
  rw [conf_answered hm h, conf_answered hm (fun o ho => h o (hs.perm.mem_iff.2 ho))]
  exact swapped_answered hs _

/-- Whether a call says that it changed a config. -/
def saysChanged : Except PyErr (CallAnswer Nat) → Option Bool
  | .ok (.updated _ b) => some b
  | _ => none

def loadedTree : CM Nat := match CM.load objectsFiles "proj" with
  | .ok t => t
  | .error _ => ⟨objectsFiles, "", .conf ⟨Dict.empty, Dict.empty, none⟩, ⟨Dict.empty, Dict.empty, none⟩⟩

/-- C101 does not hold for a lookup of an item and an update of the section around it: if the lookup comes second, what the section says is
written into the item, and a later update of the item with it changes nothing. -/
theorem C101_lookup_violated : ∃ t, CM.load objectsFiles "proj" = .ok t ∧
    ((treeAnswers (CM.afterCalls t [.update none (some ["sub"]) true (Dict.empty.set "x" 5), .get ["sub", "b"]])
      [.update none (some ["sub", "b"]) true (Dict.empty.set "x" 5)]).map saysChanged = [some false]) ∧
    ((treeAnswers (CM.afterCalls t [.get ["sub", "b"], .update none (some ["sub"]) true (Dict.empty.set "x" 5)])
      [.update none (some ["sub", "b"]) true (Dict.empty.set "x" 5)]).map saysChanged = [some true]) := by
  refine ⟨loadedTree, rfl, ?_, ?_⟩ <;> decide +kernel

/-! ## Non-vacuity -/

/-- Calls, lookups among them, that can be swapped; the configs that they are for are there. -/
def fewCalls : List (CMOp Nat) := [.update none (some ["sub"]) true (Dict.empty.set "x" 5), .get ["a"], .pop "x" (some ["sub", "b"])]

example : SwappedCalls fewCalls [.get ["a"], .pop "x" (some ["sub", "b"]), .update none (some ["sub"]) true (Dict.empty.set "x" 5)] := by
  refine .trans (.swap [] [.pop "x" (some ["sub", "b"])] ?_) (.swap [.get ["a"]] [] ?_)
  · refine ⟨fun q hq => ?_, fun q hq => ?_⟩
    · cases hq
      show ¬ ["sub"] <+: ["a"]
      decide
    · cases hq
      show ¬ some (some ["sub"]) = some (some ["a"])
      decide
  · refine ⟨fun q hq => ?_, fun q hq => ?_⟩
    · cases hq
      show ¬ some (some ["sub", "b"]) = some (some ["sub"])
      decide
    · cases hq
      show ¬ some (some ["sub"]) = some (some ["sub", "b"])
      decide

/-- Lookups of different items can be swapped. -/
example : Unrelated (.get ["sub", "b"] : CMOp Nat) (.get ["sub", "c"]) := by
  refine ⟨fun q hq => ?_, fun q hq => ?_⟩
  · cases hq
    show ¬ ["sub", "b"] <+: ["sub", "c"]
    decide
  · cases hq
    show ¬ ["sub", "c"] <+: ["sub", "b"]
    decide

example : ConfCalls loadedObjects.rootName fewCalls ∧ ∀ o ∈ fewCalls, ∃ q pl, callAbout o = some q ∧ loadedObjects.Target q pl := by
  obtain ⟨⟨c1, ⟨p1, g1, -⟩, -⟩, ⟨c2, ⟨p2, g2, -⟩, -⟩, ⟨c3, ⟨p3, g3, -⟩, -⟩⟩ := loaded_there
  refine ⟨fun o ho => ?_, fun o ho => ?_⟩ <;> simp only [fewCalls, List.mem_cons, List.not_mem_nil, or_false] at ho <;>
    rcases ho with rfl | rfl | rfl
  · exact ⟨_, rfl, (by decide +kernel : CleanPath loadedObjects.rootName ["sub"]), by simp⟩
  · exact ⟨_, rfl, (by decide +kernel : CleanPath loadedObjects.rootName ["a"]), by simp⟩
  · exact ⟨_, rfl, (by decide +kernel : CleanPath loadedObjects.rootName ["sub", "b"]), by simp⟩
  · exact ⟨_, _, rfl, g2⟩
  · exact ⟨_, _, rfl, g1⟩
  · exact ⟨_, _, rfl, g3⟩

end Verif.Props

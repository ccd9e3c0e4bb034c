import Verif.Lemmas.OwnCalls

/-
Calls of the config manager that are about one config, lookups included: what they do to what there is to see and what they answer, and
which of them do not meet.
-/

namespace Verif.Model
open Verif.Py

variable {V : Type}

/-- The path of the config that a call changes. -/
def CMOp.about : CMOp V → Option (Option (List String))
  | .get p => some (some p)
  | o => o.path

/-- Whether a call reads a config that it does not change: a lookup reads those of the sections around and the local one. -/
def CMOp.Reads : CMOp V → Option (List String) → Prop
  | .get _, none => True
  | .get p, some q => q <+: p
  | _, _ => False

namespace View

/-- What a call makes of the config at a place. -/
def made [BEq V] (a : View V) (o : CMOp V) (pl : Place) (c : Conf V) : Conf V := match o with
  | .get _ => kGet (a.levelsAt pl ++ [some a.localConf]) c
  | o => o.onConf a.fs c

/-- The config that a call puts somewhere. -/
def does [BEq V] (a : View V) (o : CMOp V) : Option (Place × Conf V) := match o.about with
  | none => none
  | some q => match a.placeOf q with
    | none => none
    | some pl => match a.ownAt pl with
      | .ok (some c) => some (pl, a.made o pl c)
      | _ => none

def ask [BEq V] (a : View V) (o : CMOp V) : View V := match a.does o with
  | none => a
  | some (pl, c) => a.put pl c

/-- What a call about something that is there answers. -/
def told [BEq V] (a : View V) (o : CMOp V) : Except PyErr (CallAnswer V) := match o.about with
  | none => .error .attributeError
  | some q => match a.placeOf q with
    | none => .error .attributeError
    | some pl => match o with
      | .get _ => (match a.ownAt pl with
        | .error e => .error e
        | .ok none => .ok (.config none)
        | .ok (some c) => .ok (.config (some (a.made o pl c))))
      | o => a.answer o pl

theorem does_place [BEq V] {a : View V} {o : CMOp V} {pl : Place} {c : Conf V} (h : a.does o = some (pl, c)) :
    ∃ q, o.about = some q ∧ a.placeOf q = some pl := by
  unfold does at h
  cases hq : o.about with
  | none => rw [hq] at h; cases h
  | some q =>
    rw [hq] at h
    simp only at h
    cases hpl : a.placeOf q with
    | none => rw [hpl] at h; cases h
    | some pl' =>
      rw [hpl] at h
      simp only at h
      split at h
      · cases h; exact ⟨q, rfl, hpl⟩
      · cases h

/-- Only what a call is about changes. -/
theorem ask_other [BEq V] (a : View V) (o : CMOp V) : (a.ask o).fs = a.fs ∧ (a.ask o).rootName = a.rootName ∧
    (∀ p, o.about ≠ some (some p) → (a.ask o).slot p = a.slot p) ∧ (o.about ≠ some none → (a.ask o).localConf = a.localConf) := by
  unfold ask
  cases hd : a.does o with
  | none => exact ⟨rfl, rfl, fun _ _ => rfl, fun _ => rfl⟩
  | some e =>
    obtain ⟨pl, c⟩ := e
    obtain ⟨q, hq, hpl⟩ := does_place hd
    obtain ⟨h1, h2⟩ := put_other hpl c
    rw [hq]
    exact ⟨put_fs _ _ _, put_rootName _ _ _, fun p hp => h1 p (fun e => hp (by rw [e])), fun hn => h2 (fun e => hn (by rw [e]))⟩

theorem put_placeOf {a : View V} {q : Option (List String)} {pl : Place} (h : a.placeOf q = some pl) (c : Conf V) (q' : Option (List String)) :
    (a.put pl c).placeOf q' = a.placeOf q' := by
  by_cases hq : q = q'
  · subst hq
    rw [h]
    rcases placeOf_cases h with ⟨rfl, rfl⟩ | ⟨p, rfl, rfl⟩ | ⟨p, rfl, rfl⟩
    · rfl
    · unfold placeOf
      simp only
      rw [put_slot, if_pos rfl]
    · unfold placeOf
      simp only
      rw [put_slot, if_neg (by simp), if_pos rfl]
  · exact same_place (fun p hp => (put_other h c).1 p (by rw [← hp]; exact hq))

theorem ask_placeOf [BEq V] (a : View V) (o : CMOp V) (q : Option (List String)) : (a.ask o).placeOf q = a.placeOf q := by
  unfold ask
  cases hd : a.does o with
  | none => rfl
  | some e =>
    obtain ⟨pl, c⟩ := e
    obtain ⟨q', -, hpl⟩ := does_place hd
    exact put_placeOf hpl c q

/-- The same is made of a config where the same is read. -/
theorem same_made [BEq V] {a b : View V} {o : CMOp V} {q : Option (List String)} (hq : o.about = some q) {pl : Place}
    (hpl : a.placeOf q = some pl) (hf : b.fs = a.fs) (hs : ∀ p, o.Reads (some p) → b.slot p = a.slot p)
    (hl : o.Reads none → b.localConf = a.localConf) (c : Conf V) : b.made o pl c = a.made o pl c := by
  cases o with
  | get p =>
    cases hq
    simp only [made]
    have hsec : ∀ k, b.sectCfg (p.take k) = a.sectCfg (p.take k) := by
      intro k
      unfold sectCfg
      rw [hs _ (List.take_prefix k p)]
    have hlev : b.levelsAt pl = a.levelsAt pl := by
      rcases placeOf_cases hpl with ⟨h, -⟩ | ⟨p', h, rfl⟩ | ⟨p', h, rfl⟩
      · cases h
      · cases h
        exact List.map_congr_left (fun k _ => hsec k)
      · cases h
        exact List.map_congr_left (fun k _ => hsec k)
    rw [hlev, hl trivial]
  | update d p persist kw => simp only [made]; rw [hf]
  | refresh p => simp only [made]; rw [hf]
  | pop key p => simp only [made]; rw [hf]
  | reset p b => cases hq
  | edit fs => cases hq

theorem same_does [BEq V] {a b : View V} {o : CMOp V} (hf : b.fs = a.fs)
    (hs : ∀ p, o.about = some (some p) ∨ o.Reads (some p) → b.slot p = a.slot p)
    (hl : o.about = some none ∨ o.Reads none → b.localConf = a.localConf) : b.does o = a.does o ∧ b.told o = a.told o := by
  unfold does told
  cases hq : o.about with
  | none => exact ⟨rfl, rfl⟩
  | some q =>
    simp only
    have hs' : ∀ p, q = some p → b.slot p = a.slot p := fun p hp => hs p (.inl (by rw [hq, hp]))
    have hl' : q = none → b.localConf = a.localConf := fun hn => hl (.inl (by rw [hq, hn]))
    rw [same_place hs']
    cases hpl : a.placeOf q with
    | none => exact ⟨rfl, rfl⟩
    | some pl =>
      simp only
      have hm := same_made hq hpl hf (fun p h => hs p (.inr h)) (fun h => hl (.inr h))
      have ho := same_own hf hs' hl' hpl
      constructor
      · rw [ho]
        cases a.ownAt pl with
        | error e => rfl
        | ok oc =>
          cases oc with
          | none => rfl
          | some c => simp only; rw [hm]
      · cases o with
        | get p =>
          simp only
          rw [ho]
          cases a.ownAt pl with
          | error e => rfl
          | ok oc =>
            cases oc with
            | none => rfl
            | some c => simp only; rw [hm]
        | update d p persist kw => simp only [answer]; rw [ho, hf]
        | refresh p => simp only [answer]; rw [ho, hf]
        | pop key p => simp only [answer]; rw [ho, hf]
        | reset p b => cases hq
        | edit fs => cases hq

/-- A call does and answers the same after one that does not change what it reads. -/
theorem does_after [BEq V] {a : View V} {o o' : CMOp V} (hne : ∀ q, o.about = some q → o'.about ≠ some q ∧ ¬ o'.Reads q) :
    (a.ask o).does o' = a.does o' ∧ (a.ask o).told o' = a.told o' := by
  obtain ⟨h1, -, h3, h4⟩ := ask_other a o
  refine same_does h1 (fun p hp => h3 p (fun e => ?_)) (fun hp => h4 (fun e => ?_))
  · obtain ⟨g1, g2⟩ := hne _ e
    exact hp.elim g1 g2
  · obtain ⟨g1, g2⟩ := hne _ e
    exact hp.elim g1 g2

theorem ask_comm [BEq V] {a : View V} {o o' : CMOp V} (h : ∀ q, o.about = some q → o'.about ≠ some q ∧ ¬ o'.Reads q)
    (h' : ∀ q, o'.about = some q → o.about ≠ some q ∧ ¬ o.Reads q) : (a.ask o).ask o' = (a.ask o').ask o := by
  have e1 : (a.ask o).ask o' = match a.does o' with
      | none => a.ask o
      | some (pl, c) => (a.ask o).put pl c := by
    rw [← (does_after (a := a) h).1]; rfl
  have e2 : (a.ask o').ask o = match a.does o with
      | none => a.ask o'
      | some (pl, c) => (a.ask o').put pl c := by
    rw [← (does_after (a := a) h').1]; rfl
  rw [e1, e2]
  unfold ask
  cases hd : a.does o with
  | none => cases hd' : a.does o' <;> rfl
  | some e =>
    obtain ⟨pl, c⟩ := e
    cases hd' : a.does o' with
    | none => rfl
    | some e' =>
      obtain ⟨pl', c'⟩ := e'
      obtain ⟨q, hq, hpl⟩ := does_place hd
      obtain ⟨q', hq', hpl'⟩ := does_place hd'
      exact put_comm hpl hpl' (fun e => (h q hq).1 (by rw [hq', e])) c c'

end View

theorem View.ask_call [BEq V] (a : View V) {o : CMOp V} {q : Option (List String)} (hq : o.path = some q) : a.ask o = a.call o := by
  have hab : o.about = some q := by cases o <;> first | exact hq | cases hq
  have hm : ∀ pl c, a.made o pl c = o.onConf a.fs c := by
    intro pl c
    cases o <;> first | rfl | cases hq
  unfold View.ask View.does View.call
  rw [hab, hq]
  simp only
  cases a.placeOf q with
  | none => rfl
  | some pl =>
    simp only
    cases a.ownAt pl with
    | error e => rfl
    | ok oc =>
      cases oc with
      | none => rfl
      | some c => simp only; rw [hm]

/-- What such a call, on a clean path, does to the tree. -/
theorem Linked.ask [BEq V] {s : HS V} {t : CM V} (hl : Linked s t) (hsol : SolidNode t.root) {o : CMOp V} {q : Option (List String)}
    (hq : o.about = some q) (hc : CleanArg s.rootName q) (hne : q ≠ some []) : (t.step o).view.clean = t.view.clean.ask o := by
  cases o with
  | get p =>
    cases hq
    have hp : CleanPath s.rootName p := hc
    rcases HS.target_or hl.fine.inv hp with ⟨pl, ht⟩ | hn
    · have h2 := CMM.get_tree (hl.target ht)
      have hpc : pl.Clean t.view.rootName := by rw [← show s.rootName = t.view.rootName from hl.rootName]; exact ht.clean
      unfold View.ask View.does
      simp only [CMOp.about]
      rw [CM.place_of_target (hl.target ht)]
      simp only
      rw [View.clean_ownAt (a := t.view) hpc]
      simp only [CM.step]
      cases hown : t.view.ownAt pl with
      | error e => rw [hown] at h2; exact h2.2
      | ok oc =>
        rw [hown] at h2
        cases oc with
        | none => exact h2.2
        | some c =>
          simp only [View.made]
          rw [View.clean_levelsAt (a := t.view) hpc]
          exact h2.2
    · obtain ⟨-, h2, -, -⟩ := hl.missing hsol hp (fun e => hne (by rw [e])) hn
      have hpl : t.view.clean.placeOf (some p) = none := by
        rw [← hl.view]
        unfold View.placeOf
        simp only
        rw [HS.view_slot hp]
        unfold HS.hslot
        cases hf : s.find p with
        | none => rfl
        | some v =>
          rcases HS.find_cases hf with rfl | ⟨r, rfl⟩
          · exact absurd (HS.find_mgr_nil hf) (fun e => hne (by rw [e]))
          · exact absurd hf (hn r)
      unfold View.ask View.does
      simp only [CMOp.about]
      rw [hpl]
      simp only [CM.step]
      unfold CMM.get
      rw [M.bind_error h2]
  | update d p persist kw =>
    have hq' : (CMOp.update d p persist kw : CMOp V).path = some q := hq
    rw [View.ask_call _ hq']
    exact hl.call hsol hq' hc hne
  | refresh p =>
    have hq' : (CMOp.refresh p : CMOp V).path = some q := hq
    rw [View.ask_call _ hq']
    exact hl.call hsol hq' hc hne
  | pop key p =>
    have hq' : (CMOp.pop key p : CMOp V).path = some q := hq
    rw [View.ask_call _ hq']
    exact hl.call hsol hq' hc hne
  | reset p b => cases hq
  | edit fs => cases hq

/-- What such a call answers where something is there. -/
theorem CM.answer_told [BEq V] {t : CM V} {o : CMOp V} {q : Option (List String)} (hq : o.about = some q) {pl : Place} (ht : t.Target q pl) :
    t.answer o = t.view.clean.told o := by
  have own : ∀ o : CMOp V, t.view.clean.answer o pl = t.view.answer o pl := by
    intro o
    unfold View.answer
    rw [View.clean_ownAt (a := t.view) ht.clean]
    rfl
  unfold View.told
  rw [hq]
  simp only
  rw [CM.place_of_target ht]
  cases o with
  | get p =>
    cases hq
    have h2 := CMM.get_tree ht
    simp only [CM.answer]
    rw [View.clean_ownAt (a := t.view) ht.clean]
    cases hown : t.view.ownAt pl with
    | error e => rw [hown] at h2; rw [h2.1]
    | ok oc =>
      rw [hown] at h2
      cases oc with
      | none => rw [h2.1]
      | some c =>
        rw [h2.1]
        simp only [View.made]
        rw [View.clean_levelsAt (a := t.view) ht.clean]
        rfl
  | update d p persist kw => simp only; rw [own]; exact CM.answer_own (o := .update d p persist kw) hq ht
  | refresh p => simp only; rw [own]; exact CM.answer_own (o := .refresh p) hq ht
  | pop key p => simp only; rw [own]; exact CM.answer_own (o := .pop key p) hq ht
  | reset p b => cases hq
  | edit fs => cases hq

end Verif.Model

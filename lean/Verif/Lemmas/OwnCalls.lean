import Verif.Lemmas.ObjectMatch

/-
Calls of the config manager that are about one config alone, its updates, refreshes and pops: what they do to what there is to see, and
that calls for different configs do not meet.
-/

namespace Verif.Model
open Verif.Py

/-- Folding a list of steps that can be swapped when they have different keys only depends on the steps of every key. -/
theorem foldl_by_key {A O K : Type} [DecidableEq K] (f : A → O → A) (key : O → K)
    (hc : ∀ a o o', key o ≠ key o' → f (f a o) o' = f (f a o') o) :
    ∀ (l l' : List O), (∀ k, l.filter (fun o => key o = k) = l'.filter (fun o => key o = k)) → ∀ a, l.foldl f a = l'.foldl f a := by
  have front : ∀ (u v : List O) (o : O), (∀ x ∈ u, key x ≠ key o) → ∀ a, (u ++ o :: v).foldl f a = (u ++ v).foldl f (f a o) := by
    intro u v o
    induction u with
    | nil => intro _ a; rfl
    | cons x u ih =>
      intro h a
      show (u ++ o :: v).foldl f (f a x) = (u ++ v).foldl f (f (f a o) x)
      rw [ih (fun y hy => h y (List.mem_cons_of_mem _ hy)), hc a x o (h x (by simp))]
  have split : ∀ (l' r : List O) (o : O), l'.filter (fun x => key x = key o) = o :: r →
      ∃ u v, l' = u ++ o :: v ∧ (∀ x ∈ u, key x ≠ key o) ∧ v.filter (fun x => key x = key o) = r := by
    intro l' r o
    induction l' with
    | nil => intro h; cases h
    | cons x l' ih =>
      intro h
      by_cases hx : key x = key o
      · rw [List.filter_cons_of_pos (by simpa using hx)] at h
        cases h
        exact ⟨[], l', rfl, by simp, rfl⟩
      · rw [List.filter_cons_of_neg (by simpa using hx)] at h
        obtain ⟨u, v, h1, h2, h3⟩ := ih h
        refine ⟨x :: u, v, by rw [h1]; rfl, ?_, h3⟩
        intro y hy
        rcases List.mem_cons.1 hy with rfl | hy
        · exact hx
        · exact h2 y hy
  intro l
  induction l with
  | nil =>
    intro l' h a
    cases l' with
    | nil => rfl
    | cons o l' =>
      have := h (key o)
      rw [List.filter_cons_of_pos (by simp)] at this
      cases this
  | cons o l ih =>
    intro l' h a
    have h0 := h (key o)
    rw [List.filter_cons_of_pos (by simp)] at h0
    obtain ⟨u, v, rfl, h2, h3⟩ := split l' _ o h0.symm
    rw [front u v o h2]
    show l.foldl f (f a o) = _
    apply ih
    intro k
    by_cases hk : key o = k
    · subst hk
      rw [List.filter_append, h3]
      have hu : u.filter (fun x => key x = key o) = [] := List.filter_eq_nil_iff.2 (by intro x hx; simpa using h2 x hx)
      rw [hu]
      rfl
    · have hk' := h k
      rw [List.filter_cons_of_neg (by simpa using hk), List.filter_append, List.filter_cons_of_neg (by simpa using hk)] at hk'
      rw [List.filter_append]
      exact hk'

variable {V : Type}

/-- The path of the config that a call is about, if it is about one config alone; the local config has the path `none`. -/
def CMOp.path : CMOp V → Option (Option (List String))
  | .update _ p _ _ => some p
  | .refresh p => some (some p)
  | .pop _ p => some p
  | _ => none

/-- What such a call makes of the config. -/
def CMOp.onConf [BEq V] (o : CMOp V) (fs : Files V) (c : Conf V) : Conf V := match o with
  | .update d _ persist kw => (kUpdate d persist kw c).2
  | .refresh _ => (kRefresh fs c).2
  | .pop key _ => (kPop key c).2
  | _ => c

namespace View

/-- Where the config of a path is. -/
def placeOf (a : View V) : Option (List String) → Option Place
  | none => some .loc
  | some p => match a.slot p with
    | .conf _ => some (.item p)
    | .file _ => some (.item p)
    | .sect _ => some (.cfg p)
    | .absent => none

/-- A call, for what there is to see. -/
def call [BEq V] (a : View V) (o : CMOp V) : View V := match o.path with
  | none => a
  | some q => match a.placeOf q with
    | none => a
    | some pl => match a.ownAt pl with
      | .ok (some c) => a.put pl (o.onConf a.fs c)
      | _ => a

theorem placeOf_cases {a : View V} {q : Option (List String)} {pl : Place} (h : a.placeOf q = some pl) :
    (q = none ∧ pl = .loc) ∨ (∃ p, q = some p ∧ pl = .item p) ∨ ∃ p, q = some p ∧ pl = .cfg p := by
  cases q with
  | none => cases h; exact .inl ⟨rfl, rfl⟩
  | some p =>
    unfold placeOf at h
    simp only at h
    split at h <;> cases h
    · exact .inr (.inl ⟨p, rfl, rfl⟩)
    · exact .inr (.inl ⟨p, rfl, rfl⟩)
    · exact .inr (.inr ⟨p, rfl, rfl⟩)

theorem put_fs (a : View V) (pl : Place) (c : Conf V) : (a.put pl c).fs = a.fs := by cases pl <;> rfl
theorem put_rootName (a : View V) (pl : Place) (c : Conf V) : (a.put pl c).rootName = a.rootName := by cases pl <;> rfl

/-- Only what is at the path changes. -/
theorem put_other {a : View V} {q : Option (List String)} {pl : Place} (h : a.placeOf q = some pl) (c : Conf V) :
    (∀ p, q ≠ some p → (a.put pl c).slot p = a.slot p) ∧ (q ≠ none → (a.put pl c).localConf = a.localConf) := by
  rcases placeOf_cases h with ⟨rfl, rfl⟩ | ⟨p, rfl, rfl⟩ | ⟨p, rfl, rfl⟩
  · exact ⟨fun _ _ => rfl, fun h => absurd rfl h⟩
  · refine ⟨fun p' hp => ?_, fun _ => rfl⟩
    rw [put_slot, if_neg (by intro e; cases e; exact hp rfl), if_neg (by simp)]
  · refine ⟨fun p' hp => ?_, fun _ => rfl⟩
    rw [put_slot, if_neg (by simp), if_neg (by intro e; cases e; exact hp rfl)]

theorem same_place {a b : View V} {q : Option (List String)} (hs : ∀ p, q = some p → b.slot p = a.slot p) : b.placeOf q = a.placeOf q := by
  cases q with
  | none => rfl
  | some p => unfold placeOf; simp only; rw [hs p rfl]

theorem same_own {a b : View V} {q : Option (List String)} (hf : b.fs = a.fs) (hs : ∀ p, q = some p → b.slot p = a.slot p)
    (hl : q = none → b.localConf = a.localConf) {pl : Place} (h : a.placeOf q = some pl) : b.ownAt pl = a.ownAt pl := by
  rcases placeOf_cases h with ⟨rfl, rfl⟩ | ⟨p, rfl, rfl⟩ | ⟨p, rfl, rfl⟩
  · simp only [ownAt]; rw [hl rfl]
  · simp only [ownAt, own]; rw [hs p rfl, hf]
  · simp only [ownAt, sectCfg]; rw [hs p rfl]

theorem put_comm {a : View V} {q q' : Option (List String)} {pl pl' : Place} (h : a.placeOf q = some pl) (h' : a.placeOf q' = some pl')
    (hne : q ≠ q') (c c' : Conf V) : (a.put pl c).put pl' c' = (a.put pl' c').put pl c := by
  have hslot : ((a.put pl c).put pl' c').slot = ((a.put pl' c').put pl c).slot := by
    funext p
    rw [put_slot, put_slot, put_slot, put_slot]
    rcases placeOf_cases h with ⟨rfl, rfl⟩ | ⟨x, rfl, rfl⟩ | ⟨x, rfl, rfl⟩ <;>
      rcases placeOf_cases h' with ⟨rfl, rfl⟩ | ⟨y, rfl, rfl⟩ | ⟨y, rfl, rfl⟩ <;>
      simp only [Place.item.injEq, Place.cfg.injEq, reduceCtorEq, if_false] <;> repeat' split
    all_goals first | rfl | (subst_vars; exact absurd rfl hne)
  have hloc : ((a.put pl c).put pl' c').localConf = ((a.put pl' c').put pl c).localConf := by
    rcases placeOf_cases h with ⟨rfl, rfl⟩ | ⟨x, rfl, rfl⟩ | ⟨x, rfl, rfl⟩ <;>
      rcases placeOf_cases h' with ⟨rfl, rfl⟩ | ⟨y, rfl, rfl⟩ | ⟨y, rfl, rfl⟩ <;> first | rfl | exact absurd rfl hne
  have hfs : ((a.put pl c).put pl' c').fs = ((a.put pl' c').put pl c).fs := by rw [put_fs, put_fs, put_fs, put_fs]
  have hrn : ((a.put pl c).put pl' c').rootName = ((a.put pl' c').put pl c).rootName := by
    rw [put_rootName, put_rootName, put_rootName, put_rootName]
  generalize (a.put pl c).put pl' c' = x at *
  generalize (a.put pl' c').put pl c = y at *
  cases x
  cases y
  simp_all

theorem call_eq [BEq V] (a : View V) (o : CMOp V) : a.call o = a ∨ ∃ q pl c, o.path = some q ∧ a.placeOf q = some pl ∧
    a.ownAt pl = .ok (some c) ∧ a.call o = a.put pl (o.onConf a.fs c) := by
  unfold call
  cases hq : o.path with
  | none => exact .inl rfl
  | some q =>
    simp only
    cases hpl : a.placeOf q with
    | none => exact .inl rfl
    | some pl =>
      simp only
      cases how : a.ownAt pl with
      | error e => exact .inl rfl
      | ok oc =>
        cases oc with
        | none => exact .inl rfl
        | some c => exact .inr ⟨q, pl, c, rfl, hpl, how, rfl⟩

/-- Calls for other configs leave this one alone. -/
theorem call_other [BEq V] (a : View V) (o : CMOp V) : (a.call o).fs = a.fs ∧ (a.call o).rootName = a.rootName ∧
    (∀ p, o.path ≠ some (some p) → (a.call o).slot p = a.slot p) ∧ (o.path ≠ some none → (a.call o).localConf = a.localConf) := by
  rcases call_eq a o with h | ⟨q, pl, c, hq, hpl, -, h⟩
  · rw [h]
    exact ⟨rfl, rfl, fun _ _ => rfl, fun _ => rfl⟩
  · rw [h, hq]
    obtain ⟨h1, h2⟩ := put_other hpl (o.onConf a.fs c)
    exact ⟨put_fs _ _ _, put_rootName _ _ _, fun p hp => h1 p (fun e => hp (by rw [e])), fun hn => h2 (fun e => hn (by rw [e]))⟩

theorem call_placeOf [BEq V] (a : View V) (o : CMOp V) (q : Option (List String)) : (a.call o).placeOf q = a.placeOf q := by
  by_cases hq : o.path = some q
  · rcases call_eq a o with h | ⟨q', pl, c, hq', hpl, -, h⟩
    · rw [h]
    · rw [hq] at hq'
      cases hq'
      rw [h, hpl]
      rcases placeOf_cases hpl with ⟨rfl, rfl⟩ | ⟨p, rfl, rfl⟩ | ⟨p, rfl, rfl⟩
      · rfl
      · unfold placeOf
        simp only
        rw [put_slot, if_pos rfl]
      · unfold placeOf
        simp only
        rw [put_slot, if_neg (by simp), if_pos rfl]
  · exact same_place (fun p hp => (call_other a o).2.2.1 p (by rw [← hp]; exact hq))

theorem calls_placeOf [BEq V] (q : Option (List String)) : ∀ (l : List (CMOp V)) (a : View V), (l.foldl call a).placeOf q = a.placeOf q := by
  intro l
  induction l with
  | nil => intro a; rfl
  | cons o l ih => intro a; exact (ih _).trans (call_placeOf a o q)

theorem call_comm [BEq V] (a : View V) (o o' : CMOp V) (hne : o.path ≠ o'.path) : (a.call o).call o' = (a.call o').call o := by
  have still : ∀ (o o' : CMOp V), o.path ≠ o'.path → a.call o' = a → (a.call o).call o' = a.call o := by
    intro o o' hne h
    obtain ⟨h1, -, h3, h4⟩ := call_other a o
    have hs : ∀ q, o'.path = some q → ∀ p, q = some p → (a.call o).slot p = a.slot p :=
      fun q hq p hp => h3 p (fun e => hne (by rw [e, hq, hp]))
    have hl : ∀ q, o'.path = some q → q = none → (a.call o).localConf = a.localConf :=
      fun q hq hn => h4 (fun e => hne (by rw [e, hq, hn]))
    rcases call_eq (a.call o) o' with h' | ⟨q, pl, c, hq, hpl, how, h'⟩
    · exact h'
    · rw [same_place (hs q hq)] at hpl
      rw [same_own h1 (hs q hq) (hl q hq) hpl] at how
      have hput : a.put pl (o'.onConf a.fs c) = a := by
        have e := h
        unfold call at e
        rw [hq] at e
        simp only at e
        rw [hpl] at e
        simp only at e
        rw [how] at e
        simp only at e
        exact e
      rw [h', h1]
      rcases call_eq a o with h2 | ⟨q2, pl2, c2, hq2, hpl2, -, h2⟩
      · rw [h2]; exact hput
      · rw [h2, put_comm hpl2 hpl (fun e => hne (by rw [hq2, hq, e])), hput]
  rcases call_eq a o with h | ⟨q, pl, c, hq, hpl, how, h⟩
  · rw [still o' o (fun e => hne e.symm) h, h]
  · rcases call_eq a o' with h' | ⟨q', pl', c', hq', hpl', how', h'⟩
    · rw [still o o' hne h', h']
    · have hqq : q ≠ q' := fun e => hne (by rw [hq, hq', e])
      have one : ∀ {o o' : CMOp V} {q q' : Option (List String)} {pl pl' : Place} {c c' : Conf V}, o.path = some q → o'.path = some q' →
          a.placeOf q = some pl → a.placeOf q' = some pl' → a.ownAt pl' = .ok (some c') → q ≠ q' →
          a.call o = a.put pl (o.onConf a.fs c) → (a.call o).call o' = (a.put pl (o.onConf a.fs c)).put pl' (o'.onConf a.fs c') := by
        intro o o' q q' pl pl' c c' hq hq' hpl hpl' how' hqq h
        obtain ⟨h1, -, h3, h4⟩ := call_other a o
        have hs : ∀ p, q' = some p → (a.call o).slot p = a.slot p := fun p hp => h3 p (fun e => hqq (by rw [hq] at e; cases e; exact hp.symm))
        have hl : q' = none → (a.call o).localConf = a.localConf := fun hn => h4 (fun e => hqq (by rw [hq] at e; cases e; exact hn.symm))
        have e1 : (a.call o).placeOf q' = some pl' := by rw [same_place hs, hpl']
        have e2 : (a.call o).ownAt pl' = .ok (some c') := by rw [same_own h1 hs hl hpl', how']
        show (match o'.path with
          | none => a.call o
          | some q => match (a.call o).placeOf q with
            | none => a.call o
            | some pl => match (a.call o).ownAt pl with
              | .ok (some c) => (a.call o).put pl (o'.onConf (a.call o).fs c)
              | _ => a.call o : View V) = _
        rw [hq']
        simp only
        rw [e1]
        simp only
        rw [e2]
        simp only
        rw [h1, h]
      rw [one hq hq' hpl hpl' how' hqq h, one hq' hq hpl' hpl how (fun e => hqq e.symm) h', put_comm hpl hpl' hqq]

end View

/-- What such a call answers. -/
def CMOp.onAnswer [BEq V] (o : CMOp V) (fs : Files V) (c : Conf V) : Except PyErr (CallAnswer V) := match o with
  | .update d _ persist kw => (kUpdate d persist kw c).1.map (.updated (kUpdate d persist kw c).2)
  | .refresh _ => (kRefresh fs c).1.map (fun b => .refreshed (kRefresh fs c).2 b.1 b.2)
  | .pop key _ => (kPop key c).1.map .popped
  | _ => .error .attributeError

/-- The answer, for what there is to see. -/
def View.answer [BEq V] (a : View V) (o : CMOp V) (pl : Place) : Except PyErr (CallAnswer V) := match a.ownAt pl with
  | .error e => .error e
  | .ok none => .error .notLoaded
  | .ok (some c) => o.onAnswer a.fs c

/-- Where something is, the answer of such a call only depends on the config that is there. -/
theorem CM.answer_own [BEq V] {t : CM V} {o : CMOp V} {q : Option (List String)} (hq : o.path = some q) {pl : Place} (ht : t.Target q pl) :
    t.answer o = t.view.answer o pl := by
  unfold View.answer
  cases o with
  | update d p persist kw =>
    cases hq
    have h2 := CMM.update_tree ht d persist kw
    simp only [CM.answer]
    cases hown : t.view.ownAt pl with
    | error e => rw [hown] at h2; rw [h2.1]
    | ok oc =>
      rw [hown] at h2
      cases oc with
      | none => rw [h2.1]
      | some c =>
        rw [h2.1]
        simp only [CMOp.onAnswer]
        cases (kUpdate d persist kw c).1 <;> rfl
  | refresh p =>
    cases hq
    have h2 := CMM.refresh_tree ht
    simp only [CM.answer]
    cases hown : t.view.ownAt pl with
    | error e => rw [hown] at h2; rw [h2.1]
    | ok oc =>
      rw [hown] at h2
      cases oc with
      | none => rw [h2.1]
      | some c =>
        rw [h2.1]
        simp only [CMOp.onAnswer]
        show _ = Except.map _ (kRefresh t.fs c).1
        cases (kRefresh t.fs c).1 <;> rfl
  | pop key p =>
    cases hq
    have h2 := CMM.pop_tree ht key
    simp only [CM.answer]
    cases hown : t.view.ownAt pl with
    | error e => rw [hown] at h2; rw [h2.1]
    | ok oc =>
      rw [hown] at h2
      cases oc with
      | none => rw [h2.1]
      | some c =>
        rw [h2.1]
        simp only [CMOp.onAnswer]
        cases (kPop key c).1 <;> rfl
  | get p => cases hq
  | reset p b => cases hq
  | edit fs => cases hq

/-- Where a path leads to in the tree, by what there is to see. -/
theorem CM.target_of_place {t : CM V} {q : Option (List String)} {pl : Place} (hc : CleanArg t.rootName q) (hne : q ≠ some [])
    (h : t.view.clean.placeOf q = some pl) : t.Target q pl := by
  cases q with
  | none => cases h; exact .loc
  | some p =>
    have hp : CleanPath t.rootName p := hc
    have hn : p ≠ [] := fun e => hne (by rw [e])
    unfold View.placeOf at h
    simp only at h
    rw [View.clean_slot (a := t.view) hp] at h
    cases hs : t.view.slot p with
    | conf c => rw [hs] at h; cases h; exact .item hp (by rw [hs]; rfl) hn
    | file l => rw [hs] at h; cases h; exact .item hp (by rw [hs]; rfl) hn
    | sect c => rw [hs] at h; cases h; exact .sect hp hn hs
    | absent => rw [hs] at h; cases h

theorem CM.place_of_target {t : CM V} {q : Option (List String)} {pl : Place} (h : t.Target q pl) : t.view.clean.placeOf q = some pl := by
  cases h with
  | item hp hs hn =>
    unfold View.placeOf
    simp only
    rw [View.clean_slot (a := t.view) hp]
    cases hh : t.view.slot _ with
    | conf c => rfl
    | file l => rfl
    | sect c => rw [hh] at hs; cases hs
    | absent => rw [hh] at hs; cases hs
  | sect hp hn hs =>
    unfold View.placeOf
    simp only
    rw [View.clean_slot (a := t.view) hp, hs]
  | loc => rfl

/-- What such a call, on a clean path, does to the tree. -/
theorem Linked.call [BEq V] {s : HS V} {t : CM V} (hl : Linked s t) (hsol : SolidNode t.root) {o : CMOp V} {q : Option (List String)}
    (hq : o.path = some q) (hc : CleanArg s.rootName q) (hne : q ≠ some []) : (t.step o).view.clean = t.view.clean.call o := by
  have hcall : ∀ {pl}, s.Target q pl → t.view.clean.call o = match t.view.ownAt pl with
      | .ok (some c) => t.view.clean.put pl (o.onConf t.fs c)
      | _ => t.view.clean := by
    intro pl ht
    unfold View.call
    rw [hq]
    simp only
    rw [CM.place_of_target (hl.target ht)]
    simp only
    rw [View.clean_ownAt (a := t.view) (by
      rw [← show s.rootName = t.view.rootName from hl.rootName]; exact ht.clean)]
    rfl
  have hmiss : ∀ p, q = some p → (∀ r, s.find p ≠ some (.ref r)) → t.view.clean.call o = t.view.clean ∧
      CMM.getProjectOrLocal q t = (.error (s.view.missing [] p), t) := by
    rintro p rfl hn
    obtain ⟨-, h2, -, -⟩ := hl.missing hsol hc (fun e => hne (by rw [e])) hn
    refine ⟨?_, h2⟩
    unfold View.call
    rw [hq]
    simp only
    have : t.view.clean.placeOf (some p) = none := by
      rw [← hl.view]
      unfold View.placeOf
      simp only
      rw [HS.view_slot hc]
      unfold HS.hslot
      cases hf : s.find p with
      | none => rfl
      | some v =>
        rcases HS.find_cases hf with rfl | ⟨r, rfl⟩
        · exact absurd (HS.find_mgr_nil hf) (fun e => hne (by rw [e]))
        · exact absurd hf (hn r)
    rw [this]
  have hor : (∃ pl, s.Target q pl) ∨ ∃ p, q = some p ∧ ∀ r, s.find p ≠ some (.ref r) := by
    cases q with
    | none => exact .inl ⟨_, .loc⟩
    | some p =>
      rcases HS.target_or hl.fine.inv hc with h | h
      · exact .inl h
      · exact .inr ⟨p, rfl, h⟩
  cases o with
  | update d p persist kw =>
    cases hq
    simp only [CM.step]
    rcases hor with ⟨pl, ht⟩ | ⟨p, hp, hn⟩
    · rw [hcall ht]
      have h2 := CMM.update_tree (hl.target ht) d persist kw
      cases hown : t.view.ownAt pl with
      | error e => rw [hown] at h2; exact h2.2
      | ok oc => rw [hown] at h2; cases oc <;> exact h2.2
    · obtain ⟨h1, h2⟩ := hmiss p hp hn
      rw [h1]
      unfold CMM.update
      rw [M.bind_error h2]
  | refresh p =>
    cases hq
    simp only [CM.step]
    rcases hor with ⟨pl, ht⟩ | ⟨p', hp, hn⟩
    · rw [hcall ht]
      have h2 := CMM.refresh_tree (hl.target ht)
      cases hown : t.view.ownAt pl with
      | error e => rw [hown] at h2; exact h2.2
      | ok oc => rw [hown] at h2; cases oc <;> exact h2.2
    · obtain ⟨h1, h2⟩ := hmiss p' hp hn
      rw [h1]
      unfold CMM.refresh
      rw [M.bind_error h2]
  | pop key p =>
    cases hq
    simp only [CM.step]
    rcases hor with ⟨pl, ht⟩ | ⟨p', hp, hn⟩
    · rw [hcall ht]
      have h2 := CMM.pop_tree (hl.target ht) key
      cases hown : t.view.ownAt pl with
      | error e => rw [hown] at h2; exact h2.2
      | ok oc => rw [hown] at h2; cases oc <;> exact h2.2
    · obtain ⟨h1, h2⟩ := hmiss p' hp hn
      rw [h1]
      unfold CMM.pop
      rw [M.bind_error h2]
  | get p => cases hq
  | reset p b => cases hq
  | edit fs => cases hq

end Verif.Model

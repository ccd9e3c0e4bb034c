import Verif.Lemmas.OwnCalls
import Verif.Props.Objects
import Verif.Props.Merge

/-
C101 for calls of the config manager on any configs: of items, of sections and the local one.
-/

namespace Verif.Props
open Verif.Py Verif.Model

variable {V : Type}

/-! ## Specification -/

/-- The config that an update, a refresh or a pop is for; the local config if there is no path. -/
def callFor : CMOp V → Option (Option (List String))
  | .update _ p _ _ => some p
  | .refresh p => some (some p)
  | .pop _ p => some p
  | .get _ => none
  | .reset _ _ => none
  | .edit _ => none

/-- The calls for one config. -/
def callsFor (q : Option (List String)) (l : List (CMOp V)) : List (CMOp V) := l.filter (fun o => callFor o = some q)

/-- Updates, refreshes and pops, for paths that are not made of attribute names of managers or sections. -/
def OwnCalls (rn : String) (l : List (CMOp V)) : Prop :=
  ∀ o ∈ l, ∃ q, callFor o = some q ∧ CleanArg rn q ∧ q ≠ some []

/-- Updates of several configs, as calls; and those of one of them. -/
def confUpdates (us : List (Option (List String) × UpdArgs V)) : List (CMOp V) :=
  us.map (fun e => .update e.2.d e.1 e.2.persist e.2.kw)

def updatesOf (q : Option (List String)) (us : List (Option (List String) × UpdArgs V)) : List (UpdArgs V) :=
  (us.filter (fun e => e.1 = q)).map Prod.snd

/-- The path leads to this config, of an item, a section or the local one; it may have to be read from its file. -/
def ConfigThere (s : HS V) (q : Option (List String)) (c : Conf V) : Prop := ∃ pl, s.Target q pl ∧ s.view.ownAt pl = .ok (some c)

/-- The manager after calls. -/
def CM.afterCalls [BEq V] (t : CM V) (l : List (CMOp V)) : CM V := l.foldl CM.step t

/-! ## Lemmas -/

theorem callFor_path (o : CMOp V) : callFor o = o.path := by cases o <;> rfl

theorem Matched.all [BEq V] {l : List (CMOp V)} : ∀ {s : HS V} {t : CM V}, Matched s t → AllAsked s l →
    Matched (l.foldl HS.step s) (CM.afterCalls t l) := by
  induction l with
  | nil => intro s t h _; exact h
  | cons o l ih => intro s t h ha; exact ih (h.step ha.1).2 ha.2

theorem Matched.answers [BEq V] {l : List (CMOp V)} : ∀ {s : HS V} {t : CM V}, Matched s t → AllAsked s l →
    objectAnswers s l = treeAnswers t l := by
  induction l with
  | nil => intro s t _ _; rfl
  | cons o l ih =>
    intro s t h ha
    obtain ⟨h1, h2⟩ := h.step ha.1
    show _ :: _ = _ :: _
    rw [h1, ih h2 ha.2]

theorem asked_own {s : HS V} {o : CMOp V} {q : Option (List String)} (hq : callFor o = some q) (hc : CleanArg s.rootName q)
    (hne : q ≠ some []) : s.Asked o := by
  cases o with
  | update d p persist kw => cases hq; exact ⟨hc, hne⟩
  | refresh p => cases hq; exact ⟨hc, fun e => hne (by rw [e])⟩
  | pop key p => cases hq; exact ⟨hc, hne⟩
  | get p => cases hq
  | reset p b => cases hq
  | edit fs => cases hq

/-- What there is to see after such calls. -/
theorem afterCalls_view [BEq V] {l : List (CMOp V)} : ∀ {s : HS V} {t : CM V}, Matched s t → OwnCalls s.rootName l →
    AllAsked s l ∧ (CM.afterCalls t l).view.clean = l.foldl View.call t.view.clean := by
  induction l with
  | nil => intro s t _ _; exact ⟨trivial, rfl⟩
  | cons o l ih =>
    intro s t h hl
    obtain ⟨q, hq, hc, hne⟩ := hl o (by simp)
    have ha := asked_own hq hc hne
    have hv := h.linked.call h.solid (by rw [← callFor_path]; exact hq) hc hne
    have h2 := (h.step ha).2
    have hrn : (s.step o).rootName = s.rootName := by
      rw [h2.linked.rootName, h.linked.rootName]
      have := congrArg View.rootName hv
      rw [(View.call_other t.view.clean o).2.1] at this
      exact this
    obtain ⟨h3, h4⟩ := ih h2 (by rw [hrn]; exact fun o ho => hl o (List.mem_cons_of_mem _ ho))
    refine ⟨⟨ha, h3⟩, ?_⟩
    show (CM.afterCalls (t.step o) l).view.clean = _
    rw [h4, hv]
    rfl

theorem load_matched [BEq V] {fs : Files V} {rn : String} {s : HS V} (hl : HS.load fs rn = .ok s) {t : CM V} (ht : CM.load fs rn = .ok t) :
    Matched s t := by
  obtain ⟨-, -, t', ht', hv⟩ := HS.load_ok hl
  rw [ht] at ht'
  cases ht'
  exact ⟨⟨HS.load_fine hl, hv⟩, CM.load_solid ht, CM.load_own ht⟩

theorem same_view [BEq V] {l l' : List (CMOp V)} (hl : OwnCalls (V := V) rn l) (hl' : OwnCalls (V := V) rn l')
    (h : ∀ q, callsFor q l = callsFor q l') (a : View V) : l.foldl View.call a = l'.foldl View.call a := by
  refine foldl_by_key View.call callFor (fun a o o' hne => View.call_comm a o o' (by rw [← callFor_path, ← callFor_path]; exact hne)) l l' ?_ a
  intro k
  cases k with
  | some q => exact h q
  | none =>
    have : ∀ l : List (CMOp V), OwnCalls rn l → l.filter (fun o => callFor o = none) = [] := by
      intro l hl
      rw [List.filter_eq_nil_iff]
      intro o ho
      obtain ⟨q, hq, -⟩ := hl o ho
      simp [hq]
    rw [this l hl, this l' hl']

theorem calls_rootName [BEq V] : ∀ (l : List (CMOp V)) (a : View V), (l.foldl View.call a).rootName = a.rootName := by
  intro l
  induction l with
  | nil => intro a; rfl
  | cons o l ih => intro a; exact (ih _).trans (View.call_other a o).2.1

/-- Calls for other configs do not matter to what is at a path. -/
theorem calls_other [BEq V] {q : Option (List String)} : ∀ {l : List (CMOp V)} {a : View V}, (∀ o ∈ l, callFor o ≠ some q) →
    (l.foldl View.call a).fs = a.fs ∧ (∀ p, q = some p → (l.foldl View.call a).slot p = a.slot p) ∧
    (q = none → (l.foldl View.call a).localConf = a.localConf) := by
  intro l
  induction l with
  | nil => intro a _; exact ⟨rfl, fun _ _ => rfl, fun _ => rfl⟩
  | cons o l ih =>
    intro a h
    obtain ⟨h1, h2, h3⟩ := ih (a := a.call o) (fun o ho => h o (List.mem_cons_of_mem _ ho))
    obtain ⟨g1, -, g3, g4⟩ := View.call_other a o
    have ho := h o (by simp)
    rw [callFor_path] at ho
    exact ⟨h1.trans g1, fun p hp => (h2 p hp).trans (g3 p (by rw [← hp]; exact ho)), fun hn => (h3 hn).trans (g4 (by rw [← hn]; exact ho))⟩

/-- So only the calls for it do. -/
theorem calls_at [BEq V] {rn : String} {l : List (CMOp V)} (h1 : OwnCalls rn l) (q : Option (List String)) (a : View V) :
    (l.foldl View.call a).fs = ((callsFor q l).foldl View.call a).fs ∧
    (∀ p, q = some p → (l.foldl View.call a).slot p = ((callsFor q l).foldl View.call a).slot p) ∧
    (q = none → (l.foldl View.call a).localConf = ((callsFor q l).foldl View.call a).localConf) := by
  have hord : l.foldl View.call a = (callsFor q l ++ l.filter (fun o => callFor o ≠ some q)).foldl View.call a := by
    refine same_view h1 ?_ ?_ _
    · intro o ho
      rcases List.mem_append.1 ho with ho | ho
      · exact h1 o (List.mem_filter.1 ho).1
      · exact h1 o (List.mem_filter.1 ho).1
    · intro q'
      unfold callsFor
      rw [List.filter_append, List.filter_filter, List.filter_filter]
      by_cases hqq : q' = q
      · subst hqq
        have e1 : (l.filter fun o => decide (callFor o = some q') && decide (callFor o ≠ some q')) = [] := by
          rw [List.filter_eq_nil_iff]; intro o _; simp
        rw [e1, List.append_nil]
        congr 1
        funext o
        simp
      · have e1 : (l.filter fun o => decide (callFor o = some q') && decide (callFor o = some q)) = [] := by
          rw [List.filter_eq_nil_iff]
          intro o _
          simp only [Bool.and_eq_true, decide_eq_true_eq, not_and]
          intro h h'
          rw [h] at h'
          exact hqq (Option.some.inj h')
        rw [e1, List.nil_append]
        apply List.filter_congr
        intro o _
        by_cases h : callFor o = some q'
        · simp [h, hqq]
        · simp [h]
  rw [hord, List.foldl_append]
  exact calls_other (q := q) (fun o ho => by simpa using (List.mem_filter.1 ho).2)

theorem calls_fs [BEq V] : ∀ (l : List (CMOp V)) (a : View V), (l.foldl View.call a).fs = a.fs := by
  intro l
  induction l with
  | nil => intro a; rfl
  | cons o l ih => intro a; exact (ih _).trans (View.call_other a o).1

theorem callsFor_updates (q : Option (List String)) (us : List (Option (List String) × UpdArgs V)) :
    callsFor q (confUpdates us) = confUpdates ((updatesOf q us).map (fun u => (q, u))) := by
  induction us with
  | nil => rfl
  | cons e us ih =>
    obtain ⟨q', u⟩ := e
    unfold callsFor confUpdates updatesOf at ih ⊢
    by_cases h : q' = q
    · subst h
      simp only [List.map_cons]
      rw [List.filter_cons_of_pos (by simp [callFor]), List.filter_cons_of_pos (by simp), ih]
      rfl
    · simp only [List.map_cons]
      rw [List.filter_cons_of_neg (by simp [callFor, h]), List.filter_cons_of_neg (by simp [h]), ih]

theorem own_put {a : View V} {q : Option (List String)} {pl : Place} (h : a.placeOf q = some pl) (c : Conf V) :
    (a.put pl c).placeOf q = some pl ∧ (a.put pl c).ownAt pl = .ok (some c) := by
  rcases View.placeOf_cases h with ⟨rfl, rfl⟩ | ⟨p, rfl, rfl⟩ | ⟨p, rfl, rfl⟩
  · exact ⟨rfl, rfl⟩
  · have hs : (a.put (.item p) c).slot p = .conf c := by rw [View.put_slot, if_pos rfl]
    unfold View.placeOf
    simp only [View.ownAt, View.own]
    rw [hs]
    exact ⟨rfl, rfl⟩
  · have hs : (a.put (.cfg p) c).slot p = .sect (some c) := by rw [View.put_slot, if_neg (by simp), if_pos rfl]
    unfold View.placeOf
    simp only [View.ownAt, View.sectCfg]
    rw [hs]
    exact ⟨rfl, rfl⟩

theorem kUpdate_updated [BEq V] (c : Conf V) (d : Option (Dict String V)) (persist : Bool) (kw : Dict String V) :
    (kUpdate d persist kw c).2 = c.updated d persist kw := by
  unfold kUpdate Conf.updated
  cases CMM.determineWouldUpdate c d kw with
  | error e => rfl
  | ok b =>
    cases b with
    | false => rfl
    | true => by_cases h : Conf.clash Conf.updateReserved kw = true <;> simp [h]

/-- A series of updates of one config that are not persistent. -/
theorem updates_one [BEq V] (he : EqIsSame V) {q : Option (List String)} {pl : Place} (us : List (UpdArgs V)) :
    ∀ {a : View V} {c : Conf V}, a.placeOf q = some pl → a.ownAt pl = .ok (some c) → (∀ u ∈ us, Proper c u ∧ u.persist = false) →
    ∃ c', c'.file = c.file ∧ c'.values.keys = c.values.keys ∧ (∀ x, c'.values.get? x = (lastWord us x).or (c.values.get? x)) ∧
      c'.applied = c.applied ∧ (confUpdates (us.map (fun u => (q, u)))).foldl View.call a = if us = [] then a else a.put pl c' := by
  induction us with
  | nil => intro a c _ _ _; exact ⟨c, rfl, rfl, fun _ => rfl, rfl, rfl⟩
  | cons u us ih =>
    intro a c hpl how hu
    obtain ⟨hpu, hper⟩ := hu u List.mem_cons_self
    have hk := Merge.updated_keys hpu
    have hstep : a.call (.update u.d q u.persist u.kw) = a.put pl (c.updated u.d u.persist u.kw) := by
      unfold View.call
      show (match a.placeOf q with
        | none => a
        | some pl => match a.ownAt pl with
          | .ok (some c) => a.put pl ((CMOp.update u.d q u.persist u.kw).onConf a.fs c)
          | _ => a : View V) = _
      rw [hpl]
      simp only
      rw [how]
      simp only [CMOp.onConf]
      rw [kUpdate_updated]
    obtain ⟨g1, g2⟩ := own_put hpl (c.updated u.d u.persist u.kw)
    obtain ⟨c', h1, h2, h3, h4, h5⟩ := ih g1 g2 (fun v hv =>
      ⟨(hu v (List.mem_cons_of_mem _ hv)).1.mono hk, (hu v (List.mem_cons_of_mem _ hv)).2⟩)
    have happ : (c.updated u.d u.persist u.kw).applied = c.applied := by rw [hper, Merge.updated_applied]
    have hshow : (confUpdates ((u :: us).map (fun u => (q, u)))).foldl View.call a =
        (confUpdates (us.map (fun u => (q, u)))).foldl View.call (a.call (.update u.d q u.persist u.kw)) := rfl
    refine ⟨c', h1.trans (Merge.updated_file _ _ _ _), h2.trans hk, fun x => ?_, h4.trans happ, ?_⟩
    · rw [h3, Merge.updated_get? he hpu, ← Option.or_assoc]
      rfl
    · rw [hshow, hstep, h5, if_neg (List.cons_ne_nil u us)]
      by_cases hn : us = []
      · rw [if_pos hn]
        subst hn
        congr 1
        exact (CMM.Conf.ext' (Dict.ext_of_keys_get? h2 (fun x => by rw [h3]; rfl)) h4 h1).symm
      · rw [if_neg hn, View.put_put]

/-- What there is to see after updates of several configs only depends on the last words. -/
theorem updates_view [BEq V] (he : EqIsSame V) {rn : String} {us us' : List (Option (List String) × UpdArgs V)} {a : View V}
    (hc : OwnCalls rn (confUpdates us)) (hc' : OwnCalls rn (confUpdates us'))
    (hu : ∀ e ∈ us, ∃ pl c, a.placeOf e.1 = some pl ∧ a.ownAt pl = .ok (some c) ∧ Proper c e.2 ∧ e.2.persist = false)
    (hu' : ∀ e ∈ us', ∃ pl c, a.placeOf e.1 = some pl ∧ a.ownAt pl = .ok (some c) ∧ Proper c e.2 ∧ e.2.persist = false)
    (hm : ∀ q, (∃ u, (q, u) ∈ us) ↔ ∃ u, (q, u) ∈ us') (hl : ∀ q x, lastWord (updatesOf q us) x = lastWord (updatesOf q us') x) :
    (confUpdates us).foldl View.call a = (confUpdates us').foldl View.call a := by
  have empty : ∀ {us : List (Option (List String) × UpdArgs V)} {q}, updatesOf q us = [] ↔ ¬ ∃ u, (q, u) ∈ us := by
    intro us q
    unfold updatesOf
    rw [List.map_eq_nil_iff, List.filter_eq_nil_iff]
    constructor
    · rintro h ⟨u, hu⟩
      exact h _ hu (by simp)
    · rintro h ⟨q', u⟩ hu hq
      simp only [decide_eq_true_eq] at hq
      subst hq
      exact h ⟨u, hu⟩
  have mem : ∀ {us : List (Option (List String) × UpdArgs V)} {q u}, u ∈ updatesOf q us → (q, u) ∈ us := by
    intro us q u h
    obtain ⟨e, he, rfl⟩ := List.mem_map.1 h
    obtain ⟨h1, h2⟩ := List.mem_filter.1 he
    simp only [decide_eq_true_eq] at h2
    subst h2
    exact h1
  have key : ∀ q, (callsFor q (confUpdates us)).foldl View.call a = (callsFor q (confUpdates us')).foldl View.call a := by
    intro q
    rw [callsFor_updates, callsFor_updates]
    by_cases hq : ∃ u, (q, u) ∈ us
    · have hq' := (hm q).1 hq
      obtain ⟨u0, hu0⟩ := hq
      obtain ⟨pl, c, h1, h2, -⟩ := hu _ hu0
      have same : ∀ {us : List (Option (List String) × UpdArgs V)},
          (∀ e ∈ us, ∃ pl c, a.placeOf e.1 = some pl ∧ a.ownAt pl = .ok (some c) ∧ Proper c e.2 ∧ e.2.persist = false) →
          ∀ u ∈ updatesOf q us, Proper c u ∧ u.persist = false := by
        intro us hu u hm
        obtain ⟨pl', c', g1, g2, g3⟩ := hu _ (mem hm)
        simp only at h1 g1
        rw [h1] at g1
        cases g1
        rw [h2] at g2
        cases g2
        exact g3
      obtain ⟨c1, a1, a2, a3, a4, a5⟩ := updates_one he (updatesOf q us) h1 h2 (same hu)
      obtain ⟨c2, b1, b2, b3, b4, b5⟩ := updates_one he (updatesOf q us') h1 h2 (same hu')
      rw [if_neg (fun h => empty.1 h ⟨u0, hu0⟩)] at a5
      rw [if_neg (fun h => empty.1 h hq')] at b5
      rw [a5, b5]
      congr 1
      exact CMM.Conf.ext' (Dict.ext_of_keys_get? (a2.trans b2.symm) (fun x => by rw [a3, b3, hl])) (a4.trans b4.symm) (a1.trans b1.symm)
    · rw [empty.2 hq, empty.2 (fun h => hq ((hm q).2 h))]
  have hslot : ((confUpdates us).foldl View.call a).slot = ((confUpdates us').foldl View.call a).slot := by
    funext p
    rw [(calls_at hc (some p) a).2.1 p rfl, (calls_at hc' (some p) a).2.1 p rfl, key]
  have hloc : ((confUpdates us).foldl View.call a).localConf = ((confUpdates us').foldl View.call a).localConf := by
    rw [(calls_at hc none a).2.2 rfl, (calls_at hc' none a).2.2 rfl, key]
  have hfs := (calls_fs (confUpdates us) a).trans (calls_fs (confUpdates us') a).symm
  have hrn := (calls_rootName (confUpdates us) a).trans (calls_rootName (confUpdates us') a).symm
  generalize (confUpdates us).foldl View.call a = x at *
  generalize (confUpdates us').foldl View.call a = y at *
  cases x
  cases y
  simp_all

/-- Where the same is seen, all calls answer the same. -/
theorem answers_same [BEq V] {s : HS V} {t : CM V} (hm : Matched s t) {l l' : List (CMOp V)} (h1 : OwnCalls s.rootName l)
    (h2 : OwnCalls s.rootName l') (hv : l.foldl View.call t.view.clean = l'.foldl View.call t.view.clean) {later : List (CMOp V)}
    (ha : AllAsked (l.foldl HS.step s) later) : treeAnswers (CM.afterCalls t l) later = treeAnswers (CM.afterCalls t l') later := by
  obtain ⟨a1, v1⟩ := afterCalls_view hm h1
  obtain ⟨a2, v2⟩ := afterCalls_view hm h2
  have m1 := Matched.all hm a1
  have m2 := Matched.all hm a2
  have m : Matched (l.foldl HS.step s) (CM.afterCalls t l') := ⟨⟨m1.linked.fine, by rw [m1.linked.view, v1, v2, hv]⟩, m2.solid, m2.own⟩
  rw [← Matched.answers m1 ha, ← Matched.answers m ha]

/-! ## C101 -/

/-- C101 for calls on any configs, those of items, of sections and the local one, in any state of the config manager reached by calls:
after two series of updates, refreshes and pops, in which the calls for each config are the same and in the same order, all later calls
answer the same, of whatever kind and however many they are.  So only what is said to one config depends on the order.  (Missing: the
runner's objects; lookups among these calls, which write what is inherited into the item.  As in C114, paths not made of attribute names,
and no resets with creation of sections without config later.) -/
theorem C101_calls_partial [BEq V] {fs : Files V} {rn : String} {s0 : HS V} (hl : HS.load fs rn = .ok s0) {t0 : CM V}
    (ht : CM.load fs rn = .ok t0) (before : List (CMOp V)) (hb : AllAsked s0 before) (l l' : List (CMOp V))
    (h1 : OwnCalls (before.foldl HS.step s0).rootName l) (h2 : OwnCalls (before.foldl HS.step s0).rootName l')
    (hsame : ∀ q, callsFor q l = callsFor q l') (later : List (CMOp V)) (ha : AllAsked (l.foldl HS.step (before.foldl HS.step s0)) later) :
    treeAnswers (CM.afterCalls (CM.afterCalls t0 before) l) later = treeAnswers (CM.afterCalls (CM.afterCalls t0 before) l') later := by
  have hm := Matched.all (load_matched hl ht) hb
  exact answers_same hm h1 h2 (same_view h1 h2 hsame _) ha

/-- C101 for updates of any configs, those of items, of sections and the local one, in any state of the config manager reached by calls:
after two series of updates of known keys that are not persistent, in any order, in which the last word about each key of each config is
the same, all later calls answer the same, of whatever kind and however many they are.  (Values that are equal have to be the same; both
series are about the same configs, as an update reads the file, whatever it says.  Missing: persistent updates, for which the values on
record differ, `C101_recorded_violated`; the runner's objects.) -/
theorem C101_configs_partial [BEq V] (he : EqIsSame V) {fs : Files V} {rn : String} {s0 : HS V} (hl : HS.load fs rn = .ok s0) {t0 : CM V}
    (ht : CM.load fs rn = .ok t0) (before : List (CMOp V)) (hb : AllAsked s0 before)
    (us us' : List (Option (List String) × UpdArgs V))
    (hu : ∀ e ∈ us, ∃ c, ConfigThere (before.foldl HS.step s0) e.1 c ∧ Proper c e.2 ∧ e.2.persist = false)
    (hu' : ∀ e ∈ us', ∃ c, ConfigThere (before.foldl HS.step s0) e.1 c ∧ Proper c e.2 ∧ e.2.persist = false)
    (hsame : ∀ q, (∃ u, (q, u) ∈ us) ↔ ∃ u, (q, u) ∈ us')
    (hlast : ∀ q x, lastWord (updatesOf q us) x = lastWord (updatesOf q us') x)
    (later : List (CMOp V)) (ha : AllAsked ((confUpdates us).foldl HS.step (before.foldl HS.step s0)) later) :
    treeAnswers (CM.afterCalls (CM.afterCalls t0 before) (confUpdates us)) later =
      treeAnswers (CM.afterCalls (CM.afterCalls t0 before) (confUpdates us')) later := by
  have hm := Matched.all (load_matched hl ht) hb
  generalize before.foldl HS.step s0 = s at *
  generalize CM.afterCalls t0 before = t at *
  have own : ∀ {us : List (Option (List String) × UpdArgs V)}, (∀ e ∈ us, ∃ c, ConfigThere s e.1 c ∧ Proper c e.2 ∧ e.2.persist = false) →
      OwnCalls s.rootName (confUpdates us) := by
    intro us hu o ho
    obtain ⟨e, hme, rfl⟩ := List.mem_map.1 ho
    obtain ⟨c, ⟨pl, h1, -⟩, -⟩ := hu e hme
    obtain ⟨q, u⟩ := e
    refine ⟨q, rfl, ?_, ?_⟩
    · cases h1 with
      | item hp _ => exact hp
      | sect hp _ _ => exact hp
      | loc => trivial
    · rintro rfl
      exact HS.Target.ne_nil hm.linked.fine.inv h1 rfl
  have there : ∀ {us : List (Option (List String) × UpdArgs V)}, (∀ e ∈ us, ∃ c, ConfigThere s e.1 c ∧ Proper c e.2 ∧ e.2.persist = false) →
      ∀ e ∈ us, ∃ pl c, t.view.clean.placeOf e.1 = some pl ∧ t.view.clean.ownAt pl = .ok (some c) ∧ Proper c e.2 ∧ e.2.persist = false := by
    intro us hu e hme
    obtain ⟨c, ⟨pl, h1, h2⟩, h3⟩ := hu e hme
    exact ⟨pl, c, CM.place_of_target (hm.linked.target h1), by rw [← hm.linked.view]; exact h2, h3⟩
  exact answers_same hm (own hu) (own hu') (updates_view he (own hu) (own hu') (there hu) (there hu') hsame hlast) ha

/-- C101: what a call for a config that is there answers depends only on the calls for the same config before it; those for others, for
the sections around it and for the items in it, can be left out. -/
theorem C101_own_calls_partial [BEq V] {fs : Files V} {rn : String} {s0 : HS V} (hl : HS.load fs rn = .ok s0) {t0 : CM V}
    (ht : CM.load fs rn = .ok t0) (before : List (CMOp V)) (hb : AllAsked s0 before) (l : List (CMOp V))
    (h1 : OwnCalls (before.foldl HS.step s0).rootName l) (o : CMOp V) (q : Option (List String)) (hq : callFor o = some q) {pl : Place}
    (hp : (before.foldl HS.step s0).Target q pl) :
    (CM.afterCalls (CM.afterCalls t0 before) l).answer o = (CM.afterCalls (CM.afterCalls t0 before) (callsFor q l)).answer o := by
  have hm := Matched.all (load_matched hl ht) hb
  generalize before.foldl HS.step s0 = s at *
  generalize CM.afterCalls t0 before = t at *
  have hfew : OwnCalls s.rootName (callsFor q l) := fun o ho => h1 o (List.mem_filter.1 ho).1
  obtain ⟨a1, v1⟩ := afterCalls_view hm h1
  obtain ⟨a2, v2⟩ := afterCalls_view hm hfew
  have m1 := Matched.all hm a1
  have m2 := Matched.all hm a2
  obtain ⟨o1, o2, o3⟩ := calls_at h1 q t.view.clean
  rw [← v1, ← v2] at o1 o2 o3
  have htt := hm.linked.target hp
  have hc : CleanArg t.rootName q ∧ q ≠ some [] := by
    cases htt with
    | item hcp _ hn => exact ⟨hcp, fun e => hn (Option.some.inj e)⟩
    | sect hcp hn _ => exact ⟨hcp, fun e => hn (Option.some.inj e)⟩
    | loc => exact ⟨trivial, fun e => nomatch e⟩
  have key : ∀ {l : List (CMOp V)}, (CM.afterCalls t l).view.clean = l.foldl View.call t.view.clean →
      (CM.afterCalls t l).Target q pl ∧ (CM.afterCalls t l).view.clean.placeOf q = some pl ∧
      (CM.afterCalls t l).view.answer o pl = (CM.afterCalls t l).view.clean.answer o pl := by
    intro l hv
    have hpo : (CM.afterCalls t l).view.clean.placeOf q = some pl := by rw [hv, View.calls_placeOf, CM.place_of_target htt]
    have hrn : (CM.afterCalls t l).rootName = t.rootName := by
      have := congrArg View.rootName hv
      rw [calls_rootName] at this
      exact this
    have htg := CM.target_of_place (by rw [hrn]; exact hc.1) hc.2 hpo
    refine ⟨htg, hpo, ?_⟩
    unfold View.answer
    rw [View.clean_ownAt (a := (CM.afterCalls t l).view) htg.clean]
    rfl
  obtain ⟨t1, -, e1⟩ := key v1
  obtain ⟨t2, p2, e2⟩ := key v2
  rw [callFor_path] at hq
  rw [CM.answer_own hq t1, CM.answer_own hq t2, e1, e2]
  unfold View.answer
  rw [View.same_own o1 o2 o3 p2, o1]

/-! ## Non-vacuity -/

def wordX (v : Nat) : UpdArgs Nat := ⟨none, false, Dict.empty.set "x" v⟩

/-- Updates of an item, of a section with config and of the item in it; the last words, in another order. -/
def manyUpdates : List (Option (List String) × UpdArgs Nat) :=
  [(some ["a"], wordX 2), (some ["sub"], wordX 3), (some ["sub", "b"], wordX 4), (some ["sub"], wordX 5), (some ["a"], wordX 6)]

def lastUpdates : List (Option (List String) × UpdArgs Nat) :=
  [(some ["sub", "b"], wordX 4), (some ["sub"], wordX 5), (some ["a"], wordX 6)]

theorem wordX_proper {c : Conf Nat} (h : (c.values.get? "x").isSome = true) (v : Nat) : Proper c (wordX v) ∧ (wordX v).persist = false := by
  refine ⟨⟨fun y w hy => ?_, fun y hy => ?_⟩, rfl⟩
  · by_cases hx : y = "x"
    · exact hx ▸ h
    · have : (wordX v).says y = none := by
        show ((Dict.empty.set "x" v : Dict String Nat).get? y).or none = none
        rw [Option.or_none, Dict.get?_eq_none_iff]
        intro hm
        have hk : (Dict.empty.set "x" v : Dict String Nat).keys = ["x"] := rfl
        rw [hk, List.mem_singleton] at hm
        exact hx hm
      rw [this] at hy
      cases hy
  · have hk : (wordX v).kw.keys = ["x"] := rfl
    rw [hk, List.mem_singleton] at hy
    subst hy
    decide

theorem loaded_there : (∃ c, ConfigThere loadedObjects (some ["a"]) c ∧ (c.values.get? "x").isSome = true) ∧
    (∃ c, ConfigThere loadedObjects (some ["sub"]) c ∧ (c.values.get? "x").isSome = true) ∧
    (∃ c, ConfigThere loadedObjects (some ["sub", "b"]) c ∧ (c.values.get? "x").isSome = true) :=
  ⟨⟨_, ⟨.item ["a"], .item (by decide +kernel) rfl, rfl⟩, rfl⟩,
    ⟨_, ⟨.cfg ["sub"], .sect (by decide +kernel) (by decide) rfl, rfl⟩, rfl⟩,
    ⟨_, ⟨.item ["sub", "b"], .item (by decide +kernel) rfl, rfl⟩, rfl⟩⟩

/-- The premises of `C101_configs_partial`. -/
example : EqIsSame Nat ∧ (∃ t, CM.load objectsFiles "proj" = .ok t) ∧ HS.load objectsFiles "proj" = .ok loadedObjects ∧
    (∀ e ∈ manyUpdates ++ lastUpdates, ∃ c, ConfigThere loadedObjects e.1 c ∧ Proper c e.2 ∧ e.2.persist = false) ∧
    (∀ q, (∃ u, (q, u) ∈ manyUpdates) ↔ ∃ u, (q, u) ∈ lastUpdates) ∧
    AllAsked ((confUpdates manyUpdates).foldl HS.step loadedObjects) [.get ["a"], .get ["sub", "b"], .pop "x" (some ["sub"])] := by
  obtain ⟨⟨c1, g1, x1⟩, ⟨c2, g2, x2⟩, ⟨c3, g3, x3⟩⟩ := loaded_there
  refine ⟨(fun a b h => by simpa using h), ⟨_, rfl⟩, rfl, ?_, ?_, ?_⟩
  · intro e he
    simp only [manyUpdates, lastUpdates, List.cons_append, List.nil_append, List.mem_cons, List.not_mem_nil, or_false] at he
    rcases he with rfl | rfl | rfl | rfl | rfl | rfl | rfl | rfl
    · exact ⟨c1, g1, wordX_proper x1 _⟩
    · exact ⟨c2, g2, wordX_proper x2 _⟩
    · exact ⟨c3, g3, wordX_proper x3 _⟩
    · exact ⟨c2, g2, wordX_proper x2 _⟩
    · exact ⟨c1, g1, wordX_proper x1 _⟩
    · exact ⟨c3, g3, wordX_proper x3 _⟩
    · exact ⟨c2, g2, wordX_proper x2 _⟩
    · exact ⟨c1, g1, wordX_proper x1 _⟩
  · intro q
    have h : ∀ l : List (Option (List String) × UpdArgs Nat), (∃ u, (q, u) ∈ l) ↔ q ∈ l.map Prod.fst := by
      intro l
      rw [List.mem_map]
      exact ⟨fun ⟨u, hu⟩ => ⟨_, hu, rfl⟩, fun ⟨⟨q', u⟩, hu, e⟩ => ⟨u, by cases e; exact hu⟩⟩
    rw [h, h]
    simp only [manyUpdates, lastUpdates, List.map_cons, List.map_nil, List.mem_cons, List.not_mem_nil, or_false]
    constructor
    · rintro (rfl | rfl | rfl | rfl | rfl) <;> simp
    · rintro (rfl | rfl | rfl) <;> simp
  · refine ⟨⟨?_, ?_⟩, ⟨?_, ?_⟩, ⟨?_, ?_⟩, trivial⟩ <;>
      first | decide +kernel | (show CleanPath _ ["sub"]; decide +kernel) | simp

example (q : Option (List String)) (x : String) : lastWord (updatesOf q manyUpdates) x = lastWord (updatesOf q lastUpdates) x := by
  have word : ∀ v w : Nat, ((wordX v).says x).or ((wordX w).says x) = (wordX v).says x := by
    intro v w
    by_cases hx : x = "x"
    · subst hx; rfl
    · have none_of : ∀ v, (wordX v).says x = none := by
        intro v
        show ((Dict.empty.set "x" v : Dict String Nat).get? x).or none = none
        rw [Option.or_none, Dict.get?_eq_none_iff]
        intro hm
        have hk : (Dict.empty.set "x" v : Dict String Nat).keys = ["x"] := rfl
        rw [hk, List.mem_singleton] at hm
        exact hx hm
      rw [none_of, none_of]; rfl
  by_cases h1 : q = some ["a"]
  · subst h1; exact word 6 2
  · by_cases h2 : q = some ["sub"]
    · subst h2; exact word 5 3
    · have e : updatesOf q manyUpdates = updatesOf q lastUpdates := by
        unfold updatesOf manyUpdates lastUpdates
        simp [List.filter_cons, Ne.symm h1, Ne.symm h2]
      rw [e]

/-- The premises of `C101_calls_partial` and `C101_own_calls_partial`: calls for several configs, in two orders. -/
example : OwnCalls "proj" [.update none (some ["a"]) true (Dict.empty.set "x" 5), .pop "x" (some ["sub"]), .refresh ["a"],
      .update none none true (Dict.empty.set "x" 5)] ∧
    (∀ q, callsFor q [.update none (some ["a"]) true (Dict.empty.set "x" 5), .pop "x" (some ["sub"]), .refresh ["a"]] =
      callsFor q [.pop "x" (some ["sub"]), .update none (some ["a"]) true (Dict.empty.set "x" 5), .refresh ["a"]]) := by
  constructor
  · intro o ho
    simp only [List.mem_cons, List.not_mem_nil, or_false] at ho
    rcases ho with rfl | rfl | rfl | rfl
    · exact ⟨_, rfl, (by decide +kernel : CleanPath "proj" ["a"]), by simp⟩
    · exact ⟨_, rfl, (by decide +kernel : CleanPath "proj" ["sub"]), by simp⟩
    · exact ⟨_, rfl, (by decide +kernel : CleanPath "proj" ["a"]), by simp⟩
    · exact ⟨_, rfl, trivial, by simp⟩
  · intro q
    unfold callsFor
    by_cases h : q = some ["sub"]
    · subst h; simp [callFor, List.filter_cons]
    · simp [callFor, List.filter_cons, Ne.symm h]

end Verif.Props

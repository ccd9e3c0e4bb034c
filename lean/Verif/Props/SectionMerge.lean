import Verif.Lemmas.SectionMerge
import Verif.Props.Merge
import Verif.Props.SectionUpdate

/-
Property theorems about the order and the grouping of updates of sections: C101.
-/

namespace Verif.Props
open Verif.Py Verif.Model

variable {V : Type}

/-! ### Lemmas -/

namespace SectionMerge

theorem noClash {c : Conf V} {u : UpdArgs V} (h : Proper c u) : NoClash u.kw := h.free

theorem changes_eq [BEq V] (c : Conf V) (d : Option (Dict String V)) {kw : Dict String V} (h : NoClash kw) :
    Merge.changes c d kw = c.wouldUpdate d kw := by
  unfold Merge.changes
  rw [determine_eq c d h, h.update]
  cases c.wouldUpdate d kw <;> rfl

/-- The config of a section after an update, and nothing else is changed. -/
theorem update_places [BEq V] {s : CM V} {p : List String} {c : Conf V} (hp : PlainPath s.rootName p)
    {attrs map : List (String × Node V)} (hw : s.walk p = .ok (.sect (some c) attrs map)) (d : Option (Dict String V)) (persist : Bool)
    {kw : Dict String V} (hk : NoClash kw) :
    (CMM.update d (some p) persist kw s).2 = s.modifyAt p (fun _ => .sect (some (c.updated d persist kw)) attrs map) := by
  rw [update_section ⟨hp, attrs, map, hw⟩ d persist hk, Merge.updated_eq, changes_eq c d hk]
  obtain ⟨h1, h2, _, _⟩ := Node.modifyAt_const (a := .other) (by simp) p
    (show s.root.walk managerReserved s.rootName p = .ok (.sect (some c) attrs map) from hw)
  cases c.wouldUpdate d kw with
  | true =>
    rw [if_pos rfl, if_pos rfl]
    show CM.modifyAt s p _ = CM.modifyAt s p _
    unfold CM.modifyAt
    rw [h1]
    rfl
  | false =>
    rw [if_neg (by simp), if_neg (by simp)]
    show s = CM.modifyAt s p _
    unfold CM.modifyAt
    rw [h2]

theorem walk_placed {s : CM V} {p : List String} {c : Conf V} {attrs map : List (String × Node V)}
    (hw : s.walk p = .ok (.sect (some c) attrs map)) (c' : Conf V) :
    (s.modifyAt p (fun _ => .sect (some c') attrs map)).walk p = .ok (.sect (some c') attrs map) :=
  (Node.modifyAt_const (a := .sect (some c') attrs map) (by simp) p
    (show s.root.walk managerReserved s.rootName p = .ok (.sect (some c) attrs map) from hw)).2.2.1

theorem placed_placed {s : CM V} {p : List String} {c : Conf V} {attrs map : List (String × Node V)}
    (hw : s.walk p = .ok (.sect (some c) attrs map)) (c' c'' : Conf V) :
    (s.modifyAt p (fun _ => .sect (some c') attrs map)).modifyAt p (fun _ => .sect (some c'') attrs map) =
      s.modifyAt p (fun _ => .sect (some c'') attrs map) := by
  unfold CM.modifyAt
  rw [(Node.modifyAt_const (a := .sect (some c') attrs map) (by simp) p
    (show s.root.walk managerReserved s.rootName p = .ok (.sect (some c) attrs map) from hw)).2.2.2]

theorem placed_self {s : CM V} {p : List String} {c : Conf V} {attrs map : List (String × Node V)}
    (hw : s.walk p = .ok (.sect (some c) attrs map)) : s.modifyAt p (fun _ => .sect (some c) attrs map) = s := by
  unfold CM.modifyAt
  rw [(Node.modifyAt_const (a := .other) (by simp) p
    (show s.root.walk managerReserved s.rootName p = .ok (.sect (some c) attrs map) from hw)).2.1]

/-- What is shown at paths after a section has got another config. -/
theorem slot_placed {s : CM V} {p : List String} {c : Conf V} (hp : PlainPath s.rootName p) {attrs map : List (String × Node V)}
    (hw : s.walk p = .ok (.sect (some c) attrs map)) (c' : Conf V) {q : List String} (hq : PlainPath s.rootName q) :
    (s.modifyAt p (fun _ => .sect (some c') attrs map)).view.slot q = if q = p then .sect (some c') else s.view.slot q := by
  have h1 := (Node.modifyAt_const (a := .other) (by simp) p
    (show s.root.walk managerReserved s.rootName p = .ok (.sect (some c) attrs map) from hw)).1 (Node.mapConf fun _ => c')
  show Node.slot managerReserved s.rootName (s.root.modifyAt managerReserved s.rootName p (fun _ => .sect (some c') attrs map)) q = _
  rw [show (fun _ : Node V => Node.sect (some c') attrs map) =
    (fun _ => Node.mapConf (fun _ => c') (.sect (some c) attrs map)) from rfl, ← h1,
    Node.slot_modifyAt_mapConf_plain _ p _ _ _ _ hp hq]
  have hs : Node.slot managerReserved s.rootName s.root p = .sect (some c) := by
    show Node.slotOf (s.walk p) = _
    rw [hw]
    rfl
  rw [hs]
  rfl

/-- What a series of updates of a section leaves: the section has another config, and everything else is as it was. -/
structure Left (p : List String) (c : Conf V) (attrs map : List (String × Node V)) (s : RS V) (us : List (UpdArgs V)) (t : RS V)
    (c' : Conf V) : Prop where
  state : t = { s with cm := s.cm.modifyAt p (fun _ => .sect (some c') attrs map) }
  file : c'.file = c.file
  keys : c'.values.keys = c.values.keys
  values : ∀ x, c'.values.get? x = (lastWord us x).or (c.values.get? x)
  applied : (∀ u ∈ us, u.persist = false) → c'.applied = c.applied

theorem left [BEq V] (he : EqIsSame V) {p : List String} {attrs map : List (String × Node V)} (us : List (UpdArgs V)) :
    ∀ {s : RS V} {c : Conf V}, PlainPath s.cm.rootName p → s.cm.walk p = .ok (.sect (some c) attrs map) → s.objs.get? p = none →
    (∀ u ∈ us, Proper c u) → ∃ c', Left p c attrs map s us (after s (updateCalls p us)) c' := by
  induction us with
  | nil =>
    intro s c hp hw hn _
    exact ⟨c, by rw [placed_self hw]; rfl, rfl, rfl, fun _ => rfl, fun _ => rfl⟩
  | cons u us ih =>
    intro s c hp hw hn hu
    have hpu := hu u List.mem_cons_self
    have hstep : s.step (.update u.d (some p) u.persist u.kw) =
        { s with cm := s.cm.modifyAt p (fun _ => .sect (some (c.updated u.d u.persist u.kw)) attrs map) } := by
      show (RM.update u.d (some p) u.persist u.kw s).2 = _
      rw [runner_update_section hn, update_places hp hw _ _ (noClash hpu)]
    have hk1 := Merge.updated_keys hpu
    obtain ⟨c', h⟩ := ih (s := s.step (.update u.d (some p) u.persist u.kw)) (c := c.updated u.d u.persist u.kw)
      (by rw [hstep]; exact hp) (by rw [hstep]; exact walk_placed hw _) (by rw [hstep]; exact hn)
      (fun v hv => (hu v (List.mem_cons_of_mem _ hv)).mono hk1)
    refine ⟨c', ?_, h.file.trans (Merge.updated_file _ _ _ _), h.keys.trans hk1, fun x => ?_, fun hper => ?_⟩
    · show after (s.step (.update u.d (some p) u.persist u.kw)) (updateCalls p us) = _
      rw [h.state, hstep]
      simp only
      rw [placed_placed hw]
    · rw [h.values, Merge.updated_get? he hpu, ← Option.or_assoc]
      rfl
    · rw [h.applied (fun v hv => hper v (List.mem_cons_of_mem _ hv)), hper u List.mem_cons_self, Merge.updated_applied]

theorem reachable_after [BEq V] {s : RS V} (hs : s.Reachable) {p : List String} (hne : p ≠ []) (us : List (UpdArgs V)) :
    (after s (updateCalls p us)).Reachable := by
  obtain ⟨s0, ops0, h1, h2, rfl⟩ := hs
  refine ⟨s0, ops0 ++ updateCalls p us, h1, fun op hop => ?_, by unfold after; rw [List.foldl_append]⟩
  rcases List.mem_append.1 hop with hop | hop
  · exact h2 op hop
  · obtain ⟨u, _, rfl⟩ := List.mem_map.1 hop
    exact hne

theorem funcAndConfig_eq {u : RS V} {q : List String} {k : Callable V} (hu : u.reg.lookup q = .ok (.item k)) :
    RM.funcAndConfig q u = (match valuesGiven u q with
      | .error e => .error e
      | .ok none => .error .notLoaded
      | .ok (some d) => match k.sig.argNames false with
        | .error e => .error e
        | .ok names => .ok (.item k, d.filterKeys (fun x => decide (x ∈ names))), { u with cm := (CMM.get q u.cm).2 }) := by
  have hc : RM.getConfig q u = (match (CMM.get q u.cm).1 with
      | .error e => .error e
      | .ok none => .error .notLoaded
      | .ok (some c) => .ok c, { u with cm := (CMM.get q u.cm).2 }) := by
    cases h : CMM.get q u.cm with
    | mk r cm' =>
      have hl : RM.liftC (CMM.get q) u = (r, { u with cm := cm' }) := by
        unfold RM.liftC
        rw [h]
      unfold RM.getConfig
      rw [M.bind_run, hl]
      cases r with
      | error e => rfl
      | ok c => cases c <;> rfl
  have hlk : RM.lookup q { u with cm := (CMM.get q u.cm).2 } = (.ok (.item k), { u with cm := (CMM.get q u.cm).2 }) := by
    show (u.reg.lookup q, _) = _
    rw [hu]
  unfold RM.funcAndConfig valuesGiven
  rw [M.bind_run, hc]
  cases h : (CMM.get q u.cm).1 with
  | error e => rfl
  | ok c =>
    cases c with
    | none => rfl
    | some c =>
      simp only [Option.map_some]
      rw [M.bind_ok hlk, M.bind_run, M.liftE_run, RM.forFunction]
      cases k.sig.argNames false <;> rfl

/-- Getting an item gives objects that are the same if the values of its configuration are. -/
theorem get_same {s t : RS V} {q : List String} {k : Callable V} (hs : s.reg.lookup q = .ok (.item k))
    (ht : t.reg.lookup q = .ok (.item k)) (ho : s.objs.get? q = t.objs.get? q) (hid : s.nextId = t.nextId)
    (hv : valuesGiven s q = valuesGiven t q) : (RM.get q s).1 = (RM.get q t).1 := by
  have hfc : ∃ r : Except PyErr (Reg V × Dict String V), ∃ s' t', RM.funcAndConfig q s = (r, s') ∧ RM.funcAndConfig q t = (r, t') ∧
      s'.nextId = s.nextId ∧ t'.nextId = t.nextId ∧ (∀ x, r = .ok x → x.1 = .item k) := by
    refine ⟨_, _, { t with cm := (CMM.get q t.cm).2 }, funcAndConfig_eq hs, by rw [hv]; exact funcAndConfig_eq ht, rfl, rfl, fun x h => ?_⟩
    split at h
    · cases h
    · cases h
    · split at h
      · cases h
      · cases h
        rfl
  obtain ⟨r, s', t', f1, f2, n1, n2, hr⟩ := hfc
  have hlk : ∀ {u : RS V}, u.reg.lookup q = .ok (.item k) → RM.lookup q u = (.ok (.item k), u) := by
    intro u hu
    show (u.reg.lookup q, u) = _
    rw [hu]
  have hgi : (RM.getItem q k s).1 = (RM.getItem q k t).1 := by
    have hfun : (RM.getOneFunc q s).1 = (RM.getOneFunc q t).1 := by
      unfold RM.getOneFunc
      rw [M.bind_ok (M.get_run s), M.bind_ok (M.get_run t), ho]
      cases t.objs.get? q with
      | some o => rfl
      | none =>
        simp only
        rw [M.bind_run, M.bind_run, f1, f2]
        cases r with
        | error e => rfl
        | ok x =>
          obtain ⟨rg, d⟩ := x
          cases hr _ rfl
          simp only
          rw [M.bind_ok (M.get_run s'), M.bind_ok (M.get_run t'), n1, n2, hid]
          rfl
    have hobj : (RM.getOneObj q s).1 = (RM.getOneObj q t).1 := by
      unfold RM.getOneObj
      rw [M.bind_ok (M.get_run s), M.bind_ok (M.get_run t), ho]
      cases t.objs.get? q with
      | some o => rfl
      | none =>
        simp only
        rw [M.bind_ok (hlk hs), M.bind_ok (hlk ht), M.bind_run, M.bind_run, f1, f2]
        cases r with
        | error e => rfl
        | ok x =>
          obtain ⟨rg, d⟩ := x
          cases hr _ rfl
          simp only
          rw [M.bind_ok (M.get_run s'), M.bind_ok (M.get_run t'), n1, n2, hid, M.bind_run, M.bind_run, M.liftE_run, M.liftE_run]
          cases RM.construct t.nextId k d <;> rfl
    unfold RM.getItem
    cases k.kind with
    | func => exact hfun
    | klass => exact hobj
    | specific => exact hobj
  rw [RM.get_item hs, RM.get_item ht, M.bind_run, M.bind_run]
  cases h1 : RM.getItem q k s with
  | mk r1 s1 =>
    cases h2 : RM.getItem q k t with
    | mk r2 s2 =>
      rw [h1, h2] at hgi
      simp only at hgi
      subst hgi
      cases r1 <;> rfl

/-- Items do not see which of two configs with the same values a section has. -/
theorem same_values {s : CM V} {p : List String} {c : Conf V} (hp : PlainPath s.rootName p) {attrs map : List (String × Node V)}
    (hw : s.walk p = .ok (.sect (some c) attrs map)) {c1 c2 : Conf V} (hv : c1.values = c2.values)
    (h1 : OwnFiles (s.modifyAt p (fun _ => .sect (some c1) attrs map)).view)
    (h2 : OwnFiles (s.modifyAt p (fun _ => .sect (some c2) attrs map)).view) {q : List String} (hq : IsItem s q) :
    match (CMM.get q (s.modifyAt p (fun _ => .sect (some c1) attrs map))).1,
      (CMM.get q (s.modifyAt p (fun _ => .sect (some c2) attrs map))).1 with
    | .ok (some a), .ok (some b) => a.values = b.values
    | .error e, .error e' => e = e'
    | _, _ => False := by
  have hqp : q ≠ p := by
    intro h
    have := hq.item
    rw [h] at this
    have hs : s.view.slot p = .sect (some c) := by
      show Node.slotOf (s.walk p) = _
      rw [hw]
      rfl
    rw [hs] at this
    cases this
  have hsl : ∀ c' : Conf V, (s.modifyAt p (fun _ => .sect (some c') attrs map)).view.slot q = s.view.slot q := fun c' => by
    rw [slot_placed hp hw c' hq.plain, if_neg hqp]
  have hit : ∀ c' : Conf V, IsItem (s.modifyAt p (fun _ => .sect (some c') attrs map)) q := fun c' =>
    ⟨hq.ne, hq.plain, by rw [hsl]; exact hq.item⟩
  have hown : ∀ c' : Conf V, (s.modifyAt p (fun _ => .sect (some c') attrs map)).view.own q = s.view.own q := fun c' => by
    unfold View.own
    rw [hsl]
    rfl
  cases ho : s.view.own q with
  | error e =>
    rw [(CMM.get_of_own_error (hit c1) ((hown c1).trans ho)).1, (CMM.get_of_own_error (hit c2) ((hown c2).trans ho)).1]
  | ok o =>
    rw [(CMM.get_of_own (hit c1) ((hown c1).trans ho)).1, (CMM.get_of_own (hit c2) ((hown c2).trans ho)).1]
    simp only
    have hf1 := h1.own (hit c1).plain ((hown c1).trans ho)
    unfold CMM.active
    split
    · rfl
    · unfold CMM.overridden
      rw [CMM.foldl_applyLevel_values _ _ (CMM.levels_otherFile h1 (hit c1) hf1),
        CMM.foldl_applyLevel_values _ _ (CMM.levels_otherFile h2 (hit c2) hf1)]
      congr 1
      rw [List.map_append, List.map_append]
      congr 1
      unfold View.levels
      rw [List.map_map, List.map_map]
      apply List.map_congr_left
      intro n _
      show CMM.levelValues (View.sectCfg _ (q.take n)) = CMM.levelValues (View.sectCfg _ (q.take n))
      have hpl : PlainPath s.rootName (q.take n) :=
        PlainPath.append_left (q := q.drop n) (by rw [List.take_append_drop]; exact hq.plain)
      unfold View.sectCfg
      rw [slot_placed hp hw c1 hpl, slot_placed hp hw c2 hpl]
      by_cases hn : q.take n = p
      · rw [if_pos hn, if_pos hn]
        exact hv
      · rw [if_neg hn, if_neg hn]

end SectionMerge

/-! ## C101 -/

/-- C101 for sections: if the updates are not persistent, nothing at all differs after two series of updates of known keys of a
section's config in which the last word about each key is the same.  (Values that are equal have to be the same.) -/
theorem C101_section_same_state_partial [BEq V] (he : EqIsSame V) (s : RS V) (hs : s.Reachable) (p : List String) (c : Conf V)
    (hp : ConfiguredSection s.cm p c) (hreg : ∀ k, s.reg.lookup p ≠ .ok (.item k)) (us us' : List (UpdArgs V))
    (hu : ∀ u ∈ us, Proper c u ∧ u.persist = false) (hu' : ∀ u ∈ us', Proper c u ∧ u.persist = false)
    (hl : ∀ x, lastWord us x = lastWord us' x) :
    after s (updateCalls p us) = after s (updateCalls p us') := by
  have hn : s.objs.get? p = none := by
    cases h : s.objs.get? p with
    | none => rfl
    | some o => exact absurd (hs.inv.reg p o h) (hreg _)
  obtain ⟨attrs, map, hw⟩ := hp.found
  obtain ⟨c1, h1⟩ := SectionMerge.left he us hp.plain hw hn (fun u hm => (hu u hm).1)
  obtain ⟨c2, h2⟩ := SectionMerge.left he us' hp.plain hw hn (fun u hm => (hu' u hm).1)
  have hcc : c1 = c2 := by
    apply CMM.Conf.ext'
    · exact Dict.ext_of_keys_get? (h1.keys.trans h2.keys.symm) (fun x => by rw [h1.values, h2.values, hl])
    · rw [h1.applied (fun u hm => (hu u hm).2), h2.applied (fun u hm => (hu' u hm).2)]
    · rw [h1.file, h2.file]
  rw [h1.state, h2.state, hcc]

/-- C101 for sections: after two series of updates of known keys of a section's config in which the last word about each key is the
same, persistent or not, the section has the same values, the items that were created stay as they were, and getting the configuration
of any item, or the item, gives the same (or raises the same). -/
theorem C101_section_partial [BEq V] (he : EqIsSame V) (s : RS V) (hs : s.Reachable) (p : List String) (hne : p ≠ []) (c : Conf V)
    (hp : ConfiguredSection s.cm p c) (hreg : ∀ k, s.reg.lookup p ≠ .ok (.item k)) (us us' : List (UpdArgs V))
    (hu : ∀ u ∈ us, Proper c u) (hu' : ∀ u ∈ us', Proper c u) (hl : ∀ x, lastWord us x = lastWord us' x) :
    (∃ c1 c2, ConfiguredSection (after s (updateCalls p us)).cm p c1 ∧ ConfiguredSection (after s (updateCalls p us')).cm p c2 ∧
      c1.values = c2.values ∧ ∀ x, c1.values.get? x = (lastWord us x).or (c.values.get? x)) ∧
    (∀ q, created (after s (updateCalls p us)) q = created s q) ∧
    ∀ q k, RunnerItem s q k →
      valuesGiven (after s (updateCalls p us)) q = valuesGiven (after s (updateCalls p us')) q ∧
      (RM.get q (after s (updateCalls p us))).1 = (RM.get q (after s (updateCalls p us'))).1 := by
  have hn : s.objs.get? p = none := by
    cases h : s.objs.get? p with
    | none => rfl
    | some o => exact absurd (hs.inv.reg p o h) (hreg _)
  obtain ⟨attrs, map, hw⟩ := hp.found
  obtain ⟨c1, h1⟩ := SectionMerge.left he us hp.plain hw hn hu
  obtain ⟨c2, h2⟩ := SectionMerge.left he us' hp.plain hw hn hu'
  have hv : c1.values = c2.values := Dict.ext_of_keys_get? (h1.keys.trans h2.keys.symm) (fun x => by rw [h1.values, h2.values, hl])
  have hr1 := (SectionMerge.reachable_after hs hne us).cm.good.ownFiles
  have hr2 := (SectionMerge.reachable_after hs hne us').cm.good.ownFiles
  rw [h1.state] at hr1 ⊢
  rw [h2.state] at hr2 ⊢
  refine ⟨⟨c1, c2, ⟨hp.plain, attrs, map, SectionMerge.walk_placed hw c1⟩, ⟨hp.plain, attrs, map, SectionMerge.walk_placed hw c2⟩, hv,
    h1.values⟩, fun _ => rfl, fun q k hq => ?_⟩
  have hsame := SectionMerge.same_values hp.plain hw hv hr1 hr2 hq.config.isItem
  have hvg : valuesGiven { s with cm := s.cm.modifyAt p (fun _ => .sect (some c1) attrs map) } q =
      valuesGiven { s with cm := s.cm.modifyAt p (fun _ => .sect (some c2) attrs map) } q := by
    unfold valuesGiven
    simp only
    split at hsame
    · next a b ha hb => rw [ha, hb]; simp only [Option.map_some]; rw [hsame]
    · next a b ha hb => rw [ha, hb]; simp only; rw [hsame]
    · exact hsame.elim
  exact ⟨hvg, SectionMerge.get_same hq.registered hq.registered rfl rfl hvg⟩

/-! ### Examples -/

/-- Two series of updates of the section of the demo project with the same last word, and its item afterwards. -/
def demoSectionUpdates : List (UpdArgs Nat) × List (UpdArgs Nat) :=
  ([⟨none, true, Dict.ofList [("b", 7)]⟩, ⟨some (Dict.ofList [("b", 8)]), false, Dict.empty⟩], [⟨none, false, Dict.ofList [("b", 8)]⟩])

theorem demoSectionUpdates_proper : ∀ u ∈ demoSectionUpdates.1 ++ demoSectionUpdates.2,
    Proper (Conf.ofFile (.sect ["main", "data"]) (Dict.ofList [("b", 3)])) u := by
  have key : ∀ x v w, (Dict.ofList [("b", w)] : Dict String Nat).get? x = some v →
      (((Conf.ofFile (.sect ["main", "data"]) (Dict.ofList [("b", 3)])).values.get? x).isSome = true) := by
    intro x v w h
    have := Dict.mem_keys_of_get? h
    rw [show (Dict.ofList [("b", w)]).keys = ["b"] from rfl, List.mem_singleton] at this
    subst this
    rfl
  intro u hu
  simp only [demoSectionUpdates, List.cons_append, List.nil_append, List.mem_cons, List.not_mem_nil, or_false] at hu
  rcases hu with rfl | rfl | rfl
  · exact ⟨fun x v h => key x v 7 (by simpa [UpdArgs.says, updateSays] using h), by decide⟩
  · exact ⟨fun x v h => key x v 8 (by simpa [UpdArgs.says, updateSays] using h), by decide⟩
  · exact ⟨fun x v h => key x v 8 (by simpa [UpdArgs.says, updateSays] using h), by decide⟩

/-- The hypotheses are met: the last word about `b` is 8 in both, and the item gets it. -/
example : (demoRunner demoFunc).Reachable ∧
    ConfiguredSection (demoRunner demoFunc).cm ["main", "data"] (Conf.ofFile (.sect ["main", "data"]) (Dict.ofList [("b", 3)])) ∧
    (∀ k, (demoRunner demoFunc).reg.lookup ["main", "data"] ≠ .ok (.item k)) ∧
    RunnerItem (demoRunner demoFunc) demoPath demoFunc ∧
    lastWord demoSectionUpdates.1 "b" = some 8 ∧ lastWord demoSectionUpdates.2 "b" = some 8 ∧
    gotBound "b" (RM.get demoPath (after (demoRunner demoFunc) (updateCalls ["main", "data"] demoSectionUpdates.1))).1 = some 8 ∧
    gotBound "b" (RM.get demoPath (after (demoRunner demoFunc) (updateCalls ["main", "data"] demoSectionUpdates.2))).1 = some 8 :=
  ⟨demoRunner_reachable _, ⟨by decide, _, _, rfl⟩, (by intro k h; cases h), demoRunner_item _, by decide, by decide, by decide +kernel,
    by decide +kernel⟩

/-- C101 does not hold for what is on record of a section either: a persistent update that says what is there already leaves no
record, one to another value and back does. -/
theorem C101_section_recorded_violated :
    let again : List (UpdArgs Nat) := [⟨none, true, Dict.ofList [("b", 7)]⟩, ⟨none, true, Dict.ofList [("b", 3)]⟩]
    let once_ : List (UpdArgs Nat) := [⟨none, true, Dict.ofList [("b", 3)]⟩]
    (∀ x, lastWord again x = lastWord once_ x) ∧
    (match (after (demoRunner demoFunc) (updateCalls ["main", "data"] again)).cm.walk ["main", "data"] with
      | .ok (.sect (some c) _ _) => c.applied.get? "b"
      | _ => none) = some 3 ∧
    (match (after (demoRunner demoFunc) (updateCalls ["main", "data"] once_)).cm.walk ["main", "data"] with
      | .ok (.sect (some c) _ _) => c.applied.get? "b"
      | _ => none) = none := by
  refine ⟨fun x => ?_, by decide +kernel, by decide +kernel⟩
  by_cases hx : x = "b"
  · subst hx; decide
  · have h : ∀ w : Nat, (Dict.ofList [("b", w)]).get? x = none := fun w => by
      cases h : (Dict.ofList [("b", w)]).get? x with
      | none => rfl
      | some v =>
        have := Dict.mem_keys_of_get? h
        rw [show (Dict.ofList [("b", w)]).keys = ["b"] from rfl, List.mem_singleton] at this
        exact absurd this hx
    simp [lastWord, UpdArgs.says, updateSays, h]

end Verif.Props

import Verif.Props.Runner
import Verif.Props.Config

/-
C74: an update of a section's configuration reaches the items in the section
(`pyfileconf/runner/models/runner.py:378-383`, `pyfileconf/config/models/manager.py:47-66, 114-158`).
-/

namespace Verif.Props
open Verif.Model Verif.Py

variable {V : Type}

/-- A section that has a config. -/
structure ConfiguredSection (s : CM V) (p : List String) (c : Conf V) : Prop where
  plain : PlainPath s.rootName p
  found : ∃ attrs map, s.walk p = .ok (.sect (some c) attrs map)

/-- No keyword has the name of a parameter of the functions that the keywords are passed on to. -/
def NoClash (kw : Dict String V) : Prop :=
  ∀ k ∈ kw.keys, k ∉ ["self", "config_", "section_path_str", "d_", "E", "pyfileconf_persist"]

theorem NoClash.determine {kw : Dict String V} (h : NoClash kw) : Conf.clash CMM.determineReserved kw = false := by
  unfold Conf.clash
  rw [List.any_eq_false]
  intro k hk
  have := h k hk
  simp only [CMM.determineReserved, List.mem_cons, decide_eq_true_eq] at this ⊢
  grind

theorem NoClash.update {kw : Dict String V} (h : NoClash kw) : Conf.clash Conf.updateReserved kw = false := by
  unfold Conf.clash
  rw [List.any_eq_false]
  intro k hk
  have := h k hk
  simp only [Conf.updateReserved, List.mem_cons, decide_eq_true_eq] at this ⊢
  grind

theorem ConfiguredSection.slot {s : CM V} {p : List String} {c : Conf V} (h : ConfiguredSection s p c) :
    s.view.slot p = .sect (some c) := by
  obtain ⟨attrs, map, hw⟩ := h.found
  show Node.slotOf (s.walk p) = _
  rw [hw]; rfl

theorem sectionValues_slot (s : CM V) (q : List String) :
    sectionValues s q = match s.view.slot q with
      | .sect (some c) => c.values
      | _ => Dict.empty := by
  unfold sectionValues
  show _ = match Node.slotOf (s.walk q) with
      | .sect (some c) => c.values
      | _ => Dict.empty
  cases s.walk q with
  | error e => rfl
  | ok n =>
    cases n with
    | sect cfg a m => cases cfg <;> rfl
    | _ => rfl

theorem given_update {c : Conf V} {d : Option (Dict String V)} {persist : Bool} {kw : Dict String V} {k : String} {v : V}
    (h : Given d kw k v) : (c.update d persist kw).values.get? k = some v := by
  rw [Conf.get?_update_values, ← Option.or_assoc, (given_iff d kw k v).1 h]; rfl

theorem determine_eq [BEq V] (c : Conf V) (d : Option (Dict String V)) {kw : Dict String V} (h : NoClash kw) :
    CMM.determineWouldUpdate c d kw = .ok (c.wouldUpdate d kw) := by
  unfold CMM.determineWouldUpdate
  rw [if_neg (by rw [h.determine]; simp)]
  refine congrArg Except.ok ?_
  unfold Conf.wouldUpdate
  cases d <;> rfl

/-- What an update of a section does. -/
theorem update_section [BEq V] {s : CM V} {p : List String} {c : Conf V} (hp : ConfiguredSection s p c)
    (d : Option (Dict String V)) (persist : Bool) {kw : Dict String V} (hk : NoClash kw) :
    CMM.update d (some p) persist kw s =
      if c.wouldUpdate d kw = true then
        (.ok (c.update d persist kw, true), s.modifyAt p (Node.mapConf fun c => c.update d persist kw))
      else (.ok (c, false), s) := by
  unfold CMM.update
  rw [M.bind_ok (show CMM.getProjectOrLocal (some p) s = _ from CMM.getFunc_sect hp.slot)]
  simp only
  rw [M.bind_run, M.liftE_run, determine_eq c d hk]
  simp only
  cases c.wouldUpdate d kw with
  | false => rfl
  | true =>
    simp only [if_true]
    rw [if_neg (by rw [hk.update]; simp)]
    rfl

/-- After the update the section shows the updated values, on every key that it had or, if anything changed, on every key. -/
theorem update_section_values [DecidableEq V] {s : CM V} {p : List String} {c : Conf V} (hp : ConfiguredSection s p c)
    {d : Option (Dict String V)} {persist : Bool} {kw : Dict String V} (hk : NoClash kw) {k : String} {v : V}
    (hv : Given d kw k v) (hin : k ∈ c.values.keys ∨ c.wouldUpdate d kw = true) :
    (sectionValues (CMM.update d (some p) persist kw s).2 p).get? k = some v := by
  rw [update_section hp d persist hk]
  split
  · rw [sectionValues_slot]
    show (match Node.slot managerReserved s.rootName (s.root.modifyAt managerReserved s.rootName p
      (Node.mapConf fun c => c.update d persist kw)) p with
      | .sect (some c) => c.values
      | _ => Dict.empty).get? k = _
    rw [Node.slot_modifyAt_mapConf_plain _ p _ _ _ _ hp.plain hp.plain, if_pos rfl,
      show Node.slot managerReserved s.rootName s.root p = _ from hp.slot]
    exact given_update hv
  · rename_i hw
    rcases hin with hin | hin
    · rw [sectionValues_slot, hp.slot]
      obtain ⟨w, hwv⟩ := Dict.get?_isSome_of_mem hin
      by_cases heq : w = v
      · rw [heq] at hwv; exact hwv
      · exact absurd ((Conf.wouldUpdate_iff c d kw).2 ⟨k, v, w, (given_iff d kw k v).1 hv, hwv, by simpa using heq⟩) hw
    · exact absurd hin hw

/-- Every other path shows what it showed. -/
theorem update_section_frame [BEq V] {s : CM V} {p : List String} {c : Conf V} (hp : ConfiguredSection s p c)
    (d : Option (Dict String V)) (persist : Bool) (kw : Dict String V) {q : List String} (hq : PlainPath s.rootName q)
    (hne : q ≠ p) : (CMM.update d (some p) persist kw s).2.view.slot q = s.view.slot q :=
  CMM.step_section_frame (op := .update d (some p) persist kw) ⟨hp.plain, _, hp.slot⟩ (.update d persist kw) hq hne

theorem update_section_rest [BEq V] {s : CM V} {p : List String} {c : Conf V} (hp : ConfiguredSection s p c)
    (d : Option (Dict String V)) (persist : Bool) (kw : Dict String V) :
    (CMM.update d (some p) persist kw s).2.localConf = s.localConf ∧
    (CMM.update d (some p) persist kw s).2.fs = s.fs ∧
    (CMM.update d (some p) persist kw s).2.rootName = s.rootName := by
  rcases CMM.step_section (op := .update d (some p) persist kw) ⟨hp.plain, _, hp.slot⟩ (.update d persist kw) with h | ⟨g, h⟩
  · rw [show (CMM.update d (some p) persist kw s).2 = s from h]; exact ⟨rfl, rfl, rfl⟩
  · rw [show (CMM.update d (some p) persist kw s).2 = _ from h]; exact ⟨rfl, rfl, rfl⟩

theorem lastDefining_split (k : String) (v : V) (before after : List (Dict String V)) (d : Dict String V)
    (hd : d.get? k = some v) (ha : ∀ e ∈ after, e.get? k = none) :
    lastDefining k (before ++ d :: after) = some v := by
  unfold lastDefining
  rw [List.reverse_append, List.findSome?_append, List.reverse_cons, List.findSome?_append]
  have : after.reverse.findSome? (fun d => d.get? k) = none := by
    rw [List.findSome?_eq_none_iff]
    intro e he
    exact ha e (List.mem_reverse.1 he)
  rw [this]
  simp [hd]

theorem lastDefining_range (k : String) (v : V) (f : Nat → Dict String V) (m r : Nat) (c l : Dict String V)
    (hm : (f m).get? k = some v) (ha : ∀ j, m < j → j < m + (r + 1) → (f j).get? k = none) (hl : l.get? k = none) :
    lastDefining k ([c] ++ (List.range (m + (r + 1))).map f ++ [l]) = some v := by
  rw [List.range_add, List.map_append, List.range_succ_eq_map]
  simp only [List.map_cons, Nat.add_zero, List.map_map]
  rw [← List.append_assoc, List.append_assoc, List.cons_append]
  refine lastDefining_split k v _ _ _ hm ?_
  intro e he
  have he := List.mem_append.1 he
  rw [List.mem_map] at he
  rcases he with ⟨j, hj, rfl⟩ | he
  · rw [List.mem_range] at hj
    exact ha (m + (j + 1)) (by omega) (by omega)
  · rw [List.mem_singleton] at he
    rw [he]; exact hl

/-! ## C74 -/

/-- C74 for the active configuration (missing: keys that the section's own config does not have, see `C74_new_key_violated`; items
whose own config is empty, C10): after an update of a section, every item in it has the updated value, unless a section between, or
the local config, defines the key. -/
theorem C74_active_partial [DecidableEq V] (s : CM V) (hs : s.Reachable) (p : List String) (hne : p ≠ []) (c : Conf V)
    (hp : ConfiguredSection s p c) (d : Option (Dict String V)) (persist : Bool) (kw : Dict String V) (hkw : NoClash kw)
    (k : String) (v : V) (hv : Given d kw k v) (hk : k ∈ c.values.keys ∨ c.wouldUpdate d kw = true)
    (x : String) (rest : List String) (hq : ConfigItem s (p ++ x :: rest)) (own : Conf V)
    (ho : ownConfig s (p ++ x :: rest) = .ok own) (hown : own.values ≠ Dict.empty)
    (hbetween : ∀ n, n < rest.length → (sectionValues s (p ++ x :: rest.take n)).get? k = none)
    (hlocal : s.localConf.values.get? k = none) :
    ∃ c', (CMM.get (p ++ x :: rest) (CMM.update d (some p) persist kw s).2).1 = .ok (some c') ∧
      c'.values.get? k = some v := by
  have hs' : (CMM.update d (some p) persist kw s).2.Reachable := hs.step (.update d (some p) persist kw) hne
  obtain ⟨r1, r2, r3⟩ := update_section_rest hp d persist kw
  have hframe : ∀ {q}, PlainPath s.rootName q → q ≠ p → (CMM.update d (some p) persist kw s).2.view.slot q = s.view.slot q :=
    fun hq hne => update_section_frame hp d persist kw hq hne
  have hqp : p ++ x :: rest ≠ p := by simp
  have hslot := hframe hq.plain hqp
  have hq' : ConfigItem (CMM.update d (some p) persist kw s).2 (p ++ x :: rest) :=
    .of_isItem ⟨hq.ne, by rw [r3]; exact hq.plain, by rw [hslot]; exact hq.isItem.item⟩
  have ho' : ownConfig (CMM.update d (some p) persist kw s).2 (p ++ x :: rest) = .ok own := by
    rw [ownConfig_eq hq']
    rw [ownConfig_eq hq] at ho
    rw [← ho]
    unfold View.own
    rw [hslot, show (CMM.update d (some p) persist kw s).2.view.fs = s.view.fs from r2]
  obtain ⟨c', h1, h2⟩ := C10_inheritance_order_partial _ hs' _ hq' own ho' hown
  refine ⟨c', h1, ?_⟩
  rw [h2, r1]
  unfold enclosingValues
  have hlen : (p ++ x :: rest).length = p.length + (rest.length + 1) := by simp
  rw [hlen]
  refine lastDefining_range k v _ _ _ _ _ ?_ ?_ hlocal
  · simp only [List.take_left]
    exact update_section_values hp hkw hv hk
  · intro j hj1 hj2
    have htake : (p ++ x :: rest).take j = p ++ x :: rest.take (j - p.length - 1) := by
      rw [List.take_append, List.take_of_length_le (by omega)]
      congr 1
      obtain ⟨n, rfl⟩ : ∃ n, j = p.length + 1 + n := ⟨j - p.length - 1, by omega⟩
      have e1 : p.length + 1 + n - p.length = n + 1 := by omega
      have e2 : p.length + 1 + n - p.length - 1 = n := by omega
      rw [e2, e1, List.take_succ_cons]
    have hj : (sectionValues (CMM.update d (some p) persist kw s).2 ((p ++ x :: rest).take j)).get? k =
        (sectionValues s ((p ++ x :: rest).take j)).get? k := by
      rw [sectionValues_slot, sectionValues_slot, hframe (PlainPath.append_left (q := (p ++ x :: rest).drop j)
        (by rw [List.take_append_drop]; exact hq.plain)) (by rw [htake]; simp)]
    show (sectionValues _ _).get? k = none
    rw [hj, htake]
    exact hbetween _ (by omega)

theorem runner_update_section [BEq V] {s : RS V} {p : List String} (hn : s.objs.get? p = none)
    (d : Option (Dict String V)) (persist : Bool) (kw : Dict String V) :
    (RM.update d (some p) persist kw s).2 = { s with cm := (CMM.update d (some p) persist kw s.cm).2 } := by
  unfold RM.update
  rw [M.bind_run]
  unfold RM.liftC
  cases h : CMM.update d (some p) persist kw s.cm with
  | mk r t =>
    cases r with
    | error e => rfl
    | ok r =>
      obtain ⟨c, b⟩ := r
      cases b with
      | false => rfl
      | true =>
        simp only
        unfold RM.applyToLoaded
        rw [M.bind_ok (M.get_run _)]
        simp only [hn]
        rfl

/-- C74 for objects that are not created yet (missing as in `C74_active_partial`, and the keyword-only parameters of C19): the object
that is created after the update has the updated value. -/
theorem C74_object_partial [DecidableEq V] (s : RS V) (hs : s.Reachable) (p : List String) (hne : p ≠ []) (c : Conf V)
    (hp : ConfiguredSection s.cm p c) (hreg : ∀ k, s.reg.lookup p ≠ .ok (.item k)) (d : Option (Dict String V)) (persist : Bool)
    (kw : Dict String V) (hkw : NoClash kw) (k : String) (v : V) (hv : Given d kw k v)
    (hk : k ∈ c.values.keys ∨ c.wouldUpdate d kw = true) (x : String) (rest : List String) (call : Callable V)
    (hq : RunnerItem s (p ++ x :: rest) call) (own : Conf V) (ho : ownConfig s.cm (p ++ x :: rest) = .ok own)
    (hown : own.values ≠ Dict.empty)
    (hbetween : ∀ n, n < rest.length → (sectionValues s.cm (p ++ x :: rest.take n)).get? k = none)
    (hlocal : s.cm.localConf.values.get? k = none) (hnew : created s (p ++ x :: rest) = none) (hf : Found call k) (o : Obj V)
    (hget : (RM.get (p ++ x :: rest) (s.step (.update d (some p) persist kw))).1 = .ok (.obj o)) :
    bound o k = some v := by
  have hn : s.objs.get? p = none := by
    cases h : s.objs.get? p with
    | none => rfl
    | some o => exact absurd (hs.inv.reg p o h) (hreg _)
  have hstep : s.step (.update d (some p) persist kw) = { s with cm := (CMM.update d (some p) persist kw s.cm).2 } :=
    runner_update_section hn d persist kw
  obtain ⟨r1, r2, r3⟩ := update_section_rest hp d persist kw
  have hslot := update_section_frame hp d persist kw hq.config.plain (show p ++ x :: rest ≠ p by simp)
  have hq' : RunnerItem (s.step (.update d (some p) persist kw)) (p ++ x :: rest) call := by
    rw [hstep]
    exact ⟨.of_isItem ⟨hq.config.ne, by rw [r3]; exact hq.config.plain, by rw [hslot]; exact hq.config.isItem.item⟩, hq.registered⟩
  obtain ⟨c', h1, h2⟩ := C74_active_partial s.cm hs.cm p hne c hp d persist kw hkw k v hv hk x rest hq.config own ho hown hbetween
    hlocal
  rw [← h2]
  refine C19_configured_bound_partial _ _ call hq' ?_ o hget c' ?_ k hf
  · rw [hstep]; exact hnew
  · rw [hstep]; exact h1

/-- The section and the item of the project `demo`, with the update `b=9` of the section. -/
example : ConfiguredSection demo ["main", "data"] (Conf.ofFile (.sect ["main", "data"]) (Dict.ofList [("b", 3)])) ∧
    NoClash (Dict.ofList [("b", 9)]) ∧ Given none (Dict.ofList [("b", 9)]) "b" 9 ∧
    RunnerItem (demoRunner demoFunc) (["main", "data"] ++ "func" :: []) demoFunc ∧
    (∀ k, (demoRunner demoFunc).reg.lookup ["main", "data"] ≠ .ok (.item k)) ∧
    ownConfig demo ["main", "data", "func"] =
      .ok (Conf.ofFile (.item ["main", "data", "func"]) (Dict.ofList [("a", 0), ("b", 0), ("c", 0)])) :=
  ⟨⟨by decide, _, _, rfl⟩, by unfold NoClash; decide, .inl rfl, demoRunner_item _, (by intro k h; cases h), rfl⟩

/-- C74 fails for objects that are created already: none of them is touched by the update of a section, so they keep the values they
were created with. -/
theorem C74_created_violated [BEq V] (s : RS V) (hs : s.Reachable) (p : List String)
    (hreg : ∀ k, s.reg.lookup p ≠ .ok (.item k)) (d : Option (Dict String V)) (persist : Bool) (kw : Dict String V)
    (q : List String) : created (s.step (.update d (some p) persist kw)) q = created s q := by
  have hn : s.objs.get? p = none := by
    cases h : s.objs.get? p with
    | none => rfl
    | some o => exact absurd (hs.inv.reg p o h) (hreg _)
  show (RM.update d (some p) persist kw s).2.objs.get? q = _
  rw [runner_update_section hn d persist kw]
  rfl

/-- What the parameter `x` of the object got at `p` is bound to. -/
def gotBound (x : String) (r : Except PyErr (RM.GetRes V)) : Option V :=
  match r with
  | .ok (.obj o) => bound o x
  | _ => none

/-- An instance: the function is got, then the section is updated.  The function that is got keeps its value, the configuration that
is active for it has the new one. -/
example : (∀ k, (demoRunner demoFunc).reg.lookup ["main", "data"] ≠ .ok (.item k)) ∧
    (let s := ((demoRunner demoFunc).step (.get demoPath)).step (.update none (some ["main", "data"]) true (Dict.ofList [("b", 9)]))
    gotBound "b" (RM.get demoPath s).1 = some 3 ∧
    (match (CMM.get demoPath s.cm).1 with
      | .ok (some c) => c.values.get? "b"
      | _ => none) = some 9) :=
  ⟨(by intro k h; cases h), by decide +kernel⟩

/-- C74 fails for a key that the section's config does not have, unless another key changes: nothing is changed, and there is no
error. -/
theorem C74_new_key_violated [DecidableEq V] (s : CM V) (p : List String) (c : Conf V) (hp : ConfiguredSection s p c)
    (d : Option (Dict String V)) (persist : Bool) (kw : Dict String V) (hkw : NoClash kw)
    (hnew : ∀ k v, Given d kw k v → k ∉ c.values.keys ∨ c.values.get? k = some v) :
    CMM.update d (some p) persist kw s = (.ok (c, false), s) := by
  rw [update_section hp d persist hkw, if_neg]
  intro hw
  obtain ⟨k, v, w, h1, h2, h3⟩ := (Conf.wouldUpdate_iff c d kw).1 hw
  rcases hnew k v ((given_iff d kw k v).2 h1) with h | h
  · exact h (Dict.mem_keys_of_get? h2)
  · rw [h] at h2; cases h2; simp at h3

example : ∀ k v, Given none (Dict.ofList [("c", 9)]) k v →
    k ∉ (Conf.ofFile (.sect ["main", "data"]) (Dict.ofList [("b", 3)])).values.keys ∨
    (Conf.ofFile (.sect ["main", "data"]) (Dict.ofList [("b", 3)])).values.get? k = some v := by
  rintro k v (h | ⟨_, _, h, _⟩)
  · have := Dict.mem_keys_of_get? h
    rw [show (Dict.ofList [("c", 9)]).keys = ["c"] from rfl, List.mem_singleton] at this
    subst this
    left; decide
  · cases h

/-- C74 fails for a section that has no config file: the update raises. -/
theorem C74_no_config_violated [BEq V] (s : CM V) (p : List String) (attrs map : List (String × Node V))
    (hp : s.walk p = .ok (.sect none attrs map)) (d : Option (Dict String V)) (persist : Bool) (kw : Dict String V) :
    CMM.update d (some p) persist kw s = (.error .notLoaded, s) := by
  have hs : s.view.slot p = .sect none := by
    show Node.slotOf (s.walk p) = _
    rw [hp]; rfl
  unfold CMM.update
  rw [M.bind_ok (show CMM.getProjectOrLocal (some p) s = _ from CMM.getFunc_sect hs)]
  rfl

end Verif.Props

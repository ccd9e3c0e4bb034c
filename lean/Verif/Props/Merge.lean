import Verif.Props.Twice
import Verif.Props.Lasting
import Verif.Props.Cascade
import Verif.Props.ObjectCurrent

/-
Property theorems about the order and the grouping of updates: C101.
-/

namespace Verif.Props
open Verif.Py Verif.Model

variable {V : Type}

/-! ### Specification -/

/-- The arguments of an update of an item: a dictionary, keywords, and whether the update is persistent. -/
structure UpdArgs (V : Type) where
  d : Option (Dict String V)
  persist : Bool
  kw : Dict String V

/-- What an update says about a key. -/
def UpdArgs.says (u : UpdArgs V) (x : String) : Option V := updateSays u.d u.kw x

/-- The updates as calls for the item at `p`. -/
def updateCalls (p : List String) (us : List (UpdArgs V)) : List (ROp V) :=
  us.map (fun u => .update u.d (some p) u.persist u.kw)

/-- What the last update that mentions a key says about it. -/
def lastWord : List (UpdArgs V) → String → Option V
  | [], _ => none
  | u :: us, x => (lastWord us x).or (u.says x)

/-- An update of keys that a configuration has, without keywords that are parameter names of the code. -/
structure Proper (c : Conf V) (u : UpdArgs V) : Prop where
  known : ∀ x v, u.says x = some v → (c.values.get? x).isSome = true
  free : ∀ x ∈ u.kw.keys, x ∉ ["self", "config_", "section_path_str", "d_", "E", "pyfileconf_persist"]

/-- The values that getting the configuration of an item gives. -/
def valuesGiven (s : RS V) (p : List String) : Except PyErr (Option (Dict String V)) :=
  match (CMM.get p s.cm).1 with
  | .ok c => .ok (c.map Conf.values)
  | .error e => .error e

/-- The object created for the item, if any, is a function that carries the values of the configuration. -/
def CarriesValues (s : RS V) (p : List String) (c : Conf V) : Prop :=
  ∀ o, created s p = some o → o.isPartial = true ∧ ∀ x v w, bound o x = some v → c.values.get? x = some w → v = w

/-- The value that the config of the item has for a key, and the one on record for it; sections do not matter here. -/
def valueOf (s : RS V) (p : List String) (x : String) : Except PyErr (Option V) := (ownConfig s.cm p).map (·.values.get? x)

def recordOf (s : RS V) (p : List String) (x : String) : Except PyErr (Option V) := (ownConfig s.cm p).map (·.applied.get? x)

/-- Nothing differs but the order of the keys in the config of the item at `p` and in its object. -/
structure SameUpToOrder (s t : RS V) (p : List String) : Prop where
  value : ∀ x, valueOf s p x = valueOf t p x
  record : ∀ x, recordOf s p x = recordOf t p x
  identity : (created s p).map Obj.id = (created t p).map Obj.id
  bound : ∀ x, (created s p).map (bound · x) = (created t p).map (bound · x)
  configs : ∀ q, q ≠ p → s.cm.view.slot q = t.cm.view.slot q
  objects : ∀ q, q ≠ p → created s q = created t q
  localConfig : s.cm.localConf = t.cm.localConf
  files : s.cm.fs = t.cm.fs
  name : s.cm.rootName = t.cm.rootName
  registered : s.reg = t.reg
  nextId : s.nextId = t.nextId

/-! ### Lemmas -/

namespace Merge
open RM Twice

/-- Whether an update is made. -/
def changes [BEq V] (c : Conf V) (d : Option (Dict String V)) (kw : Dict String V) : Bool :=
  match CMM.determineWouldUpdate c d kw with
  | .ok true => !Conf.clash Conf.updateReserved kw
  | _ => false

theorem updated_eq [BEq V] (c : Conf V) (d : Option (Dict String V)) (persist : Bool) (kw : Dict String V) :
    c.updated d persist kw = if changes c d kw then c.update d persist kw else c := by
  unfold Conf.updated changes
  cases CMM.determineWouldUpdate c d kw with
  | error e => rfl
  | ok b =>
    cases b with
    | false => rfl
    | true =>
      dsimp only
      cases Conf.clash Conf.updateReserved kw <;> rfl

theorem changes_congr [BEq V] {c c' : Conf V} {d : Option (Dict String V)} {kw : Dict String V}
    (h : ∀ x v, updateSays d kw x = some v → c'.values.get? x = c.values.get? x) : changes c' d kw = changes c d kw := by
  have hd : CMM.determineWouldUpdate c' d kw = CMM.determineWouldUpdate c d kw := by
    unfold CMM.determineWouldUpdate
    split
    · rfl
    · simp only [Except.ok.injEq]
      rw [Bool.eq_iff_iff, Conf.wouldUpdate_iff, Conf.wouldUpdate_iff]
      simp only [Dict.get?_empty, Option.none_or, Option.bind_some]
      constructor
      · rintro ⟨k, v, w, h1, h2, h3⟩
        exact ⟨k, v, w, h1, by rw [← h k v ((allUpdates_get? d kw k).symm.trans h1)]; exact h2, h3⟩
      · rintro ⟨k, v, w, h1, h2, h3⟩
        exact ⟨k, v, w, h1, by rw [h k v ((allUpdates_get? d kw k).symm.trans h1)]; exact h2, h3⟩
  unfold changes
  rw [hd]

/-- One update of an item: its config and the created objects. -/
theorem update_step [BEq V] {s : RS V} {p : List String} (hp : IsItem s.cm p) {c : Conf V} (hc : s.cm.view.own p = .ok c)
    (d : Option (Dict String V)) (persist : Bool) (kw : Dict String V) :
    (s.step (.update d (some p) persist kw)).cm.view = s.cm.view.setConf p (c.updated d persist kw) ∧
    (s.step (.update d (some p) persist kw)).reg = s.reg ∧
    (s.step (.update d (some p) persist kw)).nextId = s.nextId ∧
    (s.step (.update d (some p) persist kw)).objs =
      if changes c d kw then objsAfter s.objs p (c.updated d persist kw).values else s.objs := by
  obtain ⟨h1, h2⟩ := CMM.update_of_own hp hc d persist kw
  have e : s.step (.update d (some p) persist kw) = (RM.update d (some p) persist kw s).2 := rfl
  rw [e, update_state, h1, updated_eq] at *
  unfold CMM.updateResult changes at *
  cases hd : CMM.determineWouldUpdate c d kw with
  | error e => rw [hd] at h2; exact ⟨h2, rfl, rfl, rfl⟩
  | ok b =>
    rw [hd] at h2
    cases b with
    | false => exact ⟨h2, rfl, rfl, rfl⟩
    | true =>
      dsimp only at h2 ⊢
      cases hcl : Conf.clash Conf.updateReserved kw with
      | true => rw [hcl] at h2; exact ⟨h2, rfl, rfl, rfl⟩
      | false => rw [hcl] at h2; exact ⟨h2, rfl, rfl, rfl⟩

/-- What applying a configuration makes of an object. -/
def reconf (o : Obj V) (config : Dict String V) : Obj V :=
  match applyConfig o config with
  | .error _ => o
  | .ok o' => o'

theorem objsAfter_get? (objs : Dict (List String) (Obj V)) (p : List String) (config : Dict String V) (q : List String) :
    (objsAfter objs p config).get? q = if q = p then (objs.get? p).map (reconf · config) else objs.get? q := by
  unfold objsAfter
  cases ho : objs.get? p with
  | none =>
    by_cases hq : q = p
    · rw [if_pos hq, hq]; exact ho
    · rw [if_neg hq]
  | some o =>
    dsimp only [Option.map]
    unfold reconf
    cases ha : applyConfig o config with
    | error e =>
      by_cases hq : q = p
      · rw [if_pos hq, hq]; exact ho
      · rw [if_neg hq]
    | ok o' =>
      dsimp only
      rw [Dict.get?_set]
      by_cases hq : q = p
      · rw [if_pos hq, if_pos hq.symm]
      · rw [if_neg hq, if_neg (fun h => hq h.symm)]

theorem objsAfter_keys (objs : Dict (List String) (Obj V)) (p : List String) (config : Dict String V) :
    (objsAfter objs p config).keys = objs.keys := by
  unfold objsAfter
  cases ho : objs.get? p with
  | none => rfl
  | some o =>
    dsimp only
    cases applyConfig o config with
    | error e => rfl
    | ok o' => exact (Dict.keys_set _ _ _).trans (if_pos ((Dict.mem_keys_iff _ p).2 (by rw [ho]; rfl)))

theorem reconf_partial {o : Obj V} (h : o.isPartial = true) (config : Dict String V) :
    ∃ kw, reconf o config = { o with kwargs := kw } ∧ kw.keys = o.kwargs.keys ∧
      ∀ x, kw.get? x = match o.kwargs.get? x with | none => none | some v => some ((config.get? x).getD v) := by
  refine ⟨o.kwargs.setAll (config.items.filter (fun e => o.kwargs.contains e.1)), ?_, ?_, ?_⟩
  · unfold reconf applyConfig
    rw [h]
  · have : ∀ (es : List (String × V)) (d : Dict String V), (∀ k ∈ es.map Prod.fst, k ∈ d.keys) → (d.setAll es).keys = d.keys := by
      intro es
      induction es with
      | nil => intro d _; rfl
      | cons e es ih =>
        intro d hd
        have hk : (d.set e.1 e.2).keys = d.keys := (Dict.keys_set _ _ _).trans (if_pos (hd e.1 List.mem_cons_self))
        show ((d.set e.1 e.2).setAll es).keys = d.keys
        rw [ih, hk]
        intro k hk'
        rw [hk]
        exact hd k (List.mem_cons_of_mem _ hk')
    apply this
    intro k hk
    obtain ⟨e, he, rfl⟩ := List.mem_map.1 hk
    exact (Dict.contains_iff _ _).1 (List.mem_filter.1 he).2
  · intro x
    have hnd : ((config.items.filter (fun e => o.kwargs.contains e.1)).map Prod.fst).Nodup := AList.nodup_filter config.nodup _
    rw [Dict.get?_setAll_of_nodup _ hnd]
    have hf : AList.get? (config.items.filter (fun e => o.kwargs.contains e.1)) x =
        if o.kwargs.contains x then config.get? x else none := Dict.get?_filterKeys config (fun x => o.kwargs.contains x) x
    rw [hf]
    unfold Dict.contains
    cases o.kwargs.get? x with
    | none => rfl
    | some v => simp

theorem clash_of_free {c : Conf V} {u : UpdArgs V} (h : Proper c u) :
    Conf.clash CMM.determineReserved u.kw = false ∧ Conf.clash Conf.updateReserved u.kw = false := by
  constructor
  · rw [Conf.clash_eq_false_iff]
    intro x hm hx
    refine h.free x hx ?_
    simp only [CMM.determineReserved, List.mem_cons, List.not_mem_nil, or_false] at hm ⊢
    rcases hm with h | h | h | h <;> simp [h]
  · rw [Conf.clash_eq_false_iff]
    intro x hm hx
    refine h.free x hx ?_
    simp only [Conf.updateReserved, List.mem_cons, List.not_mem_nil, or_false] at hm ⊢
    rcases hm with h | h | h <;> simp [h]

/-- A proper update gives each key the value it says, whether or not the code finds anything to change. -/
theorem updated_get? [BEq V] (he : EqIsSame V) {c : Conf V} {u : UpdArgs V} (h : Proper c u) (x : String) :
    (c.updated u.d u.persist u.kw).values.get? x = (u.says x).or (c.values.get? x) := by
  rw [updated_eq]
  cases hch : changes c u.d u.kw with
  | true => rw [if_pos rfl]; exact (update_says c u.d u.persist u.kw x).1
  | false =>
    rw [if_neg (by simp)]
    obtain ⟨h1, h2⟩ := clash_of_free h
    cases hs : u.says x with
    | none => rfl
    | some v =>
      obtain ⟨w, hw⟩ := Option.isSome_iff_exists.1 (h.known x v hs)
      rw [hw]
      show _ = some v
      cases hwv : w == v with
      | true => rw [he w v hwv]
      | false =>
        have : c.wouldUpdate (some ((match u.d with | none => Dict.empty | some d => d).update u.kw)) Dict.empty = true := by
          rw [Conf.wouldUpdate_iff]
          refine ⟨x, v, w, ?_, hw, hwv⟩
          rw [Dict.get?_empty, Option.none_or, Option.bind_some]
          exact (allUpdates_get? u.d u.kw x).trans hs
        have hd : CMM.determineWouldUpdate c u.d u.kw = .ok true := by
          unfold CMM.determineWouldUpdate
          rw [h1]
          exact congrArg Except.ok this
        unfold changes at hch
        rw [hd, h2] at hch
        cases hch

theorem updated_keys [BEq V] {c : Conf V} {u : UpdArgs V} (h : Proper c u) :
    (c.updated u.d u.persist u.kw).values.keys = c.values.keys := by
  rw [updated_eq]
  split
  · have hsub : ∀ (e : Dict String V), (∀ x v, e.get? x = some v → ∃ w, u.says x = some w) → ∀ k ∈ e.keys, k ∈ c.values.keys := by
      intro e he k hk
      obtain ⟨v, hv⟩ := Option.isSome_iff_exists.1 ((Dict.mem_keys_iff _ _).1 hk)
      obtain ⟨w, hw⟩ := he k v hv
      exact (Dict.mem_keys_iff _ _).2 (h.known k w hw)
    have h1 : ∀ k ∈ (match u.d with | none => Dict.empty | some e => e).keys, k ∈ c.values.keys := by
      apply hsub
      intro x v hv
      unfold UpdArgs.says updateSays
      cases hd : u.d with
      | none => rw [hd] at hv; cases hv
      | some e =>
        rw [hd] at hv
        dsimp only at hv
        cases hk : u.kw.get? x with
        | some w => exact ⟨w, rfl⟩
        | none => exact ⟨v, by simpa using hv⟩
    have h2 : ∀ k ∈ u.kw.keys, k ∈ c.values.keys := by
      apply hsub
      intro x v hv
      exact ⟨v, by unfold UpdArgs.says updateSays; rw [hv]; rfl⟩
    have e1 := Dict.keys_update_of_subset h1
    exact (Dict.keys_update_of_subset (fun k hk => (congrArg (k ∈ ·) e1).mpr (h2 k hk))).trans e1
  · rfl

theorem updated_file [BEq V] (c : Conf V) (d : Option (Dict String V)) (persist : Bool) (kw : Dict String V) :
    (c.updated d persist kw).file = c.file := by
  rw [updated_eq]; split <;> rfl

theorem updated_applied [BEq V] (c : Conf V) (d : Option (Dict String V)) (kw : Dict String V) :
    (c.updated d false kw).applied = c.applied := by
  rw [updated_eq]; split <;> rfl

theorem _root_.Verif.Props.Proper.mono {c c' : Conf V} {u : UpdArgs V} (h : Proper c u) (hk : c'.values.keys = c.values.keys) : Proper c' u :=
  ⟨fun x v hx => by
    rw [← Dict.mem_keys_iff, hk, Dict.mem_keys_iff]; exact h.known x v hx, h.free⟩

/-- A created object that carries the values, after updates. -/
structure ObjAfter (o o' : Obj V) (us : List (UpdArgs V)) : Prop where
  rest : o' = { o with kwargs := o'.kwargs }
  keys : o'.kwargs.keys = o.kwargs.keys
  get : ∀ x, o'.kwargs.get? x = match o.kwargs.get? x with | none => none | some v => some ((lastWord us x).getD v)

/-- The state after updates. -/
structure AfterUpdates (p : List String) (c : Conf V) (s : RS V) (us : List (UpdArgs V)) (t : RS V) (c' : Conf V) : Prop where
  item : IsItem t.cm p
  own : t.cm.view.own p = .ok c'
  view : us ≠ [] → t.cm.view = s.cm.view.setConf p c'
  nil : us = [] → t = s
  file : c'.file = c.file
  keys : c'.values.keys = c.values.keys
  values : ∀ x, c'.values.get? x = (lastWord us x).or (c.values.get? x)
  applied : (∀ u ∈ us, u.persist = false) → c'.applied = c.applied
  reg : t.reg = s.reg
  nextId : t.nextId = s.nextId
  objKeys : t.objs.keys = s.objs.keys
  others : ∀ q, q ≠ p → t.objs.get? q = s.objs.get? q
  absent : s.objs.get? p = none → t.objs.get? p = none
  obj : CarriesValues s p c → ∀ o, s.objs.get? p = some o → ∃ o', t.objs.get? p = some o' ∧ ObjAfter o o' us

theorem step_carries [BEq V] (he : EqIsSame V) {c : Conf V} {u : UpdArgs V} (h : Proper c u) {o : Obj V} (hpt : o.isPartial = true)
    (ha : ∀ x v w, bound o x = some v → c.values.get? x = some w → v = w) :
    ∃ o', (if changes c u.d u.kw then reconf o (c.updated u.d u.persist u.kw).values else o) = o' ∧ ObjAfter o o' [u] ∧
      ∀ x v w, bound o' x = some v → (c.updated u.d u.persist u.kw).values.get? x = some w → v = w := by
  refine ⟨_, rfl, ?_⟩
  have hval := updated_get? he h
  have hsame : changes c u.d u.kw = false → ∀ x v, u.says x = some v → c.values.get? x = some v := by
    intro hch x v hx
    have := hval x
    rw [updated_eq, hch, hx] at this
    exact this
  cases hch : changes c u.d u.kw with
  | false =>
    rw [if_neg (by simp)]
    refine ⟨⟨rfl, rfl, fun x => ?_⟩, ?_⟩
    · cases hb : o.kwargs.get? x with
      | none => rfl
      | some v =>
        show some v = some ((u.says x).getD v)
        cases hs : u.says x with
        | none => rfl
        | some w => rw [ha x v w hb (hsame hch x w hs)]; rfl
    · intro x v w hv hw
      rw [updated_eq, hch] at hw
      exact ha x v w hv hw
  | true =>
    rw [if_pos rfl]
    obtain ⟨kw, h1, h2, h3⟩ := reconf_partial hpt (c.updated u.d u.persist u.kw).values
    rw [h1]
    refine ⟨⟨rfl, h2, fun x => ?_⟩, ?_⟩
    · dsimp only
      rw [h3, hval]
      cases hb : o.kwargs.get? x with
      | none => rfl
      | some v =>
        show some _ = some ((u.says x).getD v)
        cases hs : u.says x with
        | some w => rfl
        | none =>
          cases hc : c.values.get? x with
          | none => rfl
          | some w => rw [ha x v w hb hc]; rfl
    · intro x v w hv hw
      have hv' : kw.get? x = some v := hv
      rw [h3, hw] at hv'
      cases hb : o.kwargs.get? x with
      | none => rw [hb] at hv'; cases hv'
      | some v' => rw [hb] at hv'; cases hv'; rfl

theorem ObjAfter.trans {o o1 o2 : Obj V} {u : UpdArgs V} {us : List (UpdArgs V)} (h1 : ObjAfter o o1 [u]) (h2 : ObjAfter o1 o2 us) :
    ObjAfter o o2 (u :: us) := by
  refine ⟨?_, h2.keys.trans h1.keys, fun x => ?_⟩
  · rw [h2.rest, h1.rest]
  · rw [h2.get, h1.get]
    cases o.kwargs.get? x with
    | none => rfl
    | some v =>
      show some ((lastWord us x).getD ((u.says x).getD v)) = some (((lastWord us x).or (u.says x)).getD v)
      cases lastWord us x <;> rfl

theorem after_updates [BEq V] (he : EqIsSame V) {p : List String} (us : List (UpdArgs V)) : ∀ {s : RS V} {c : Conf V},
    IsItem s.cm p → s.cm.view.own p = .ok c → (∀ u ∈ us, Proper c u) →
    ∃ c', AfterUpdates p c s us (after s (updateCalls p us)) c' := by
  induction us with
  | nil =>
    intro s c hp hc _
    exact ⟨c, hp, hc, fun h => absurd rfl h, fun _ => rfl, rfl, rfl, fun x => rfl, fun _ => rfl, rfl, rfl, rfl, fun _ _ => rfl, fun h => h,
      fun _ o ho => ⟨o, ho, rfl, rfl, fun x => by
        show _ = match o.kwargs.get? x with | none => none | some v => some v
        cases o.kwargs.get? x <;> rfl⟩⟩
  | cons u us ih =>
    intro s c hp hc hu
    have hpu := hu u List.mem_cons_self
    obtain ⟨h1, h2, h3, h4⟩ := update_step hp hc u.d u.persist u.kw
    have hp1 : IsItem (s.step (.update u.d (some p) u.persist u.kw)).cm p :=
      (local_update (p := p) u.d u.persist u.kw s hp).item
    have ho1 : (s.step (.update u.d (some p) u.persist u.kw)).cm.view.own p = .ok (c.updated u.d u.persist u.kw) := by
      rw [h1]; exact View.own_setConf _ _ _
    have hk1 := updated_keys hpu
    obtain ⟨c', h⟩ := ih hp1 ho1 (fun v hv => (hu v (List.mem_cons_of_mem _ hv)).mono hk1)
    generalize ht : s.step (.update u.d (some p) u.persist u.kw) = s1 at *
    have hafter : after s (updateCalls p (u :: us)) = after s1 (updateCalls p us) := by rw [← ht]; rfl
    rw [hafter]
    refine ⟨c', h.item, h.own, fun _ => ?_, (fun hn => by cases hn), h.file.trans (updated_file _ _ _ _), h.keys.trans hk1, fun x => ?_,
      fun hper => ?_, h.reg.trans h2, h.nextId.trans h3, ?_, fun q hq => ?_, fun hn => ?_, fun hcv o ho => ?_⟩
    · cases us with
      | nil =>
        have := h.nil rfl
        have hown := h.own
        rw [this] at hown ⊢
        rw [ho1] at hown
        cases hown
        exact h1
      | cons v us => rw [h.view (by simp), h1, View.setConf_setConf]
    · rw [h.values, updated_get? he hpu, ← Option.or_assoc]; rfl
    · rw [h.applied (fun v hv => hper v (List.mem_cons_of_mem _ hv)), hper u List.mem_cons_self, updated_applied]
    · rw [h.objKeys, h4]
      split
      · exact objsAfter_keys _ _ _
      · rfl
    · rw [h.others q hq, h4]
      split
      · rw [objsAfter_get?, if_neg hq]
      · rfl
    · apply h.absent
      rw [h4]
      split
      · rw [objsAfter_get?, if_pos rfl, hn]; rfl
      · exact hn
    · obtain ⟨hpt, hag⟩ := hcv o ho
      obtain ⟨o1, ho1', hoa, hag1⟩ := step_carries he hpu hpt hag
      have hg1 : s1.objs.get? p = some o1 := by
        rw [h4, ← ho1']
        split
        · rw [objsAfter_get?, if_pos rfl, ho]; rfl
        · exact ho
      have hcv1 : CarriesValues s1 p (c.updated u.d u.persist u.kw) := by
        intro o2 ho2
        have : s1.objs.get? p = some o2 := ho2
        rw [hg1] at this
        cases this
        exact ⟨by rw [hoa.rest]; exact hpt, hag1⟩
      obtain ⟨o2, hg2, hoa2⟩ := h.obj hcv1 o1 hg1
      exact ⟨o2, hg2, hoa.trans hoa2⟩

theorem active_values {s : CM V} (ho : OwnFiles s.view) {p : List String} (hp : IsItem s p) {c c' : Conf V}
    (hf : c.file = some (.item p)) (hf' : c'.file = some (.item p)) (hv : c.values = c'.values) :
    (CMM.active s.view p c).values = (CMM.active s.view p c').values := by
  unfold CMM.active
  rw [hv]
  split
  · exact hv
  · unfold CMM.overridden
    rw [CMM.foldl_applyLevel_values _ _ (CMM.levels_otherFile ho hp hf), CMM.foldl_applyLevel_values _ _ (CMM.levels_otherFile ho hp hf'), hv]

/-! #### Two updates of different keys -/

theorem reconf_twice {o : Obj V} {a b : Dict String V} (hacc : o.isPartial = true ∨ ∀ d, o.callable.upd d = .ok ())
    (hk : ∀ x, (a.get? x).isSome = true → (b.get? x).isSome = true) :
    (reconf (reconf o a) b).id = o.id ∧ ∀ x, bound (reconf (reconf o a) b) x = bound (reconf o b) x := by
  cases hpt : o.isPartial with
  | true =>
    obtain ⟨ka, a1, a2, a3⟩ := reconf_partial hpt a
    obtain ⟨kb, b1, b2, b3⟩ := reconf_partial hpt b
    have hpa : (reconf o a).isPartial = true := by rw [a1]; exact hpt
    obtain ⟨kc, c1, c2, c3⟩ := reconf_partial hpa b
    rw [c1, b1, a1]
    refine ⟨rfl, fun x => ?_⟩
    show kc.get? x = kb.get? x
    rw [c3, b3, a1]
    show (match ka.get? x with | none => none | some v => some ((b.get? x).getD v)) = _
    rw [a3]
    cases o.kwargs.get? x with
    | none => rfl
    | some v =>
      dsimp only
      cases hb : b.get? x with
      | some w => rfl
      | none =>
        cases ha : a.get? x with
        | none => rfl
        | some w =>
          have := hk x (by rw [ha]; rfl)
          rw [hb] at this
          cases this
  | false =>
    rcases hacc with h | hacc
    · rw [hpt] at h; cases h
    · have hr : ∀ (o' : Obj V) (d : Dict String V), o'.isPartial = false → o'.callable = o.callable →
          reconf o' d = match o.callable.sig.argNames true with
            | .error _ => o'
            | .ok names => { o' with kwargs := d.filterKeys (fun x => decide (x ∈ names)) } := by
        intro o' d h1 h2
        unfold reconf applyConfig
        rw [h1, h2]
        dsimp only
        cases o.callable.sig.argNames true with
        | error e => rfl
        | ok names => dsimp only; rw [hacc]
      rw [hr o a hpt rfl, hr o b hpt rfl]
      cases hn : o.callable.sig.argNames true with
      | error e =>
        dsimp only
        rw [hr o b hpt rfl, hn]
        exact ⟨rfl, fun _ => rfl⟩
      | ok names =>
        dsimp only
        rw [hr { o with kwargs := a.filterKeys (fun x => decide (x ∈ names)) } b hpt rfl, hn]
        exact ⟨rfl, fun _ => rfl⟩

theorem reconf_id (o : Obj V) (a : Dict String V) : (reconf o a).id = o.id := by
  unfold reconf
  cases h : applyConfig o a with
  | error e => rfl
  | ok o' =>
    unfold applyConfig at h
    split at h
    · cases h; rfl
    · split at h
      · cases h
      · dsimp only at h
        split at h
        · cases h
        · cases h; rfl

theorem reconf_congr {o : Obj V} {a b : Dict String V} (hacc : o.isPartial = true ∨ ∀ d, o.callable.upd d = .ok ())
    (h : ∀ x, a.get? x = b.get? x) (x : String) : bound (reconf o a) x = bound (reconf o b) x := by
  cases hpt : o.isPartial with
  | true =>
    obtain ⟨ka, a1, a2, a3⟩ := reconf_partial hpt a
    obtain ⟨kb, b1, b2, b3⟩ := reconf_partial hpt b
    rw [a1, b1]
    show ka.get? x = kb.get? x
    rw [a3, b3, h]
  | false =>
    rcases hacc with hh | hacc
    · rw [hpt] at hh; cases hh
    · unfold reconf applyConfig
      rw [hpt]
      dsimp only
      cases o.callable.sig.argNames true with
      | error e => rfl
      | ok names =>
        dsimp only
        rw [hacc, hacc]
        show Dict.get? _ x = Dict.get? _ x
        dsimp only
        rw [Dict.get?_filterKeys, Dict.get?_filterKeys, h]

/-- Two updates, one after the other, when neither mentions what the other does. -/
theorem two_steps [BEq V] {s : RS V} {p : List String} (hp : IsItem s.cm p) {c : Conf V} (hc : s.cm.view.own p = .ok c)
    {u v : UpdArgs V} (hd : ∀ x, u.says x = none ∨ v.says x = none) :
    ∃ c2, (after s (updateCalls p [u, v])).cm.view = s.cm.view.setConf p c2 ∧
      (after s (updateCalls p [u, v])).reg = s.reg ∧ (after s (updateCalls p [u, v])).nextId = s.nextId ∧
      IsItem (after s (updateCalls p [u, v])).cm p ∧
      c2 = (c.updated u.d u.persist u.kw).updated v.d v.persist v.kw ∧
      changes (c.updated u.d u.persist u.kw) v.d v.kw = changes c v.d v.kw ∧
      (after s (updateCalls p [u, v])).objs =
        if changes c v.d v.kw then
          objsAfter (if changes c u.d u.kw then objsAfter s.objs p (c.updated u.d u.persist u.kw).values else s.objs) p c2.values
        else (if changes c u.d u.kw then objsAfter s.objs p (c.updated u.d u.persist u.kw).values else s.objs) := by
  obtain ⟨h1, h2, h3, h4⟩ := update_step hp hc u.d u.persist u.kw
  have hp1 : IsItem (s.step (.update u.d (some p) u.persist u.kw)).cm p :=
    (local_update (p := p) u.d u.persist u.kw s hp).item
  have ho1 : (s.step (.update u.d (some p) u.persist u.kw)).cm.view.own p = .ok (c.updated u.d u.persist u.kw) := by
    rw [h1]; exact View.own_setConf _ _ _
  obtain ⟨g1, g2, g3, g4⟩ := update_step hp1 ho1 v.d v.persist v.kw
  have hp2 := (local_update (p := p) v.d v.persist v.kw _ hp1).item
  have hch : changes (c.updated u.d u.persist u.kw) v.d v.kw = changes c v.d v.kw := by
    apply changes_congr
    intro x w hx
    rw [updated_eq]
    split
    · rw [(update_says c u.d u.persist u.kw x).1]
      rcases hd x with h | h
      · have h' : updateSays u.d u.kw x = none := h
        rw [h']; rfl
      · have h' : updateSays v.d v.kw x = none := h
        rw [h'] at hx; cases hx
    · rfl
  rw [hch, h4] at g4
  rw [h1, View.setConf_setConf] at g1
  exact ⟨_, g1, g2.trans h2, g3.trans h3, hp2, rfl, hch, g4⟩

theorem swap_values [BEq V] {c : Conf V} {u v : UpdArgs V} (hd : ∀ x, u.says x = none ∨ v.says x = none)
    (hch : changes (c.updated u.d u.persist u.kw) v.d v.kw = changes c v.d v.kw) (x : String) :
    ((c.updated u.d u.persist u.kw).updated v.d v.persist v.kw).values.get? x =
      (if changes c u.d u.kw then u.says x else none).or ((if changes c v.d v.kw then v.says x else none).or (c.values.get? x)) ∧
    ((c.updated u.d u.persist u.kw).updated v.d v.persist v.kw).applied.get? x =
      (if changes c u.d u.kw && u.persist then u.says x else none).or
        ((if changes c v.d v.kw && v.persist then v.says x else none).or (c.applied.get? x)) := by
  rw [updated_eq, hch, updated_eq]
  have hu := update_says c u.d u.persist u.kw x
  cases hcu : changes c u.d u.kw <;> cases hcv : changes c v.d v.kw
  · exact ⟨rfl, rfl⟩
  · simp only [if_true, if_false, Bool.false_eq_true, Bool.true_and, Bool.false_and, Option.none_or]
    obtain ⟨h1, h2⟩ := update_says c v.d v.persist v.kw x
    rw [h1, h2]
    refine ⟨rfl, ?_⟩
    cases v.persist <;> rfl
  · simp only [if_true, if_false, Bool.false_eq_true, Bool.true_and, Bool.false_and, Option.none_or]
    rw [hu.1, hu.2]
    refine ⟨rfl, ?_⟩
    cases u.persist <;> rfl
  · simp only [if_true, Bool.true_and]
    obtain ⟨h1, h2⟩ := update_says (c.update u.d u.persist u.kw) v.d v.persist v.kw x
    rw [h1, h2, hu.1, hu.2]
    have e1 : updateSays u.d u.kw x = u.says x := rfl
    have e2 : updateSays v.d v.kw x = v.says x := rfl
    rw [e1, e2]
    rcases hd x with h | h
    · rw [h]
      refine ⟨rfl, ?_⟩
      cases u.persist <;> cases v.persist <;> rfl
    · rw [h]
      refine ⟨by cases u.says x <;> rfl, ?_⟩
      cases u.persist <;> cases v.persist <;> cases u.says x <;> rfl

end Merge

/-! ### C101 -/

/-- C101: updates of different keys of an item can be swapped: only the order of keys may differ in the end.  This holds for all
arguments, those that the code refuses included.  (An object of a class has to accept all values.) -/
theorem C101_swap_partial [BEq V] (s : RS V) (p : List String) (k : Callable V) (hp : RunnerItem s p k)
    (u v : UpdArgs V) (hd : ∀ x, u.says x = none ∨ v.says x = none)
    (hacc : ∀ o, created s p = some o → o.isPartial = true ∨ ∀ d, o.callable.upd d = .ok ()) :
    SameUpToOrder (after s (updateCalls p [u, v])) (after s (updateCalls p [v, u])) p := by
  have hi := hp.config.isItem
  cases hc : s.cm.view.own p with
  | error e =>
    have key : ∀ u v : UpdArgs V, (after s (updateCalls p [u, v])).cm.view = s.cm.view ∧ (after s (updateCalls p [u, v])).reg = s.reg ∧
        (after s (updateCalls p [u, v])).nextId = s.nextId ∧ (after s (updateCalls p [u, v])).objs = s.objs ∧
        IsItem (after s (updateCalls p [u, v])).cm p := by
      have step : ∀ (t : RS V) (u : UpdArgs V), IsItem t.cm p → t.cm.view.own p = .error e →
          (t.step (.update u.d (some p) u.persist u.kw)).cm.view = t.cm.view ∧
          (t.step (.update u.d (some p) u.persist u.kw)).reg = t.reg ∧
          (t.step (.update u.d (some p) u.persist u.kw)).nextId = t.nextId ∧
          (t.step (.update u.d (some p) u.persist u.kw)).objs = t.objs ∧
          IsItem (t.step (.update u.d (some p) u.persist u.kw)).cm p := by
        intro t u ht he
        obtain ⟨h1, h2⟩ := CMM.update_of_own_error ht he u.d u.persist u.kw
        have hit := (RM.local_update (p := p) u.d u.persist u.kw t ht).item
        have e : t.step (.update u.d (some p) u.persist u.kw) = (RM.update u.d (some p) u.persist u.kw t).2 := rfl
        rw [e]
        rw [Twice.update_state, h1] at hit ⊢
        exact ⟨h2, rfl, rfl, rfl, hit⟩
      intro u v
      obtain ⟨a1, a2, a3, a4, a5⟩ := step s u hi hc
      obtain ⟨b1, b2, b3, b4, b5⟩ := step _ v a5 (by rw [a1]; exact hc)
      exact ⟨b1.trans a1, b2.trans a2, b3.trans a3, b4.trans a4, b5⟩
    obtain ⟨a1, a2, a3, a4, a5⟩ := key u v
    obtain ⟨b1, b2, b3, b4, b5⟩ := key v u
    have hown : ownConfig (after s (updateCalls p [u, v])).cm p = ownConfig (after s (updateCalls p [v, u])).cm p := by
      rw [ownConfig_eq (.of_isItem a5), ownConfig_eq (.of_isItem b5), a1, b1]
    refine ⟨fun x => ?_, fun x => ?_, ?_, fun x => ?_, fun q _ => by rw [a1, b1], fun q _ => ?_, ?_, ?_, ?_, a2.trans b2.symm, a3.trans b3.symm⟩
    · unfold valueOf; rw [hown]
    · unfold recordOf; rw [hown]
    · unfold created; rw [a4, b4]
    · unfold created; rw [a4, b4]
    · unfold created; rw [a4, b4]
    · exact congrArg View.localConf (a1.trans b1.symm)
    · exact congrArg View.fs (a1.trans b1.symm)
    · exact congrArg View.rootName (a1.trans b1.symm)
  | ok c =>
    obtain ⟨c1, a1, a2, a3, a4, a5, a6, a7⟩ := Merge.two_steps hi hc hd
    obtain ⟨c2, b1, b2, b3, b4, b5, b6, b7⟩ := Merge.two_steps hi hc (fun x => (hd x).symm)
    have ho1 : ownConfig (after s (updateCalls p [u, v])).cm p = .ok c1 := by
      rw [ownConfig_eq (.of_isItem a4), a1]; exact View.own_setConf _ _ _
    have ho2 : ownConfig (after s (updateCalls p [v, u])).cm p = .ok c2 := by
      rw [ownConfig_eq (.of_isItem b4), b1]; exact View.own_setConf _ _ _
    have hx := Merge.swap_values hd a6
    have hy := Merge.swap_values (fun x => (hd x).symm) b6
    rw [← a5] at hx
    rw [← b5] at hy
    have hcomm : ∀ (b b' : Bool) (x : String) (r : Option V), (if b then u.says x else none).or ((if b' then v.says x else none).or r) =
        (if b' then v.says x else none).or ((if b then u.says x else none).or r) := by
      intro b b' x r
      rcases hd x with h | h <;> rw [h] <;> cases b <;> cases b' <;> simp
    have hval : ∀ x, c1.values.get? x = c2.values.get? x := fun x => by rw [(hx x).1, (hy x).1, hcomm]
    have happ : ∀ x, c1.applied.get? x = c2.applied.get? x := fun x => by rw [(hx x).2, (hy x).2, hcomm]
    have hobj : ∀ q, q ≠ p → created (after s (updateCalls p [u, v])) q = created (after s (updateCalls p [v, u])) q := by
      intro q hq
      unfold created
      rw [a7, b7]
      split <;> split <;> simp only [Merge.objsAfter_get?, if_neg hq]
    have hown : (created (after s (updateCalls p [u, v])) p).map Obj.id = (created (after s (updateCalls p [v, u])) p).map Obj.id ∧
        ∀ x, (created (after s (updateCalls p [u, v])) p).map (bound · x) = (created (after s (updateCalls p [v, u])) p).map (bound · x) := by
      unfold created at *
      rw [a7, b7]
      cases ho : s.objs.get? p with
      | none =>
        constructor
        · split <;> split <;> simp [Merge.objsAfter_get?, ho]
        · intro x
          split <;> split <;> simp [Merge.objsAfter_get?, ho]
      | some o =>
        have hacc' := hacc o ho
        cases hcu : Merge.changes c u.d u.kw <;> cases hcv : Merge.changes c v.d v.kw
        · exact ⟨rfl, fun _ => rfl⟩
        · have e1 : c1 = c.updated v.d v.persist v.kw := by rw [a5, Merge.updated_eq c u.d, hcu]; rfl
          simp only [if_true, if_false, Bool.false_eq_true, e1]
          exact ⟨trivial, fun _ => trivial⟩
        · have e1 : c2 = c.updated u.d u.persist u.kw := by rw [b5, Merge.updated_eq c v.d, hcv]; rfl
          simp only [if_true, if_false, Bool.false_eq_true, e1]
          exact ⟨trivial, fun _ => trivial⟩
        · simp only [if_true, Merge.objsAfter_get?, ho, Option.map_some]
          have k1 : ∀ x, ((c.updated u.d u.persist u.kw).values.get? x).isSome = true → (c1.values.get? x).isSome = true := by
            intro x
            rw [(hx x).1, Merge.updated_eq, hcu, if_pos rfl, (update_says c u.d u.persist u.kw x).1]
            have e1 : updateSays u.d u.kw x = u.says x := rfl
            rw [e1, hcv, if_pos rfl, if_pos rfl]
            cases u.says x <;> cases v.says x <;> simp
          have k2 : ∀ x, ((c.updated v.d v.persist v.kw).values.get? x).isSome = true → (c2.values.get? x).isSome = true := by
            intro x
            rw [(hy x).1, Merge.updated_eq, hcv, if_pos rfl, (update_says c v.d v.persist v.kw x).1]
            have e1 : updateSays v.d v.kw x = v.says x := rfl
            rw [e1, hcu, if_pos rfl, if_pos rfl]
            cases u.says x <;> cases v.says x <;> simp
          obtain ⟨i1, j1⟩ := Merge.reconf_twice hacc' k1
          obtain ⟨i2, j2⟩ := Merge.reconf_twice hacc' k2
          refine ⟨by rw [i1, i2], fun x => ?_⟩
          rw [j1, j2, Merge.reconf_congr hacc' hval]
    refine ⟨fun x => ?_, fun x => ?_, hown.1, hown.2, fun q hq => ?_, hobj, ?_, ?_, ?_, a2.trans b2.symm, a3.trans b3.symm⟩
    · unfold valueOf; rw [ho1, ho2]; exact congrArg Except.ok (hval x)
    · unfold recordOf; rw [ho1, ho2]; exact congrArg Except.ok (happ x)
    · rw [a1, b1, View.setConf_slot_ne _ _ hq, View.setConf_slot_ne _ _ hq]
    · exact (congrArg View.localConf a1).trans (congrArg View.localConf b1).symm
    · exact (congrArg View.fs a1).trans (congrArg View.fs b1).symm
    · exact (congrArg View.rootName a1).trans (congrArg View.rootName b1).symm

/-- C101: two series of updates of known keys of an item, in which the last word about each key is the same, leave its config with
the same values in the same order, and getting it gives the same values.  (Values that are equal have to be the same.) -/
theorem C101_last_word_partial [BEq V] (he : EqIsSame V) (s : RS V) (hs : s.Reachable) (p : List String) (k : Callable V)
    (hp : RunnerItem s p k) (c : Conf V) (hc : ownConfig s.cm p = .ok c) (us us' : List (UpdArgs V))
    (hu : ∀ u ∈ us, Proper c u) (hu' : ∀ u ∈ us', Proper c u) (hl : ∀ x, lastWord us x = lastWord us' x) :
    ∃ c1 c2, ownConfig (after s (updateCalls p us)).cm p = .ok c1 ∧ ownConfig (after s (updateCalls p us')).cm p = .ok c2 ∧
      c1.values = c2.values ∧ (∀ x, c1.values.get? x = (lastWord us x).or (c.values.get? x)) ∧
      valuesGiven (after s (updateCalls p us)) p = valuesGiven (after s (updateCalls p us')) p := by
  have hi := hp.config.isItem
  rw [ownConfig_eq hp.config] at hc
  have ho := hs.cm.good.ownFiles
  have hf := ho.own hi.plain hc
  obtain ⟨c1, h1⟩ := Merge.after_updates he us hi hc hu
  obtain ⟨c2, h2⟩ := Merge.after_updates he us' hi hc hu'
  have hv : c1.values = c2.values := Dict.ext_of_keys_get? (h1.keys.trans h2.keys.symm) (fun x => by rw [h1.values, h2.values, hl])
  refine ⟨c1, c2, (ownConfig_eq (.of_isItem h1.item)).trans h1.own, (ownConfig_eq (.of_isItem h2.item)).trans h2.own, hv, h1.values, ?_⟩
  have hact : ∀ {us : List (UpdArgs V)} {c1 : Conf V}, Merge.AfterUpdates p c s us (after s (updateCalls p us)) c1 →
      valuesGiven (after s (updateCalls p us)) p = .ok (some (CMM.active s.cm.view p c1).values) := by
    intro us c1 h
    unfold valuesGiven
    rw [(CMM.get_of_own h.item h.own).1]
    cases us with
    | nil => rw [h.nil rfl]; rfl
    | cons u us => rw [h.view (by simp), Twice.active_setConf]; rfl
  rw [hact h1, hact h2, Merge.active_values ho hi (h1.file.trans hf) (h2.file.trans hf) hv]

/-- C101: if the updates are not persistent, nothing differs at all, as long as the object created for the item (a function), if any,
carries the values of the config. -/
theorem C101_same_state_partial [BEq V] (he : EqIsSame V) (s : RS V) (p : List String) (k : Callable V)
    (hp : RunnerItem s p k) (c : Conf V) (hc : ownConfig s.cm p = .ok c) (us us' : List (UpdArgs V)) (hne : us ≠ []) (hne' : us' ≠ [])
    (hu : ∀ u ∈ us, Proper c u ∧ u.persist = false) (hu' : ∀ u ∈ us', Proper c u ∧ u.persist = false)
    (hl : ∀ x, lastWord us x = lastWord us' x) (hcv : CarriesValues s p c) :
    SameState (after s (updateCalls p us)) (after s (updateCalls p us')) := by
  have hi := hp.config.isItem
  rw [ownConfig_eq hp.config] at hc
  obtain ⟨c1, h1⟩ := Merge.after_updates he us hi hc (fun u hm => (hu u hm).1)
  obtain ⟨c2, h2⟩ := Merge.after_updates he us' hi hc (fun u hm => (hu' u hm).1)
  have hcc : c1 = c2 := by
    apply CMM.Conf.ext'
    · exact Dict.ext_of_keys_get? (h1.keys.trans h2.keys.symm) (fun x => by rw [h1.values, h2.values, hl])
    · rw [h1.applied (fun u hm => (hu u hm).2), h2.applied (fun u hm => (hu' u hm).2)]
    · rw [h1.file, h2.file]
  apply SameState.of_same
  refine ⟨by rw [h1.view hne, h2.view hne', hcc], h1.reg.trans h2.reg.symm, ?_, h1.nextId.trans h2.nextId.symm⟩
  apply Dict.ext_of_keys_get? (h1.objKeys.trans h2.objKeys.symm)
  intro q
  by_cases hq : q = p
  · subst hq
    cases ho : s.objs.get? q with
    | none => rw [h1.absent ho, h2.absent ho]
    | some o =>
      obtain ⟨o1, g1, j1⟩ := h1.obj hcv o ho
      obtain ⟨o2, g2, j2⟩ := h2.obj hcv o ho
      rw [g1, g2, j1.rest, j2.rest]
      have : o1.kwargs = o2.kwargs :=
        Dict.ext_of_keys_get? (j1.keys.trans j2.keys.symm) (fun x => by rw [j1.get, j2.get, hl])
      rw [this]
  · rw [h1.others q hq, h2.others q hq]

/-- C101: with persistent updates as well the object ends up the same. -/
theorem C101_same_object_partial [BEq V] (he : EqIsSame V) (s : RS V) (p : List String) (k : Callable V)
    (hp : RunnerItem s p k) (c : Conf V) (hc : ownConfig s.cm p = .ok c) (us us' : List (UpdArgs V))
    (hu : ∀ u ∈ us, Proper c u) (hu' : ∀ u ∈ us', Proper c u)
    (hl : ∀ x, lastWord us x = lastWord us' x) (hcv : CarriesValues s p c) :
    created (after s (updateCalls p us)) p = created (after s (updateCalls p us')) p := by
  have hi := hp.config.isItem
  rw [ownConfig_eq hp.config] at hc
  obtain ⟨c1, h1⟩ := Merge.after_updates he us hi hc hu
  obtain ⟨c2, h2⟩ := Merge.after_updates he us' hi hc hu'
  unfold created
  cases ho : s.objs.get? p with
  | none => rw [h1.absent ho, h2.absent ho]
  | some o =>
    obtain ⟨o1, g1, j1⟩ := h1.obj hcv o ho
    obtain ⟨o2, g2, j2⟩ := h2.obj hcv o ho
    rw [g1, g2, j1.rest, j2.rest]
    have : o1.kwargs = o2.kwargs :=
      Dict.ext_of_keys_get? (j1.keys.trans j2.keys.symm) (fun x => by rw [j1.get, j2.get, hl])
    rw [this]

/-- C101 for objects of classes (missing: classes that raise, see `C101_refused_violated`): an object that was last given what the
config says (C110) ends up the same. -/
theorem C101_same_class_object_partial [BEq V] (he : EqIsSame V) (s : RS V) (hs : s.Reachable) (p : List String) (k : Callable V)
    (hp : RunnerItem s p k) (names : List String) (hn : k.sig.argNames true = .ok names) (c : Conf V)
    (hc : s.cm.walk p = .ok (.conf c)) (o : Obj V) (ho : created s p = some o) (hpt : o.isPartial = false) (hok : o.callable = k)
    (hkw : o.kwargs = valuesFor names c.values) (us us' : List (UpdArgs V)) (hu : ∀ u ∈ us, Proper c u) (hu' : ∀ u ∈ us', Proper c u)
    (hret : (∀ d, k.upd d = .ok ()) ∨ (AllReturn p s (updateCalls p us) ∧ AllReturn p s (updateCalls p us')))
    (hl : ∀ x, lastWord us x = lastWord us' x) :
    ∃ o', created (after s (updateCalls p us)) p = some o' ∧ created (after s (updateCalls p us')) p = some o' ∧ o'.id = o.id ∧
      ∀ x, bound o' x = if x ∈ names then (lastWord us x).or (c.values.get? x) else none := by
  have hi := hp.config.isItem
  have hslot : s.cm.view.slot p = .conf c := by
    have hit := hi.item
    cases hs : s.cm.view.slot p with
    | conf c' =>
      rw [CM.walk_of_slot_conf hs] at hc
      cases hc
      rfl
    | file l =>
      rw [CM.walk_of_slot_file hs] at hc
      cases hc
    | _ => rw [hs] at hit; cases hit
  have hown : s.cm.view.own p = .ok c := by unfold View.own; rw [hslot]
  have hcar : s.Carries k names p o c := ⟨ho, hpt, hok, hslot, hkw⟩
  have hcalls : ∀ us : List (UpdArgs V), ∀ op ∈ updateCalls p us, ItemCall s op := by
    intro us op hop
    unfold updateCalls at hop
    obtain ⟨u, _, rfl⟩ := List.mem_map.1 hop
    exact .inl ⟨p, k, hp, .update _ _ _⟩
  have hnorun : ∀ us : List (UpdArgs V), .run p ∈ updateCalls p us → ∀ x ∈ names, NotInherited s.cm p x := by
    intro us hm
    unfold updateCalls at hm
    obtain ⟨u, _, h⟩ := List.mem_map.1 hm
    cases h
  have hvalid : ∀ us : List (UpdArgs V), ∀ op ∈ updateCalls p us, op.Valid := by
    intro us op hop
    unfold updateCalls at hop
    obtain ⟨u, _, rfl⟩ := List.mem_map.1 hop
    exact hi.ne
  have main : ∀ us : List (UpdArgs V), (∀ u ∈ us, Proper c u) → ((∀ d, k.upd d = .ok ()) ∨ AllReturn p s (updateCalls p us)) →
      ∃ (o' : Obj V) (c' : Conf V), created (after s (updateCalls p us)) p = some o' ∧ o'.isPartial = false ∧ o'.callable = k ∧ o'.id = o.id ∧
        o'.kwargs = c'.values.filterKeys (fun x => decide (x ∈ names)) ∧ c'.values.keys = c.values.keys ∧
        ∀ x, c'.values.get? x = (lastWord us x).or (c.values.get? x) := by
    intro us hu hret
    obtain ⟨o', c', h⟩ := carries_after hp hn _ (hcalls us) (hnorun us) s hs rfl (fun _ h => h) rfl rfl hret ⟨o, c, hcar⟩
    obtain ⟨c1, h1⟩ := Merge.after_updates he us hi hown hu
    have : c1 = c' := by
      have := h1.own
      unfold View.own at this
      rw [h.conf] at this
      cases this
      rfl
    subst this
    obtain ⟨o'', e1, e2, _⟩ := C20_same_object s hs p o ho _ (hvalid us)
    have e1' : (after s (updateCalls p us)).objs.get? p = some o'' := e1
    rw [h.obj] at e1'
    cases e1'
    exact ⟨_, _, e1, h.isObject, h.callable, e2, h.same, h1.keys, h1.values⟩
  obtain ⟨o1, c1, a1, a2, a3, a4, a5, a6, a7⟩ := main us hu (hret.imp_right (·.1))
  obtain ⟨o2, c2, b1, b2, b3, b4, b5, b6, b7⟩ := main us' hu' (hret.imp_right (·.2))
  have hv : c1.values = c2.values := Dict.ext_of_keys_get? (a6.trans b6.symm) (fun x => by rw [a7, b7, hl])
  have hoo : o1 = o2 := by
    cases o1; cases o2
    simp only at a2 a3 a4 a5 b2 b3 b4 b5
    rw [a2, a3, a4, a5, b2, b3, b4, b5, hv]
  refine ⟨o1, a1, hoo ▸ b1, a4, fun x => ?_⟩
  unfold bound
  rw [a5, Dict.get?_filterKeys, a7]
  simp

/-! #### Example: two updates and one that says the same -/

def demoSeparate : List (UpdArgs Nat) :=
  [⟨none, false, Dict.ofList [("a", 7), ("c", 5)]⟩, ⟨some (Dict.ofList [("c", 6)]), false, Dict.empty⟩]

def demoTogether : List (UpdArgs Nat) := [⟨none, false, Dict.ofList [("c", 6), ("a", 7)]⟩]

theorem demo_lastWord (x : String) : lastWord demoSeparate x = lastWord demoTogether x := by
  by_cases h1 : x = "a"
  · subst h1; rfl
  · by_cases h2 : x = "c"
    · subst h2; rfl
    · have none_of : ∀ d : Dict String Nat, (∀ k ∈ d.keys, k = "a" ∨ k = "c") → d.get? x = none := by
        intro d hd
        rw [Dict.get?_eq_none_iff]
        intro hx
        rcases hd x hx with h | h
        · exact h1 h
        · exact h2 h
      have e1 := none_of (Dict.ofList [("a", 7), ("c", 5)]) (by decide +kernel)
      have e2 := none_of (Dict.ofList [("c", 6)]) (by decide +kernel)
      have e3 := none_of (Dict.ofList [("c", 6), ("a", 7)]) (by decide +kernel)
      simp only [lastWord, demoSeparate, demoTogether, UpdArgs.says, updateSays, e1, e2, e3, Dict.get?_empty, Option.bind_some,
        Option.bind_none, Option.or_none, Option.none_or]

theorem demo_proper (c : Conf Nat) (hc : ownConfig (demoRunner demoFunc).cm demoPath = .ok c) :
    ∀ u ∈ demoSeparate ++ demoTogether, Proper c u ∧ u.persist = false := by
  have hk : (c.values.get? "a").isSome = true ∧ (c.values.get? "c").isSome = true := by
    cases hc; decide +kernel
  have proper : ∀ u : UpdArgs Nat, (∀ k ∈ u.kw.keys ++ (match u.d with | none => [] | some e => e.keys), k = "a" ∨ k = "c") → Proper c u := by
    intro u hu
    refine ⟨fun x v hx => ?_, fun x hx => ?_⟩
    · have : x ∈ u.kw.keys ++ (match u.d with | none => [] | some e => e.keys) := by
        unfold UpdArgs.says updateSays at hx
        rw [List.mem_append]
        cases hkw : u.kw.get? x with
        | some w => exact .inl (Dict.mem_keys_of_get? hkw)
        | none =>
          rw [hkw] at hx
          cases hd : u.d with
          | none => rw [hd] at hx; cases hx
          | some e => rw [hd] at hx; exact .inr (Dict.mem_keys_of_get? hx)
      rcases hu x this with h | h
      · rw [h]; exact hk.1
      · rw [h]; exact hk.2
    · rcases hu x (List.mem_append_left _ hx) with h | h <;> rw [h] <;> decide
  intro u hu
  simp only [demoSeparate, demoTogether, List.cons_append, List.nil_append, List.mem_cons, List.not_mem_nil, or_false] at hu
  rcases hu with rfl | rfl | rfl
  · exact ⟨proper _ (by decide +kernel), rfl⟩
  · exact ⟨proper _ (by decide +kernel), rfl⟩
  · exact ⟨proper _ (by decide +kernel), rfl⟩

example : EqIsSame Nat ∧ (demoRunner demoFunc).Reachable ∧ RunnerItem (demoRunner demoFunc) demoPath demoFunc ∧
    (∃ c, ownConfig (demoRunner demoFunc).cm demoPath = .ok c ∧ (∀ u ∈ demoSeparate ++ demoTogether, Proper c u ∧ u.persist = false) ∧
      CarriesValues (demoRunner demoFunc) demoPath c) ∧
    (∀ x, lastWord demoSeparate x = lastWord demoTogether x) ∧
    (valueOf (after (demoRunner demoFunc) (updateCalls demoPath demoSeparate)) demoPath "c").toOption = some (some 6) :=
  ⟨(fun a b h => by simpa using h), demoRunner_reachable _, demoRunner_item _,
    ⟨_, rfl, demo_proper _ rfl, (fun o ho => by cases ho)⟩, demo_lastWord, by decide +kernel⟩

example : ∀ x, (⟨none, true, Dict.ofList [("a", 7)]⟩ : UpdArgs Nat).says x = none ∨
    (⟨none, true, Dict.ofList [("c", 5)]⟩ : UpdArgs Nat).says x = none := by
  intro x
  by_cases h : x = "a"
  · subst h; exact .inr rfl
  · left
    show ((Dict.ofList [("a", 7)] : Dict String Nat).get? x).or none = none
    rw [Option.or_none, Dict.get?_eq_none_iff]
    intro hx
    have hk : (Dict.ofList [("a", 7)] : Dict String Nat).keys = ["a"] := rfl
    rw [hk, List.mem_singleton] at hx
    exact h hx

/-- A class that was got: the hypotheses about its object hold. -/
example : (after (demoRunner demoClass) [.get demoPath]).Reachable ∧
    RunnerItem (after (demoRunner demoClass) [.get demoPath]) demoPath demoClass ∧
    demoClass.sig.argNames true = .ok ["a", "b", "c"] ∧
    (∃ c o, (after (demoRunner demoClass) [.get demoPath]).cm.walk demoPath = .ok (.conf c) ∧
      created (after (demoRunner demoClass) [.get demoPath]) demoPath = some o ∧ o.isPartial = false ∧ o.callable = demoClass ∧
      o.kwargs = valuesFor ["a", "b", "c"] c.values ∧ (c.values.get? "a").isSome = true) ∧
    (∀ d, demoClass.upd d = .ok ()) ∧
    (created (after (after (demoRunner demoClass) [.get demoPath]) (updateCalls demoPath demoSeparate)) demoPath).bind (bound · "c") =
      some 6 := by
  refine ⟨reachable_step (demoRunner_reachable _) (op := .get demoPath) (by simp [ROp.Valid, demoPath]), ?_, rfl,
    ⟨_, _, rfl, rfl, rfl, rfl, rfl, by decide +kernel⟩, fun _ => rfl, by decide +kernel⟩
  have hfr := RS.step_frame (demoRunner_item demoClass).config.isItem (demoRunner_item demoClass).registered (.get (V := Nat))
  exact ⟨.of_isItem hfr.item, hfr.reg ▸ (demoRunner_item demoClass).registered⟩

/-- C101 does not hold for keys that the config does not have: an update that only adds keys is dropped, but not when it is made
together with one that changes something. -/
theorem C101_new_key_violated :
    (valueOf (after (demoRunner demoFunc) (updateCalls demoPath
      [⟨none, true, Dict.ofList [("z", 1)]⟩, ⟨none, true, Dict.ofList [("c", 7)]⟩])) demoPath "z").toOption = some none ∧
    (valueOf (after (demoRunner demoFunc) (updateCalls demoPath
      [⟨none, true, Dict.ofList [("z", 1), ("c", 7)]⟩])) demoPath "z").toOption = some (some 1) ∧
    (valueOf (after (demoRunner demoFunc) (updateCalls demoPath
      [⟨none, true, Dict.ofList [("c", 7)]⟩, ⟨none, true, Dict.ofList [("z", 1)]⟩])) demoPath "z").toOption = some none := by
  decide +kernel

/-- C101 does not hold for what is on record: an update to another value and back is, an update to the value that is there is not.
The next refresh shows the difference. -/
theorem C101_recorded_violated :
    (valueOf (after (after (demoRunner demoFunc) (updateCalls demoPath
      [⟨none, true, Dict.ofList [("c", 7)]⟩, ⟨none, true, Dict.ofList [("c", 0)]⟩])) [.edit (demoFilesC 5), .refresh demoPath])
      demoPath "c").toOption = some (some 0) ∧
    (valueOf (after (after (demoRunner demoFunc) (updateCalls demoPath
      [⟨none, true, Dict.ofList [("c", 0)]⟩])) [.edit (demoFilesC 5), .refresh demoPath])
      demoPath "c").toOption = some (some 5) := by
  decide +kernel

/-- C101 does not hold for an object that has fallen behind the config (see `C16_run_violated`): an update to another value and back
reaches it, an update to the value that is there does not. -/
theorem C101_object_violated :
    (created (after (after (demoRunner demoFunc) [.get demoPath, demoUpdate [("a", 7)], .run demoPath]) (updateCalls demoPath
      [⟨none, false, Dict.ofList [("a", 9)]⟩, ⟨none, false, Dict.ofList [("a", 2)]⟩])) demoPath).bind (bound · "a") = some 2 ∧
    (created (after (after (demoRunner demoFunc) [.get demoPath, demoUpdate [("a", 7)], .run demoPath]) (updateCalls demoPath
      [⟨none, false, Dict.ofList [("a", 2)]⟩])) demoPath).bind (bound · "a") = some 7 := by
  decide +kernel

/-- A class whose objects refuse to have `a` and `c` changed both. -/
def demoPicky : Callable Nat := { demoClass with
  upd := fun d => if d.get? "a" = some 7 ∧ d.get? "c" = some 7 then .error .valueError else .ok () }

/-- Swapping updates of different keys does not leave the same object of a class that refuses the values in the end: it has the
values of whichever update came first. -/
theorem C101_refused_violated :
    (created (after (after (demoRunner demoPicky) [.get demoPath]) (updateCalls demoPath
      [⟨none, true, Dict.ofList [("a", 7)]⟩, ⟨none, true, Dict.ofList [("c", 7)]⟩])) demoPath).map
        (fun o => (bound o "a", bound o "c")) = some (some 7, some 0) ∧
    (created (after (after (demoRunner demoPicky) [.get demoPath]) (updateCalls demoPath
      [⟨none, true, Dict.ofList [("c", 7)]⟩, ⟨none, true, Dict.ofList [("a", 7)]⟩])) demoPath).map
        (fun o => (bound o "a", bound o "c")) = some (some 2, some 7) := by
  decide +kernel

end Verif.Props

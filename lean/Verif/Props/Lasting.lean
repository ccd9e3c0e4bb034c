import Verif.Props.SectionReset

/-
Property theorems about how long updates last: C98.
-/

namespace Verif.Props
open Verif.Py Verif.Model

variable {V : Type}

/-! ### Specification -/

/-- The loaded config of the item at `p` has `v` for `k`; if it came from a persistent update, that is on record. -/
structure HasValue (s : CM V) (p : List String) (k : String) (v : V) (persist : Bool) : Prop where
  item : ConfigItem s p
  conf : ∃ c, s.walk p = .ok (.conf c) ∧ c.values.get? k = some v ∧ (persist = true → c.applied.get? k = some v)

/-- Neither a section around `p` nor the local config says anything about `k`. -/
structure NotInherited (s : CM V) (p : List String) (k : String) : Prop where
  levels : ∀ d ∈ enclosingValues s p, d.get? k = none
  localConf : s.localConf.values.get? k = none

/-- What an update says about a key. -/
def updateSays (d : Option (Dict String V)) (kw : Dict String V) (k : String) : Option V :=
  (kw.get? k).or (d.bind (fun d => d.get? k))

/-- There is a section at `q`, and no name on the way is an attribute of sections or repeated. -/
structure LoadedSection (s : CM V) (q : List String) : Prop where
  ne : q ≠ []
  plain : PlainPath s.rootName q
  found : ∃ cfg attrs map, s.walk q = .ok (.sect cfg attrs map)

/-- The calls without a section path. -/
inductive OnLocal : CMOp V → Prop
  | update (d persist kw) : OnLocal (.update d none persist kw)
  | reset (b) : OnLocal (.reset none b)
  | pop (key) : OnLocal (.pop key none)

/-- Calls that leave a value of the item at `p` alone: any call for another item; for `p` itself lookups (by `get`, `run` and
anything else that uses the config), updates and removals of other keys, and refreshes if the value came from a persistent update;
lookups, updates, removals and refreshes of a section after which no section says anything about the key; resets of sections that the
item is not in; calls for the local config;
and edits of the files by someone else. -/
inductive LeavesKey [BEq V] (s : CM V) (p : List String) (k : String) (persist : Bool) : CMOp V → Prop
  | other {q op} : ConfigItem s q → q ≠ p → op.OnItem q → LeavesKey s p k persist op
  | get : LeavesKey s p k persist (.get p)
  | update {d persist' kw} : updateSays d kw k = none → LeavesKey s p k persist (.update d (some p) persist' kw)
  | pop {key} : key ≠ k → LeavesKey s p k persist (.pop key (some p))
  | refresh : persist = true → LeavesKey s p k persist (.refresh p)
  | onSection {q op} : LoadedSection s q → op.OnSection q → NotInherited (s.step op) p k → LeavesKey s p k persist op
  | resetSection {q} : LoadedSection s q → ¬ q <+: p → LeavesKey s p k persist (.reset (some q) false)
  | onLocal {op} : OnLocal op → LeavesKey s p k persist op
  | edit {fs} : LeavesKey s p k persist (.edit fs)

/-! ### Lemmas -/

theorem hasValue_iff (s : CM V) (p : List String) (k : String) (v : V) (persist : Bool) :
    HasValue s p k v persist ↔ IsItem s p ∧ ∃ c, s.view.slot p = .conf c ∧ c.values.get? k = some v ∧
      (persist = true → c.applied.get? k = some v) := by
  constructor
  · rintro ⟨h1, c, h2, h3⟩
    refine ⟨h1.isItem, c, ?_, h3⟩
    show Node.slotOf (s.walk p) = _
    rw [h2]
    rfl
  · rintro ⟨h1, c, h2, h3⟩
    exact ⟨.of_isItem h1, c, CM.walk_of_slot_conf h2, h3⟩

theorem notInherited_iff (s : CM V) (p : List String) (k : String) :
    NotInherited s p k ↔ ∀ l ∈ s.view.levels p ++ [some s.view.localConf], (CMM.levelValues l).get? k = none := by
  constructor
  · rintro ⟨h1, h2⟩ l hl
    rw [enclosingValues_eq] at h1
    rw [List.mem_append] at hl
    rcases hl with hl | hl
    · exact h1 _ (List.mem_map_of_mem hl)
    · rw [List.mem_singleton] at hl
      subst hl
      exact h2
  · intro h
    constructor
    · intro d hd
      rw [enclosingValues_eq, List.mem_map] at hd
      obtain ⟨l, hl, rfl⟩ := hd
      exact h l (List.mem_append_left _ hl)
    · exact h (some s.view.localConf) (List.mem_append_right _ (by simp))

theorem lastDef_none {k : String} {ds : List (Dict String V)} (h : ∀ d ∈ ds, d.get? k = none) : CMM.lastDef k ds = none := by
  induction ds with
  | nil => rfl
  | cons d ds ih =>
    rw [CMM.lastDef, ih (fun e he => h e (List.mem_cons_of_mem _ he)), h d List.mem_cons_self]
    rfl

theorem allUpdates_get? (d : Option (Dict String V)) (kw : Dict String V) (k : String) :
    ((match d with | none => Dict.empty | some e => e).update kw).get? k = updateSays d kw k := by
  rw [Dict.get?_update]
  cases d <;> rfl

theorem update_says (c : Conf V) (d : Option (Dict String V)) (persist : Bool) (kw : Dict String V) (k : String) :
    (c.update d persist kw).values.get? k = (updateSays d kw k).or (c.values.get? k) ∧
    (c.update d persist kw).applied.get? k =
      if persist then (updateSays d kw k).or (c.applied.get? k) else c.applied.get? k := by
  constructor
  · show ((c.values.update _).update kw).get? k = _
    rw [Dict.get?_update, Dict.get?_update, updateSays, Option.or_assoc]
    cases d <;> rfl
  · show (if persist then c.applied.update _ else c.applied).get? k = _
    cases persist with
    | false => rfl
    | true =>
      show (c.applied.update _).get? k = _
      rw [Dict.get?_update, if_pos rfl]
      exact congrArg (fun o => Option.or o (c.applied.get? k)) (allUpdates_get? d kw k)

/-- Between calls for `p`: what matters for `p` is the same. -/
theorem hasValue_frame {s t : CM V} {p : List String} {k : String} {v : V} {persist : Bool}
    (hslot : t.view.slot p = s.view.slot p) (hroot : t.rootName = s.rootName) (h : HasValue s p k v persist) :
    HasValue t p k v persist := by
  rw [hasValue_iff] at h ⊢
  obtain ⟨h1, c, h2, h3⟩ := h
  exact ⟨⟨h1.ne, by rw [hroot]; exact h1.plain, by rw [hslot]; exact h1.item⟩, c, by rw [hslot]; exact h2, h3⟩

theorem notInherited_frame {s t : CM V} {p : List String} {k : String} (hlev : t.view.levels p = s.view.levels p)
    (hloc : t.localConf = s.localConf) (h : NotInherited s p k) : NotInherited t p k := by
  rw [notInherited_iff] at h ⊢
  rw [hlev]
  have : t.view.localConf = s.view.localConf := hloc
  rw [this]
  exact h

variable [BEq V]

omit [BEq V] in
theorem hasValue_setConf {s t : CM V} {p : List String} {k : String} {v : V} {persist : Bool} (h : HasValue s p k v persist)
    {c : Conf V} (ht : t.view = s.view.setConf p c) (hc : c.values.get? k = some v)
    (ha : persist = true → c.applied.get? k = some v) : HasValue t p k v persist := by
  rw [hasValue_iff] at h ⊢
  obtain ⟨h1, _⟩ := h
  have hs : t.view.slot p = .conf c := by rw [ht, View.setConf_slot_self]
  have hr : t.rootName = s.rootName := congrArg View.rootName ht
  exact ⟨⟨h1.ne, by rw [hr]; exact h1.plain, by rw [hs]; rfl⟩, c, hs, hc, ha⟩

theorem hasValue_step {s : CM V} (hs : s.Reachable) {p : List String} {k : String} {v : V} {persist : Bool}
    (h : HasValue s p k v persist) (hn : NotInherited s p k) {op : CMOp V} (ho : LeavesKey s p k persist op) :
    HasValue (s.step op) p k v persist ∧ NotInherited (s.step op) p k := by
  have hi := (hasValue_iff _ _ _ _ _).1 h
  obtain ⟨hit, c, hc, hv, ha⟩ := hi
  have hown : s.view.own p = .ok c := by unfold View.own; rw [hc]
  have hlev : ∀ {q op}, IsItem s q → op.OnItem q → (s.step op).view.levels p = s.view.levels p := by
    intro q op hq hoq
    rcases CMM.step_item hq hoq with hh | ⟨c', hh⟩
    · rw [hh]
    · rw [hh, CMM.levels_setConf hq.item (fun j hj => hit.prefix_sect hj)]
  have hni : ∀ {q op}, IsItem s q → op.OnItem q → NotInherited (s.step op) p k := fun hq hoq =>
    notInherited_frame (hlev hq hoq) (CMM.step_item_rest hq hoq).2.1 hn
  cases ho with
  | other hq hne hoq =>
    exact ⟨hasValue_frame (CMM.step_item_frame hq.isItem hoq (Ne.symm hne)) (CMM.step_item_rest hq.isItem hoq).2.2 h,
      hni hq.isItem hoq⟩
  | edit => exact ⟨hasValue_frame (s := s) rfl rfl h, notInherited_frame (s := s) rfl rfl hn⟩
  | @onSection q op hq hoq hnot =>
    have hq' : CMM.IsSect s q := by
      obtain ⟨cfg, attrs, map, hw⟩ := hq.found
      refine ⟨hq.plain, cfg, ?_⟩
      show Node.slotOf (s.walk q) = _
      rw [hw]
      rfl
    have hne : p ≠ q := by
      rintro rfl
      obtain ⟨cfg, hsl⟩ := hq'.sect
      rw [hsl] at hc
      cases hc
    refine ⟨hasValue_frame (CMM.step_section_frame hq' hoq hit.plain hne) ?_ h, hnot⟩
    rcases CMM.step_section hq' hoq with hh | ⟨g, hh⟩
    · rw [hh]
    · rw [hh]
      rfl
  | @resetSection q hq hnp =>
    obtain ⟨cfg, attrs, map, hw⟩ := hq.found
    have hfr : (∀ r, ¬ q <+: r → (s.step (.reset (some q) false)).view.slot r = s.view.slot r) ∧
        (s.step (.reset (some q) false)).localConf = s.localConf ∧ (s.step (.reset (some q) false)).rootName = s.rootName := by
      show (∀ r, ¬ q <+: r → (CMM.reset (some q) false s).2.view.slot r = s.view.slot r) ∧
        (CMM.reset (some q) false s).2.localConf = s.localConf ∧ (CMM.reset (some q) false s).2.rootName = s.rootName
      cases cfg with
      | some c =>
        rw [(C77_configured_violated s q c attrs map hw false).2]
        exact ⟨fun _ _ => rfl, rfl, rfl⟩
      | none =>
        obtain ⟨h1, _, h3⟩ := C77_frame s q hq.ne attrs map hw
        refine ⟨h1, h3, ?_⟩
        cases hd : CMM.getDefault s q false with
        | error e => rw [reset_error hd]
        | ok value =>
          obtain ⟨q, x, rfl, he⟩ := reset_stored hq.ne hw hd
          rw [he]
          rfl
    obtain ⟨r1, r2, r3⟩ := hfr
    refine ⟨hasValue_frame (r1 p hnp) r3 h, notInherited_frame ?_ r2 hn⟩
    refine List.map_congr_left (fun j _ => ?_)
    unfold View.sectCfg
    rw [r1 _ (fun hj => hnp (hj.trans (List.take_prefix j p)))]
  | onLocal hl =>
    have hroot : ∀ {op : CMOp V}, OnLocal op → (s.step op).root = s.root ∧ (s.step op).rootName = s.rootName ∧
        (s.step op).localConf = s.localConf := by
      intro op hl
      have hloc : s.localConf = Conf.ofDict Dict.empty := hs.good.localConf
      cases hl with
      | update d persist kw =>
        have := (CMM.update_local (s := s) (by rw [hloc]; rfl) d persist kw).1
        show (CMM.update d none persist kw s).2.root = _ ∧ (CMM.update d none persist kw s).2.rootName = _ ∧
          (CMM.update d none persist kw s).2.localConf = _
        rw [this]
        exact ⟨rfl, rfl, rfl⟩
      | reset b => exact ⟨rfl, rfl, hloc.symm⟩
      | pop key =>
        have : (CMM.pop key none s).2 = s := by
          unfold CMM.pop
          rw [M.bind_ok (show CMM.getProjectOrLocal none s = (.ok (some s.localConf), s) from rfl), hloc]
          rfl
        show (CMM.pop key none s).2.root = _ ∧ (CMM.pop key none s).2.rootName = _ ∧ (CMM.pop key none s).2.localConf = _
        rw [this]
        exact ⟨rfl, rfl, rfl⟩
    obtain ⟨r1, r2, r3⟩ := hroot hl
    have hslots : ∀ q, (s.step _).view.slot q = s.view.slot q := fun q => by
      show Node.slot managerReserved _ _ q = Node.slot managerReserved _ _ q
      rw [r1, r2]
    refine ⟨hasValue_frame (hslots p) r2 h, notInherited_frame ?_ r3 hn⟩
    refine List.map_congr_left (fun j _ => ?_)
    unfold View.sectCfg
    rw [hslots]
  | get =>
    refine ⟨?_, hni hit .get⟩
    have hr := CMM.vget_item hit.item
    rw [hown] at hr
    have href := congrArg Prod.snd (CMM.get_ref hit)
    have ht : (s.step (.get p)).view = (CMM.vget p s.view).2 := href.symm
    rw [hr] at ht
    dsimp only at ht
    split at ht
    · exact hasValue_setConf h ht hv ha
    · refine hasValue_setConf h ht ?_ ?_
      all_goals
        have hself : s.view.setConf p c = s.view := View.setConf_self hc
        have hfile := hs.good.ownFiles.own hit.plain hown
        have hoth := CMM.levels_otherFile hs.good.ownFiles hit hfile
        have hnone : CMM.lastDef k ((s.view.levels p ++ [some s.view.localConf]).map CMM.levelValues) = none :=
          lastDef_none (fun d hd => by
            obtain ⟨l, hl, rfl⟩ := List.mem_map.1 hd
            exact (notInherited_iff _ _ _).1 hn l hl)
        rw [hself]
        unfold CMM.overridden
      · rw [CMM.foldl_applyLevel_values c _ hoth, CMM.get?_foldl_update, hnone, Option.none_or, hv]
      · intro hp
        rw [CMM.foldl_applyLevel_applied c _ hoth, CMM.get?_foldl_update, hnone, Option.none_or, ha hp]
  | @update d persist' kw hsays =>
    refine ⟨?_, hni hit (.update d persist' kw)⟩
    have hr := CMM.vupdate_item hit.item d persist' kw
    rw [hown] at hr
    have ht : (s.step (.update d (some p) persist' kw)).view = (CMM.vupdate d p persist' kw s.view).2 :=
      (congrArg Prod.snd (CMM.update_ref hit d persist' kw)).symm
    rw [hr] at ht
    dsimp only at ht
    split at ht
    · exact hasValue_setConf h ht hv ha
    · exact hasValue_setConf h ht hv ha
    · split at ht
      · exact hasValue_setConf h ht hv ha
      · obtain ⟨u1, u2⟩ := update_says c d persist' kw k
        rw [hsays] at u1 u2
        refine hasValue_setConf h ht (by rw [u1]; exact hv) (fun hp => ?_)
        rw [u2]
        cases persist' with
        | false => exact ha hp
        | true => exact ha hp
  | @pop key hne =>
    refine ⟨?_, hni hit (.pop key)⟩
    have hr := CMM.vpop_item hit.item key
    rw [hown] at hr
    have ht : (s.step (.pop key (some p))).view = (CMM.vpop key p s.view).2 :=
      (congrArg Prod.snd (CMM.pop_ref hit key)).symm
    rw [hr] at ht
    dsimp only at ht
    split at ht
    · exact hasValue_setConf h ht hv ha
    · refine hasValue_setConf h ht ?_ ha
      show (c.values.del key).get? k = some v
      rw [Dict.get?_del, if_neg hne, hv]
  | refresh hp =>
    refine ⟨?_, hni hit .refresh⟩
    have hr := CMM.vrefresh_item hit.item
    rw [hown] at hr
    have ht : (s.step (.refresh p)).view = (CMM.vrefresh p s.view).2 :=
      (congrArg Prod.snd (CMM.refresh_ref hit)).symm
    rw [hr] at ht
    dsimp only at ht
    split at ht
    · exact hasValue_setConf h ht hv ha
    · split at ht
      · exact hasValue_setConf h ht hv ha
      · split at ht
        · exact hasValue_setConf h ht hv ha
        · rename_i new _ _
          cases hrf : c.refresh new.values with
          | error e =>
            rw [hrf] at ht
            exact hasValue_setConf h ht hv ha
          | ok r =>
            rw [hrf] at ht
            obtain ⟨c', u⟩ := r
            have hc' : c' = c.update none false (new.values.update c.applied) := by
              unfold Conf.refresh at hrf
              dsimp only at hrf
              split at hrf
              · cases hrf
              · cases hrf; rfl
            obtain ⟨u1, u2⟩ := update_says c none false (new.values.update c.applied) k
            refine hasValue_setConf h ht ?_ (fun _ => ?_)
            · rw [hc', u1, updateSays, Dict.get?_update, ha hp]
              rfl
            · rw [hc', u2]
              exact ha hp

/-! ### C98 -/

/-- What a history of calls does. -/
def runCalls (s : CM V) (ops : List (CMOp V)) : CM V := ops.foldl CM.step s

/-- A history in which every call leaves the value alone. -/
inductive AllLeave (p : List String) (k : String) (persist : Bool) : CM V → List (CMOp V) → Prop
  | nil (s) : AllLeave p k persist s []
  | cons {s op ops} : LeavesKey s p k persist op → AllLeave p k persist (s.step op) ops → AllLeave p k persist s (op :: ops)

theorem LeavesKey.valid {s : CM V} {p : List String} {k : String} {persist : Bool} (hp : p ≠ []) {op : CMOp V}
    (h : LeavesKey s p k persist op) : op.Valid := by
  cases h with
  | other hq _ ho =>
    have := hq.ne
    cases ho <;> exact this
  | get => exact hp
  | update _ => exact hp
  | pop _ => exact hp
  | refresh _ => exact hp
  | onSection hq ho _ =>
    have := hq.ne
    cases ho <;> exact this
  | resetSection hq _ => exact hq.ne
  | onLocal hl => cases hl <;> trivial
  | edit => trivial

/-- C98: a value lasts through every such history. -/
theorem C98_lasts_partial {s : CM V} (hs : s.Reachable) {p : List String} {k : String} {v : V} {persist : Bool}
    (h : HasValue s p k v persist) (hn : NotInherited s p k) {ops : List (CMOp V)} (ho : AllLeave p k persist s ops) :
    HasValue (runCalls s ops) p k v persist := by
  unfold runCalls
  induction ho with
  | nil s => exact h
  | cons hl _ ih =>
    obtain ⟨h1, h2⟩ := hasValue_step hs h hn hl
    exact ih (hs.step _ (hl.valid h.item.ne)) h1 h2

/-- C98: an update that changes the value of a key which the config has gives every key in it its value, and puts it on record if
the update is persistent. -/
theorem C98_given_partial {s : CM V} {p : List String} (hp : ConfigItem s p) {c : Conf V} (hc : ownConfig s p = .ok c)
    (d : Option (Dict String V)) (persist : Bool) (kw : Dict String V)
    (hkw : ∀ x ∈ kw.keys, x ∉ ["self", "config_", "section_path_str", "d_", "E", "pyfileconf_persist"])
    (hch : ∃ x old new, c.values.get? x = some old ∧ updateSays d kw x = some new ∧ (old == new) = false)
    {k : String} {v : V} (hk : updateSays d kw k = some v) :
    (CMM.update d (some p) persist kw s).1 = .ok (c.update d persist kw, true) ∧
    HasValue (CMM.update d (some p) persist kw s).2 p k v persist := by
  have hit := hp.isItem
  rw [ownConfig_eq hp] at hc
  have hr := CMM.vupdate_item hit.item d persist kw
  rw [hc] at hr
  have hcl1 : Conf.clash CMM.determineReserved kw = false := by
    rw [Conf.clash_eq_false_iff]
    intro x hm hx
    refine hkw x hx ?_
    simp only [CMM.determineReserved, List.mem_cons, List.not_mem_nil, or_false] at hm ⊢
    rcases hm with h | h | h | h <;> simp [h]
  have hcl2 : Conf.clash Conf.updateReserved kw = false := by
    rw [Conf.clash_eq_false_iff]
    intro x hm hx
    refine hkw x hx ?_
    simp only [Conf.updateReserved, List.mem_cons, List.not_mem_nil, or_false] at hm ⊢
    rcases hm with h | h | h <;> simp [h]
  have hw : CMM.determineWouldUpdate c d kw = .ok true := by
    unfold CMM.determineWouldUpdate
    rw [hcl1, if_neg Bool.false_ne_true]
    refine congrArg Except.ok ?_
    rw [Conf.wouldUpdate_iff]
    obtain ⟨x, old, new, h1, h2, h3⟩ := hch
    refine ⟨x, new, old, ?_, h1, h3⟩
    show (Dict.empty.get? x).or (Dict.get? _ x) = some new
    rw [Dict.get?_empty, Option.none_or]
    exact (allUpdates_get? d kw x).trans h2
  have href : CMM.vupdate d p persist kw s.view = ((CMM.update d (some p) persist kw s).1,
    (CMM.update d (some p) persist kw s).2.view) := CMM.update_ref hit d persist kw
  rw [hr] at href
  dsimp only at href
  rw [hw] at href
  dsimp only at href
  rw [hcl2, if_neg Bool.false_ne_true] at href
  refine ⟨(congrArg Prod.fst href).symm, ?_⟩
  obtain ⟨u1, u2⟩ := update_says c d persist kw k
  rw [hk] at u1 u2
  have ht : (CMM.update d (some p) persist kw s).2.view = s.view.setConf p (c.update d persist kw) :=
    (congrArg Prod.snd href).symm
  rw [hasValue_iff]
  have hsl : (CMM.update d (some p) persist kw s).2.view.slot p = .conf (c.update d persist kw) := by
    rw [ht, View.setConf_slot_self]
  have hro : (CMM.update d (some p) persist kw s).2.rootName = s.rootName := congrArg View.rootName ht
  refine ⟨⟨hit.ne, by rw [hro]; exact hit.plain, by rw [hsl]; rfl⟩, _, hsl, u1, fun hp => ?_⟩
  rw [u2, hp]
  rfl

/-- C98: as long as the item has the value, looking its configuration up gives it. -/
theorem C98_seen_partial {s : CM V} (hs : s.Reachable) {p : List String} {k : String} {v : V} {persist : Bool}
    (h : HasValue s p k v persist) (hn : NotInherited s p k) :
    ∃ c, (CMM.get p s).1 = .ok (some c) ∧ c.values.get? k = some v := by
  obtain ⟨hit, c, hc, hv, _⟩ := (hasValue_iff _ _ _ _ _).1 h
  have hown : s.view.own p = .ok c := by unfold View.own; rw [hc]
  have hco : ownConfig s p = .ok c := by rw [ownConfig_eq h.item]; exact hown
  have hne : c.values ≠ Dict.empty := by
    intro he
    rw [he, Dict.get?_empty] at hv
    cases hv
  obtain ⟨c', h1, h2⟩ := C10_inheritance_order_partial s hs p h.item c hco hne
  refine ⟨c', h1, ?_⟩
  rw [h2]
  have hrest : CMM.lastDef k (enclosingValues s p ++ [s.localConf.values]) = none := lastDef_none (fun d hd => by
    rcases List.mem_append.1 hd with hd | hd
    · exact hn.levels d hd
    · rw [List.mem_singleton] at hd
      subst hd
      exact hn.localConf)
  rw [lastDefining_eq, List.append_assoc, List.singleton_append, CMM.lastDef, hrest, Option.none_or, hv]

/-! #### The example: key `c` of `main.data.func` is 0 in the file and no section says anything about it -/

abbrev funcPath : List String := ["main", "data", "func"]

def demoFilesC (n : Nat) : Files Nat := { demoFiles with
  read := fun l => match l with
    | .item ["main", "data", "func"] => .ok (Dict.ofList [("a", 0), ("b", 0), ("c", n)])
    | l => demoFiles.read l }

def demoGiven (persist : Bool) : CM Nat := (CMM.update none (some funcPath) persist (Dict.ofList [("c", 7)]) demo).2

theorem demo_notInherited : NotInherited demo funcPath "c" := by
  constructor
  · decide +kernel
  · rfl

example (persist : Bool) : HasValue (demoGiven persist) funcPath "c" 7 persist :=
  (C98_given_partial demo_item rfl none persist (Dict.ofList [("c", 7)]) (by decide)
    ⟨"c", 0, 7, rfl, rfl, rfl⟩ rfl).2

/-- A history that satisfies the conditions: another item is updated, the file is edited, the item is refreshed, looked up,
updated in another key, and refreshed again. -/
example : AllLeave funcPath "c" true (demoGiven true)
    [.edit (demoFilesC 5), .refresh funcPath, .get funcPath,
     .update none (some funcPath) true (Dict.ofList [("a", 9)]), .pop "b" (some funcPath), .refresh funcPath] :=
  .cons .edit (.cons (.refresh rfl) (.cons .get (.cons (.update rfl) (.cons (.pop (by decide)) (.cons (.refresh rfl) (.nil _))))))

example : AllLeave funcPath "c" false (demoGiven false)
    [.update none (some ["main", "data", "noargs"]) true (Dict.ofList [("a", 9)]), .get funcPath] :=
  .cons (.other (q := ["main", "data", "noargs"]) ⟨by simp, by decide, .inr ⟨_, rfl⟩⟩ (by decide) (.update _ _ _)) (.cons .get (.nil _))

/-- So does a history with an update of the section around it, in another key, and one without a path. -/
example : AllLeave funcPath "c" false (demoGiven false)
    [.update none (some ["main"]) true (Dict.ofList [("a", 9)]), .update none none true (Dict.ofList [("c", 8)]), .get ["main"],
      .get funcPath] :=
  .cons (.onSection (q := ["main"]) ⟨by simp, by decide, ⟨_, _, _, rfl⟩⟩ (.update _ _ _) ⟨by decide +kernel, rfl⟩)
    (.cons (.onLocal (.update _ _ _)) (.cons (.onSection (q := ["main"]) ⟨by simp, by decide, ⟨_, _, _, rfl⟩⟩ .get
      ⟨by decide +kernel, rfl⟩) (.cons .get (.nil _))))

/-- C98 does not hold when the value is the one that the item already has: a persistent update with the file's value is not put on
record, and when the file is edited the refresh replaces it. -/
theorem C98_same_violated :
    ∃ (c : Conf Nat), (CMM.update none (some funcPath) true (Dict.ofList [("c", 0)]) demo).1 = .ok (c, false) ∧
      c.values.get? "c" = some 0 ∧
      ((CMM.get funcPath (runCalls demo [.update none (some funcPath) true (Dict.ofList [("c", 0)]), .edit (demoFilesC 5),
        .refresh funcPath])).1.toOption.bind id).bind (fun c => c.values.get? "c") = some 5 :=
  ⟨_, rfl, rfl, rfl⟩

/-- C98 does not hold when the same value was given before by an update that is not persistent: the persistent one is not put on
record, and the next refresh drops it. -/
theorem C98_again_violated :
    ((CMM.get funcPath (runCalls demo [.update none (some funcPath) false (Dict.ofList [("c", 7)]),
      .update none (some funcPath) true (Dict.ofList [("c", 7)])])).1.toOption.bind id).bind (fun c => c.values.get? "c") = some 7 ∧
    ((CMM.get funcPath (runCalls demo [.update none (some funcPath) false (Dict.ofList [("c", 7)]),
      .update none (some funcPath) true (Dict.ofList [("c", 7)]), .refresh funcPath])).1.toOption.bind id).bind
        (fun c => c.values.get? "c") = some 0 :=
  ⟨rfl, rfl⟩

/-- C98 does not hold for a key that a section config defines: the section's value replaces the one given to the item. -/
theorem C98_inherited_violated :
    ((CMM.get funcPath (runCalls demo [.update none (some funcPath) true (Dict.ofList [("a", 7)])])).1.toOption.bind id).bind
      (fun c => c.values.get? "a") = some 2 := rfl

end Verif.Props

import Verif.Model.Compare
import Verif.Props.Store

/-
Property theorems about config values that cannot just be compared: C88.
-/

namespace Verif.Props
open Verif.Py Verif.Model

variable {V : Type}

/-- The two values can be compared: one of them is a pandas object, or `==` gives something that is true or
false, or raises (which counts as different). -/
def Comparable (cmp : Compare V) (a b : V) : Prop :=
  cmp.isPandas a = true ∨ cmp.isPandas b = true ∨ cmp.eq a b ≠ .ambiguous

/-- The two values count as the same. -/
def SameValue (cmp : Compare V) (a b : V) : Prop :=
  (cmp.isPandas a = true ∧ cmp.pandasEquals a b = true) ∨
  (cmp.isPandas a = false ∧ cmp.isPandas b = false ∧ cmp.eq a b = .truth true)

instance (cmp : Compare V) (a b : V) : Decidable (SameValue cmp a b) := by
  unfold SameValue; infer_instance

instance (cmp : Compare V) (a b : V) : Decidable (Comparable cmp a b) := by
  unfold Comparable; infer_instance

/-- Comparing two values, by the words above. -/
theorem valuesAreEqual_eq (cmp : Compare V) (a b : V) :
    cmp.valuesAreEqual a b =
      if Comparable cmp a b then .ok (decide (SameValue cmp a b)) else .error .valueError := by
  unfold Compare.valuesAreEqual Comparable SameValue
  by_cases ha : cmp.isPandas a = true
  · simp [ha]
  · by_cases hb : cmp.isPandas b = true
    · simp [ha, hb]
    · have : ∀ r : EqResult, r = .truth true ∨ r = .truth false ∨ r = .raises ∨ r = .ambiguous := by
        intro r
        cases r with
        | truth b => cases b <;> simp
        | raises => simp
        | ambiguous => simp
      rcases this (cmp.eq a b) with h | h | h | h <;> simp [ha, hb, h]

/-- The comparison of values as a `Bool`, as the other models have it. -/
@[reducible] def boolCompare (cmp : Compare V) : BEq V := ⟨fun a b => decide (SameValue cmp a b)⟩

theorem wouldUpdateLoop_total (cmp : Compare V) (h : ∀ a b, Comparable cmp a b) (c : Conf V)
    (l : List (String × V)) :
    cmp.wouldUpdateLoop c l = .ok (@Conf.wouldUpdateLoop V (boolCompare cmp) c l) := by
  induction l with
  | nil => rfl
  | cons e l ih =>
    obtain ⟨k, v⟩ := e
    rw [Compare.wouldUpdateLoop, @Conf.wouldUpdateLoop.eq_2 V (boolCompare cmp)]
    cases hk : c.values.get? k with
    | none => exact ih
    | some orig =>
      simp only [valuesAreEqual_eq, if_pos (h orig v)]
      show (if (!decide (SameValue cmp orig v)) = true then _ else _) =
        Except.ok (if (!decide (SameValue cmp orig v)) = true then _ else _)
      split
      · rfl
      · exact ih

theorem determine_total (cmp : Compare V) (h : ∀ a b, Comparable cmp a b) (c : Conf V) (d) (kw : Dict String V) :
    cmp.determineWouldUpdate c d kw = @CMM.determineWouldUpdate V (boolCompare cmp) c d kw := by
  unfold Compare.determineWouldUpdate CMM.determineWouldUpdate
  split
  · rfl
  · exact wouldUpdateLoop_total cmp h c _

theorem changeFromRefresh_total (cmp : Compare V) (h : ∀ a b, Comparable cmp a b) (c : Conf V)
    (file : Dict String V) :
    cmp.changeFromRefresh c file = .ok (@Conf.changeFromRefresh V (boolCompare cmp) c file) := by
  unfold Compare.changeFromRefresh Conf.changeFromRefresh Compare.wouldUpdate Conf.wouldUpdate
  simp only [wouldUpdateLoop_total cmp h]

theorem update_total (cmp : Compare V) (h : ∀ a b, Comparable cmp a b) (d) (p : Option (List String)) (persist : Bool)
    (kw : Dict String V) : cmp.update d p persist kw = @CMM.update V (boolCompare cmp) d p persist kw := by
  unfold Compare.update CMM.update
  simp only [determine_total cmp h]
  rfl

theorem liftE_ok {σ α : Type} (a : α) : (M.liftE (.ok a) : M PyErr σ α) = pure a := rfl

theorem refresh_total (cmp : Compare V) (h : ∀ a b, Comparable cmp a b) (p : List String) :
    cmp.refresh p = @CMM.refresh V (boolCompare cmp) p := by
  unfold Compare.refresh CMM.refresh
  simp only [changeFromRefresh_total cmp h, liftE_ok, pure_bind]
  rfl

theorem set_total (cmp : Compare V) (h : ∀ a b, Comparable cmp a b) (p : List String) (v : Node V) (create : Bool) :
    cmp.set p v create = @CMM.set V (boolCompare cmp) p v create := by
  unfold Compare.set CMM.set
  simp only [determine_total cmp h]
  rfl

theorem reset_total (cmp : Compare V) (h : ∀ a b, Comparable cmp a b) (p : Option (List String)) (create : Bool) :
    cmp.reset p create = @CMM.reset V (boolCompare cmp) p create := by
  cases p with
  | none => rfl
  | some p =>
    unfold Compare.reset CMM.reset
    simp only [set_total cmp h]

/-- The state after an operation of the config manager, with these comparisons. -/
def compareStep (cmp : Compare V) (s : CM V) : CMOp V → CM V
  | .update d p persist kw => (cmp.update d p persist kw s).2
  | .refresh p => (cmp.refresh p s).2
  | .get p => (CMM.get p s).2
  | .reset p allowCreate => (cmp.reset p allowCreate s).2
  | .pop key p => (CMM.pop key p s).2
  | .edit fs => { s with fs }

/-- C88, for values that can all be compared: pandas objects and values whose `==` raises included, the config
manager behaves after every history as one whose values are compared to `True` or `False`, a raising comparison
counting as different, so that everything proved about those holds. -/
theorem C88_comparable_partial (cmp : Compare V) (h : ∀ a b, Comparable cmp a b) (ops : List (CMOp V)) (s : CM V) :
    ops.foldl (compareStep cmp) s = ops.foldl (@CM.step V (boolCompare cmp)) s := by
  have : compareStep cmp = @CM.step V (boolCompare cmp) := by
    funext s op
    cases op <;> simp only [compareStep, CM.step, update_total cmp h, refresh_total cmp h, reset_total cmp h]
  rw [this]

/-- The entry at which the comparisons stop: it cannot be compared, and all those before it that the config has
are the same. -/
def StopsAt (cmp : Compare V) (c : Conf V) (l : List (String × V)) (k : String) (v : V) : Prop :=
  ∃ l1 l2 orig, l = l1 ++ (k, v) :: l2 ∧ c.values.get? k = some orig ∧ ¬ Comparable cmp orig v ∧
    ∀ e ∈ l1, ∀ o, c.values.get? e.1 = some o → Comparable cmp o e.2 ∧ SameValue cmp o e.2

theorem wouldUpdateLoop_error (cmp : Compare V) (c : Conf V) (l : List (String × V)) (e : PyErr) :
    cmp.wouldUpdateLoop c l = .error e ↔ e = .valueError ∧ ∃ k v, StopsAt cmp c l k v := by
  induction l with
  | nil =>
    constructor
    · intro h; cases h
    · rintro ⟨_, k, v, l1, l2, o, h, _⟩
      cases l1 <;> simp at h
  | cons x l ih =>
    obtain ⟨j, w⟩ := x
    rw [Compare.wouldUpdateLoop]
    have hcons : (∀ o, c.values.get? j = some o → Comparable cmp o w ∧ SameValue cmp o w) →
        ((∃ k v, StopsAt cmp c ((j, w) :: l) k v) ↔ ∃ k v, StopsAt cmp c l k v) := by
      intro hj
      constructor
      · rintro ⟨k, v, l1, l2, o, hl, ho, hn, hb⟩
        cases l1 with
        | nil =>
          injection hl with h1 h2
          injection h1 with h1 h3
          subst h1 h3
          exact absurd (hj o ho).1 hn
        | cons y l1 =>
          injection hl with h1 h2
          exact ⟨k, v, l1, l2, o, h2, ho, hn, fun e he => hb e (List.mem_cons_of_mem _ he)⟩
      · rintro ⟨k, v, l1, l2, o, hl, ho, hn, hb⟩
        refine ⟨k, v, (j, w) :: l1, l2, o, by rw [hl]; rfl, ho, hn, ?_⟩
        intro e he
        rcases List.mem_cons.1 he with he | he
        · subst he; exact hj
        · exact hb e he
    cases hk : c.values.get? j with
    | none =>
      simp only
      rw [ih, hcons (by intro o ho; rw [hk] at ho; cases ho)]
    | some orig =>
      simp only [valuesAreEqual_eq]
      by_cases hc : Comparable cmp orig w
      · rw [if_pos hc]
        simp only
        by_cases hs : SameValue cmp orig w
        · simp only [decide_eq_true hs, Bool.not_true, Bool.false_eq_true, if_false]
          rw [ih, hcons (by intro o ho; rw [hk] at ho; cases ho; exact ⟨hc, hs⟩)]
        · simp only [decide_eq_false hs, Bool.not_false, if_true]
          constructor
          · intro h; cases h
          · rintro ⟨_, k, v, l1, l2, o, hl, ho, hn, hb⟩
            cases l1 with
            | nil =>
              injection hl with h1 h2
              injection h1 with h1 h3
              subst h1 h3
              rw [hk] at ho; cases ho
              exact absurd hc hn
            | cons y l1 =>
              injection hl with h1 h2
              subst h1
              exact absurd (hb (j, w) (List.mem_cons_self ..) orig hk).2 hs
      · rw [if_neg hc]
        simp only
        constructor
        · intro h; cases h
          exact ⟨rfl, j, w, [], l, orig, rfl, hk, hc, by intro e he; cases he⟩
        · rintro ⟨he, _⟩
          rw [he]

/-- C88, exactly which updates fail because values cannot be compared: with a `ValueError`, those in which all
values before some value are the same as the ones the config has, and that value cannot be compared with the
one the config has. -/
theorem C88_raises (cmp : Compare V) (c : Conf V) (d : Option (Dict String V)) (kw : Dict String V)
    (hkw : Conf.clash CMM.determineReserved kw = false) (e : PyErr) :
    cmp.determineWouldUpdate c d kw = .error e ↔
      e = .valueError ∧ ∃ k v, StopsAt cmp c (((d.getD Dict.empty).update kw).update Dict.empty).items k v := by
  unfold Compare.determineWouldUpdate
  rw [if_neg (by simp [hkw])]
  cases d <;> exact wouldUpdateLoop_error cmp c _ e

/-- Looking up an item's own config: it is stored if it was not loaded yet. -/
theorem getProjectOrLocal_item {s : CM V} {p : List String} (hp : ConfigItem s p) {c : Conf V}
    (hc : ownConfig s p = .ok c) :
    ∃ s', CMM.getProjectOrLocal (some p) s = (.ok (some c), s') ∧ s'.view = s.view.setConf p c ∧ s'.fs = s.fs := by
  have hi := hp.isItem
  have hr := CMM.getFunc_ref (.inl hi)
  unfold CMM.Ref at hr
  rw [CMM.vload_item hi.item, ← ownConfig_eq hp, hc] at hr
  refine ⟨(CMM.getFuncOrSectionConfigs p s).2, ?_, (congrArg Prod.snd hr).symm, ?_⟩
  · show CMM.getFuncOrSectionConfigs p s = _
    exact Prod.ext (congrArg Prod.fst hr).symm rfl
  · have := congrArg View.fs (congrArg Prod.snd hr)
    exact this.symm

/-- Everything is as before; the config of `p` may be read from its file by now. -/
def ConfigsKept (p : List String) (s t : CM V) : Prop :=
  ConfigItem t p ∧ ownConfig t p = ownConfig s p ∧ t.fs = s.fs ∧ t.localConf = s.localConf ∧
    ∀ q, q ≠ p → t.view.slot q = s.view.slot q

theorem configsKept_of_view {s t : CM V} {p : List String} (hp : ConfigItem s p) {c : Conf V}
    (hc : ownConfig s p = .ok c) (hv : t.view = s.view.setConf p c) : ConfigsKept p s t := by
  have hit : ConfigItem t p := by
    refine ConfigItem.of_isItem ⟨hp.ne, ?_, ?_⟩
    · have h := congrArg View.rootName hv
      have : t.rootName = s.rootName := h
      rw [this]; exact hp.plain
    · rw [hv, View.setConf_slot_self]; rfl
  refine ⟨hit, ?_, congrArg View.fs hv, congrArg View.localConf hv, fun q hq => ?_⟩
  · rw [ownConfig_eq hit, hc, hv]; unfold View.own; rw [View.setConf_slot_self]
  · rw [hv, View.setConf_slot_ne _ _ hq]

/-- C88, what a comparison that fails leaves: an update, refresh or reset of an item that fails because values
cannot be compared changes nothing. -/
theorem C88_unchanged (cmp : Compare V) (s : CM V) (p : List String) (hp : ConfigItem s p) (c : Conf V)
    (hc : ownConfig s p = .ok c) (d : Option (Dict String V)) (persist : Bool) (kw : Dict String V) (e : PyErr)
    (he : cmp.determineWouldUpdate c d kw = .error e) :
    (cmp.update d (some p) persist kw s).1 = .error e ∧ ConfigsKept p s (cmp.update d (some p) persist kw s).2 := by
  obtain ⟨s', h1, h2, _⟩ := getProjectOrLocal_item hp hc
  have : cmp.update d (some p) persist kw s = (.error e, s') := by
    unfold Compare.update
    rw [M.bind_ok h1]
    simp only
    rw [M.bind_error (by rw [M.liftE_run, he])]
  rw [this]
  exact ⟨rfl, configsKept_of_view hp hc h2⟩

/-- The entry is in the dictionary of updates, with the values of all other keys as in the config. -/
def OnlyChange (cmp : Compare V) (c : Conf V) (l : Dict String V) (k : String) (v : V) : Prop :=
  l.get? k = some v ∧ ∀ j w o, j ≠ k → l.get? j = some w → c.values.get? j = some o →
    Comparable cmp o w ∧ SameValue cmp o w

theorem stopsAt_of_onlyChange {cmp : Compare V} {c : Conf V} {l : Dict String V} {k : String} {v orig : V}
    (h : OnlyChange cmp c l k v) (ho : c.values.get? k = some orig) (hn : ¬ Comparable cmp orig v) :
    StopsAt cmp c l.items k v := by
  obtain ⟨l1, l2, hl⟩ := List.append_of_mem ((Dict.mem_items_iff l k v).2 h.1)
  refine ⟨l1, l2, orig, hl, ho, hn, ?_⟩
  intro e he o ho'
  obtain ⟨j, w⟩ := e
  have hnd : (l.items.map Prod.fst).Nodup := l.nodup
  have hj : j ≠ k := by
    rintro rfl
    rw [hl, List.map_append, List.map_cons] at hnd
    have := (List.nodup_append.1 hnd).2.2 j (List.mem_map_of_mem (f := Prod.fst) he) j (List.mem_cons_self ..)
    exact this rfl
  exact h.2 j w o hj ((Dict.mem_items_iff l j w).1 (by rw [hl]; simp [he])) ho'

/-- C88 does not hold for arrays: if a config has a value under a key that cannot be compared with another one, as
an array of numbers with any array of its shape, no update can set the key to that one: every such update raises a
`ValueError`, for every state, item and persistence, and the config stays as it is. -/
theorem C88_update_violated (cmp : Compare V) (s : CM V) (p : List String) (hp : ConfigItem s p) (c : Conf V)
    (hc : ownConfig s p = .ok c) (k : String) (orig v : V) (ho : c.values.get? k = some orig)
    (hn : ¬ Comparable cmp orig v) (persist : Bool) (kw : Dict String V) (hk : OnlyChange cmp c kw k v)
    (hkw : Conf.clash CMM.determineReserved kw = false) :
    (cmp.update none (some p) persist kw s).1 = .error .valueError ∧
      ConfigsKept p s (cmp.update none (some p) persist kw s).2 := by
  apply C88_unchanged cmp s p hp c hc
  rw [C88_raises cmp c none kw hkw]
  refine ⟨rfl, k, v, ?_⟩
  have : ((Dict.empty.update kw).update Dict.empty) = kw := by simp
  simp only [Option.getD_none]
  rw [this]
  exact stopsAt_of_onlyChange hk ho hn

/-- C88 does not hold for refreshes either: if the file of a loaded config gives for a key a value that cannot be
compared with the one in the config (the same array, read again), and nothing else in it has changed, a
refresh raises a `ValueError` and changes nothing. -/
theorem C88_refresh_violated (cmp : Compare V) (s : CM V) (p : List String) (hp : ConfigItem s p) (c : Conf V)
    (hc : ownConfig s p = .ok c) (loc : FileLoc) (hf : c.file = some loc) (new : Dict String V)
    (hnew : s.fs.read loc = .ok new) (k : String) (orig v : V) (ho : c.values.get? k = some orig)
    (hn : ¬ Comparable cmp orig v) (hk : OnlyChange cmp c (new.update c.applied) k v) :
    (cmp.refresh p s).1 = .error .valueError ∧ ConfigsKept p s (cmp.refresh p s).2 := by
  obtain ⟨s', h1, h2, h3⟩ := getProjectOrLocal_item hp hc
  have hload : CMM.newConfigFromFile c s' = (.ok (Conf.ofFile loc new), s') := by
    unfold CMM.newConfigFromFile
    rw [M.bind_ok (M.get_run _), hf]
    simp only [M.liftE_run, h3, Files.load, hnew]
  have hchange : cmp.changeFromRefresh c new = .error .valueError := by
    unfold Compare.changeFromRefresh Compare.wouldUpdate
    have : ((new.update c.applied).update Dict.empty) = new.update c.applied := by simp
    simp only [this]
    rw [(wouldUpdateLoop_error cmp c _ .valueError).2 ⟨rfl, k, v, stopsAt_of_onlyChange hk ho hn⟩]
  have : cmp.refresh p s = (.error .valueError, s') := by
    unfold Compare.refresh
    rw [M.bind_ok h1]
    simp only
    rw [M.bind_ok hload, M.bind_error (by rw [M.liftE_run]; show (cmp.changeFromRefresh c new, s') = _; rw [hchange])]
  rw [this]
  exact ⟨rfl, configsKept_of_view hp hc h2⟩

/-- C88 does not hold for resets: an item cannot be reset if its file gives a value that cannot be compared with the
one in the config, and nothing else differs. -/
theorem C88_reset_violated (cmp : Compare V) (s : CM V) (p : List String) (hp : ConfigItem s p) (c : Conf V)
    (hc : ownConfig s p = .ok c) (create : Bool) (new : Dict String V) (hnew : FileGives s p new)
    (hres : Conf.clash CMM.determineReserved new = false) (k : String) (orig v : V)
    (ho : c.values.get? k = some orig) (hn : ¬ Comparable cmp orig v) (hk : OnlyChange cmp c new k v) :
    (cmp.reset (some p) create s).1 = .error .valueError ∧ ConfigsKept p s (cmp.reset (some p) create s).2 := by
  obtain ⟨s', h1, h2, h3⟩ := getProjectOrLocal_item hp hc
  have hd : CMM.getDefault s p create = .ok (.conf (Conf.ofFile (.item p) new)) := by
    have hr : s.fs.read (.item p) = .ok new := hnew
    unfold CMM.getDefault CMM.defaultKind
    rcases hp.found with ⟨c, h⟩ | ⟨l, h⟩ <;> rw [h] <;> simp [Files.load, hr, Except.map]
  have hw : cmp.determineWouldUpdate c none new = .error .valueError := by
    rw [C88_raises cmp c none new hres]
    refine ⟨rfl, k, v, ?_⟩
    have : ((Dict.empty.update new).update Dict.empty) = new := by simp
    simp only [Option.getD_none]
    rw [this]
    exact stopsAt_of_onlyChange hk ho hn
  have : cmp.reset (some p) create s = (.error .valueError, s') := by
    rw [Compare.reset.eq_2]
    rw [M.bind_ok (M.get_run _), M.bind_ok (by rw [M.liftE_run, hd])]
    unfold Compare.set
    rw [M.bind_ok (a := some c) (s' := s') (by unfold M.tryCatch; rw [show CMM.getFuncOrSectionConfigs p s = _ from h1])]
    simp only
    rw [M.bind_error (by rw [M.liftE_run]; show (cmp.determineWouldUpdate c none new, s') = _; rw [hw])]
  rw [this]
  exact ⟨rfl, configsKept_of_view hp hc h2⟩

/-- Numbers, where comparing anything with `0` gives an array of several elements, `1` is a pandas object and
comparing `2` raises. -/
def demoCompare : Compare Nat where
  isPandas a := a == 1
  pandasEquals a b := a == b
  eq a b := if a = 0 then .ambiguous else if a = 2 then .raises else .truth (a == b)

/-- The same without arrays: every two values can be compared. -/
def demoTotal : Compare Nat where
  isPandas a := a == 1
  pandasEquals a b := a == b
  eq a b := if a = 2 then .raises else .truth (a == b)

example : ∀ a b, Comparable demoTotal a b := by
  intro a b
  refine .inr (.inr ?_)
  unfold demoTotal
  simp only
  split <;> simp

/-- An item with the file `x = array; y = 5`. -/
def arrayFiles : Files Nat where
  read
    | .item ["f"] => .ok (Dict.ofList [("x", 0), ("y", 5)])
    | _ => .error .osError
  tree := .mk false ["f"] []

def arrayDemo : CM Nat where
  fs := arrayFiles
  rootName := "defaults"
  root := .sect none [] [("f", .file (.item ["f"]))]
  localConf := Conf.ofDict Dict.empty

example : CM.load arrayFiles "defaults" = .ok arrayDemo := rfl

theorem arrayDemo_item : ConfigItem arrayDemo ["f"] := ⟨by simp, by decide, .inr ⟨.item ["f"], rfl⟩⟩

theorem arrayDemo_change (kw : Dict String Nat) (h : kw.get? "x" = some 0) (h5 : kw.get? "y" = some 5 ∨ kw.get? "y" = none) :
    OnlyChange demoCompare (Conf.ofFile (.item ["f"]) (Dict.ofList [("x", 0), ("y", 5)])) kw "x" 0 := by
  refine ⟨h, ?_⟩
  intro j w o hj hw ho
  have hmem := (Dict.mem_items_iff _ j o).2 ho
  have hit : (Conf.ofFile (.item ["f"]) (Dict.ofList [("x", 0), ("y", 5)])).values.items = [("x", 0), ("y", 5)] := rfl
  rw [hit] at hmem
  simp only [List.mem_cons, Prod.mk.injEq, List.not_mem_nil, or_false] at hmem
  rcases hmem with ⟨h1, _⟩ | ⟨h1, h2⟩
  · exact absurd h1 hj
  · subst h1 h2
    rcases h5 with h5 | h5
    · rw [h5] at hw; cases hw; decide
    · rw [h5] at hw; cases hw

/-- Setting the array to itself, refreshing and resetting all raise. -/
example : (demoCompare.update none (some ["f"]) true (Dict.ofList [("x", 0)]) arrayDemo).1 = .error .valueError :=
  (C88_update_violated demoCompare arrayDemo ["f"] arrayDemo_item _ rfl "x" 0 0 (by decide) (by decide) true _
    (arrayDemo_change _ (by decide) (.inr (by decide))) (by decide)).1

example : (demoCompare.refresh ["f"] arrayDemo).1 = .error .valueError :=
  (C88_refresh_violated demoCompare arrayDemo ["f"] arrayDemo_item _ rfl (.item ["f"]) rfl _ rfl "x" 0 0 (by decide)
    (by decide) (arrayDemo_change _ (by decide) (.inl (by decide)))).1

example : (demoCompare.reset (some ["f"]) false arrayDemo).1 = .error .valueError :=
  (C88_reset_violated demoCompare arrayDemo ["f"] arrayDemo_item _ rfl false _ rfl (by decide) "x" 0 0 (by decide)
    (by decide) (arrayDemo_change _ (by decide) (.inl (by decide)))).1

/-- If a value before it differs, the array is not looked at, and is replaced. -/
example : ((demoCompare.update none (some ["f"]) true (Dict.ofList [("y", 6), ("x", 0)]) arrayDemo).1.toOption.map
    Prod.snd) = some true := by decide +kernel

end Verif.Props

import Verif.Props.Product

/-
Property theorems about what an iterative run leaves behind, and about running again: C95.
-/

namespace Verif.Props
open Verif.Py Verif.Model

variable {V : Type}

/-! ## C95 -/

/-! ### Specification -/

section
variable [BEq V]

/-- What can happen to a runner since it was created, when nothing else changes the configs: runs
of any of its cases that succeeded, and cases that failed before any other had succeeded. -/
inductive Rounds (h : IterHooks V) (s1 : Mgrs V) (r : IRunner V) : IState V → Prop where
  | start : Rounds h s1 r ⟨s1, none⟩
  | ran (t t' : IState V) (shouldRun : List (Upd V) → Bool) (collect : Bool) (cs : List (List (Upd V)))
      (results : List (List (Upd V) × IRes V)) : Rounds h s1 r t → (∀ c ∈ cs, c ∈ r.cases) →
      r.run h shouldRun collect cs t = (.ok results, t') → Rounds h s1 r t'
  | failed (t t1 t' : IState V) (c filled : List (Upd V)) (e : PyErr) : Rounds h s1 r t → t.last = none →
      c ∈ r.cases → r.applyCase h c t = (.ok filled, t1) → r.runCase h c t = (.error e, t') → Rounds h s1 r t'

/-- The configuration an item of a case should have: what the case names, and else what the item
had. -/
def CaseGives (s0 : Mgrs V) (r : IRunner V) (c : List (Upd V)) (s : Mgrs V) : Prop :=
  ∀ u ∈ c, ∀ m p, Targets r.base r.strip u m p → ∃ d d', activeAt s0 m p = some d ∧
    activeAt s m p = some d' ∧ ∀ k, ¬ (k ∈ u.kw.keys ∧ DefinedAround s0 m p k) →
      d'.get? k = (u.kw.get? k).or (d.get? k)

/-- The items that no case is for have the configuration they had. -/
def OthersKeep (s0 : Mgrs V) (r : IRunner V) (s : Mgrs V) : Prop :=
  ∀ m q, ItemAt s0 m q → (∀ c ∈ r.cases, ∀ u ∈ c, ¬ Targets r.base r.strip u m q) →
    activeAt s m q = activeAt s0 m q

/-! ### Lemmas -/

theorem Iter.dictEq_refl (hv : ∀ v : V, (v == v) = true) (d : Dict String V) : dictEq d d = true := by
  unfold dictEq
  simp only [beq_self_eq_true, Bool.true_and, List.all_eq_true]
  intro e he
  rw [(Dict.mem_items_iff d e.1 e.2).1 he]
  exact hv e.2

theorem Iter.updEq_refl (hv : ∀ v : V, (v == v) = true) (u : Upd V) : u.eq u = true := by
  unfold Upd.eq
  simp only [decide_true, Bool.true_and, Iter.dictEq_refl hv]
  cases u.d with
  | none => rfl
  | some x => exact Iter.dictEq_refl hv x

theorem Iter.changed_same (hv : ∀ v : V, (v == v) = true) (l : List (Upd V)) : IRunner.changed (some l) l = [] := by
  unfold IRunner.changed
  rw [List.filter_eq_nil_iff]
  intro u hu
  simp only [Bool.not_eq_true', Bool.not_eq_false, List.any_eq_true]
  exact ⟨u, hu, Iter.updEq_refl hv u⟩

theorem PlainRunner.inv0 {h : IterHooks V} {s0 s1 : Mgrs V} {r : IRunner V}
    (hr : PlainRunner h s0 s1 r) : Iter.Inv s1 r ⟨s1, none⟩ := by
  obtain ⟨hf0, hcalm, hf1, hset', hruns⟩ := hr.facts
  refine ⟨⟨.refl hf1, hf1, ?_, fun _ _ _ _ => rfl⟩, fun l hl => by cases hl⟩
  intro m p D hT
  obtain ⟨g, c, hg, _, ho, _, hv⟩ := (hset' m p D hT).1
  exact ⟨c, ⟨g, hg, ho⟩, by rw [hv]; exact fun k => Iff.rfl⟩

/-- `_run` only looks configs up. -/
theorem PlainRunner.calm (he : EqIsSame V) {h : IterHooks V} {s0 s1 : Mgrs V} {r : IRunner V}
    (hr : PlainRunner h s0 s1 r) {t t' : IState V} (hinv : Iter.Inv s1 r t) {c filled : List (Upd V)}
    (hc : c ∈ r.cases) (happ : r.applyCase h c t = (.ok filled, t')) :
    Iter.Good s1 (Iter.Tgt r) t'.mgrs ∧ Iter.MCalm t'.mgrs (r.runOnce h t'.mgrs).2 ∧
      Iter.Good s1 (Iter.Tgt r) (r.runOnce h t'.mgrs).2 := by
  obtain ⟨hf0, hcalm, hf1, hset', hruns⟩ := hr.facts
  have hset := fun m p D hT => (hset' m p D hT).1
  obtain ⟨-, -, a3, -⟩ := Iter.applyCase_spec he hcalm hf1 hset hr.preBatch (hr.cases c hc) hinv happ
  have hrc := Iter.runOnce_calm hr.plugins r t'.mgrs a3.filed (Iter.Runs.shape a3.shape hruns)
  exact ⟨a3, hrc.1, a3.calm hset hf1 hrc.1 hrc.2⟩

theorem Rounds.inv (he : EqIsSame V) {h : IterHooks V} {s0 s1 : Mgrs V} {r : IRunner V}
    (hr : PlainRunner h s0 s1 r) {t : IState V} (ht : Rounds h s1 r t) : Iter.Inv s1 r t := by
  induction ht with
  | start => exact hr.inv0
  | ran t t' shouldRun collect cs results _ hcs hran ih =>
    obtain ⟨hf0, hcalm, hf1, hset', hruns⟩ := hr.facts
    exact Iter.run_spec he hcalm hf1 (fun m p D hT => (hset' m p D hT).1) hr.preBatch hr.plugins hruns cs
      (fun c hc => hr.cases c (hcs c hc)) ih hran
  | failed t t1 t' c filled e _ hl hc happ hrun ih =>
    obtain ⟨-, -, hg⟩ := hr.calm he ih hc happ
    have hlast : t1.last = none := by
      obtain ⟨hf0, hcalm, hf1, hset', hruns⟩ := hr.facts
      obtain ⟨-, a2, -⟩ := Iter.applyCase_spec he hcalm hf1 (fun m p D hT => (hset' m p D hT).1) hr.preBatch
        (hr.cases c hc) ih happ
      rw [a2, hl]
    unfold IRunner.runCase at hrun
    rw [M.bind_ok happ, M.bind_run] at hrun
    unfold IRunner.liftB at hrun
    cases hro : r.runOnce h t1.mgrs with
    | mk y t2 =>
      rw [hro] at hrun hg
      cases y with
      | ok v =>
        simp only at hrun
        rw [M.bind_ok (M.modify_run _ _)] at hrun
        cases hrun
      | error e' =>
        cases hrun
        exact ⟨hg, fun l h => by rw [hlast] at h; cases h⟩

omit [BEq V] in
/-- Lookups change no active configuration. -/
theorem Iter.MCalm.activeAt {s t : Mgrs V} (h : Iter.MCalm s t) {m : String} {p : List String}
    (hi : Iter.ItemOf s m p) : Props.activeAt t m p = Props.activeAt s m p := by
  rw [Iter.activeAt_eq (Iter.MShape.itemOf h.shape hi), Iter.activeAt_eq hi]
  obtain ⟨g0, hg0, hig0⟩ := hi
  obtain ⟨g1, hg1, hc1⟩ := h m g0 hg0
  unfold Iter.shownOf
  rw [hg0, hg1]
  simp only [Option.map_some]
  rw [hc1.cm.shownConf hig0]

/-! ### Theorems -/

/-- C95 (missing, as for C32: cases given by `d_` or with keys the config does not have, keys that
sections around the item define, and run items that are sections with classes).  A runner can be used again:
after any number of runs that succeeded, of all or some of its cases, and after cases that failed
before any had succeeded, a case gives each of its items what it names, and else the values from when
the runner was created. -/
theorem C95_again_partial (he : EqIsSame V) (h : IterHooks V) (s0 s1 : Mgrs V) (r : IRunner V)
    (hr : PlainRunner h s0 s1 r) (t : IState V) (ht : Rounds h s1 r t)
    (c : List (Upd V)) (hc : c ∈ r.cases) (filled : List (Upd V)) (t' : IState V)
    (happ : r.applyCase h c t = (.ok filled, t')) :
    CaseGives s0 r c t'.mgrs ∧ OthersKeep s0 r t'.mgrs :=
  hr.case he (ht.inv he hr) c hc filled t' happ

/-- C95 (missing: as above).  After the run of a case, finished or failed, the items that no case
is for have the configuration they had before; but the items of the case keep what the case gave
them: nothing is restored. -/
theorem C95_after_partial (he : EqIsSame V) (h : IterHooks V) (s0 s1 : Mgrs V) (r : IRunner V)
    (hr : PlainRunner h s0 s1 r) (t : IState V) (ht : Rounds h s1 r t)
    (c : List (Upd V)) (hc : c ∈ r.cases) (filled : List (Upd V)) (t' : IState V)
    (happ : r.applyCase h c t = (.ok filled, t')) (out : Except PyErr (IRes V)) (t2 : IState V)
    (hrun : r.runCase h c t = (out, t2)) :
    CaseGives s0 r c t2.mgrs ∧ OthersKeep s0 r t2.mgrs ∧
    (out.isOk = true → t2.last = some filled) ∧ (out.isOk = false → t2.last = t.last) := by
  have hinv := ht.inv he hr
  obtain ⟨h1, h2⟩ := hr.case he hinv c hc filled t' happ
  obtain ⟨hg, hcalm2, -⟩ := hr.calm he hinv hc happ
  obtain ⟨hf0, hcalm, hf1, hset', hruns⟩ := hr.facts
  have hlast : t'.last = t.last :=
    (Iter.applyCase_spec he hcalm hf1 (fun m p D hT => (hset' m p D hT).1) hr.preBatch (hr.cases c hc) hinv happ).2.1
  have hitem : ∀ m p, ItemAt s0 m p → Iter.ItemOf t'.mgrs m p := fun m p hi =>
    Iter.MShape.itemOf hg.shape (Iter.MShape.itemOf hcalm.shape (Iter.itemAt_itemOf hi))
  have hmgrs : t2.mgrs = (r.runOnce h t'.mgrs).2 ∧ (out.isOk = true → t2.last = some filled) ∧
      (out.isOk = false → t2.last = t'.last) := by
    unfold IRunner.runCase at hrun
    rw [M.bind_ok happ, M.bind_run] at hrun
    unfold IRunner.liftB at hrun
    cases hro : r.runOnce h t'.mgrs with
    | mk y s2 =>
      rw [hro] at hrun
      cases y with
      | ok v =>
        simp only at hrun
        rw [M.bind_ok (M.modify_run _ _)] at hrun
        cases hrun
        exact ⟨rfl, fun _ => rfl, fun h => by cases h⟩
      | error e' =>
        cases hrun
        exact ⟨rfl, fun h => (by cases h), fun _ => rfl⟩
  refine ⟨?_, ?_, hmgrs.2.1, fun hh => by rw [hmgrs.2.2 hh, hlast]⟩
  · intro u hu m p htg
    obtain ⟨d, d', e1, e2, e3⟩ := h1 u hu m p htg
    refine ⟨d, d', e1, ?_, e3⟩
    obtain ⟨m', p', ht', hi⟩ := (hr.cases c hc).item u hu
    obtain ⟨rfl, rfl⟩ := Iter.Targets.unique htg ht'
    rw [hmgrs.1, hcalm2.activeAt (hitem m p hi), e2]
  · intro m q hi hn
    rw [hmgrs.1, hcalm2.activeAt (hitem m q hi), h2 m q hi hn]

omit [BEq V] in
/-- C95.  The case that was the last to finish is not applied when it is the next to be run,
whatever has happened to the configs since: to another case that failed, for example.  (Plugins
that add updates to a batch are left out.) -/
theorem C95_skipped [BEq V] (hv : ∀ v : V, (v == v) = true) (h : IterHooks V) (hh : h.preBatch = fun _ => [])
    (r : IRunner V) (c filled : List (Upd V)) (t : IState V) (hf : r.fill c = .ok filled)
    (hl : t.last = some filled) : r.applyCase h c t = (.ok filled, t) := by
  unfold IRunner.applyCase
  rw [M.bind_run, M.liftE_run, hf]
  simp only
  rw [M.bind_run]
  unfold IRunner.updateForCase
  rw [M.bind_ok (M.get_run t), hl, Iter.changed_same hv]
  unfold IRunner.liftB BM.update
  rw [hh]
  rfl

/-- C95 (missing: as above).  After a case finished and another one failed, the first case, run
again, does not get its configuration: its items keep what the failed case gave them. -/
theorem C95_failed_violated (he : EqIsSame V) (hv : ∀ v : V, (v == v) = true) (h : IterHooks V)
    (s0 s1 : Mgrs V) (r : IRunner V) (hr : PlainRunner h s0 s1 r) (t : IState V) (ht : Rounds h s1 r t)
    (c1 c2 : List (Upd V)) (h1 : c1 ∈ r.cases) (h2 : c2 ∈ r.cases) (res : IRes V) (t1 : IState V)
    (hrun1 : r.runCase h c1 t = (.ok res, t1)) (filled : List (Upd V)) (t' : IState V)
    (happ : r.applyCase h c2 t1 = (.ok filled, t')) (e : PyErr) (t2 : IState V)
    (hrun2 : r.runCase h c2 t1 = (.error e, t2)) :
    (∃ f, r.applyCase h c1 t2 = (.ok f, t2)) ∧ CaseGives s0 r c2 t2.mgrs := by
  have happ1 : ∃ f t3, r.applyCase h c1 t = (.ok f, t3) := by
    unfold IRunner.runCase at hrun1
    rw [M.bind_run] at hrun1
    cases ha : r.applyCase h c1 t with
    | mk x t3 =>
      rw [ha] at hrun1
      cases x with
      | error e => cases hrun1
      | ok f => exact ⟨f, t3, rfl⟩
  obtain ⟨f, t3, happ1⟩ := happ1
  have hfill : r.fill c1 = .ok f := by
    unfold IRunner.applyCase at happ1
    rw [M.bind_run, M.liftE_run] at happ1
    cases hf : r.fill c1 with
    | error e => rw [hf] at happ1; cases happ1
    | ok f' =>
      rw [hf] at happ1
      simp only at happ1
      rw [M.bind_run] at happ1
      cases hu : IRunner.updateForCase h r f' t with
      | mk x t4 =>
        rw [hu] at happ1
        cases x with
        | error e => cases happ1
        | ok a => cases happ1; rfl
  obtain ⟨-, -, hl1, -⟩ := C95_after_partial he h s0 s1 r hr t ht c1 h1 f t3 happ1 _ t1 hrun1
  have ht1 : Rounds h s1 r t1 := by
    refine .ran t t1 (fun _ => true) false [c1] [] ht (fun c hc => by rw [List.mem_singleton.1 hc]; exact h1) ?_
    unfold IRunner.run
    simp only [Bool.not_true, Bool.false_eq_true, if_false]
    rw [M.bind_ok hrun1]
    rfl
  obtain ⟨a1, -, -, a4⟩ := C95_after_partial he h s0 s1 r hr t1 ht1 c2 h2 filled t' happ _ t2 hrun2
  refine ⟨⟨f, C95_skipped hv h hr.preBatch r c1 f t2 hfill ?_⟩, a1⟩
  rw [a4 rfl, hl1 rfl]

end

/-! ### Not vacuous, and where it fails -/

/-- A function that raises for `a = 2`. -/
def pickyFunc : Callable Nat := { demoFunc with
  app := fun d => if d.get? "a" = some 2 then .error .valueError else demoFunc.app d }

/-- A project with it. -/
def pickyMgrs : Mgrs Nat :=
  Dict.ofList [("one", ⟨⟨false, false⟩, ⟨{ plainRunner with reg := ⟨[], .coll false [("func", .item pickyFunc)]⟩ }, []⟩⟩)]

/-- An update of it. -/
def pickyUpd (k : String) (n : Nat) : Upd Nat := ⟨some (.str "one.func"), none, none, Dict.ofList [(k, n)]⟩

/-- What `one.func` has. -/
def funcConf (s : Mgrs Nat) : Option (Option Nat × Option Nat) :=
  (activeAt s "one" ["func"]).map (fun d => (d.get? "a", d.get? "b"))

/-- The runner of the cases `a = 1` and `a = 2` of it, and the managers after its creation. -/
def pickyMgrs1 : Mgrs Nat :=
  (IRunner.new IterHooks.none (.inl (.str "one.func")) [pickyUpd "a" 1, pickyUpd "a" 2] none false pickyMgrs).2

theorem pickyIter_plain : PlainRunner IterHooks.none pickyMgrs pickyMgrs1 plainIter := by
  have hget : ∀ (m : String) (g : Mgr Nat), pickyMgrs.get? m = some g →
      g = ⟨⟨false, false⟩, ⟨{ plainRunner with reg := ⟨[], .coll false [("func", .item pickyFunc)]⟩ }, []⟩⟩ := by
    intro m g h
    have h2 := (Dict.mem_items_iff _ _ _).2 h
    have : pickyMgrs.items = [("one", ⟨⟨false, false⟩,
      ⟨{ plainRunner with reg := ⟨[], .coll false [("func", .item pickyFunc)]⟩ }, []⟩⟩)] := by rfl
    rw [this] at h2
    simp only [List.mem_cons, Prod.mk.injEq, List.not_mem_nil, or_false] at h2
    exact h2.2
  have hact : activeAt pickyMgrs "one" ["func"] = some (Dict.ofList [("a", 0), ("b", 0), ("c", 0)]) := by
    decide +kernel
  refine ⟨rfl, rfl, ?_, ⟨.inl (.str "one.func"), _, Prod.ext (by rfl) rfl⟩, by decide, ?_, ?_⟩
  · intro m g hg
    rw [hget m g hg]
    exact ⟨_, [], ⟨rfl, rfl, plainFiles, "defaults", rfl⟩, by simp, rfl⟩
  · intro c hc
    obtain ⟨n, -, rfl⟩ := List.mem_map.1 hc
    refine ⟨by simp, ?_, ?_, ?_⟩
    · intro u hu
      rw [List.mem_singleton.1 hu]
    · intro u hu
      rw [List.mem_singleton.1 hu]
      exact ⟨_, _, ⟨_, rfl, plain_target⟩, ⟨_, rfl, plain_item⟩⟩
    · intro u hu m p d ht ha
      rw [List.mem_singleton.1 hu] at ht ⊢
      obtain ⟨rfl, rfl⟩ := Iter.Targets.unique ht ⟨_, rfl, plain_target⟩
      rw [hact] at ha
      cases ha
      exact ⟨fun k hk => by
        have : k = "a" := by simpa [Dict.keys, Dict.ofList, Dict.setAll, Dict.set, AList.set, Dict.empty] using hk
        rw [this]; decide +kernel, by decide +kernel⟩
  · intro sp hsp
    unfold plainIter at hsp
    simp only [List.mem_cons, List.not_mem_nil, or_false] at hsp
    subst hsp
    exact ⟨"one", ["func"], _, by decide +kernel, rfl, .inl ⟨plain_item, pickyFunc, rfl⟩⟩

/-- The hypotheses of `C95_failed_violated` can be met. -/
example : ∃ c1 c2 res t1 filled t' t2, c1 ∈ plainIter.cases ∧ c2 ∈ plainIter.cases ∧
    plainIter.runCase IterHooks.none c1 ⟨pickyMgrs1, none⟩ = (.ok res, t1) ∧
    plainIter.applyCase IterHooks.none c2 t1 = (.ok filled, t') ∧
    plainIter.runCase IterHooks.none c2 t1 = (.error .valueError, t2) :=
  ⟨_, _, _, _, _, _, _, List.mem_cons_self, List.mem_cons_of_mem _ List.mem_cons_self, rfl, rfl, rfl⟩

/-- The plain runner can be used again: its second run has the results of the first. -/
example : ∃ t results t' results', plainIter.run IterHooks.none (fun _ => true) true plainIter.cases ⟨plainMgrs1, none⟩ =
      (.ok results, t) ∧
    Rounds IterHooks.none plainMgrs1 plainIter t ∧
    plainIter.run IterHooks.none (fun _ => true) true plainIter.cases t = (.ok results', t') ∧
    results.map (fun x => demoResult x.2) = [some 100, some 200] ∧
    results'.map (fun x => demoResult x.2) = [some 100, some 200] :=
  ⟨_, _, _, _, rfl, .ran _ _ (fun _ => true) true plainIter.cases _ .start (fun _ h => h) rfl, rfl, by decide +kernel, by decide +kernel⟩

/-- C95 fails: after a run of two cases that finished, the item has the values of the last one. -/
theorem C95_stay_violated :
    ∃ r s1 results t, IRunner.new IterHooks.none (.inl (.str "one.func")) [pickyUpd "a" 1, pickyUpd "a" 3] none false
        pickyMgrs = (.ok r, s1) ∧
      r.run IterHooks.none (fun _ => true) true r.cases ⟨s1, none⟩ = (.ok results, t) ∧
      funcConf pickyMgrs = some (some 0, some 0) ∧ funcConf t.mgrs = some (some 3, some 0) :=
  ⟨_, _, _, _, rfl, rfl, by decide +kernel, by decide +kernel⟩

/-- C95 fails for a new runner: it takes the values of the last case of the old one for those that
its cases do not name. -/
theorem C95_new_violated :
    ∃ r s1 results t r' s2 results', IRunner.new IterHooks.none (.inl (.str "one.func"))
        [pickyUpd "a" 1, pickyUpd "a" 3] none false pickyMgrs = (.ok r, s1) ∧
      r.run IterHooks.none (fun _ => true) true r.cases ⟨s1, none⟩ = (.ok results, t) ∧
      IRunner.new IterHooks.none (.inl (.str "one.func")) [pickyUpd "b" 1] none false t.mgrs = (.ok r', s2) ∧
      (r'.run IterHooks.none (fun _ => true) true r'.cases ⟨s2, none⟩).1 = .ok results' ∧
      results'.map (fun x => demoResult x.2) = [some 310] :=
  ⟨_, _, _, _, _, _, _, rfl, rfl, rfl, rfl, by decide +kernel⟩

/-- C95 fails after a failure: the case with `a = 1` finishes in the first run, and the one with
`a = 2` raises; run again, the case with `a = 1` raises as well, because its update is skipped. -/
theorem C95_raises_violated :
    ∃ r s1 c1 c2 res t1 t2 t3, IRunner.new IterHooks.none (.inl (.str "one.func"))
        [pickyUpd "a" 1, pickyUpd "a" 2] none false pickyMgrs = (.ok r, s1) ∧ r.cases = [c1, c2] ∧
      r.runCase IterHooks.none c1 ⟨s1, none⟩ = (.ok res, t1) ∧ demoResult res = some 100 ∧
      r.runCase IterHooks.none c2 t1 = (.error .valueError, t2) ∧
      r.run IterHooks.none (fun _ => true) true r.cases ⟨s1, none⟩ = (.error .valueError, t2) ∧
      r.runCase IterHooks.none c1 t2 = (.error .valueError, t3) ∧ funcConf t3.mgrs = some (some 2, some 0) :=
  ⟨_, _, _, _, _, _, _, _, rfl, rfl, rfl, by decide +kernel, rfl, rfl, rfl, by decide +kernel⟩

/-- A case that fails before any other has finished does no harm: the other one gets its values. -/
example : ∃ r s1 c1 c2 t1 t2 res, IRunner.new IterHooks.none (.inl (.str "one.func"))
        [pickyUpd "a" 2, pickyUpd "b" 1] none false pickyMgrs = (.ok r, s1) ∧ r.cases = [c1, c2] ∧
      r.runCase IterHooks.none c1 ⟨s1, none⟩ = (.error .valueError, t1) ∧
      r.runCase IterHooks.none c2 t1 = (.ok res, t2) ∧ demoResult res = some 10 :=
  ⟨_, _, _, _, _, _, _, rfl, rfl, rfl, rfl, by decide +kernel⟩

end Verif.Props

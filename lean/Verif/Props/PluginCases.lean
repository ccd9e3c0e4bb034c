import Verif.Props.Repeat

/-
Property theorems about the cases that plugins give to an iterative run: C106.
-/

namespace Verif.Props
open Verif.Py Verif.Model

variable {V : Type}

/-! ## C106 -/

/-! ### Specification -/

/-- The first case names everything that a case names. -/
def FirstNames (cases : List (List (Upd V))) (c : List (Upd V)) : Prop :=
  ∃ first rest, cases = first :: rest ∧ ∀ u ∈ c, ∃ v ∈ first, v.path = u.path

/-- All cases name the same. -/
def SamePaths (cases : List (List (Upd V))) : Prop :=
  ∀ c ∈ cases, ∀ c' ∈ cases, ∀ u ∈ c, ∃ v ∈ c', v.path = u.path

/-! ### Lemmas -/

namespace Iter

theorem SectionPath_inj {a b : SectionPath} (h : a.sections = b.sections) : a = b := by
  cases a; cases b
  have := congrArg (join '.') h
  simp only [SectionPath.sections, join_split] at this
  rw [this]

theorem fullPath_inj {base : Option String} {s s' : String} (h : fullPath base s = fullPath base s') : s = s' := by
  have key : ∀ x : String, (⟨x⟩ : SectionPath) = ⟨s'⟩ → x = s' := fun x hx => congrArg SectionPath.pathStr hx
  unfold fullPath at h
  cases base with
  | none => exact key _ h
  | some b =>
    simp only at h
    split at h
    · exact key _ h
    · have := congrArg SectionPath.sections h
      rw [joinSP_sections, joinSP_sections] at this
      exact key _ (SectionPath_inj (List.append_cancel_left this))

/-- Every path looked up gets defaults. -/
theorem defaultsLoop_total (sps : List SectionPath) (s : Mgrs V) (hf : Filed s)
    (hi : ∀ sp ∈ sps, ∃ m p, sp.sections = m :: p ∧ ItemOf s m p) (acc : Dict String (Dict String V))
    (d : Dict String (Dict String V)) (t : Mgrs V) (hok : IRunner.defaultsLoop acc sps s = (.ok d, t)) :
    (∀ key, (acc.get? key).isSome = true → (d.get? key).isSome = true) ∧
    ∀ sp ∈ sps, (d.get? sp.pathStr).isSome = true := by
  induction sps generalizing s acc with
  | nil =>
    cases hok
    exact ⟨fun _ h => h, fun _ h => by cases h⟩
  | cons sp sps ih =>
    obtain ⟨m, p, h1, g, h2, h3⟩ := hi sp List.mem_cons_self
    unfold IRunner.defaultsLoop at hok
    rw [M.bind_run, onManager_run h1 h2, relative_eq h1 h3.ne] at hok
    simp only [MM.liftR, RM.liftC] at hok
    have hcm := CM.calm_get (hf m g h2) h3
    generalize hg' : ({ g with ms := { g.ms with rs := { g.ms.rs with cm := (CMM.get p g.ms.rs.cm).2 } } } : Mgr V) = g' at hok
    have hcm' : RS.Calm g.ms.rs g'.ms.rs := by subst hg'; exact ⟨rfl, hcm⟩
    have hc := MCalm.set (g' := g') hf h2 hcm'
    have hf' := Filed.set (m := m) (g' := g') hf hcm'.cm.files
    have hi' : ∀ sp' ∈ sps, ∃ m1 p1, sp'.sections = m1 :: p1 ∧ ItemOf (s.set m g') m1 p1 := by
      intro sp' hsp'
      obtain ⟨m', p', e1, e2⟩ := hi sp' (List.mem_cons_of_mem _ hsp')
      exact ⟨m', p', e1, hc.shape.itemOf e2⟩
    cases ho : g.ms.rs.cm.view.own p with
    | error e =>
      rw [(CMM.get_of_own_error h3 ho).1] at hok
      cases hok
    | ok c =>
      obtain ⟨e1, e2⟩ := CMM.get_of_own h3 ho
      rw [e1] at hok
      simp only at hok
      obtain ⟨i1, i2⟩ := ih _ hf' hi' _ hok
      refine ⟨?_, ?_⟩
      · intro key hk
        apply i1
        rw [Dict.get?_set]
        split
        · rfl
        · exact hk
      · intro sp' hsp'
        rcases List.mem_cons.1 hsp' with rfl | h
        · apply i1
          rw [Dict.get?_set_self]
          rfl
        · exact i2 sp' h

theorem fullPaths_total {base : Option String} {c : List (Upd V)} {sps : List SectionPath}
    (h : IRunner.fullPaths base c = .ok sps) {u : Upd V} (hu : u ∈ c) {s : String} (hs : u.path = some (.str s)) :
    fullPath base s ∈ sps := by
  induction c generalizing sps with
  | nil => cases hu
  | cons v us ih =>
    unfold IRunner.fullPaths at h
    cases hp : v.pathStr with
    | error e => rw [hp] at h; cases h
    | ok s' =>
      rw [hp] at h
      simp only [bind, Except.bind] at h
      cases hf : IRunner.fullPaths base us with
      | error e => rw [hf] at h; cases h
      | ok rest =>
        rw [hf] at h
        simp only [pure, Except.pure, Except.ok.injEq] at h
        subst h
        rcases List.mem_cons.1 hu with rfl | hu
        · unfold Upd.pathStr at hp
          rw [hs] at hp
          cases hp
          exact List.mem_cons_self
        · exact List.mem_cons_of_mem _ (ih hf hu)

/-- The paths with defaults are those of the first case. -/
theorem defaults_iff {h : IterHooks V} {items : PathLike ⊕ List PathLike} {us : List (Upd V)}
    {base : Option String} {strip : Bool} (hb : base ≠ some "") {s0 s1 : Mgrs V} {r : IRunner V} (hf : Filed s0)
    (hnew : IRunner.new h items us base strip s0 = (.ok r, s1))
    (hc : ∀ c ∈ r.cases, PlainCase s0 base strip c) :
    IRunner.getCases h us = .ok r.cases ∧ ∃ first rest, r.cases = first :: rest ∧ ∀ s,
      (r.defaults.get? (fullPath base s).pathStr).isSome = true ↔ ∃ v ∈ first, v.path = some (.str s) := by
  unfold IRunner.new at hnew
  rw [M.bind_run, M.liftE_run] at hnew
  cases hri : SectionPath.listFromAmbiguous items strip base with
  | error e => rw [hri] at hnew; cases hnew
  | ok ri =>
    rw [hri] at hnew
    simp only at hnew
    rw [M.bind_run, M.liftE_run] at hnew
    cases hcs : IRunner.getCases h us with
    | error e => rw [hcs] at hnew; cases hnew
    | ok cs =>
      rw [hcs] at hnew
      simp only at hnew
      rw [M.bind_run] at hnew
      cases hd : IRunner.getDefaults base cs s0 with
      | mk x t =>
        rw [hd] at hnew
        cases x with
        | error e => cases hnew
        | ok ds =>
          simp only at hnew
          cases hnew
          cases cs with
          | nil => cases hd
          | cons c cs =>
            unfold IRunner.getDefaults at hd
            simp only at hd
            rw [M.bind_run, M.liftE_run] at hd
            cases hfp : IRunner.fullPaths base c with
            | error e => rw [hfp] at hd; cases hd
            | ok sps =>
              rw [hfp] at hd
              simp only at hd
              have hplain := hc c List.mem_cons_self
              have hits : ∀ sp ∈ sps, ∃ m p, sp.sections = m :: p ∧ ItemOf s0 m p := by
                intro sp hsp
                obtain ⟨u, hu, s, e1, e2⟩ := fullPaths_spec hfp sp hsp
                obtain ⟨m, p, ⟨s', e3, e4⟩, e5⟩ := hplain.item u hu
                rw [e1] at e3
                cases e3
                rw [fullPath_sections hb] at e4
                refine ⟨m, p, ?_, itemAt_itemOf e5⟩
                rw [e2]
                exact Option.some.inj e4
              obtain ⟨-, -, i3⟩ := defaultsLoop_spec sps s0 hf hits _ _ _ hd
              obtain ⟨-, i4⟩ := defaultsLoop_total sps s0 hf hits _ _ _ hd
              refine ⟨rfl, c, cs, rfl, ?_⟩
              intro s
              constructor
              · intro hsome
                obtain ⟨D, hD⟩ := Option.isSome_iff_exists.1 hsome
                rcases i3 _ D hD with h | ⟨sp, hsp, e, -⟩
                · cases h
                · obtain ⟨u, hu, s', e1, e2⟩ := fullPaths_spec hfp sp hsp
                  have : fullPath base s' = fullPath base s := by
                    rw [← e2]
                    cases sp
                    exact congrArg SectionPath.mk e
                  rw [fullPath_inj this] at e1
                  exact ⟨u, hu, e1⟩
              · rintro ⟨v, hv, e⟩
                exact i4 _ (fullPaths_total hfp hv e)

/-- Filling in defaults fails only with a `KeyError`, and only for want of defaults. -/
theorem fill_cases (r : IRunner V) (c : List (Upd V)) (hs : ∀ u ∈ c, ∃ s, u.path = some (.str s)) :
    ((∀ u ∈ c, ∀ s, u.path = some (.str s) → (r.defaults.get? (fullPath r.base s).pathStr).isSome = true) →
      ∃ filled, r.fill c = .ok filled) ∧
    ((¬ ∀ u ∈ c, ∀ s, u.path = some (.str s) → (r.defaults.get? (fullPath r.base s).pathStr).isSome = true) →
      r.fill c = .error .keyError) := by
  induction c with
  | nil => exact ⟨fun _ => ⟨[], rfl⟩, fun h => absurd (fun u hu => by cases hu) h⟩
  | cons u us ih =>
    obtain ⟨s, hp⟩ := hs u List.mem_cons_self
    obtain ⟨i1, i2⟩ := ih (fun v hv => hs v (List.mem_cons_of_mem _ hv))
    have hps : u.pathStr = .ok s := by unfold Upd.pathStr; rw [hp]
    unfold IRunner.fill
    rw [hps]
    simp only [bind, Except.bind]
    cases hd : r.defaults.get? (fullPath r.base s).pathStr with
    | none =>
      refine ⟨fun hall => ?_, fun _ => rfl⟩
      have := hall u List.mem_cons_self s hp
      rw [hd] at this
      cases this
    | some D =>
      simp only
      constructor
      · intro hall
        obtain ⟨f, hf⟩ := i1 (fun v hv => hall v (List.mem_cons_of_mem _ hv))
        rw [hf]
        exact ⟨_, rfl⟩
      · intro hnot
        rw [i2]
        intro hall
        apply hnot
        intro v hv s' hs'
        rcases List.mem_cons.1 hv with rfl | hv
        · rw [hp] at hs'
          cases hs'
          rw [hd]
          rfl
        · exact hall v hv s' hs'

end Iter

section
variable [BEq V]

theorem PlainRunner.paths {h : IterHooks V} {s0 s1 : Mgrs V} {r : IRunner V} (hr : PlainRunner h s0 s1 r)
    {c : List (Upd V)} (hc : c ∈ r.cases) : ∀ u ∈ c, ∃ s, u.path = some (.str s) := by
  intro u hu
  obtain ⟨m, p, ⟨s, hs, -⟩, -⟩ := (hr.cases c hc).item u hu
  exact ⟨s, hs⟩

/-- When a case has defaults for everything. -/
theorem PlainRunner.fill {h : IterHooks V} {s0 s1 : Mgrs V} {r : IRunner V} (hr : PlainRunner h s0 s1 r)
    {c : List (Upd V)} (hc : c ∈ r.cases) :
    (FirstNames r.cases c → ∃ filled, r.fill c = .ok filled) ∧
    (¬ FirstNames r.cases c → r.fill c = .error .keyError) := by
  have hf0 : Iter.Filed s0 := fun m g hg => (hr.reachable m g hg).cm.good.ownFiles
  obtain ⟨items, us, hnew⟩ := hr.created
  obtain ⟨-, first, rest, e, hiff⟩ := Iter.defaults_iff hr.base hf0 hnew hr.cases
  have key : FirstNames r.cases c ↔ ∀ u ∈ c, ∀ s, u.path = some (.str s) →
      (r.defaults.get? (fullPath r.base s).pathStr).isSome = true := by
    constructor
    · rintro ⟨f, rs, e', hall⟩ u hu s hs
      rw [e] at e'
      cases e'
      obtain ⟨v, hv, hvp⟩ := hall u hu
      exact (hiff s).2 ⟨v, hv, hvp.trans hs⟩
    · intro hall
      refine ⟨first, rest, e, ?_⟩
      intro u hu
      obtain ⟨s, hs⟩ := hr.paths hc u hu
      obtain ⟨v, hv, hvp⟩ := (hiff s).1 (hall u hu s hs)
      exact ⟨v, hv, hvp.trans hs.symm⟩
  obtain ⟨a, b⟩ := Iter.fill_cases r c (hr.paths hc)
  exact ⟨fun h => a (key.1 h), fun h => b (fun h' => h (key.2 h'))⟩

theorem Iter.run_append (h : IterHooks V) (shouldRun : List (Upd V) → Bool) (collect : Bool) (r : IRunner V)
    (cs : List (List (Upd V))) (c : List (Upd V)) (rest : List (List (Upd V))) (hc : shouldRun c = true)
    (s t t' : IState V) (results : List (List (Upd V) × IRes V)) (e : PyErr)
    (h1 : r.run h shouldRun collect cs s = (.ok results, t)) (h2 : r.runCase h c t = (.error e, t')) :
    r.run h shouldRun collect (cs ++ c :: rest) s = (.error e, t') := by
  induction cs generalizing s results with
  | nil =>
    cases h1
    rw [List.nil_append, IRunner.run, if_neg (by rw [hc]; simp), M.bind_error h2]
  | cons d cs ih =>
    rw [List.cons_append, IRunner.run]
    rw [IRunner.run] at h1
    split
    · rename_i hd
      rw [if_pos hd] at h1
      exact ih s results h1
    · rename_i hd
      rw [if_neg hd] at h1
      rw [M.bind_run] at h1 ⊢
      cases hd' : r.runCase h d s with
      | mk x s1 =>
        rw [hd'] at h1
        cases x with
        | error e' => cases h1
        | ok a =>
          simp only at h1 ⊢
          rw [M.bind_run] at h1
          cases h3 : r.run h shouldRun collect cs s1 with
          | mk y s2 =>
            rw [h3] at h1
            cases y with
            | error e' => cases h1
            | ok w =>
              cases h1
              rw [M.bind_error (ih s1 w h3)]

/-! ### Theorems -/

/-- C106 (missing: as for C32; what the plugins around updates and runs do; and cases that do not name the same as the others, see
below).  Whatever cases plugins add, and however they change them: if all cases name the same items, each of them has defaults for
all it names; and when it has been applied, whatever cases were run before, its items have what it names and else the values from
when the runner was made, and all other items have the configuration from then. -/
theorem C106_case_partial (he : EqIsSame V) (h : IterHooks V) (items : PathLike ⊕ List PathLike) (us : List (Upd V))
    (product : List (List (Upd V))) (hp : getConfigProduct us = .ok product) (s0 s1 : Mgrs V) (r : IRunner V)
    (hnew : IRunner.new h items us r.base r.strip s0 = (.ok r, s1)) (hr : PlainRunner h s0 s1 r)
    (hsame : SamePaths (h.modifyCases (h.moreCases us ++ product))) (t : IState V) (ht : Rounds h s1 r t)
    (c : List (Upd V)) (hc : c ∈ h.modifyCases (h.moreCases us ++ product)) :
    c ∈ r.cases ∧ (∃ filled, r.fill c = .ok filled) ∧
    ∀ filled t', r.applyCase h c t = (.ok filled, t') → CaseGives s0 r c t'.mgrs ∧
      ∀ m q, ItemAt s0 m q → (∀ u ∈ c, ¬ Targets r.base r.strip u m q) →
        activeAt t'.mgrs m q = activeAt s0 m q := by
  have hf0 : Iter.Filed s0 := fun m g hg => (hr.reachable m g hg).cm.good.ownFiles
  obtain ⟨hcs, first, rest, e, -⟩ := Iter.defaults_iff hr.base hf0 hnew hr.cases
  have hcases : r.cases = h.modifyCases (h.moreCases us ++ product) := by
    unfold IRunner.getCases at hcs
    rw [hp] at hcs
    injection hcs with hcs
    exact hcs.symm
  rw [← hcases] at hc hsame
  refine ⟨hc, (hr.fill hc).1 ⟨first, rest, e, fun u hu => ?_⟩, ?_⟩
  · exact hsame c hc first (by rw [e]; exact List.mem_cons_self) u hu
  · intro filled t' happ
    obtain ⟨g1, g2⟩ := hr.case he (ht.inv he hr) c hc filled t' happ
    refine ⟨g1, fun m q hq hn => g2 m q hq ?_⟩
    rintro c' hc' u hu ⟨s, hs, hs'⟩
    obtain ⟨v, hv, hvp⟩ := hsame c' hc' c hc u hu
    exact hn v hv ⟨s, hvp.trans hs, hs'⟩

/-- C106 fails for every case that names something the first case does not: there are no defaults for it, and the run ends with
a `KeyError` when it comes to this case, after all cases before it have been run, whose results are lost. -/
theorem C106_other_items_violated (h : IterHooks V) (s0 s1 : Mgrs V) (r : IRunner V) (hr : PlainRunner h s0 s1 r)
    (shouldRun : List (Upd V) → Bool) (collect : Bool) (before rest : List (List (Upd V))) (c : List (Upd V))
    (hcases : r.cases = before ++ c :: rest) (hc : ¬ FirstNames r.cases c) (hrun : shouldRun c = true)
    (results : List (List (Upd V) × IRes V)) (t : IState V)
    (hran : r.run h shouldRun collect before ⟨s1, none⟩ = (.ok results, t)) :
    r.run h shouldRun collect r.cases ⟨s1, none⟩ = (.error .keyError, t) := by
  rw [hcases]
  refine Iter.run_append h shouldRun collect r before c rest hrun _ t t results _ hran ?_
  have hfill := (hr.fill (c := c) (by rw [hcases]; simp)).2 hc
  have happ : r.applyCase h c t = (.error .keyError, t) := by
    unfold IRunner.applyCase
    rw [M.bind_run, M.liftE_run, hfill]
  unfold IRunner.runCase
  rw [M.bind_error happ]

omit [BEq V] in
/-- C106 fails if plugins leave no cases: making the runner is an `IndexError`, rather than a run without results. -/
theorem C106_no_cases_violated (h : IterHooks V) (items : PathLike ⊕ List PathLike) (us : List (Upd V)) (base : Option String)
    (strip : Bool) (product : List (List (Upd V))) (hp : getConfigProduct us = .ok product)
    (hnone : h.modifyCases (h.moreCases us ++ product) = []) (sps : List SectionPath)
    (hitems : SectionPath.listFromAmbiguous items strip base = .ok sps) (s : Mgrs V) :
    IRunner.new h items us base strip s = (.error .indexError, s) := by
  unfold IRunner.new
  rw [M.bind_run, M.liftE_run, hitems]
  simp only
  rw [M.bind_run, M.liftE_run]
  unfold IRunner.getCases
  rw [hp]
  simp only
  rw [hnone]
  rfl

end

/-! ### The hypotheses are met -/

/-- A plugin that adds the given cases, and leaves out the cases of the product. -/
def givenCases (cases : List (List (Upd Nat))) : IterHooks Nat :=
  { IterHooks.none with moreCases := fun _ => cases, modifyCases := fun cs => cs.take cases.length }

/-- An update of `main.data.func` of a manager with the value of `c`. -/
def setC (m : String) (n : Nat) : Upd Nat := ⟨some (.str (m ++ ".main.data.func")), none, none, Dict.ofList [("c", n)]⟩

/-- The values of `c` of the items of the two managers. -/
def bothC (s : Mgrs Nat) : Option (Option Nat) × Option (Option Nat) :=
  ((activeAt s "one" demoPath).map (fun d => d.get? "c"), (activeAt s "two" demoPath).map (fun d => d.get? "c"))

/-- The runner of two cases that only a plugin gives. -/
def givenRunner (cases : List (List (Upd Nat))) : IRunner Nat where
  runItems := [⟨"one.main.data.func"⟩]
  base := none
  strip := false
  cases := cases
  defaults := Dict.ofList [("one.main.data.func", Dict.ofList [("a", 2), ("b", 3), ("c", 0)]),
    ("two.main.data.func", Dict.ofList [("a", 2), ("b", 3), ("c", 0)])]

/-- `c = 1` and `c = 2`, and `c = 3` and `c = 4`. -/
def pairCases : List (List (Upd Nat)) := [[setC "one" 1, setC "two" 2], [setC "one" 3, setC "two" 4]]

/-- The managers after its creation. -/
def givenMgrs : Mgrs Nat :=
  (IRunner.new (givenCases pairCases) (.inl (.str "one.main.data.func")) [setC "one" 9] none false demoMgrs).2

theorem givenRunner_new : IRunner.new (givenCases pairCases) (.inl (.str "one.main.data.func")) [setC "one" 9] none false
    demoMgrs = (.ok (givenRunner pairCases), givenMgrs) := by
  refine Prod.ext ?_ rfl
  rfl

theorem givenRunner_plain : PlainRunner (givenCases pairCases) demoMgrs givenMgrs (givenRunner pairCases) := by
  refine ⟨rfl, rfl, ?_, ⟨_, _, givenRunner_new⟩, by decide, ?_, ?_⟩
  · intro m g hg
    rw [demoMgrs_get m g hg]
    exact demoRunner_reachable demoFunc
  · intro c hc
    unfold givenRunner pairCases at hc
    simp only [List.mem_cons, List.not_mem_nil, or_false] at hc
    rcases hc with rfl | rfl <;> exact demo_plainCase _ _ (by decide +kernel) (by decide +kernel)
  · intro sp hsp
    unfold givenRunner at hsp
    simp only [List.mem_cons, List.not_mem_nil, or_false] at hsp
    subst hsp
    exact ⟨"one", demoPath, ⟨⟨false, false⟩, ⟨demoRunner demoFunc, []⟩⟩, by decide +kernel, rfl,
      .inl ⟨demo_item, demoFunc, rfl⟩⟩

/-- Non-vacuity of `C106_case_partial`. -/
example : getConfigProduct [setC "one" 9] = .ok [[setC "one" 9]] ∧
    SamePaths ((givenCases pairCases).modifyCases ((givenCases pairCases).moreCases [setC "one" 9] ++ [[setC "one" 9]])) ∧
    (∃ filled t', (givenRunner pairCases).applyCase (givenCases pairCases) [setC "one" 3, setC "two" 4] ⟨givenMgrs, none⟩ =
      (.ok filled, t') ∧ bothC t'.mgrs = (some (some 3), some (some 4))) := by
  refine ⟨rfl, ?_, _, _, rfl, by decide +kernel⟩
  have : (givenCases pairCases).modifyCases ((givenCases pairCases).moreCases [setC "one" 9] ++ [[setC "one" 9]]) =
    [[setC "one" 1, setC "two" 2], [setC "one" 3, setC "two" 4]] := rfl
  rw [this]
  intro c hc c' hc' u hu
  simp only [List.mem_cons, List.not_mem_nil, or_false] at hc hc'
  rcases hc with rfl | rfl <;> rcases hc' with rfl | rfl <;>
    simp only [List.mem_cons, List.not_mem_nil, or_false] at hu <;> rcases hu with rfl | rfl <;> simp [setC]

/-- Non-vacuity of `C106_no_cases_violated`: a plugin that leaves out all cases. -/
example : getConfigProduct [setC "one" 9] = .ok [[setC "one" 9]] ∧
    (givenCases []).modifyCases ((givenCases []).moreCases [setC "one" 9] ++ [[setC "one" 9]]) = [] ∧
    SectionPath.listFromAmbiguous (.inl (.str "one.main.data.func")) false none = .ok [⟨"one.main.data.func"⟩] :=
  ⟨rfl, rfl, rfl⟩

/-- A second case for an item that the first does not name. -/
def otherCases : List (List (Upd Nat)) := [[setC "one" 1], [setC "two" 2]]

/-- The managers of `demoMgrs` after making its runner. -/
def otherMgrs : Mgrs Nat :=
  (IRunner.new (givenCases otherCases) (.inl (.str "one.main.data.func")) [] none false demoMgrs).2

/-- Its runner. -/
def otherRunner : IRunner Nat :=
  { givenRunner otherCases with
    defaults := Dict.ofList [("one.main.data.func", Dict.ofList [("a", 2), ("b", 3), ("c", 0)])] }

theorem demo_plainOne (m : String) (hm : m = "one" ∨ m = "two") (n : Nat) : PlainCase demoMgrs none false [setC m n] := by
  have t1 : targetOf none false (.str (m ++ ".main.data.func")) = some (m :: demoPath) := by
    rcases hm with rfl | rfl <;> decide +kernel
  have a1 : activeAt demoMgrs m demoPath = some (Dict.ofList [("a", 2), ("b", 3), ("c", 0)]) := by
    rcases hm with rfl | rfl <;> decide +kernel
  have hg : ∃ g, demoMgrs.get? m = some g := by rcases hm with rfl | rfl <;> exact ⟨_, rfl⟩
  obtain ⟨g, hg⟩ := hg
  refine ⟨by simp, ?_, ?_, ?_⟩
  · intro u hu
    rw [List.mem_singleton.1 hu]
    rfl
  · intro u hu
    rw [List.mem_singleton.1 hu]
    refine ⟨_, _, ⟨_, rfl, t1⟩, ⟨g, hg, ?_⟩⟩
    rw [demoMgrs_get m g hg]
    exact demo_item
  · intro u hu m' p d ht ha
    rw [List.mem_singleton.1 hu] at ht ⊢
    obtain ⟨rfl, rfl⟩ := Iter.Targets.unique ht ⟨_, rfl, t1⟩
    rw [a1] at ha
    cases ha
    refine ⟨?_, by decide +kernel⟩
    intro k hk
    have : k = "c" := by simpa [setC, Dict.keys, Dict.ofList, Dict.setAll, Dict.set, AList.set, Dict.empty] using hk
    rw [this]
    decide +kernel

theorem otherRunner_plain : PlainRunner (givenCases otherCases) demoMgrs otherMgrs otherRunner := by
  refine ⟨rfl, rfl, ?_, ⟨.inl (.str "one.main.data.func"), [], Prod.ext (by rfl) rfl⟩, by decide, ?_, ?_⟩
  · intro m g hg
    rw [demoMgrs_get m g hg]
    exact demoRunner_reachable demoFunc
  · intro c hc
    unfold otherRunner givenRunner otherCases at hc
    simp only [List.mem_cons, List.not_mem_nil, or_false] at hc
    rcases hc with rfl | rfl
    · exact demo_plainOne "one" (.inl rfl) _
    · exact demo_plainOne "two" (.inr rfl) _
  · intro sp hsp
    unfold otherRunner givenRunner at hsp
    simp only [List.mem_cons, List.not_mem_nil, or_false] at hsp
    subst hsp
    exact ⟨"one", demoPath, ⟨⟨false, false⟩, ⟨demoRunner demoFunc, []⟩⟩, by decide +kernel, rfl,
      .inl ⟨demo_item, demoFunc, rfl⟩⟩

/-- Non-vacuity of `C106_other_items_violated`. -/
example : otherRunner.cases = [[setC "one" 1]] ++ [setC "two" 2] :: [] ∧ ¬ FirstNames otherRunner.cases [setC "two" 2] ∧
    ∃ results t, otherRunner.run (givenCases otherCases) (fun _ => true) true [[setC "one" 1]] ⟨otherMgrs, none⟩ =
      (.ok results, t) := by
  refine ⟨rfl, ?_, _, _, rfl⟩
  rintro ⟨f, rs, e, hall⟩
  have e' : [setC "one" 1] = f := (List.cons.inj e).1
  subst e'
  obtain ⟨v, hv, hp⟩ := hall _ List.mem_cons_self
  rw [List.mem_singleton.1 hv] at hp
  simp [setC] at hp

/-! ### Where it fails -/

/-- C106 fails for items that a case does not name and another does: a plugin adds a case in which `c` of `two` is 2 and the case
after it, of the product, runs with it, although the item had `c = 0` when the runner was made. -/
theorem C106_left_out_violated :
    ∃ (h : IterHooks Nat) (r : IRunner Nat) (s1 : Mgrs Nat) (results : List (List (Upd Nat) × IRes Nat)) (t : IState Nat),
      h.modifyCases = id ∧ IRunner.new h (.inl (.str "one.main.data.func")) [setC "one" 3] none false demoMgrs = (.ok r, s1) ∧
      r.cases = [[setC "one" 1, setC "two" 2], [setC "one" 3]] ∧
      r.run h (fun _ => true) true r.cases ⟨s1, none⟩ = (.ok results, t) ∧
      bothC demoMgrs = (some (some 0), some (some 0)) ∧ bothC t.mgrs = (some (some 3), some (some 2)) :=
  ⟨{ IterHooks.none with moreCases := fun _ => [[setC "one" 1, setC "two" 2]] }, _, _, _, _, rfl, rfl, rfl, rfl,
    by decide +kernel, by decide +kernel⟩

end Verif.Props

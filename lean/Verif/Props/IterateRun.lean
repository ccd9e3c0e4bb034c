import Verif.Props.Iterate

/-
Property theorems about iterative runs as a whole: the cases with plugins (C31), the results and the
managers that are touched (C32), and batches with plugins and resets (C35).
-/

namespace Verif.Props
open Verif.Py Verif.Model

variable {V : Type}

/-! ## C31 -/

/-- C31 with plugins: the cases are those that plugins add, followed by the product, as the plugins change them; without
plugins, the product. -/
theorem C31_plugins (h : IterHooks V) (us : List (Upd V)) (cases : List (List (Upd V)))
    (hc : getConfigProduct us = .ok cases) :
    IRunner.getCases h us = .ok (h.modifyCases (h.moreCases us ++ cases)) ∧ IRunner.getCases IterHooks.none us = .ok cases := by
  unfold IRunner.getCases
  rw [hc]
  exact ⟨rfl, rfl⟩

/-! ## C32: results -/

/-- The section paths run one after the other, each on the manager it names first, with the rest of the path; one result
for each, in order. -/
inductive RanAll (h : IterHooks V) : List (List String) → Mgrs V → List (Option (RM.RunRes V)) → Mgrs V → Prop where
  | nil (s : Mgrs V) : RanAll h [] s [] s
  | next (m : String) (p : List String) (ps : List (List String)) (s t u : Mgrs V) (g : Mgr V) (r : Option (RM.RunRes V))
    (rs : List (Option (RM.RunRes V))) (x : String) :
    s.get? m = some g → split '.' x = restOf p → (MM.run g.settings h.run (.single (.str x)) g.ms).1 = .ok r →
    t = s.set m { g with ms := (MM.run g.settings h.run (.single (.str x)) g.ms).2 } →
    RanAll h ps t rs u → RanAll h ((m :: p) :: ps) s (r :: rs) u

theorem runEach_ran (h : IterHooks V) (sps : List SectionPath) (s t : Mgrs V) (rs : List (Option (RM.RunRes V)))
    (hr : IRunner.runEach h sps s = (.ok rs, t)) : RanAll h (sps.map SectionPath.sections) s rs t := by
  induction sps generalizing s rs with
  | nil =>
    cases hr
    exact .nil _
  | cons sp sps ih =>
    unfold IRunner.runEach at hr
    rw [M.bind_run] at hr
    cases hm : sp.sections with
    | nil => exact absurd hm (split_ne_nil '.' _)
    | cons m p =>
      unfold BM.onManager at hr
      rw [hm] at hr
      simp only [List.headD_cons] at hr
      cases hg : s.get? m with
      | none => rw [hg] at hr; cases hr
      | some g =>
        rw [hg] at hr
        simp only at hr
        cases hx : (MM.run g.settings h.run (.single (.str (SectionPath.tail sp).pathStr)) g.ms).1 with
        | error e => rw [hx] at hr; cases hr
        | ok r =>
          rw [hx] at hr
          simp only at hr
          rw [M.bind_run] at hr
          cases hrest : IRunner.runEach h sps
              (s.set m { g with ms := (MM.run g.settings h.run (.single (.str (SectionPath.tail sp).pathStr)) g.ms).2 }) with
          | mk a u =>
            rw [hrest] at hr
            cases a with
            | error e => cases hr
            | ok rest =>
              cases hr
              rw [List.map_cons, hm]
              refine .next m p _ s _ t g r rest (SectionPath.tail sp).pathStr hg ?_ hx rfl (ih _ _ hrest)
              have := tail_sections sp
              rw [hm] at this
              exact this

theorem RanAll.length {h : IterHooks V} {ps : List (List String)} {s t : Mgrs V} {rs : List (Option (RM.RunRes V))}
    (hr : RanAll h ps s rs t) : rs.length = ps.length := by
  induction hr with
  | nil => rfl
  | next _ _ _ _ _ _ _ _ _ _ _ _ _ _ _ ih => simp [ih]

/-- C32. The result of a case: the items that are to be run are run one after the other on the managers they name, after the
configs were changed; there is one result for each of them, in order, or the result itself if there is one item. -/
theorem C32_results [BEq V] (h : IterHooks V) (r : IRunner V) (c : List (Upd V)) (s t : IState V) (res : IRes V)
    (hr : r.runCase h c s = (.ok res, t)) :
    ∃ filled applied rs, r.applyCase h c s = (.ok filled, applied) ∧
      RanAll h (r.runItems.map SectionPath.sections) applied.mgrs rs t.mgrs ∧ rs.length = r.runItems.length ∧
      t.last = some filled ∧
      match rs with
      | [x] => res = .single x
      | xs => res = .list xs := by
  unfold IRunner.runCase at hr
  rw [M.bind_run] at hr
  cases ha : r.applyCase h c s with
  | mk a u =>
    rw [ha] at hr
    cases a with
    | error e => cases hr
    | ok filled =>
      simp only at hr
      rw [M.bind_run] at hr
      unfold IRunner.liftB IRunner.runOnce at hr
      rw [M.bind_run] at hr
      cases he : IRunner.runEach h r.runItems u.mgrs with
      | mk b v =>
        rw [he] at hr
        cases b with
        | error e => cases hr
        | ok rs =>
          have hran := runEach_ran h r.runItems u.mgrs v rs he
          simp only at hr
          match rs, hran, hr with
          | [], hran, hr =>
            cases hr
            exact ⟨filled, u, [], rfl, hran, by simpa using hran.length, rfl, rfl⟩
          | [x], hran, hr =>
            cases hr
            exact ⟨filled, u, [x], rfl, hran, by simpa using hran.length, rfl, rfl⟩
          | x :: y :: zs, hran, hr =>
            cases hr
            exact ⟨filled, u, x :: y :: zs, rfl, hran, by simpa using hran.length, rfl, rfl⟩

/-- C32, C34. A run gives one pair for each case that should be run, in the order of the cases, with the case as it was
given. -/
theorem C32_one_result_per_case [BEq V] (h : IterHooks V) (shouldRun : List (Upd V) → Bool) (r : IRunner V)
    (cases : List (List (Upd V))) (s t : IState V) (results : List (List (Upd V) × IRes V))
    (hr : r.run h shouldRun true cases s = (.ok results, t)) :
    results.map Prod.fst = cases.filter shouldRun := by
  rw [C34_rejected] at hr
  generalize cases.filter shouldRun = cs at hr
  induction cs generalizing s results with
  | nil =>
    cases hr
    rfl
  | cons c cs ih =>
    unfold IRunner.run at hr
    simp only [Bool.not_true, Bool.false_eq_true, if_false, if_true] at hr
    rw [M.bind_run] at hr
    cases hc : IRunner.runCase h r c s with
    | mk a u =>
      rw [hc] at hr
      cases a with
      | error e => cases hr
      | ok res =>
        simp only at hr
        rw [M.bind_run] at hr
        cases hrest : IRunner.run h (fun _ => true) true r cs u with
        | mk b v =>
          rw [hrest] at hr
          cases b with
          | error e => cases hr
          | ok rest =>
            cases hr
            rw [List.map_cons, ih _ _ hrest]

/-! ## C32: the managers that are touched -/

/-- All managers but the given one stay as they are. -/
def OnlyManager {α : Type} (name : String) (m : BM V α) : Prop := ∀ s k, k ≠ name → (m s).2.get? k = s.get? k

theorem OnlyManager.pure {α : Type} (name : String) (a : α) : OnlyManager name (Pure.pure a : BM V α) := fun _ _ _ => rfl

theorem OnlyManager.liftE {α : Type} (name : String) (e : Except PyErr α) : OnlyManager name (M.liftE e : BM V α) := by
  intro s k _
  rw [M.liftE_run]

theorem OnlyManager.raise {α : Type} (name : String) (e : PyErr) : OnlyManager name (M.raise e : BM V α) := fun _ _ _ => rfl

theorem OnlyManager.bind {α β : Type} {name : String} {m : BM V α} {f : α → BM V β} (h1 : OnlyManager name m)
    (h2 : ∀ a, OnlyManager name (f a)) : OnlyManager name (m >>= f) := by
  intro s k hk
  rw [M.bind_run]
  have := h1 s k hk
  cases h : m s with
  | mk a t =>
    rw [h] at this
    cases a with
    | error e => exact this
    | ok a => exact (h2 a t k hk).trans this

theorem OnlyManager.onManager {α : Type} {name : String} {sp : SectionPath} (h : sp.sections.head? = some name)
    (m : RunSettings → MM V α) : OnlyManager name (BM.onManager sp m) := by
  intro s k hk
  unfold BM.onManager
  have hd : sp.sections.headD "" = name := by
    cases hs : sp.sections with
    | nil => rw [hs] at h; cases h
    | cons a as => rw [hs] at h; simpa using h
  simp only [hd]
  cases s.get? name with
  | none => rfl
  | some g => exact Dict.get?_set_ne _ _ (Ne.symm hk)

/-- A name of a manager: a section of its own. -/
def PlainManager (name : String) : Prop := name ≠ "" ∧ '.' ∉ name.toList

theorem PlainManager.split {name : String} (h : PlainManager name) : split '.' name = [name] := by
  have h1 := split_join '.' (xs := [name]) (by simp) (by simpa [hasChar] using h.2)
  have h2 : join '.' [name] = name := by simp [join, joinL]
  rwa [h2] at h1

theorem fromAmbiguous_own {name : String} (hn : PlainManager name) {strip : Bool} {x : PathLike} {sp : SectionPath}
    (h : SectionPath.fromAmbiguous x strip (some name) = .ok sp) : sp.sections.head? = some name := by
  have := sectionPath_target (some name) strip x
  cases ht : targetOf (some name) strip x with
  | none => rw [ht, h] at this; cases this
  | some q =>
    rw [ht] at this
    obtain ⟨sp', h1, h2⟩ := this
    rw [h] at h1
    cases h1
    rw [h2]
    unfold targetOf at ht
    cases x <;> simp only [targetOf.baseSections, hn.split, Option.some.injEq, reduceCtorEq] at ht <;> rw [← ht] <;> rfl

theorem listFromAmbiguous_own {name : String} (hn : PlainManager name) {strip : Bool} {items : PathLike ⊕ List PathLike}
    {sps : List SectionPath} (h : SectionPath.listFromAmbiguous items strip (some name) = .ok sps) :
    ∀ sp ∈ sps, sp.sections.head? = some name := by
  have hloop : ∀ (xs : List PathLike) (sps : List SectionPath),
      SectionPath.listFromAmbiguousLoop strip (some name) xs = .ok sps → ∀ sp ∈ sps, sp.sections.head? = some name := by
    intro xs
    induction xs with
    | nil => intro sps h sp hsp; cases h; cases hsp
    | cons x xs ih =>
      intro sps h sp hsp
      unfold SectionPath.listFromAmbiguousLoop at h
      cases h1 : SectionPath.fromAmbiguous x strip (some name) with
      | error e => rw [h1] at h; cases h
      | ok a =>
        rw [h1] at h
        cases h2 : SectionPath.listFromAmbiguousLoop strip (some name) xs with
        | error e => rw [h2] at h; cases h
        | ok as =>
          rw [h2] at h
          cases h
          rcases List.mem_cons.1 hsp with rfl | hsp
          · exact fromAmbiguous_own hn h1
          · exact ih as h2 sp hsp
  unfold SectionPath.listFromAmbiguous at h
  cases items <;> exact hloop _ _ h

theorem fullPath_own {name : String} (hn : PlainManager name) (s : String) :
    (fullPath (some name) s).sections.head? = some name := by
  unfold fullPath
  simp only [if_neg hn.1]
  rw [joinSP_sections]
  show (split '.' name ++ _).head? = _
  rw [hn.split]
  rfl

theorem fullPaths_own {name : String} (hn : PlainManager name) {us : List (Upd V)} {sps : List SectionPath}
    (h : IRunner.fullPaths (some name) us = .ok sps) : ∀ sp ∈ sps, sp.sections.head? = some name := by
  induction us generalizing sps with
  | nil => intro sp hsp; cases h; cases hsp
  | cons u us ih =>
    unfold IRunner.fullPaths at h
    cases h1 : u.pathStr with
    | error e => rw [h1] at h; cases h
    | ok s =>
      rw [h1] at h
      cases h2 : IRunner.fullPaths (some name) us with
      | error e => rw [h2] at h; cases h
      | ok rest =>
        rw [h2] at h
        cases h
        intro sp hsp
        rcases List.mem_cons.1 hsp with rfl | hsp
        · exact fullPath_own hn s
        · exact ih h2 sp hsp

theorem defaultsLoop_own {name : String} (acc : Dict String (Dict String V)) (sps : List SectionPath)
    (h : ∀ sp ∈ sps, sp.sections.head? = some name) : OnlyManager name (IRunner.defaultsLoop acc sps) := by
  induction sps generalizing acc with
  | nil => exact .pure _ _
  | cons sp sps ih =>
    unfold IRunner.defaultsLoop
    refine .bind (.onManager (h sp List.mem_cons_self) _) fun a => ?_
    cases a with
    | none => exact ih _ (fun sp hsp => h sp (List.mem_cons_of_mem _ hsp))
    | some c => exact ih _ (fun sp hsp => h sp (List.mem_cons_of_mem _ hsp))

theorem updates_own [BEq V] {name : String} (hn : PlainManager name) (strip : Bool) (us : List (Upd V)) :
    OnlyManager name (BM.updates (some name) strip us) := by
  induction us with
  | nil => exact .pure _ _
  | cons u us ih =>
    unfold BM.updates
    refine .bind ?_ fun _ => ih
    unfold BM.update1
    intro s k hk
    rw [M.bind_run, M.liftE_run]
    cases h : BM.sectionPath (some name) strip u with
    | error e => rfl
    | ok sp =>
      simp only
      refine OnlyManager.onManager ?_ _ s k hk
      unfold BM.sectionPath at h
      cases hp : u.path with
      | none => rw [hp] at h; cases h
      | some x =>
        rw [hp] at h
        exact fromAmbiguous_own hn h

theorem runEach_own {name : String} (h : IterHooks V) (sps : List SectionPath)
    (hsp : ∀ sp ∈ sps, sp.sections.head? = some name) : OnlyManager name (IRunner.runEach h sps) := by
  induction sps with
  | nil => exact .pure _ _
  | cons sp sps ih =>
    unfold IRunner.runEach
    refine .bind (.onManager (hsp sp List.mem_cons_self) _) fun _ => ?_
    exact .bind (ih (fun sp h => hsp sp (List.mem_cons_of_mem _ h))) fun _ => .pure _ _

theorem runOnce_own {name : String} (h : IterHooks V) (r : IRunner V)
    (hsp : ∀ sp ∈ r.runItems, sp.sections.head? = some name) : OnlyManager name (IRunner.runOnce h r) := by
  unfold IRunner.runOnce
  refine .bind (runEach_own h _ hsp) fun xs => ?_
  split <;> exact .pure _ _

/-- The same for operations of a runner. -/
def SameAt (k : String) (s t : IState V) : Prop := t.mgrs.get? k = s.mgrs.get? k

theorem SameAt.refl (k : String) (s : IState V) : SameAt k s s := rfl

theorem SameAt.trans (k : String) (a b c : IState V) (h1 : SameAt k a b) (h2 : SameAt k b c) : SameAt k a c :=
  Eq.trans h2 h1

theorem liftB_own {α : Type} {name k : String} (hk : k ≠ name) {m : BM V α} (h : OnlyManager name m) :
    M.Keeps (SameAt k) (IRunner.liftB m) := fun s => h s.mgrs k hk

theorem runCase_own [BEq V] {name k : String} (hn : PlainManager name) (hk : k ≠ name) (h : IterHooks V) (r : IRunner V)
    (hb : r.base = some name) (hsp : ∀ sp ∈ r.runItems, sp.sections.head? = some name) (c : List (Upd V)) :
    M.Keeps (SameAt k) (r.runCase h c) := by
  unfold IRunner.runCase IRunner.applyCase IRunner.updateForCase
  refine .bind (SameAt.trans k) (.bind (SameAt.trans k) (.liftE (SameAt.refl k) _) fun filled => ?_) fun filled => ?_
  · refine .bind (SameAt.trans k) (.bind (SameAt.trans k) (.get (SameAt.refl k)) fun s => ?_) fun _ => .pure (SameAt.refl k) _
    rw [hb]
    exact liftB_own hk (updates_own hn r.strip _)
  · refine .bind (SameAt.trans k) (liftB_own hk (runOnce_own h r hsp)) fun res => ?_
    exact .bind (SameAt.trans k) (.modify fun s => rfl) fun _ => .pure (SameAt.refl k) _

theorem run_own [BEq V] {name k : String} (hn : PlainManager name) (hk : k ≠ name) (h : IterHooks V) (r : IRunner V)
    (hb : r.base = some name) (hsp : ∀ sp ∈ r.runItems, sp.sections.head? = some name) (collect : Bool)
    (cases : List (List (Upd V))) : M.Keeps (SameAt k) (r.run h (fun _ => true) collect cases) := by
  induction cases with
  | nil => exact .pure (SameAt.refl k) _
  | cons c cs ih =>
    unfold IRunner.run
    simp only [Bool.not_true, Bool.false_eq_true, if_false]
    refine .bind (SameAt.trans k) (runCase_own hn hk h r hb hsp c) fun res => ?_
    exact .bind (SameAt.trans k) ih fun _ => .pure (SameAt.refl k) _

/-- C32. `run_product` of a manager touches no other manager: all paths are those of the manager itself, whatever is updated
or run, whether it succeeds or fails. -/
theorem C32_own_manager [BEq V] (h : IterHooks V) (name : String) (hn : PlainManager name)
    (items : PathLike ⊕ List PathLike) (us : List (Upd V)) (collect : Bool) (s : Mgrs V) (k : String) (hk : k ≠ name) :
    (IRunner.runProduct h name items us collect s).2.get? k = s.get? k := by
  have hprod : IRunner.runProduct h name items us collect s = match IRunner.new h items us (some name) true s with
      | (.ok r, t) => ((r.run h (fun _ => true) collect r.cases ⟨t, none⟩).1,
          (r.run h (fun _ => true) collect r.cases ⟨t, none⟩).2.mgrs)
      | (.error e, t) => (.error e, t) := by
    have h1 : IRunner.runProduct h name items us collect = (IRunner.new h items us (some name) true >>= fun r =>
        (fun s => ((r.run h (fun _ => true) collect r.cases ⟨s, none⟩).1,
          (r.run h (fun _ => true) collect r.cases ⟨s, none⟩).2.mgrs) : BM V _)) := rfl
    rw [h1]
    refine Eq.trans (M.bind_run _ _ s) ?_
    rcases IRunner.new h items us (some name) true s with ⟨_ | _, _⟩ <;> rfl
  rw [hprod]
  unfold IRunner.new
  rw [M.bind_run, M.liftE_run]
  cases hl : SectionPath.listFromAmbiguous items true (some name) with
  | error e => rfl
  | ok sps =>
    simp only
    rw [M.bind_run, M.liftE_run]
    cases hc : IRunner.getCases h us with
    | error e => rfl
    | ok cases =>
      simp only
      rw [M.bind_run]
      have hd : OnlyManager name (IRunner.getDefaults (some name) cases) := by
        unfold IRunner.getDefaults
        cases cases with
        | nil => exact .raise _ _
        | cons c cs =>
          intro s k hk
          simp only
          rw [M.bind_run, M.liftE_run]
          cases hf : IRunner.fullPaths (some name) c with
          | error e => rfl
          | ok ps => exact defaultsLoop_own _ ps (fullPaths_own hn hf) s k hk
      have hd := hd s k hk
      cases hg : IRunner.getDefaults (some name) cases s with
      | mk a t =>
        rw [hg] at hd
        cases a with
        | error e => exact hd
        | ok defaults =>
          have : SameAt k _ _ := run_own hn hk h ⟨sps, some name, true, cases, defaults⟩ rfl (listFromAmbiguous_own hn hl)
            collect cases ⟨t, none⟩
          exact Eq.trans this hd

/-- Non-vacuity: running a product of `one` changes `one`. -/
example : PlainManager "one" ∧
    (IRunner.runProduct IterHooks.none "one" (.inl (.str "main.data.func"))
      [⟨some (.str "main.data.func"), none, none, Dict.ofList [("c", 2)]⟩] true demoMgrs).1.toOption.isSome = true ∧
    demoC (IRunner.runProduct IterHooks.none "one" (.inl (.str "main.data.func"))
      [⟨some (.str "main.data.func"), none, none, Dict.ofList [("c", 2)]⟩] true demoMgrs).2 "one" = some 2 := by
  unfold PlainManager
  decide +kernel

/-! ## C35 -/

/-- C35 with plugins: the updates that plugins add are applied before those that were given. -/
theorem C35_plugins [BEq V] (base : Option String) (strip : Bool) (pre : List (Upd V) → List (Upd V)) (us : List (Upd V))
    (s : Mgrs V) : AppliedAll base strip (pre us ++ us) s (BM.update base strip pre us s).1 (BM.update base strip pre us s).2 :=
  C35_batch base strip (pre us ++ us) s

/-- What one reset does to the managers. -/
inductive ResetOne [BEq V] (base : Option String) (strip : Bool) (x : PathLike) (s : Mgrs V) :
    Except PyErr Unit → Mgrs V → Prop where
  | reset (m : String) (p : List String) (g : Mgr V) (t : Mgrs V) :
    targetOf base strip x = some (m :: p) → s.get? m = some g → (∀ m', m' ≠ m → t.get? m' = s.get? m') →
    t.get? m = some { g with ms := { g.ms with rs := (RM.reset (some (restOf p)) false g.ms.rs).2 } } →
    ResetOne base strip x s (RM.reset (some (restOf p)) false g.ms.rs).1 t
  | notPath : targetOf base strip x = none → ResetOne base strip x s (.error .valueError) s
  | noManager (m : String) (p : List String) : targetOf base strip x = some (m :: p) → s.get? m = none →
    ResetOne base strip x s (.error .noManager) s

/-- The resets one after the other, up to the first that fails. -/
inductive ResetAll [BEq V] (base : Option String) (strip : Bool) :
    List PathLike → Mgrs V → Except PyErr Unit → Mgrs V → Prop where
  | nil (s : Mgrs V) : ResetAll base strip [] s (.ok ()) s
  | next (x : PathLike) (xs : List PathLike) (s t t' : Mgrs V) (r : Except PyErr Unit) :
    ResetOne base strip x s (.ok ()) t → ResetAll base strip xs t r t' → ResetAll base strip (x :: xs) s r t'
  | fails (x : PathLike) (xs : List PathLike) (s t : Mgrs V) (e : PyErr) :
    ResetOne base strip x s (.error e) t → ResetAll base strip (x :: xs) s (.error e) t

/-- C35. A batch of resets resets each of the given items in order, up to the first failure. -/
theorem C35_reset [BEq V] (base : Option String) (strip : Bool) (xs : List PathLike) (s : Mgrs V) :
    ResetAll base strip xs s (BM.reset base strip xs s).1 (BM.reset base strip xs s).2 := by
  induction xs generalizing s with
  | nil => exact .nil s
  | cons x xs ih =>
    unfold BM.reset
    rw [M.bind_run, M.liftE_run]
    have hst := sectionPath_target base strip x
    cases ht : targetOf base strip x with
    | none =>
      rw [ht] at hst
      rw [hst]
      exact .fails _ _ _ _ _ (.notPath ht)
    | some q =>
      rw [ht] at hst
      obtain ⟨sp, h1, h2⟩ := hst
      rw [h1]
      simp only
      rw [M.bind_run]
      cases q with
      | nil => exact absurd ht targetOf_ne_nil
      | cons m p =>
        have hrel : BM.relative sp = restOf p := by
          unfold BM.relative
          rw [tail_sections, h2]
          rfl
        unfold BM.onManager
        rw [h2, hrel]
        simp only [List.headD_cons]
        cases hg : s.get? m with
        | none => exact .fails _ _ _ _ _ (.noManager m p ht hg)
        | some g =>
          simp only
          have hone : ResetOne base strip x s (RM.reset (some (restOf p)) false g.ms.rs).1
              (s.set m { g with ms := { g.ms with rs := (RM.reset (some (restOf p)) false g.ms.rs).2 } }) :=
            .reset m p g _ ht hg (fun m' hm' => Dict.get?_set_ne _ _ (Ne.symm hm')) (Dict.get?_set_self _ _ _)
          show ResetAll base strip (x :: xs) s _ _
          have hl : MM.liftR (RM.reset (some (restOf p)) false) g.ms =
              ((RM.reset (some (restOf p)) false g.ms.rs).1,
                { g.ms with rs := (RM.reset (some (restOf p)) false g.ms.rs).2 }) := rfl
          rw [hl]
          cases hr : (RM.reset (some (restOf p)) false g.ms.rs).1 with
          | error e =>
            rw [hr] at hone
            exact .fails _ _ _ _ _ hone
          | ok a =>
            rw [hr] at hone
            exact .next _ _ _ _ _ _ hone (ih _)

/-- Non-vacuity: two items of two managers are reset. -/
example :
    let s := (BM.update none false (fun _ => []) [⟨some (.str "one.main.data.func"), none, none, Dict.ofList [("c", 1)]⟩,
      ⟨some (.str "two.main.data.func"), none, none, Dict.ofList [("c", 2)]⟩] demoMgrs).2
    let t := (BM.reset none false [.str "one.main.data.func", .str "two.main.data.func"] s).2
    (demoC s "one", demoC s "two") = (some 1, some 2) ∧ (demoC t "one", demoC t "two") = (some 0, some 0) := by
  decide +kernel

/-! ### Sections without a config -/

/-- The configs got for paths one after the other. -/
inductive Looked : Mgrs V → List SectionPath → List (Option (Conf V)) → Mgrs V → Prop
  | nil (s) : Looked s [] [] s
  | cons {s t u sp sps c cs}
      (h : BM.onManager sp (fun _ => MM.liftR (RM.liftC (CMM.get (BM.relative sp)))) s = (.ok c, t))
      (hs : Looked t sps cs u) : Looked s (sp :: sps) (c :: cs) u

/-- The values of the paths that have a config. -/
def collected (acc : Dict String (Dict String V)) : List SectionPath → List (Option (Conf V)) → Dict String (Dict String V)
  | sp :: sps, some c :: cs => collected (acc.set sp.pathStr c.values) sps cs
  | _ :: sps, none :: cs => collected acc sps cs
  | _, _ => acc

/-- C32. A section without a config has no defaults, which is not a failure when a runner is made. -/
theorem C32_defaults (acc : Dict String (Dict String V)) (sps : List SectionPath) (s t : Mgrs V)
    (d : Dict String (Dict String V)) :
    IRunner.defaultsLoop acc sps s = (.ok d, t) ↔ ∃ cs, Looked s sps cs t ∧ d = collected acc sps cs := by
  induction sps generalizing acc s with
  | nil =>
    rw [IRunner.defaultsLoop]
    constructor
    · intro h
      cases h
      exact ⟨[], .nil _, rfl⟩
    · rintro ⟨cs, h, e⟩
      cases h
      subst e
      rfl
  | cons sp sps ih =>
    rw [IRunner.defaultsLoop, M.bind_run]
    generalize hx : BM.onManager sp (fun _ => MM.liftR (RM.liftC (CMM.get (BM.relative sp)))) s = x
    obtain ⟨r, s1⟩ := x
    cases r with
    | error e =>
      constructor
      · intro h; cases h
      · rintro ⟨cs, h, _⟩
        cases h with
        | cons h _ => rw [hx] at h; cases h
    | ok c =>
      cases c with
      | none =>
        simp only
        rw [ih]
        constructor
        · rintro ⟨cs, h, e⟩
          exact ⟨none :: cs, .cons hx h, e⟩
        · rintro ⟨cs, h, e⟩
          cases h with
          | cons h hs =>
            rw [hx] at h
            cases h
            exact ⟨_, hs, e⟩
      | some c =>
        simp only
        rw [ih]
        constructor
        · rintro ⟨cs, h, e⟩
          exact ⟨some c :: cs, .cons hx h, e⟩
        · rintro ⟨cs, h, e⟩
          cases h with
          | cons h hs =>
            rw [hx] at h
            cases h
            exact ⟨_, hs, e⟩

/-- C32. Running a case fails when its path had no config. -/
theorem C32_no_config_violated (r : IRunner V) (u : Upd V) (us : List (Upd V)) (s : String) (hs : u.pathStr = .ok s)
    (hd : r.defaults.get? (fullPath r.base s).pathStr = none) : r.fill (u :: us) = .error .keyError := by
  rw [IRunner.fill, hs]
  simp only [bind, Except.bind, hd]

end Verif.Props

import Verif.Lemmas.RunnerItem
import Verif.Model.Iterate

/-
What runs of items do to the configs, and what an update that succeeds leaves behind.
-/

namespace Verif.Model
open Verif.Py
variable {V : Type}

/-! ### Lookups change only what they would change again -/

/-- The same items and sections, with the same section configs. -/
structure CM.Shape (s t : CM V) : Prop where
  rest : t.fs = s.fs ∧ t.localConf = s.localConf ∧ t.rootName = s.rootName
  others : ∀ q, (s.view.slot q).isItem = false → t.view.slot q = s.view.slot q
  items : ∀ q, (s.view.slot q).isItem = true → (t.view.slot q).isItem = true
  files0 : OwnFiles s.view
  files : OwnFiles t.view

/-- The active configuration of an item. -/
def CM.shownConf (s : CM V) (p : List String) : Except PyErr (Conf V) :=
  (s.view.own p).map (CMM.active s.view p)

/-- Configs of items may have taken over values of the sections around them. -/
structure CM.Calm (s t : CM V) : Prop extends CM.Shape s t where
  own : ∀ q, IsItem s q → t.view.own q = s.view.own q ∨
    ∃ c, s.view.own q = .ok c ∧ t.view.own q = .ok (CMM.active s.view q c)

namespace CM

theorem Shape.refl {s : CM V} (h : OwnFiles s.view) : Shape s s :=
  ⟨⟨rfl, rfl, rfl⟩, fun _ _ => rfl, fun _ h => h, h, h⟩

theorem Shape.trans {a b c : CM V} (h1 : Shape a b) (h2 : Shape b c) : Shape a c := by
  refine ⟨⟨h2.rest.1.trans h1.rest.1, h2.rest.2.1.trans h1.rest.2.1, h2.rest.2.2.trans h1.rest.2.2⟩, ?_,
    fun q h => h2.items q (h1.items q h), h1.files0, h2.files⟩
  intro q hq
  have := h1.others q hq
  rw [h2.others q (by rw [this]; exact hq), this]

theorem Shape.isItem {s t : CM V} (h : Shape s t) {q : List String} (hq : IsItem s q) : IsItem t q :=
  ⟨hq.ne, by rw [h.rest.2.2]; exact hq.plain, h.items q hq.item⟩

theorem Shape.levels {s t : CM V} (h : Shape s t) {q : List String} (hq : IsItem s q) :
    t.view.levels q = s.view.levels q := by
  unfold View.levels
  apply List.map_congr_left
  intro k hk
  rw [List.mem_range] at hk
  obtain ⟨cfg, hs⟩ := hq.prefix_sect hk
  unfold View.sectCfg
  rw [h.others _ (by rw [hs]; rfl)]

theorem Shape.active {s t : CM V} (h : Shape s t) {q : List String} (hq : IsItem s q) (c : Conf V) :
    CMM.active t.view q c = CMM.active s.view q c := by
  apply CMM.active_congr h.rest.2.1
  intro k hk
  obtain ⟨cfg, hs⟩ := hq.prefix_sect hk
  exact h.others _ (by rw [hs]; rfl)

theorem Calm.refl {s : CM V} (h : OwnFiles s.view) : Calm s s := ⟨.refl h, fun _ _ => .inl rfl⟩

theorem Calm.trans {a b c : CM V} (h1 : Calm a b) (h2 : Calm b c) : Calm a c := by
  refine ⟨h1.toShape.trans h2.toShape, ?_⟩
  intro q hq
  have hqb := h1.toShape.isItem hq
  rcases h2.own q hqb with e2 | ⟨c2, e2, e2'⟩
  · rcases h1.own q hq with e1 | ⟨c1, e1, e1'⟩
    · exact .inl (e2.trans e1)
    · exact .inr ⟨c1, e1, e2.trans e1'⟩
  · rw [h1.toShape.active hq] at e2'
    rcases h1.own q hq with e1 | ⟨c1, e1, e1'⟩
    · exact .inr ⟨c2, e1.symm.trans e2, e2'⟩
    · rw [e1'] at e2
      cases e2
      rw [CMM.active_idem h1.files0 hq (h1.files0.own hq.plain e1)] at e2'
      exact .inr ⟨c1, e1, e2'⟩

theorem Calm.shownConf {s t : CM V} (h : Calm s t) {q : List String} (hq : IsItem s q) :
    t.shownConf q = s.shownConf q := by
  unfold CM.shownConf
  rcases h.own q hq with e | ⟨c, e, e'⟩
  · rw [e]
    cases s.view.own q with
    | error e => rfl
    | ok c => exact congrArg Except.ok (h.toShape.active hq c)
  · rw [e, e']
    simp only [Except.map]
    rw [h.toShape.active hq, CMM.active_idem h.files0 hq (h.files0.own hq.plain e)]

/-- A config that has everything the sections around it define stays as it is. -/
theorem Calm.settled {s t : CM V} (h : Calm s t) {q : List String} (hq : IsItem s q) {c : Conf V}
    (ho : s.view.own q = .ok c) (hc : CMM.active s.view q c = c) : t.view.own q = .ok c := by
  rcases h.own q hq with e | ⟨c', e, e'⟩
  · rw [e, ho]
  · rw [ho] at e; cases e; rw [e', hc]

theorem calm_get {s : CM V} (ho : OwnFiles s.view) {p : List String} (hp : IsItem s p) :
    Calm s (CMM.get p s).2 := by
  cases hc : s.view.own p with
  | error e =>
    obtain ⟨-, g⟩ := CMM.get_of_own_error hp hc
    refine ⟨⟨?_, ?_, ?_, ho, ?_⟩, ?_⟩
    · have h1 : (CMM.get p s).2.view.fs = s.view.fs := by rw [g]
      have h2 : (CMM.get p s).2.view.localConf = s.view.localConf := by rw [g]
      have h3 : (CMM.get p s).2.view.rootName = s.view.rootName := by rw [g]
      exact ⟨h1, h2, h3⟩
    · intro q _; rw [g]
    · intro q h; rw [g]; exact h
    · rw [g]; exact ho
    · intro q _; rw [g]; exact .inl rfl
  | ok c =>
    obtain ⟨-, g⟩ := CMM.get_of_own hp hc
    refine ⟨⟨?_, ?_, ?_, ho, ?_⟩, ?_⟩
    · have h1 : (CMM.get p s).2.view.fs = s.view.fs := by rw [g]; rfl
      have h2 : (CMM.get p s).2.view.localConf = s.view.localConf := by rw [g]; rfl
      have h3 : (CMM.get p s).2.view.rootName = s.view.rootName := by rw [g]; rfl
      exact ⟨h1, h2, h3⟩
    · intro q hq
      have : q ≠ p := by rintro rfl; rw [hp.item] at hq; cases hq
      rw [g, View.setConf_slot_ne _ _ this]
    · intro q hq
      rw [g]
      by_cases h : q = p
      · subst h; rw [View.setConf_slot_self]; rfl
      · rw [View.setConf_slot_ne _ _ h]; exact hq
    · rw [g]
      exact ho.setConf (by rw [CMM.active_file]; exact ho.own hp.plain hc)
    · intro q hq
      by_cases h : q = p
      · subst h
        refine .inr ⟨c, hc, ?_⟩
        rw [g]
        unfold View.own
        rw [View.setConf_slot_self]
      · left
        rw [g]
        unfold View.own
        rw [View.setConf_slot_ne _ _ h]
        rfl

end CM

/-- As for the configs; and the registered items are the same. -/
structure RS.Calm (s t : RS V) : Prop where
  reg : t.reg = s.reg
  cm : CM.Calm s.cm t.cm

/-- `m` only looks up configs. -/
def CalmAt {α : Type} (p : List String) (m : RM V α) : Prop :=
  ∀ s, OwnFiles s.cm.view → IsItem s.cm p → RS.Calm s (m s).2

namespace RM
variable {α β : Type} {p : List String}

theorem calm_same {s t : RS V} (ho : OwnFiles s.cm.view) (h1 : t.reg = s.reg) (h2 : t.cm = s.cm) : RS.Calm s t :=
  ⟨h1, by rw [h2]; exact .refl ho⟩

theorem calm_pure (a : α) : CalmAt p (pure a : RM V α) := fun _ h _ => calm_same h rfl rfl
theorem calm_raise (e : PyErr) : CalmAt p (M.raise e : RM V α) := fun _ h _ => calm_same h rfl rfl
theorem calm_get : CalmAt p (M.get : RM V (RS V)) := fun _ h _ => calm_same h rfl rfl
theorem calm_liftE (x : Except PyErr α) : CalmAt p (M.liftE x : RM V α) := fun _ h _ => calm_same h rfl rfl

theorem calm_bind {m : RM V α} {f : α → RM V β} (hm : CalmAt p m) (hf : ∀ a, CalmAt p (f a)) :
    CalmAt p (m >>= f) := by
  intro s ho h
  have h1 := hm s ho h
  rw [M.bind_run]
  cases hh : m s with
  | mk r s' =>
    rw [hh] at h1
    cases r with
    | error e => exact h1
    | ok a =>
      have h2 := hf a s' h1.cm.files (h1.cm.toShape.isItem h)
      exact ⟨h2.reg.trans h1.reg, h1.cm.trans h2.cm⟩

theorem calm_lookup (q : List String) : CalmAt p (lookup q : RM V (Reg V)) := by
  unfold lookup
  exact calm_bind calm_get (fun s => calm_liftE _)

theorem calm_getConfig : CalmAt p (getConfig p : RM V (Conf V)) := by
  unfold getConfig
  refine calm_bind (fun s ho h => ⟨rfl, CM.calm_get ho h⟩) (fun r => ?_)
  cases r with
  | none => exact calm_raise _
  | some c => exact calm_pure _

theorem calm_funcAndConfig : CalmAt p (funcAndConfig p : RM V _) := by
  unfold funcAndConfig
  exact calm_bind calm_getConfig (fun _ => calm_bind (calm_lookup p) (fun _ =>
    calm_bind (calm_liftE _) (fun _ => calm_pure _)))

theorem calm_store (o : Obj V) : CalmAt p (store p o) := fun _ h _ => calm_same h rfl rfl

theorem calm_getOneFunc : CalmAt p (getOneFunc p : RM V (Obj V)) := by
  unfold getOneFunc
  refine calm_bind calm_get (fun s => ?_)
  cases s.objs.get? p with
  | some o => exact calm_pure _
  | none =>
    refine calm_bind calm_funcAndConfig (fun r => ?_)
    obtain ⟨reg, d⟩ := r
    cases reg with
    | item k => exact calm_bind calm_get (fun s => calm_bind (calm_store _) (fun _ => calm_pure _))
    | coll _ _ => exact calm_raise _
    | other => exact calm_raise _

theorem calm_getOneObj : CalmAt p (getOneObj p : RM V (Obj V)) := by
  unfold getOneObj
  refine calm_bind calm_get (fun s => ?_)
  cases s.objs.get? p with
  | some o => exact calm_pure _
  | none =>
    refine calm_bind (calm_lookup p) (fun _ => calm_bind calm_funcAndConfig (fun r => ?_))
    obtain ⟨reg, d⟩ := r
    cases reg with
    | item k =>
      exact calm_bind calm_get (fun s => calm_bind (calm_liftE _) (fun _ =>
        calm_bind (calm_store _) (fun _ => calm_pure _)))
    | coll _ _ => exact calm_raise _
    | other => exact calm_raise _

theorem calm_runItem (k : Callable V) : CalmAt p (runItem p k) := by
  unfold runItem runOneFunc runOneObj
  cases k.kind
  · exact calm_bind calm_funcAndConfig (fun _ => calm_bind calm_getOneFunc (fun _ => calm_liftE _))
  · exact calm_bind calm_funcAndConfig (fun _ => calm_bind calm_getOneObj (fun _ => calm_liftE _))
  · exact calm_bind calm_funcAndConfig (fun _ => calm_bind calm_getOneObj (fun _ => calm_liftE _))

/-- Running a registered item. -/
theorem calm_run1 {s : RS V} (ho : OwnFiles s.cm.view) (hp : IsItem s.cm p) {k : Callable V}
    (hk : s.reg.lookup p = .ok (.item k)) : RS.Calm s (run1 p s).2 := by
  rw [run_item hk]
  exact calm_bind (calm_runItem k) (fun _ => calm_pure _) s ho hp

/-- All functions below `p` have configs, and nothing else that can be run is there. -/
def FuncsBelow (s : RS V) (p : List String) : Prop :=
  ∀ q b items, s.reg.lookup (p ++ q) = .ok (.coll b items) → ∀ x k, (x, Reg.item k) ∈ items →
    k.kind = .func ∧ IsItem s.cm (p ++ q ++ [x])

theorem FuncsBelow.sub {s : RS V} (h : FuncsBelow s p) (x : String) : FuncsBelow s (p ++ [x]) := by
  intro q b items hl y k hk
  rw [List.append_assoc] at hl
  have := h ([x] ++ q) b items hl y k hk
  simpa [List.append_assoc] using this

theorem FuncsBelow.calm {s t : RS V} (h : FuncsBelow s p) (hc : RS.Calm s t) : FuncsBelow t p := by
  intro q b items hl x k hk
  rw [hc.reg] at hl
  obtain ⟨h1, h2⟩ := h q b items hl x k hk
  exact ⟨h1, hc.cm.toShape.isItem h2⟩

theorem calm_runItems {f : List String → RM V (RunRes V)}
    (hf : ∀ q s, OwnFiles s.cm.view → FuncsBelow s q → RS.Calm s (f q s).2) (items : List (String × Reg V)) :
    ∀ s : RS V, OwnFiles s.cm.view → FuncsBelow s p → (∀ x k, (x, Reg.item k) ∈ items → k.kind = .func ∧ IsItem s.cm (p ++ [x])) →
      RS.Calm s (runItems f p items s).2 := by
  induction items with
  | nil => exact fun s ho _ _ => calm_same ho rfl rfl
  | cons e rest ih =>
    intro s ho hb hi
    have step : ∀ {α : Type} (m : RM V α) (g : α → List (RunRes V) → List (RunRes V)), RS.Calm s (m s).2 →
        RS.Calm s ((m >>= fun a => runItems f p rest >>= fun rs => pure (g a rs)) s).2 := by
      intro α m g hm
      rw [M.bind_run]
      cases hh : m s with
      | mk r s' =>
        rw [hh] at hm
        cases r with
        | error e => exact hm
        | ok a =>
          have h2 := ih s' hm.cm.files (hb.calm hm) (fun x k hk => by
            obtain ⟨a1, a2⟩ := hi x k (List.mem_cons_of_mem _ hk)
            exact ⟨a1, hm.cm.toShape.isItem a2⟩)
          simp only
          rw [M.bind_run]
          cases hr : runItems f p rest s' with
          | mk r s'' =>
            rw [hr] at h2
            cases r <;> exact ⟨h2.reg.trans hm.reg, hm.cm.trans h2.cm⟩
    obtain ⟨x, r⟩ := e
    cases r with
    | other => exact calm_same ho rfl rfl
    | coll b items' =>
      cases b with
      | true => exact calm_same ho rfl rfl
      | false => exact step (f (p ++ [x])) (fun r rs => r :: rs) (hf _ s ho (hb.sub x))
    | item k =>
      obtain ⟨hk, hx⟩ := hi x k List.mem_cons_self
      refine step (runInside p x k) (fun v rs => .one v :: rs) ?_
      have hin : runInside p x k = runItem (p ++ [x]) k := by
        unfold runInside runItem
        rw [hk]
      rw [hin]
      exact calm_runItem k s ho hx

theorem calm_runSection (n : Nat) : ∀ (q : List String) (s : RS V), OwnFiles s.cm.view → FuncsBelow s q →
    RS.Calm s (runSection n q s).2 := by
  induction n with
  | zero => exact fun _ s ho _ => calm_same ho rfl rfl
  | succ n ih =>
    intro q s ho hb
    unfold runSection
    rw [M.bind_run]
    have hlk : lookup q s = (s.reg.lookup q, s) := rfl
    rw [hlk]
    cases hl : s.reg.lookup q with
    | error e => exact calm_same ho rfl rfl
    | ok r =>
      cases r with
      | item k => exact calm_same ho rfl rfl
      | other => exact calm_same ho rfl rfl
      | coll b items =>
        simp only
        have h2 := calm_runItems (p := q) (fun q' s' => ih q' s') items s ho hb (fun x k hk => by
          have := hb [] b items (by rw [List.append_nil]; exact hl) x k hk
          simpa using this)
        rw [M.bind_run]
        cases hr : runItems (runSection n) q items s with
        | mk r s' =>
          rw [hr] at h2
          cases r <;> exact h2

/-- Running a section of functions. -/
theorem calm_run1_section {s : RS V} (ho : OwnFiles s.cm.view) {items : List (String × Reg V)}
    (hl : s.reg.lookup p = .ok (.coll false items)) (hb : FuncsBelow s p) : RS.Calm s (run1 p s).2 := by
  have : run1 p s = runSection (s.reg.depth + 1) p s := by
    unfold run1
    rw [M.bind_ok (M.get_run s), M.bind_ok (show lookup p s = (.ok (.coll false items), s) by
      show (s.reg.lookup p, s) = _
      rw [hl])]
  rw [this]
  exact calm_runSection _ p s ho hb

end RM

/-- With any settings, running a path changes the runner as `_run` does. -/
theorem MM.run_rs (st : RunSettings) (rel : String) (s : MS V) :
    (MM.run st RunHooks.none (.single (.str rel)) s).2.rs = (RM.run1 (split '.' rel) s.rs).2 := by
  have hr : (MM.runnerRun noPost (.str rel) s.rs : _ × RS V).2 = (RM.run1 (split '.' rel) s.rs).2 := by
    rw [show (MM.runnerRun noPost (.str rel) : RM V _) = (RM.run1 (split '.' rel) >>= fun r => pure r) from rfl]
    rw [M.bind_run]
    cases RM.run1 (split '.' rel) s.rs with
    | mk r t => cases r <;> rfl
  have htry : ∀ b, (MM.tryRun (MM.liftR (MM.runnerRun noPost (.str rel))) b s).2.rs =
      (RM.run1 (split '.' rel) s.rs).2 := by
    intro b
    rw [← hr]
    unfold MM.tryRun MM.liftR
    cases MM.runnerRun noPost (.str rel) s.rs with
    | mk r t =>
      cases r with
      | ok a => rfl
      | error e =>
        cases b <;> cases e <;> rfl
  unfold MM.run
  rw [show convertArg (.single (.str rel)) = .ok (.str rel) from rfl]
  rw [M.bind_run, M.liftE_run]
  simp only [RunHooks.none]
  rw [show combineExtract (.str rel) [] = .str rel from rfl]
  unfold MM.runWith
  by_cases h1 : st.autoPdb = true
  · rw [if_pos h1]
    unfold MM.autoPdb
    rw [M.bind_run, ← htry true]
    cases MM.tryRun (MM.liftR (MM.runnerRun noPost (.str rel))) true s with
    | mk r t =>
      cases r with
      | error e => rfl
      | ok x => cases x <;> rfl
  · rw [if_neg h1]
    by_cases h2 : st.forceContinue = true
    · rw [if_pos h2, M.bind_run]
      unfold MM.forceContinue MM.forceLoop
      simp only
      rw [M.bind_run, M.bind_run, ← htry false]
      cases MM.tryRun (MM.liftR (MM.runnerRun noPost (.str rel))) false s with
      | mk r t =>
        cases r with
        | error e => rfl
        | ok x => cases x <;> rfl
    · rw [if_neg h2, M.bind_run, ← hr]
      unfold MM.liftR
      cases MM.runnerRun noPost (.str rel) s.rs with
      | mk r t => cases r <;> rfl

/-! ### The active configuration, value by value -/

theorem CMM.active_get? {s : CM V} (ho : OwnFiles s.view) {p : List String} (hp : IsItem s p) {c : Conf V}
    (hc : c.file = some (.item p)) (k : String) :
    (CMM.active s.view p c).values.get? k = if c.values.items.isEmpty then none else
      (CMM.lastDef k ((s.view.levels p ++ [some s.view.localConf]).map CMM.levelValues)).or (c.values.get? k) := by
  unfold CMM.active
  split
  · rename_i h
    rw [List.isEmpty_iff] at h
    show AList.get? c.values.items k = none
    rw [h]
    rfl
  · unfold CMM.overridden
    rw [CMM.foldl_applyLevel_values _ _ (CMM.levels_otherFile ho hp hc), CMM.get?_foldl_update]

theorem Dict.isEmpty_congr {a b : Dict String V} (h : ∀ k, a.get? k = b.get? k) :
    a.items.isEmpty = b.items.isEmpty := by
  have key : ∀ {a b : Dict String V}, (∀ k, a.get? k = b.get? k) → a.items.isEmpty = true → b.items.isEmpty = true := by
    intro a b h ha
    rw [List.isEmpty_iff] at ha ⊢
    cases hb : b.items with
    | nil => rfl
    | cons e es =>
      have : b.get? e.1 = some e.2 := (Dict.mem_items_iff b e.1 e.2).1 (by rw [hb]; exact List.mem_cons_self)
      rw [← h] at this
      rw [show a.get? e.1 = AList.get? a.items e.1 from rfl, ha] at this
      cases this
  cases h1 : a.items.isEmpty with
  | true => exact (key h h1).symm
  | false =>
    cases h2 : b.items.isEmpty with
    | false => rfl
    | true => rw [key (fun k => (h k).symm) h2] at h1; cases h1

theorem CMM.active_values_congr {s : CM V} (ho : OwnFiles s.view) {p : List String} (hp : IsItem s p)
    {c c' : Conf V} (hc : c.file = some (.item p)) (hc' : c'.file = some (.item p))
    (h : ∀ k, c.values.get? k = c'.values.get? k) (k : String) :
    (CMM.active s.view p c).values.get? k = (CMM.active s.view p c').values.get? k := by
  rw [CMM.active_get? ho hp hc, CMM.active_get? ho hp hc', Dict.isEmpty_congr h, h]

theorem CMM.get_shownConf {s : CM V} {p : List String} (hp : IsItem s p) :
    (CMM.get p s).1 = (s.shownConf p).map some := by
  unfold CM.shownConf
  cases hc : s.view.own p with
  | error e => rw [(CMM.get_of_own_error hp hc).1]; rfl
  | ok c => rw [(CMM.get_of_own hp hc).1]; rfl

/-! ### An update that succeeds -/

/-- After an update with known keys that succeeds the own config has the new values. -/
theorem RM.update_ok [BEq V] (he : ∀ a b : V, (a == b) = true → a = b) {s : RS V} {p : List String}
    (hp : IsItem s.cm p) {c : Conf V} (hc : s.cm.view.own p = .ok c) {persist : Bool} {kw : Dict String V}
    (hok : (RM.update none (some p) persist kw s).1 = .ok ()) (hk : ∀ k ∈ kw.keys, k ∈ c.values.keys) (k : String) :
    (c.updated none persist kw).values.get? k = (kw.get? k).or (c.values.get? k) := by
  have hv := CMM.vupdate_item hp.item none persist kw
  rw [hc] at hv
  have hr := CMM.update_ref hp none persist kw
  unfold CMM.Ref at hr
  rw [hr] at hv
  have h1 := congrArg Prod.fst hv
  unfold RM.update at hok
  rw [M.bind_run] at hok
  unfold RM.liftC at hok
  unfold Conf.updated
  cases hd : CMM.determineWouldUpdate c none kw with
  | error e =>
    simp only [hd] at h1
    simp only [h1] at hok
    cases hok
  | ok b =>
    cases b with
    | false =>
      simp only
      unfold CMM.determineWouldUpdate at hd
      split at hd
      · cases hd
      · simp only [Except.ok.injEq, Dict.empty_update] at hd
        cases hkv : kw.get? k with
        | none => rfl
        | some v =>
          obtain ⟨w, hw⟩ := Dict.get?_isSome_of_mem (hk k (Dict.mem_keys_of_get? hkv))
          rw [hw]
          cases hx : (w == v) with
          | true => rw [he w v hx]; rfl
          | false =>
            have : c.wouldUpdate (some kw) Dict.empty = true :=
              (Conf.wouldUpdate_iff c _ _).2 ⟨k, v, w, by simp [hkv], hw, hx⟩
            rw [hd] at this
            cases this
    | true =>
      simp only
      by_cases hcl : Conf.clash Conf.updateReserved kw = true
      · simp only [hd] at h1
        rw [if_pos hcl] at h1
        simp only [h1] at hok
        cases hok
      · rw [if_neg hcl, Conf.get?_update_values]
        simp

theorem CM.shape_update [BEq V] {s : RS V} (ho : OwnFiles s.cm.view) {p : List String} (hp : IsItem s.cm p)
    {c : Conf V} (hc : s.cm.view.own p = .ok c) (d : Option (Dict String V)) (persist : Bool) (kw : Dict String V) :
    CM.Shape s.cm (RM.update d (some p) persist kw s).2.cm := by
  have hv := (RM.update_cm hp hc d persist kw).1
  generalize (RM.update d (some p) persist kw s).2.cm = t at hv
  refine ⟨?_, ?_, ?_, ho, ?_⟩
  · have h1 : t.view.fs = s.cm.view.fs := by rw [hv]; rfl
    have h2 : t.view.localConf = s.cm.view.localConf := by rw [hv]; rfl
    have h3 : t.view.rootName = s.cm.view.rootName := by rw [hv]; rfl
    exact ⟨h1, h2, h3⟩
  · intro q hq
    have : q ≠ p := by rintro rfl; rw [hp.item] at hq; cases hq
    rw [hv, View.setConf_slot_ne _ _ this]
  · intro q hq
    rw [hv]
    by_cases h : q = p
    · subst h; rw [View.setConf_slot_self]; rfl
    · rw [View.setConf_slot_ne _ _ h]; exact hq
  · rw [hv]
    apply ho.setConf
    have hf := ho.own hp.plain hc
    unfold Conf.updated
    split
    · split
      · exact hf
      · exact hf
    · exact hf

/-! ### The same up to loading -/

/-- The same configs of items and sections; a config may be loaded in one and not in the other. -/
structure View.Same (a b : View V) : Prop where
  rest : b.fs = a.fs ∧ b.localConf = a.localConf ∧ b.rootName = a.rootName
  items : ∀ q, (b.slot q).isItem = (a.slot q).isItem
  own : ∀ q, (a.slot q).isItem = true → b.own q = a.own q
  others : ∀ q, (a.slot q).isItem = false → b.slot q = a.slot q

theorem View.Same.refl (a : View V) : View.Same a a := ⟨⟨rfl, rfl, rfl⟩, fun _ => rfl, fun _ _ => rfl, fun _ _ => rfl⟩

theorem View.Same.symm {a b : View V} (h : View.Same a b) : View.Same b a :=
  ⟨⟨h.rest.1.symm, h.rest.2.1.symm, h.rest.2.2.symm⟩, fun q => (h.items q).symm,
    fun q hq => (h.own q (by rw [← h.items q]; exact hq)).symm,
    fun q hq => (h.others q (by rw [← h.items q]; exact hq)).symm⟩

theorem View.Same.trans {a b c : View V} (h1 : View.Same a b) (h2 : View.Same b c) : View.Same a c :=
  ⟨⟨h2.rest.1.trans h1.rest.1, h2.rest.2.1.trans h1.rest.2.1, h2.rest.2.2.trans h1.rest.2.2⟩,
    fun q => (h2.items q).trans (h1.items q),
    fun q hq => (h2.own q (by rw [h1.items q]; exact hq)).trans (h1.own q hq),
    fun q hq => (h2.others q (by rw [h1.items q]; exact hq)).trans (h1.others q hq)⟩

theorem View.Same.setConf {a b : View V} (h : View.Same a b) {p : List String} (hp : (a.slot p).isItem = true)
    (c : Conf V) : View.Same (a.setConf p c) (b.setConf p c) := by
  refine ⟨h.rest, ?_, ?_, ?_⟩
  · intro q
    by_cases hq : q = p
    · subst hq; rw [View.setConf_slot_self, View.setConf_slot_self]
    · rw [View.setConf_slot_ne _ _ hq, View.setConf_slot_ne _ _ hq]; exact h.items q
  · intro q hi
    unfold View.own
    by_cases hq : q = p
    · subst hq; rw [View.setConf_slot_self, View.setConf_slot_self]
    · rw [View.setConf_slot_ne _ _ hq] at hi
      rw [View.setConf_slot_ne _ _ hq, View.setConf_slot_ne _ _ hq]
      exact h.own q hi
  · intro q hi
    by_cases hq : q = p
    · subst hq; rw [View.setConf_slot_self] at hi; cases hi
    · rw [View.setConf_slot_ne _ _ hq] at hi
      rw [View.setConf_slot_ne _ _ hq, View.setConf_slot_ne _ _ hq]
      exact h.others q hi

/-- Loading a config that is not loaded yet. -/
theorem View.same_setConf {a : View V} {p : List String} (hp : (a.slot p).isItem = true) {c : Conf V}
    (hc : a.own p = .ok c) : View.Same a (a.setConf p c) := by
  refine ⟨⟨rfl, rfl, rfl⟩, ?_, ?_, ?_⟩
  · intro q
    by_cases hq : q = p
    · subst hq; rw [View.setConf_slot_self, hp]; rfl
    · rw [View.setConf_slot_ne _ _ hq]
  · intro q _
    by_cases hq : q = p
    · subst hq
      rw [hc]
      unfold View.own
      rw [View.setConf_slot_self]
    · unfold View.own
      rw [View.setConf_slot_ne _ _ hq]
      rfl
  · intro q hi
    have hq : q ≠ p := by rintro rfl; rw [hp] at hi; cases hi
    rw [View.setConf_slot_ne _ _ hq]

/-- The same configs, and the same objects. -/
structure RS.Same (s t : RS V) : Prop where
  view : View.Same s.cm.view t.cm.view
  reg : t.reg = s.reg
  objs : t.objs = s.objs
  nextId : t.nextId = s.nextId

theorem RS.Same.refl (s : RS V) : RS.Same s s := ⟨.refl _, rfl, rfl, rfl⟩
theorem RS.Same.symm {s t : RS V} (h : RS.Same s t) : RS.Same t s :=
  ⟨h.view.symm, h.reg.symm, h.objs.symm, h.nextId.symm⟩
theorem RS.Same.trans {a b c : RS V} (h1 : RS.Same a b) (h2 : RS.Same b c) : RS.Same a c :=
  ⟨h1.view.trans h2.view, h2.reg.trans h1.reg, h2.objs.trans h1.objs, h2.nextId.trans h1.nextId⟩

theorem RM.applyToLoaded_same {s t : RS V} (h : RS.Same s t) (p : List String) (config announced : Dict String V) :
    (RM.applyToLoaded p config announced t).1 = (RM.applyToLoaded p config announced s).1 ∧
    RS.Same (RM.applyToLoaded p config announced s).2 (RM.applyToLoaded p config announced t).2 := by
  unfold RM.applyToLoaded
  rw [M.bind_ok (M.get_run s), M.bind_ok (M.get_run t), h.objs]
  cases s.objs.get? p with
  | none => exact ⟨rfl, h⟩
  | some o =>
    simp only
    rw [M.bind_run, M.liftE_run, M.bind_run, M.liftE_run]
    cases RM.applyConfig o config with
    | error e => exact ⟨rfl, h⟩
    | ok o' =>
      simp only
      rw [M.bind_ok (M.modify_run _ _), M.bind_ok (M.modify_run _ _)]
      have hs : RS.Same { s with objs := s.objs.set p o' } { t with objs := t.objs.set p o' } :=
        ⟨h.view, h.reg, by rw [h.objs], h.nextId⟩
      split
      · exact ⟨rfl, hs⟩
      · exact ⟨rfl, hs⟩

theorem RM.update_same [BEq V] {s t : RS V} (h : RS.Same s t) {p : List String} (hp : IsItem s.cm p)
    (hp' : IsItem t.cm p) (d : Option (Dict String V)) (persist : Bool) (kw : Dict String V) :
    (RM.update d (some p) persist kw t).1 = (RM.update d (some p) persist kw s).1 ∧
    RS.Same (RM.update d (some p) persist kw s).2 (RM.update d (some p) persist kw t).2 := by
  have hv := CMM.vupdate_item hp.item d persist kw
  have hr := CMM.update_ref hp d persist kw
  unfold CMM.Ref at hr
  rw [hr] at hv
  have hv' := CMM.vupdate_item hp'.item d persist kw
  have hr' := CMM.update_ref hp' d persist kw
  unfold CMM.Ref at hr'
  rw [hr', h.view.own p hp.item] at hv'
  have key : (CMM.update d (some p) persist kw t.cm).1 = (CMM.update d (some p) persist kw s.cm).1 ∧
      View.Same (CMM.update d (some p) persist kw s.cm).2.view (CMM.update d (some p) persist kw t.cm).2.view := by
    have e1 := congrArg Prod.fst hv
    have e2 := congrArg Prod.snd hv
    have e1' := congrArg Prod.fst hv'
    have e2' := congrArg Prod.snd hv'
    simp only at e1 e2 e1' e2'
    cases ho : s.cm.view.own p with
    | error e =>
      rw [ho] at e1 e2 e1' e2'
      exact ⟨e1'.trans e1.symm, by rw [e2, e2']; exact h.view⟩
    | ok c =>
      simp only [ho] at e1 e2 e1' e2'
      cases hd : CMM.determineWouldUpdate c d kw with
      | error e =>
        simp only [hd] at e1 e2 e1' e2'
        exact ⟨e1'.trans e1.symm, by rw [e2, e2']; exact h.view.setConf hp.item _⟩
      | ok b =>
        cases b with
        | false =>
          simp only [hd] at e1 e2 e1' e2'
          exact ⟨e1'.trans e1.symm, by rw [e2, e2']; exact h.view.setConf hp.item _⟩
        | true =>
          simp only [hd] at e1 e2 e1' e2'
          split at e1
          · rename_i hc
            rw [if_pos hc] at e2 e1' e2'
            exact ⟨e1'.trans e1.symm, by rw [e2, e2']; exact h.view.setConf hp.item _⟩
          · rename_i hc
            rw [if_neg hc] at e2 e1' e2'
            exact ⟨e1'.trans e1.symm, by rw [e2, e2']; exact h.view.setConf hp.item _⟩
  unfold RM.update
  rw [M.bind_run, M.bind_run]
  unfold RM.liftC
  have hs : RS.Same { s with cm := (CMM.update d (some p) persist kw s.cm).2 }
      { t with cm := (CMM.update d (some p) persist kw t.cm).2 } := ⟨key.2, h.reg, h.objs, h.nextId⟩
  simp only [key.1]
  cases (CMM.update d (some p) persist kw s.cm).1 with
  | error e => exact ⟨rfl, hs⟩
  | ok x =>
    obtain ⟨c, b⟩ := x
    cases b with
    | false => exact ⟨rfl, hs⟩
    | true => exact RM.applyToLoaded_same hs p _ _

/-- An update with the values that are there changes nothing. -/
theorem RM.update_noop [BEq V] (he : ∀ a : V, (a == a) = true) {s : RS V} {p : List String}
    (hp : IsItem s.cm p) {c : Conf V} (hc : s.cm.view.own p = .ok c) (persist : Bool) {kw : Dict String V}
    (hk : ∀ k v, kw.get? k = some v → c.values.get? k = some v)
    (hok : (RM.update none (some p) persist kw s).1 = .ok ()) :
    RS.Same s (RM.update none (some p) persist kw s).2 := by
  have hv := CMM.vupdate_item hp.item none persist kw
  rw [hc] at hv
  have hr := CMM.update_ref hp none persist kw
  unfold CMM.Ref at hr
  rw [hr] at hv
  have h1 := congrArg Prod.fst hv
  have h2 := congrArg Prod.snd hv
  unfold RM.update at hok ⊢
  rw [M.bind_run] at hok ⊢
  unfold RM.liftC at hok ⊢
  cases hd : CMM.determineWouldUpdate c none kw with
  | error e =>
    simp only [hd] at h1
    simp only [h1] at hok
    cases hok
  | ok b =>
    cases b with
    | false =>
      simp only [hd] at h1 h2
      simp only [h1]
      refine ⟨?_, rfl, rfl, rfl⟩
      show View.Same _ (CMM.update none (some p) persist kw s.cm).2.view
      rw [h2]
      exact View.same_setConf hp.item hc
    | true =>
      exfalso
      unfold CMM.determineWouldUpdate at hd
      split at hd
      · cases hd
      · simp only [Except.ok.injEq, Dict.empty_update] at hd
        obtain ⟨k, v, w, e1, e2, e3⟩ := (Conf.wouldUpdate_iff c _ _).1 hd
        simp only [Dict.get?_empty, Option.none_or, Option.bind_some] at e1
        rw [hk k v e1] at e2
        cases e2
        rw [he v] at e3
        cases e3

end Verif.Model

import Verif.Lemmas.Apart
import Verif.Props.Runner

/-
Property theorems about items apart from each other: C99.
-/

namespace Verif.Props
open Verif.Py Verif.Model

variable {V : Type}

/-! ### Specification -/

/-- The path that a call is for; none for edits of the files and for the local config. -/
def opPath : ROp V → Option (List String)
  | .get p => some p
  | .run p => some p
  | .update _ p _ _ => p
  | .reset p _ => p
  | .refresh p => some p
  | .edit _ => none

/-- Whether it is for no path other than `p`. -/
def about (p : List String) (op : ROp V) : Bool :=
  match opPath op with
  | none => true
  | some q => decide (q = p)

/-- What the caller sees of a call: an object (but for its identity), the result of a run, or an exception. -/
inductive CallOutcome (V : Type) where
  | object (isPartial : Bool) (callable : Callable V) (kwargs : Dict String V)
  | many
  | ran (r : RM.RunRes V)
  | done
  | raised (e : PyErr)

/-- The callOutcome of a call. -/
def callOutcome [BEq V] (s : RS V) : ROp V → CallOutcome V
  | .get p => match (RM.get p s).1 with
    | .ok (.obj o) => .object o.isPartial o.callable o.kwargs
    | .ok _ => .many
    | .error e => .raised e
  | .run p => match (RM.run1 p s).1 with
    | .ok r => .ran r
    | .error e => .raised e
  | .update d p persist kw => match (RM.update d p persist kw s).1 with
    | .ok () => .done
    | .error e => .raised e
  | .reset p b => match (RM.reset p b s).1 with
    | .ok () => .done
    | .error e => .raised e
  | .refresh p => match (RM.refresh p s).1 with
    | .ok () => .done
    | .error e => .raised e
  | .edit _ => .done

/-- The outcomes of the calls of a history that are for no path other than `p`. -/
def outcomes [BEq V] (p : List String) (s : RS V) : List (ROp V) → List (CallOutcome V)
  | [] => []
  | op :: ops => if about p op then callOutcome s op :: outcomes p (s.step op) ops else outcomes p (s.step op) ops

/-- A call for an item, a change of the local config, or an edit of the files. -/
def ForItem (s : RS V) (op : ROp V) : Prop :=
  opPath op = none ∨ ∃ q k, RunnerItem s q k ∧ op.OnItem q

/-! ### Lemmas -/

theorem outcome_get {r r' : Except PyErr (Obj V)} (h : SameRes RM.SameButId r r') :
    (match r.map RM.GetRes.obj with
    | .ok (.obj o) => CallOutcome.object o.isPartial o.callable o.kwargs
    | .ok _ => .many
    | .error e => .raised e) =
    (match r'.map RM.GetRes.obj with
    | .ok (.obj o) => CallOutcome.object o.isPartial o.callable o.kwargs
    | .ok _ => .many
    | .error e => .raised e) := by
  cases h with
  | ok h =>
    obtain ⟨h1, h2, h3⟩ := RM.anon_eq h
    simp only [Except.map, h1, h2, h3]
  | error e => rfl

theorem sameRes_eq {α : Type} {r r' : Except PyErr α} (h : SameRes (fun a b => a = b) r r') : r = r' := by
  cases h with
  | ok h => rw [h]
  | error e => rfl

theorem bind_pure_fst {σ α β : Type} (m : M PyErr σ α) (f : α → β) (s : σ) :
    (m >>= fun a => pure (f a)) s = ((m s).1.map f, (m s).2) := by
  rw [M.bind_run]
  cases m s with
  | mk r s' => cases r <;> rfl

/-- Config managers that agree on the item at `p`. -/
def CMAlike (p : List String) (s t : CM V) : Prop := s.view.Alike p t.view ∧ IsItem s p ∧ IsItem t p

theorem CMAlike.setLocal {p : List String} {s t : CM V} (h : CMAlike p s t) (c : Conf V) :
    CMAlike p { s with localConf := c } { t with localConf := c } :=
  ⟨⟨h.1.fs, h.1.rootName, rfl, h.1.slot, h.1.sects⟩, ⟨h.2.1.ne, h.2.1.plain, h.2.1.item⟩, ⟨h.2.2.ne, h.2.2.plain, h.2.2.item⟩⟩

theorem liftC_local {α : Type} {p : List String} {m : CMM V α} (h : Sim (CMAlike p) (fun a b => a = b) m m) :
    RM.RSim p (fun a b => a = b) (RM.liftC m) (RM.liftC m) := by
  intro s t hA
  obtain ⟨h1, h2, h3, h4⟩ := h s.cm t.cm ⟨hA.view, hA.item, hA.item'⟩
  exact ⟨h1, h2, hA.reg, hA.obj, h3, h4⟩

theorem update_localConf [BEq V] {p : List String} (d : Option (Dict String V)) (persist : Bool) (kw : Dict String V) :
    RM.RSim p (fun a b => a = b) (RM.update d none persist kw) (RM.update d none persist kw) := by
  unfold RM.update
  refine Sim.bind (liftC_local ?_) ?_
  · unfold CMM.update CMM.getProjectOrLocal
    refine Sim.bind (R := fun a b => a = b) (Sim.bind Sim.get (fun s t h => Sim.pure ?_)) ?_
    · exact congrArg some h.1.localConf
    · rintro r _ rfl
      cases r with
      | none => exact Sim.raise _
      | some c =>
        dsimp only
        refine Sim.bind (Sim.liftE (CMM.same_refl _)) ?_
        rintro w _ rfl
        split
        · split
          · exact Sim.raise _
          · refine Sim.bind (Sim.modify (fun s t h => ?_)) (fun _ _ _ => Sim.pure rfl)
            have hl : s.localConf = t.localConf := h.1.localConf
            dsimp only
            rw [hl]
            exact h.setLocal _
        · exact Sim.pure rfl
  · rintro ⟨c, u⟩ _ rfl
    cases u <;> exact Sim.pure rfl

theorem reset_localConf [BEq V] {p : List String} (b : Bool) :
    RM.RSim p (fun a b => a = b) (RM.reset (V := V) none b) (RM.reset none b) := by
  unfold RM.reset
  refine Sim.bind (liftC_local ?_) ?_
  · unfold CMM.reset
    exact Sim.bind (Sim.modify (fun s t h => h.setLocal _)) (fun _ _ _ => Sim.pure rfl)
  · rintro ⟨c, u⟩ _ rfl
    cases u <;> exact Sim.pure rfl

theorem alike_refl {s : RS V} {p : List String} (h : IsItem s.cm p) : RS.Alike p s s :=
  ⟨⟨rfl, rfl, rfl, rfl, fun _ _ => rfl⟩, rfl, rfl, h, h⟩

/-- What is done to another item in one of two alike states. -/
theorem alike_frame {s t u : RS V} {p q : List String} (h : RS.Alike p s t) (hf : RS.Frame q s u) (hne : p ≠ q)
    (hq : IsItem s.cm q) : RS.Alike p u t where
  view := {
    fs := hf.rest.1.trans h.view.fs
    rootName := hf.rest.2.2.trans h.view.rootName
    localConf := hf.rest.2.1.trans h.view.localConf
    slot := (hf.slots p hne).trans h.view.slot
    sects := fun j hj => by
      refine (hf.slots _ ?_).trans (h.view.sects j hj)
      intro he
      obtain ⟨cfg, hs⟩ := h.item.prefix_sect hj
      have := hq.item
      rw [← he, hs] at this
      simp [Slot.isItem] at this }
  reg := hf.reg.trans h.reg
  obj := by rw [hf.objs p hne]; exact h.obj
  item := hf.items p h.item
  item' := h.item'

variable [BEq V]

/-- A call about `p` in alike states. -/
theorem step_about {s t : RS V} {p : List String} (h : RS.Alike p s t) {k : Callable V} (hk : s.reg.lookup p = .ok (.item k))
    {op : ROp V} (ho : opPath op = none ∨ op.OnItem p) :
    callOutcome s op = callOutcome t op ∧ RS.Alike p (s.step op) (t.step op) := by
  have hk' : t.reg.lookup p = .ok (.item k) := by rw [← h.reg]; exact hk
  rcases ho with ho | ho
  · cases op with
    | get => cases ho
    | run => cases ho
    | refresh => cases ho
    | edit fs =>
      refine ⟨rfl, ⟨rfl, h.view.rootName, h.view.localConf, h.view.slot, h.view.sects⟩, h.reg, h.obj, ?_, ?_⟩
      · exact ⟨h.item.ne, h.item.plain, h.item.item⟩
      · exact ⟨h.item'.ne, h.item'.plain, h.item'.item⟩
    | update d q persist kw =>
      have : q = none := ho
      subst this
      obtain ⟨h1, h2⟩ := update_localConf d persist kw s t h
      refine ⟨?_, h2⟩
      unfold callOutcome
      dsimp only
      rw [sameRes_eq h1]
    | reset q b =>
      have : q = none := ho
      subst this
      obtain ⟨h1, h2⟩ := reset_localConf b s t h
      refine ⟨?_, h2⟩
      unfold callOutcome
      dsimp only
      rw [sameRes_eq h1]
  · cases ho with
    | get =>
      obtain ⟨h1, h2⟩ := RM.getItem_sim k s t h
      have e1 := (RM.get_item hk).trans (bind_pure_fst (RM.getItem p k) RM.GetRes.obj s)
      have e2 := (RM.get_item hk').trans (bind_pure_fst (RM.getItem p k) RM.GetRes.obj t)
      unfold callOutcome RS.step
      dsimp only
      rw [e1, e2]
      exact ⟨outcome_get h1, h2⟩
    | run =>
      obtain ⟨h1, h2⟩ := RM.runItem_sim k s t h
      have e1 := (RM.run_item hk).trans (bind_pure_fst (RM.runItem p k) RM.RunRes.one s)
      have e2 := (RM.run_item hk').trans (bind_pure_fst (RM.runItem p k) RM.RunRes.one t)
      unfold callOutcome RS.step
      dsimp only
      rw [e1, e2, sameRes_eq h1]
      exact ⟨rfl, h2⟩
    | update d persist kw =>
      obtain ⟨h1, h2⟩ := RM.update_sim d persist kw s t h
      refine ⟨?_, h2⟩
      unfold callOutcome
      dsimp only
      rw [sameRes_eq h1]
    | reset =>
      obtain ⟨h1, h2⟩ := RM.reset_sim s t h
      refine ⟨?_, h2⟩
      unfold callOutcome
      dsimp only
      rw [sameRes_eq h1]
    | refresh =>
      obtain ⟨h1, h2⟩ := RM.refresh_sim s t h
      refine ⟨?_, h2⟩
      unfold callOutcome
      dsimp only
      rw [sameRes_eq h1]

omit [BEq V] in
theorem onItem_path {q : List String} {op : ROp V} (h : op.OnItem q) : opPath op = some q := by
  cases h <;> rfl

/-- Items stay items. -/
theorem step_keeps {s : RS V} {op : ROp V} (ho : ForItem s op) {p : List String} {k : Callable V} (h : RunnerItem s p k) :
    RunnerItem (s.step op) p k := by
  rcases ho with ho | ⟨q, kq, hq, ho⟩
  · have := (step_about (alike_refl h.config.isItem) h.registered (.inl ho)).2
    refine ⟨.of_isItem this.item, ?_⟩
    have hreg : (s.step op).reg = s.reg := by
      cases op with
      | get => cases ho
      | run => cases ho
      | refresh => cases ho
      | edit fs => rfl
      | update d q persist kw =>
        have : q = none := ho
        subst this
        show (RM.update d none persist kw s).2.reg = s.reg
        unfold RM.update
        rw [M.bind_run]
        unfold RM.liftC
        cases hu : (CMM.update d none persist kw s.cm).1 with
        | error e => simp only [hu]
        | ok r =>
          obtain ⟨c, u⟩ := r
          simp only [hu]
          cases u <;> rfl
      | reset q b =>
        have : q = none := ho
        subst this
        rfl
    rw [hreg]
    exact h.registered
  · have hf := RS.step_frame hq.config.isItem hq.registered ho
    exact ⟨.of_isItem (hf.items p h.config.isItem), by rw [hf.reg]; exact h.registered⟩

theorem forItem_keeps {s : RS V} {op op' : ROp V} (ho : ForItem s op) (h : ForItem s op') : ForItem (s.step op) op' := by
  rcases h with h | ⟨q, k, hq, h⟩
  · exact .inl h
  · exact .inr ⟨q, k, step_keeps ho hq, h⟩

theorem alike_history {p : List String} {k : Callable V} : ∀ (ops : List (ROp V)) (s t : RS V), RS.Alike p s t → RunnerItem s p k →
    (∀ op ∈ ops, ForItem s op) →
    outcomes p s ops = outcomes p t (ops.filter (about p)) ∧ RS.Alike p (after s ops) (after t (ops.filter (about p)))
  | [], s, t, h, _, _ => ⟨rfl, h⟩
  | op :: ops, s, t, h, hk, ho => by
    have ho1 := ho op List.mem_cons_self
    have hrest : ∀ op' ∈ ops, ForItem (s.step op) op' := fun op' h' => forItem_keeps ho1 (ho op' (List.mem_cons_of_mem _ h'))
    have hk' := step_keeps ho1 hk
    by_cases ha : about p op = true
    · have hon : opPath op = none ∨ op.OnItem p := by
        rcases ho1 with h1 | ⟨q, kq, hq, h1⟩
        · exact .inl h1
        · right
          unfold about at ha
          rw [onItem_path h1] at ha
          have : q = p := by simpa using ha
          rw [← this]
          exact h1
      obtain ⟨e, h'⟩ := step_about h hk.registered hon
      obtain ⟨i1, i2⟩ := alike_history ops _ _ h' hk' hrest
      rw [List.filter_cons_of_pos ha]
      refine ⟨?_, i2⟩
      unfold outcomes
      rw [if_pos ha, if_pos ha, e, i1]
    · rw [List.filter_cons_of_neg ha]
      have h' : RS.Alike p (s.step op) t := by
        rcases ho1 with h1 | ⟨q, kq, hq, h1⟩
        · unfold about at ha
          rw [h1] at ha
          exact absurd rfl ha
        · refine alike_frame h (RS.step_frame hq.config.isItem hq.registered h1) ?_ hq.config.isItem
          intro hpq
          unfold about at ha
          rw [onItem_path h1, hpq] at ha
          simp at ha
      obtain ⟨i1, i2⟩ := alike_history ops _ _ h' hk' hrest
      refine ⟨?_, i2⟩
      rw [outcomes, if_neg ha, i1]

/-! ### C99 -/

/-- What is there of an item: the stored config (or its file), and the created object but for its identity. -/
def itemState (s : RS V) (p : List String) : Slot V × Option (Bool × Callable V × Dict String V) :=
  (s.cm.view.slot p, (created s p).map (fun o => (o.isPartial, o.callable, o.kwargs)))

omit [BEq V] in
theorem itemState_eq {s t : RS V} {p : List String} (h : RS.Alike p s t) : itemState s p = itemState t p := by
  unfold itemState created
  rw [h.view.slot]
  rcases RM.obj_cases h with ⟨h1, h2⟩ | ⟨o, o', h1, h2, ho⟩
  · rw [h1, h2]
  · obtain ⟨g1, g2, g3⟩ := RM.anon_eq ho
    rw [h1, h2]
    simp only [Option.map_some, g1, g2, g3]

/-- C99: in every history of calls for items, changes of the local config and edits of the files, the outcomes of the calls for one
item, and what is there of it in the end, are those of the same history without the calls for other items. -/
theorem C99_own_history (s : RS V) (p : List String) (k : Callable V) (hp : RunnerItem s p k) (ops : List (ROp V))
    (ho : ∀ op ∈ ops, ForItem s op) :
    outcomes p s ops = outcomes p s (ops.filter (about p)) ∧
    itemState (after s ops) p = itemState (after s (ops.filter (about p))) p := by
  obtain ⟨h1, h2⟩ := alike_history ops s s (alike_refl hp.config.isItem) hp ho
  exact ⟨h1, itemState_eq h2⟩

/-- C99: so two histories that differ only in how the calls for different items are mixed have, for each item, the same outcomes and
the same state in the end. -/
theorem C99_any_order (s : RS V) (p : List String) (k : Callable V) (hp : RunnerItem s p k) (ops ops' : List (ROp V))
    (ho : ∀ op ∈ ops, ForItem s op) (ho' : ∀ op ∈ ops', ForItem s op) (h : ops.filter (about p) = ops'.filter (about p)) :
    outcomes p s ops = outcomes p s ops' ∧ itemState (after s ops) p = itemState (after s ops') p := by
  obtain ⟨h1, h2⟩ := C99_own_history s p k hp ops ho
  obtain ⟨h3, h4⟩ := C99_own_history s p k hp ops' ho'
  rw [h1, h2, h3, h4, h]
  exact ⟨rfl, rfl⟩

/-- C99: calls for two different items can be swapped anywhere in a history; every item is as before. -/
theorem C99_swap (s : RS V) (pre post : List (ROp V)) (a b : ROp V) (pa pb : List String)
    (ha : opPath a = some pa) (hb : opPath b = some pb) (hne : pa ≠ pb)
    (ho : ∀ op ∈ pre ++ a :: b :: post, ForItem s op) (p : List String) (k : Callable V) (hp : RunnerItem s p k) :
    outcomes p s (pre ++ a :: b :: post) = outcomes p s (pre ++ b :: a :: post) ∧
    itemState (after s (pre ++ a :: b :: post)) p = itemState (after s (pre ++ b :: a :: post)) p := by
  refine C99_any_order s p k hp _ _ ho (fun op hop => ho op ?_) ?_
  · simp only [List.mem_append, List.mem_cons] at hop ⊢
    rcases hop with h | h | h | h
    · exact .inl h
    · exact .inr (.inr (.inl h))
    · exact .inr (.inl h)
    · exact .inr (.inr (.inr h))
  · rw [List.filter_append, List.filter_append]
    congr 1
    have h1 : about p a = decide (pa = p) := by unfold about; rw [ha]
    have h2 : about p b = decide (pb = p) := by unfold about; rw [hb]
    simp only [List.filter_cons, h1, h2]
    by_cases hpa : pa = p
    · have hpb : pb ≠ p := fun hh => hne (hpa.trans hh.symm)
      simp [hpa, hpb]
    · simp [hpa]

/-! #### Example: two items of one section -/

def noargsPath : List String := ["main", "data", "noargs"]

def mixed : List (ROp Nat) :=
  [.update none (some demoPath) true (Dict.ofList [("c", 7)]), .get noargsPath, .run demoPath,
   .update none (some noargsPath) true (Dict.ofList [("a", 3)]), .refresh demoPath, .get demoPath, .reset (some noargsPath) false]

theorem mixed_forItem : ∀ op ∈ mixed, ForItem (demoRunner demoFunc) op := by
  intro op h
  simp only [mixed, List.mem_cons, List.not_mem_nil, or_false] at h
  have h1 := demoRunner_item demoFunc
  have h2 := demoRunner_noargs demoFunc
  rcases h with rfl | rfl | rfl | rfl | rfl | rfl | rfl
  · exact .inr ⟨_, _, h1, .update _ _ _⟩
  · exact .inr ⟨_, _, h2, .get⟩
  · exact .inr ⟨_, _, h1, .run⟩
  · exact .inr ⟨_, _, h2, .update _ _ _⟩
  · exact .inr ⟨_, _, h1, .refresh⟩
  · exact .inr ⟨_, _, h1, .get⟩
  · exact .inr ⟨_, _, h2, .reset⟩

example : RunnerItem (demoRunner demoFunc) demoPath demoFunc ∧ (∀ op ∈ mixed, ForItem (demoRunner demoFunc) op) ∧
    (mixed.filter (about demoPath)).length = 4 ∧ (outcomes demoPath (demoRunner demoFunc) mixed).length = 4 :=
  ⟨demoRunner_item _, mixed_forItem, rfl, rfl⟩

end Verif.Props

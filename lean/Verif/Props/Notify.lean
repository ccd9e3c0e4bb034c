import Verif.Model.Notify
import Verif.Props.Runner
import Verif.Props.Config

/-
C107: plugins are told about every change of a config, just before and just after it.
-/

namespace Verif.Model
open Verif.Py
variable {V α β : Type}

/-! ### Calling the hooks changes nothing else -/

theorem RM.liftC_bind (x : CMM V α) (f : α → CMM V β) :
    RM.liftC (x >>= f) = RM.liftC x >>= fun a => RM.liftC (f a) := by
  funext s
  have h1 : RM.liftC (x >>= f) s = (((x >>= f) s.cm).1, { s with cm := ((x >>= f) s.cm).2 }) := rfl
  have h2 : RM.liftC x s = ((x s.cm).1, { s with cm := (x s.cm).2 }) := rfl
  rw [h1, M.bind_run, M.bind_run, h2]
  cases h : x s.cm with
  | mk r t => cases r <;> rfl

namespace NM

/-- Without the calls of hooks, `n` does what `m` does. -/
def Erases (n : NM V α) (m : RM V α) : Prop := ∀ s l, ((n (s, l)).1, (n (s, l)).2.1) = m s

theorem Erases.lift (m : RM V α) : Erases (NM.lift m) m := fun _ _ => rfl
theorem Erases.pure (a : α) : Erases (V := V) (Pure.pure a) (Pure.pure a) := fun _ _ => rfl
theorem Erases.raise (e : PyErr) : Erases (V := V) (α := α) (M.raise e) (M.raise e) := fun _ _ => rfl
theorem Erases.bind {n : NM V α} {m : RM V α} {f : α → NM V β} {g : α → RM V β} (h : Erases n m)
    (hf : ∀ a, Erases (f a) (g a)) : Erases (n >>= f) (m >>= g) := by
  intro s l
  have h1 := h s l
  rw [M.bind_run, M.bind_run, ← h1]
  cases hn : n (s, l) with
  | mk r t =>
    cases r with
    | error e => rfl
    | ok a => exact hf a t.1 t.2
theorem Erases.tell {n : NM V α} {m : RM V α} (after : Bool) (p : List String) (c u : Dict String V) (h : Erases n m) :
    Erases (NM.tell after p c u >>= fun _ => n) m := fun s _ => h s _

theorem Erases.of_eq {n : NM V α} {m m' : RM V α} (h : Erases n m) (e : m' = m) : Erases n m' := e ▸ h

theorem determine_erases [BEq V] (c : Conf V) (p : Option (List String)) (d : Option (Dict String V)) (kw : Dict String V) :
    Erases (determine c p d kw) (M.liftE (CMM.determineWouldUpdate c d kw)) := by
  have : Erases (determine c p d kw) (M.liftE (CMM.determineWouldUpdate c d kw) >>= fun b => pure b) := by
    unfold determine
    refine .bind (.lift _) (fun w => ?_)
    cases w with
    | false => exact .pure _
    | true =>
      cases p with
      | none => exact .pure _
      | some p => exact .tell _ _ _ _ (.pure _)
  refine this.of_eq ?_
  funext s
  rw [M.bind_run, M.liftE_run]
  cases CMM.determineWouldUpdate c d kw <;> rfl

theorem updateConfig_erases [BEq V] (d : Option (Dict String V)) (p : Option (List String)) (persist : Bool)
    (kw : Dict String V) : Erases (updateConfig d p persist kw) (RM.liftC (CMM.update d p persist kw)) := by
  unfold updateConfig CMM.update
  rw [RM.liftC_bind]
  refine .bind (.lift _) (fun c => ?_)
  cases c with
  | none => exact .raise _
  | some c =>
    simp only
    rw [RM.liftC_bind]
    refine .bind (determine_erases c p d kw) (fun w => ?_)
    cases w with
    | false => exact .pure _
    | true =>
      simp only [if_true]
      split
      · exact .raise _
      · rw [RM.liftC_bind]
        exact .bind (.lift _) (fun _ => .pure _)

theorem refreshConfig_erases [BEq V] (p : List String) :
    Erases (V := V) (refreshConfig p) (RM.liftC (CMM.refresh p)) := by
  unfold refreshConfig CMM.refresh
  rw [RM.liftC_bind]
  refine .bind (.lift _) (fun c => ?_)
  cases c with
  | none => exact .raise _
  | some c =>
    simp only
    rw [RM.liftC_bind]
    refine .bind (.lift _) (fun a => ?_)
    split
    · exact .pure _
    · refine .tell _ _ _ _ ?_
      rw [RM.liftC_bind]
      refine .bind (.lift _) (fun n => ?_)
      cases c.refresh n.values with
      | error e => exact .raise _
      | ok r =>
        simp only
        rw [RM.liftC_bind]
        exact .bind (.lift _) (fun _ => .pure _)

theorem setConfig_erases [BEq V] (p : List String) (value : Node V) (b : Bool) :
    Erases (setConfig p value b) (RM.liftC (CMM.set p value b)) := by
  unfold setConfig CMM.set
  rw [RM.liftC_bind]
  refine .bind (.lift _) (fun c => ?_)
  cases c with
  | none =>
    simp only
    rw [RM.liftC_bind]
    exact .bind (.lift _) (fun _ => .pure _)
  | some c =>
    cases value with
    | conf v =>
      simp only
      rw [RM.liftC_bind]
      refine .bind (determine_erases c (some p) none v.values) (fun w => ?_)
      cases w with
      | false => exact .pure _
      | true =>
        simp only [if_true]
        rw [RM.liftC_bind]
        exact .bind (.lift _) (fun _ => .pure _)
    | _ => exact .raise _

theorem resetConfig_erases [BEq V] (p : Option (List String)) (b : Bool) :
    Erases (V := V) (resetConfig p b) (RM.liftC (CMM.reset p b)) := by
  cases p with
  | none =>
    unfold resetConfig CMM.reset
    rw [RM.liftC_bind]
    exact .bind (.lift _) (fun _ => .pure _)
  | some p =>
    unfold resetConfig CMM.reset
    rw [RM.liftC_bind]
    refine .bind (.lift _) (fun s => ?_)
    rw [RM.liftC_bind]
    exact .bind (.lift _) (fun v => setConfig_erases p v b)

theorem applyToLoaded_erases (p : List String) (config : Dict String V) (d : Option (Dict String V)) (kw : Dict String V) :
    Erases (applyToLoaded p config d kw) (RM.applyToLoaded p config kw) := by
  unfold applyToLoaded RM.applyToLoaded
  refine .bind (.lift _) (fun s => ?_)
  cases s.objs.get? p with
  | none => exact .pure _
  | some o =>
    refine .bind (.lift _) (fun o' => .bind (.lift _) (fun _ => ?_))
    unfold trackPost
    split
    · exact .raise _
    · exact fun _ _ => rfl

theorem update_erases [BEq V] (d : Option (Dict String V)) (p : Option (List String)) (persist : Bool)
    (kw : Dict String V) : Erases (update d p persist kw) (RM.update d p persist kw) := by
  unfold update RM.update
  refine .bind (updateConfig_erases d p persist kw) (fun r => ?_)
  obtain ⟨c, u⟩ := r
  cases u with
  | false => exact .pure _
  | true =>
    cases p with
    | none => exact .pure _
    | some p => exact applyToLoaded_erases p c.values d kw

theorem reset_erases [BEq V] (p : Option (List String)) (b : Bool) :
    Erases (V := V) (reset p b) (RM.reset p b) := by
  unfold reset RM.reset
  refine .bind (resetConfig_erases p b) (fun r => ?_)
  obtain ⟨v, u⟩ := r
  cases u with
  | false => exact .pure _
  | true =>
    cases p with
    | none => exact .pure _
    | some p =>
      cases v with
      | conf c => exact applyToLoaded_erases p c.values none c.values
      | _ => exact .pure _

theorem refresh_erases [BEq V] (p : List String) : Erases (V := V) (refresh p) (RM.refresh p) := by
  unfold refresh RM.refresh
  refine .bind (refreshConfig_erases p) (fun r => ?_)
  obtain ⟨c, u, us⟩ := r
  refine .bind (.lift _) (fun s => ?_)
  split
  · refine .bind (.lift _) (fun c => ?_)
    exact applyToLoaded_erases p c.values (some us) Dict.empty
  · exact .pure _

end NM

theorem ChangeOp.telling_erases [BEq V] (op : ChangeOp V) : NM.Erases op.telling op.run := by
  cases op with
  | update d p persist kw => exact NM.update_erases d p persist kw
  | reset p b => exact NM.reset_erases p b
  | refresh p => exact NM.refresh_erases p

/-! ### What is told -/

namespace NM

theorem applyToLoaded_told (p : List String) (config : Dict String V) (d : Option (Dict String V)) (kw : Dict String V)
    (s : RS V) (l : List (Told V)) :
    (applyToLoaded p config d kw (s, l)).2.2 = match (applyToLoaded p config d kw (s, l)).1, s.objs.get? p with
      | .ok _, some _ => l ++ [⟨true, p, config, allUpdates d kw, (applyToLoaded p config d kw (s, l)).2.1⟩]
      | _, _ => l := by
  have h0 : applyToLoaded p config d kw (s, l) = (match s.objs.get? p with
      | none => Pure.pure ()
      | some o => lift (M.liftE (RM.applyConfig o config)) >>= fun o' =>
          lift (M.modify (fun s => { s with objs := s.objs.set p o' })) >>= fun _ => trackPost p config d kw :
        NM V Unit) (s, l) := rfl
  rw [h0]
  cases s.objs.get? p with
  | none => rfl
  | some o =>
    simp only
    cases ha : RM.applyConfig o config with
    | error e => rfl
    | ok o' =>
      have h1 : (lift (M.liftE (Except.ok o')) >>= fun o' =>
          lift (M.modify (fun s => { s with objs := s.objs.set p o' })) >>= fun _ => trackPost p config d kw :
          NM V Unit) (s, l) = trackPost p config d kw ({ s with objs := s.objs.set p o' }, l) := rfl
      rw [h1]
      unfold trackPost
      split <;> rfl

theorem getFunc_item {s : CM V} {p : List String} (hp : IsItem s p) {c : Conf V} (hc : s.view.own p = .ok c) :
    ∃ cm1 : CM V, cm1.view = s.view.setConf p c ∧ CMM.getFuncOrSectionConfigs p s = (.ok (some c), cm1) := by
  have h := CMM.getFunc_ref (V := V) (.inl hp)
  have hv := CMM.vload_item hp.item
  rw [hc] at hv
  unfold CMM.Ref at h
  rw [hv] at h
  refine ⟨(CMM.getFuncOrSectionConfigs p s).2, (congrArg Prod.snd h).symm, ?_⟩
  have h1 : Except.ok (some c) = (CMM.getFuncOrSectionConfigs p s).1 := congrArg Prod.fst h
  rw [h1]

theorem determine_told [BEq V] (c : Conf V) (p : List String) (d : Option (Dict String V)) (kw : Dict String V)
    (s : RS V) (l : List (Told V)) :
    determine c (some p) d kw (s, l) = match CMM.determineWouldUpdate c d kw with
      | .error e => (.error e, (s, l))
      | .ok false => (.ok false, (s, l))
      | .ok true => (.ok true, (s, l ++ [⟨false, p, c.values, allUpdates d kw, s⟩])) := by
  unfold determine
  cases CMM.determineWouldUpdate c d kw with
  | error e => rfl
  | ok b => cases b <;> rfl

theorem liftC_run {m : CMM V α} {s : RS V} {r : Except PyErr α} {cm1 : CM V} (h : m s.cm = (r, cm1)) :
    RM.liftC m s = (r, { s with cm := cm1 }) := by
  show ((m s.cm).1, { s with cm := (m s.cm).2 }) = _
  rw [h]

theorem lift_bind {m : RM V α} {f : α → NM V β} {s t : RS V} {l : List (Told V)} {a : α} (h : m s = (.ok a, t)) :
    (lift m >>= f) (s, l) = f a (t, l) := by
  have h1 : lift m (s, l) = (.ok a, (t, l)) := by
    show ((m s).1, ((m s).2, l)) = _
    rw [h]
  exact M.bind_ok h1

theorem lift_told (m : RM V α) (x : β) (s : RS V) (l : List (Told V)) :
    ((lift m >>= fun _ => (Pure.pure x : NM V β)) (s, l)).2.2 = l := by
  rw [M.bind_run]
  have : lift m (s, l) = ((m s).1, ((m s).2, l)) := rfl
  rw [this]
  cases (m s).1 <;> rfl

theorem updateConfig_told [BEq V] {s : RS V} {p : List String} (hp : IsItem s.cm p) {c : Conf V}
    (hc : s.cm.view.own p = .ok c) (d : Option (Dict String V)) (persist : Bool) (kw : Dict String V) (l : List (Told V)) :
    ∃ cm1 : CM V, cm1.view = s.cm.view.setConf p c ∧
      (updateConfig d (some p) persist kw (s, l)).2.2 = l ++ (match CMM.determineWouldUpdate c d kw with
        | .ok true => [⟨false, p, c.values, allUpdates d kw, { s with cm := cm1 }⟩]
        | _ => []) := by
  obtain ⟨cm1, hv, hg⟩ := getFunc_item hp hc
  refine ⟨cm1, hv, ?_⟩
  unfold updateConfig
  rw [lift_bind (t := { s with cm := cm1 }) (a := some c)
    (liftC_run (m := CMM.getProjectOrLocal (some p)) hg)]
  simp only
  rw [M.bind_run, determine_told]
  cases CMM.determineWouldUpdate c d kw with
  | error e => simp
  | ok b =>
    cases b with
    | false => simp
    | true =>
      simp only [if_true]
      split
      · rfl
      · rfl

theorem refreshConfig_told [BEq V] {s : RS V} {p : List String} (hp : IsItem s.cm p) {c : Conf V}
    (hc : s.cm.view.own p = .ok c) (l : List (Told V)) :
    ∃ cm1 : CM V, cm1.view = s.cm.view.setConf p c ∧
      (refreshConfig p (s, l)).2.2 = l ++ (match c.file with
        | none => []
        | some loc => match s.cm.fs.load loc with
          | .error _ => []
          | .ok new => if (c.changeFromRefresh new.values).items.isEmpty then []
            else [⟨false, p, c.values, c.changeFromRefresh new.values, { s with cm := cm1 }⟩]) := by
  obtain ⟨cm1, hv, hg⟩ := getFunc_item hp hc
  have hfs : cm1.fs = s.cm.fs := congrArg View.fs hv
  refine ⟨cm1, hv, ?_⟩
  unfold refreshConfig
  rw [lift_bind (t := { s with cm := cm1 }) (a := some c)
    (liftC_run (m := CMM.getProjectOrLocal (some p)) hg)]
  simp only
  have hn : ∀ t : RS V, t.cm = cm1 → RM.liftC (CMM.newConfigFromFile c) t = (match c.file with
      | none => .error .attributeError
      | some loc => s.cm.fs.load loc, t) := by
    intro t ht
    subst ht
    rw [← hfs]
    show ((CMM.newConfigFromFile c t.cm).1, { t with cm := (CMM.newConfigFromFile c t.cm).2 }) = _
    rw [CMM.newConfig_state]
    unfold CMM.newConfigFromFile
    rw [M.bind_ok (M.get_run _)]
    cases c.file <;> rfl
  have hn1 := hn { s with cm := cm1 } rfl
  have hl : ∀ l, lift (RM.liftC (CMM.newConfigFromFile c)) ({ s with cm := cm1 }, l) =
      (match c.file with
        | none => .error .attributeError
        | some loc => s.cm.fs.load loc, ({ s with cm := cm1 }, l)) := by
    intro l
    show ((RM.liftC (CMM.newConfigFromFile c) { s with cm := cm1 }).1,
      ((RM.liftC (CMM.newConfigFromFile c) { s with cm := cm1 }).2, l)) = _
    rw [hn1]
  rw [M.bind_run, hl]
  cases hcf : c.file with
  | none => simp
  | some loc =>
    rw [hcf] at hl
    simp only at hl
    simp only
    cases hload : s.cm.fs.load loc with
    | error e => simp
    | ok new =>
      rw [hload] at hl
      simp only
      split
      · simp
      · rw [M.bind_run]
        simp only [tell]
        rw [M.bind_run, hl]
        simp only
        cases c.refresh new.values with
        | error e => rfl
        | ok r => rfl

theorem resetConfig_told [BEq V] {s : RS V} {p : List String} (hp : IsItem s.cm p) {c : Conf V}
    (hc : s.cm.view.own p = .ok c) (l : List (Told V)) :
    ∃ cm1 : CM V, cm1.view = s.cm.view.setConf p c ∧
      (resetConfig (some p) false (s, l)).2.2 = l ++ (match s.cm.fs.load (.item p) with
        | .error _ => []
        | .ok v => match CMM.determineWouldUpdate c none v.values with
          | .ok true => [⟨false, p, c.values, allUpdates none v.values, { s with cm := cm1 }⟩]
          | _ => []) := by
  obtain ⟨cm1, hv, hg⟩ := getFunc_item hp hc
  refine ⟨cm1, hv, ?_⟩
  have h0 : resetConfig (some p) false (s, l) = (lift (M.liftE (CMM.getDefault s.cm p false)) >>=
      fun value => setConfig p value false) (s, l) := rfl
  rw [h0]
  have hd : CMM.getDefault s.cm p false = (s.cm.fs.load (.item p)).map Node.conf := by
    have hw : (∃ c', s.cm.walk p = .ok (.conf c')) ∨ ∃ l, s.cm.walk p = .ok (.file l) := by
      have hi := hp.item
      cases hsl : s.cm.view.slot p with
      | conf c' => exact .inl ⟨c', CM.walk_of_slot_conf hsl⟩
      | file l => exact .inr ⟨l, CM.walk_of_slot_file hsl⟩
      | sect _ => simp [hsl, Slot.isItem] at hi
      | absent => simp [hsl, Slot.isItem] at hi
    unfold CMM.getDefault CMM.defaultKind
    rcases hw with ⟨c', hw⟩ | ⟨l, hw⟩ <;> rw [hw]
  rw [M.bind_run]
  have hl : lift (M.liftE (CMM.getDefault s.cm p false)) (s, l) = (CMM.getDefault s.cm p false, (s, l)) := rfl
  rw [hl, hd]
  cases s.cm.fs.load (.item p) with
  | error e => simp [Except.map]
  | ok v =>
    simp only [Except.map]
    unfold setConfig
    rw [lift_bind (t := { s with cm := cm1 }) (a := some c) (liftC_run (by
      show M.tryCatch (CMM.getFuncOrSectionConfigs p)
          (fun e => if e = .keyError then pure none else M.raise e) s.cm = (.ok (some c), cm1)
      unfold M.tryCatch
      rw [hg]))]
    simp only
    rw [M.bind_run, determine_told]
    cases CMM.determineWouldUpdate c none v.values with
    | error e => simp
    | ok b =>
      cases b with
      | false => simp
      | true =>
        simp only [if_true]
        exact lift_told _ _ _ _

end NM
end Verif.Model

namespace Verif.Props
open Verif.Py Verif.Model
variable {V : Type}

/-! ## C107 -/

/-- A change asked for of the item at `p`. -/
inductive OfItem (p : List String) : ChangeOp V → Prop where
  | update (d : Option (Dict String V)) (persist : Bool) (kw : Dict String V) : OfItem p (.update d (some p) persist kw)
  | reset : OfItem p (.reset (some p) false)
  | refresh : OfItem p (.refresh p)

/-- What plugins are told while the change is made. -/
def told [BEq V] (op : ChangeOp V) (s : RS V) : List (Told V) := (op.telling (s, [])).2.2

/-- What they are told before and after a change. -/
def toldBefore (es : List (Told V)) : List (Told V) := es.filter (fun e => !e.after)
def toldAfter (es : List (Told V)) : List (Told V) := es.filter (fun e => e.after)

/-- Some value that the config has becomes another one, or is no longer there. -/
def Changes (c c' : Conf V) : Prop := ∃ k ∈ c.values.keys, c'.values.get? k ≠ c.values.get? k

/-- What is left of the values that are not among the announced ones: a reset drops them. -/
def ChangeOp.kept (op : ChangeOp V) (v : Option V) : Option V :=
  match op with
  | .reset _ _ => none
  | _ => v

theorem applyToLoaded_cm (p : List String) (config announced : Dict String V) (s : RS V) :
    (RM.applyToLoaded p config announced s).2.cm = s.cm := by
  have h0 : RM.applyToLoaded p config announced s = (match s.objs.get? p with
      | none => Pure.pure ()
      | some o => M.liftE (RM.applyConfig o config) >>= fun o' =>
          M.modify (fun s => { s with objs := s.objs.set p o' }) >>= fun _ =>
            if Conf.clash RM.trackReserved announced then M.raise .typeError else Pure.pure () : RM V Unit) s := rfl
  rw [h0]
  cases s.objs.get? p with
  | none => rfl
  | some o =>
    simp only
    cases RM.applyConfig o config with
    | error e => rfl
    | ok o' =>
      rw [M.bind_ok (M.liftE_run _ _), M.bind_ok (M.modify_run _ _)]
      split <;> rfl

/-- What is told before a change, if anything is announced. -/
def announcement (s : RS V) (p : List String) (c : Conf V) (cm1 : CM V) : Option (Dict String V) → List (Told V)
  | none => []
  | some u => [⟨false, p, c.values, u, { s with cm := cm1 }⟩]

/-- All that is told for a change of the item: `pre` is announced, the config manager returns `r`, and if that says that the
config changed then the created object takes over `config` and the second hook is told. -/
structure Report [BEq V] (s : RS V) (p : List String) (c : Conf V) (op : ChangeOp V) (pre : Option (Dict String V))
    (c' : Conf V) : Prop where
  before : ∃ cm1 : CM V, cm1.view = s.cm.view.setConf p c ∧ toldBefore (told op s) = announcement s p c cm1 pre
  order : told op s = toldBefore (told op s) ++ toldAfter (told op s)
  config : (op.config s.cm).2.view.own p = .ok c'
  failed : (op.run s).1 ≠ .ok () → toldAfter (told op s) = []
  done : (op.run s).1 = .ok () → (op.config s.cm).1 = .ok () ∧ (toldAfter (told op s)).length ≤ 1 ∧
    (toldAfter (told op s) ≠ [] ↔ pre.isSome = true ∧ (created s p).isSome = true) ∧
    ∀ e ∈ toldAfter (told op s), e.path = p ∧ e.state = (op.run s).2 ∧ pre = some e.updates ∧
      ∃ cf, (op.run s).2.cm.view.slot p = .conf cf ∧ e.config = cf.values

theorem told_split {es pre post : List (Told V)} (h : es = pre ++ post) (h1 : ∀ e ∈ pre, e.after = false)
    (h2 : ∀ e ∈ post, e.after = true) : toldBefore es = pre ∧ toldAfter es = post := by
  subst h
  unfold toldBefore toldAfter
  rw [List.filter_append, List.filter_append]
  have a1 : pre.filter (fun e => !e.after) = pre := List.filter_eq_self.2 (fun e he => by simp [h1 e he])
  have a2 : post.filter (fun e => !e.after) = [] := List.filter_eq_nil_iff.2 (fun e he => by simp [h2 e he])
  have a3 : pre.filter (fun e => e.after) = [] := List.filter_eq_nil_iff.2 (fun e he => by simp [h1 e he])
  have a4 : post.filter (fun e => e.after) = post := List.filter_eq_self.2 (fun e he => by simp [h2 e he])
  rw [a1, a2, a3, a4]
  simp

/-- Nothing is told after a change if nothing was announced or the change failed. -/
theorem Report.silent [BEq V] {s : RS V} {p : List String} {c c' : Conf V} {op : ChangeOp V} {pre : Option (Dict String V)}
    {cm1 : CM V} (hv : cm1.view = s.cm.view.setConf p c)
    (ht : told op s = announcement s p c cm1 pre)
    (hcfg : (op.config s.cm).2.view.own p = .ok c')
    (hr : (op.run s).1 ≠ .ok () ∨ pre = none ∧ (op.config s.cm).1 = .ok ()) : Report s p c op pre c' := by
  have hs := told_split (es := told op s) (pre := announcement s p c cm1 pre) (post := [])
    (by rw [ht, List.append_nil]) (by cases pre <;> simp [announcement]) (by simp)
  refine ⟨⟨cm1, hv, hs.1⟩, by rw [hs.1, hs.2, List.append_nil, ht], hcfg, fun _ => hs.2, fun hok => ?_⟩
  rcases hr with hr | ⟨hr, hr2⟩
  · exact absurd hok hr
  · rw [hs.2]
    subst hr
    exact ⟨hr2, by simp, by simp, by simp⟩

/-- The second half of a change. -/
theorem Report.applied [BEq V] {s s2 : RS V} {p : List String} {c c' cf : Conf V} {op : ChangeOp V} {u : Dict String V}
    {cm1 : CM V} {d : Option (Dict String V)} {kw : Dict String V} (hv : cm1.view = s.cm.view.setConf p c)
    (ht : told op s = (NM.applyToLoaded p cf.values d kw (s2, [⟨false, p, c.values, u, { s with cm := cm1 }⟩])).2.2)
    (hrun : op.run s = RM.applyToLoaded p cf.values kw s2)
    (hobjs : s2.objs = s.objs) (hslot : s2.cm.view.slot p = .conf cf) (hu : NM.allUpdates d kw = u)
    (hcfg : (op.config s.cm).2.view.own p = .ok c') (hok : (op.config s.cm).1 = .ok ()) :
    Report s p c op (some u) c' := by
  have he := NM.applyToLoaded_erases p cf.values d kw s2 [⟨false, p, c.values, u, { s with cm := cm1 }⟩]
  have hl := NM.applyToLoaded_told p cf.values d kw s2 [⟨false, p, c.values, u, { s with cm := cm1 }⟩]
  have he1 := congrArg Prod.fst he
  have he2 := congrArg Prod.snd he
  simp only at he1 he2
  rw [he1, he2, ← hrun] at hl
  rw [← ht, hobjs] at hl
  by_cases hc : (op.run s).1 = .ok () ∧ (s.objs.get? p).isSome = true
  · obtain ⟨h1, h2⟩ := hc
    obtain ⟨o, ho⟩ := Option.isSome_iff_exists.1 h2
    rw [h1, ho] at hl
    simp only at hl
    have hs := told_split hl (by simp) (by simp)
    refine ⟨⟨cm1, hv, hs.1⟩, by rw [hs.1, hs.2, hl], hcfg, fun h => absurd h1 h, fun _ => ?_⟩
    rw [hs.2]
    refine ⟨hok, by simp, by simp [created, h2], ?_⟩
    intro e he
    rw [List.mem_singleton] at he
    subst he
    refine ⟨rfl, rfl, by rw [hu], cf, ?_, rfl⟩
    rw [hrun]
    have := applyToLoaded_cm p cf.values kw s2
    rw [this]
    exact hslot
  · have hl' : told op s = [⟨false, p, c.values, u, { s with cm := cm1 }⟩] := by
      rw [hl]
      cases h1 : (op.run s).1 with
      | error e => rfl
      | ok x =>
        cases h2 : s.objs.get? p with
        | none => rfl
        | some o => exact absurd ⟨h1, by rw [h2]; rfl⟩ hc
    have hs := told_split (es := told op s) (pre := [⟨false, p, c.values, u, { s with cm := cm1 }⟩]) (post := [])
      (by rw [hl']; rfl) (by simp) (by simp)
    refine ⟨⟨cm1, hv, hs.1⟩, by rw [hs.1, hs.2, hl']; rfl, hcfg, fun _ => hs.2, fun hr => ?_⟩
    rw [hs.2]
    refine ⟨hok, by simp, ?_, by simp⟩
    have : (created s p).isSome = false := by
      cases h2 : s.objs.get? p with
      | none => unfold created; rw [h2]; rfl
      | some o => exact absurd ⟨hr, by rw [h2]; rfl⟩ hc
    simp [this]

theorem own_setConf (a : View V) (p : List String) (c : Conf V) : (a.setConf p c).own p = .ok c := by
  unfold View.own
  rw [View.setConf_slot_self]

theorem config_run {α : Type} {m : CMM V α} {s t : CM V} {r : Except PyErr α} (h : m s = (r, t)) :
    (m >>= fun _ => (pure () : CMM V Unit)) s = (r.map (fun _ => ()), t) := by
  rw [M.bind_run, h]
  cases r <;> rfl

theorem update_report [BEq V] {s : RS V} {p : List String} (hp : IsItem s.cm p) {c : Conf V}
    (hc : s.cm.view.own p = .ok c) (d : Option (Dict String V)) (persist : Bool) (kw : Dict String V) :
    Report s p c (.update d (some p) persist kw) (match CMM.determineWouldUpdate c d kw with
      | .ok true => some (NM.allUpdates d kw)
      | _ => none) (c.updated d persist kw) := by
  obtain ⟨cm1, hv1, ht⟩ := NM.updateConfig_told hp hc d persist kw []
  have he := NM.updateConfig_erases d (some p) persist kw s []
  have hv := CMM.vupdate_item hp.item d persist kw
  rw [hc] at hv
  have hr := CMM.update_ref hp d persist kw
  unfold CMM.Ref at hr
  rw [hr] at hv
  have h1 := congrArg Prod.fst hv
  have h2 := congrArg Prod.snd hv
  simp only at h1 h2
  cases hu : CMM.update d (some p) persist kw s.cm with
  | mk r cm2 =>
  rw [hu] at h1 h2
  rw [NM.liftC_run hu] at he
  cases hn : NM.updateConfig d (some p) persist kw (s, []) with
  | mk r' sl =>
  obtain ⟨s2, l⟩ := sl
  rw [hn] at ht he
  cases he
  simp only [List.nil_append] at ht
  have hcfg : (ChangeOp.update d (some p) persist kw).config s.cm = (r'.map (fun _ => ()), cm2) := config_run hu
  have htold : told (.update d (some p) persist kw) s = ((NM.updateConfig d (some p) persist kw >>= fun cu =>
      match cu.2, some p with
      | true, some p => NM.applyToLoaded p cu.1.values d kw
      | _, _ => pure ()) (s, [])).2.2 := rfl
  have hrun : (ChangeOp.update d (some p) persist kw).run s = (RM.liftC (CMM.update d (some p) persist kw) >>= fun cu =>
      match cu.2, some p with
      | true, some p => RM.applyToLoaded p cu.1.values kw
      | _, _ => pure ()) s := rfl
  rw [M.bind_run, hn] at htold
  rw [M.bind_run, NM.liftC_run hu] at hrun
  unfold Conf.updated
  cases hd : CMM.determineWouldUpdate c d kw with
  | error e =>
    simp only [hd] at h1 h2 ht
    subst h1 ht
    exact .silent hv1 htold (by rw [hcfg, h2]; exact own_setConf _ _ _) (.inl (by rw [hrun]; simp))
  | ok b =>
    cases b with
    | false =>
      simp only [hd] at h1 h2 ht
      subst h1 ht
      exact .silent hv1 htold (by rw [hcfg, h2]; exact own_setConf _ _ _) (.inr ⟨rfl, by rw [hcfg]; rfl⟩)
    | true =>
      simp only [hd] at h1 h2 ht
      by_cases hcl : Conf.clash Conf.updateReserved kw = true
      · rw [if_pos hcl] at h1 h2
        subst h1 ht
        simp only [if_pos hcl]
        exact .silent hv1 htold (by rw [hcfg, h2]; exact own_setConf _ _ _) (.inl (by rw [hrun]; simp))
      · rw [if_neg hcl] at h1 h2
        subst h1 ht
        simp only [if_neg hcl]
        exact .applied (s2 := { s with cm := cm2 }) (cf := c.update d persist kw) hv1 htold hrun rfl
          (by rw [h2]; exact View.setConf_slot_self _ _ _) rfl (by rw [hcfg, h2]; exact own_setConf _ _ _) (by rw [hcfg]; rfl)

theorem reset_report [BEq V] {s : RS V} {p : List String} (hp : IsItem s.cm p) {c : Conf V}
    (hc : s.cm.view.own p = .ok c) :
    ∃ c', Report s p c (.reset (some p) false) (match s.cm.fs.load (.item p) with
      | .error _ => none
      | .ok v => match CMM.determineWouldUpdate c none v.values with
        | .ok true => some (NM.allUpdates none v.values)
        | _ => none) c' ∧ c' = (match s.cm.fs.load (.item p) with
      | .error _ => c
      | .ok v => match CMM.determineWouldUpdate c none v.values with
        | .ok true => v
        | _ => c) := by
  obtain ⟨cm1, hv1, ht⟩ := NM.resetConfig_told hp hc []
  have he := NM.resetConfig_erases (some p) false s []
  have hv := CMM.vreset_item (a := s.cm.view) hp.item
  rw [hc] at hv
  have hr := CMM.reset_ref (V := V) hp
  unfold CMM.Ref at hr
  rw [hr, show s.cm.view.fs = s.cm.fs from rfl] at hv
  have h1 := congrArg Prod.fst hv
  have h2 := congrArg Prod.snd hv
  simp only at h1 h2
  cases hu : CMM.reset (some p) false s.cm with
  | mk r cm2 =>
  rw [hu] at h1 h2
  rw [NM.liftC_run hu] at he
  cases hn : NM.resetConfig (some p) false (s, []) with
  | mk r' sl =>
  obtain ⟨s2, l⟩ := sl
  rw [hn] at ht he
  cases he
  simp only [List.nil_append] at ht
  have hcfg : (ChangeOp.reset (some p) false).config s.cm = (r'.map (fun _ => ()), cm2) := config_run hu
  have htold : told (.reset (some p) false) s = ((NM.resetConfig (some p) false >>= fun du =>
      match du.2, some p, du.1 with
      | true, some p, .conf c => NM.applyToLoaded p c.values none c.values
      | _, _, _ => pure ()) (s, [])).2.2 := rfl
  have hrun : (ChangeOp.reset (some p) false).run s = (RM.liftC (CMM.reset (some p) false) >>= fun du =>
      match du.2, some p, du.1 with
      | true, some p, .conf c => RM.applyToLoaded p c.values c.values
      | _, _, _ => pure ()) s := rfl
  rw [M.bind_run, hn] at htold
  rw [M.bind_run, NM.liftC_run hu] at hrun
  refine ⟨_, ?_, rfl⟩
  cases hl : s.cm.fs.load (.item p) with
  | error e =>
    simp only [hl] at h1 h2 ht
    subst h1 ht
    exact .silent hv1 htold (by rw [hcfg, h2]; exact hc) (.inl (by rw [hrun]; simp))
  | ok v =>
    simp only [hl] at h1 h2 ht
    simp only
    cases hd : CMM.determineWouldUpdate c none v.values with
    | error e =>
      simp only [hd] at h1 h2 ht
      subst h1 ht
      exact .silent hv1 htold (by rw [hcfg, h2]; exact own_setConf _ _ _) (.inl (by rw [hrun]; simp))
    | ok b =>
      cases b with
      | false =>
        simp only [hd] at h1 h2 ht
        subst h1 ht
        exact .silent hv1 htold (by rw [hcfg, h2]; exact own_setConf _ _ _) (.inr ⟨rfl, by rw [hcfg]; rfl⟩)
      | true =>
        simp only [hd] at h1 h2 ht
        subst h1 ht
        exact .applied (s2 := { s with cm := cm2 }) (cf := v) hv1 htold hrun rfl
          (by rw [h2]; exact View.setConf_slot_self _ _ _) rfl (by rw [hcfg, h2]; exact own_setConf _ _ _)
          (by rw [hcfg]; rfl)

theorem getConfig_item {s : RS V} {p : List String} (hp : IsItem s.cm p) {c : Conf V} (hc : s.cm.view.own p = .ok c) :
    ∃ (cf : Conf V) (cm3 : CM V), RM.getConfig p s = (.ok cf, { s with cm := cm3 }) ∧ cm3.view.slot p = .conf cf := by
  obtain ⟨h1, h2⟩ := CMM.get_of_own hp hc
  refine ⟨_, (CMM.get p s.cm).2, ?_, by rw [h2]; exact View.setConf_slot_self _ _ _⟩
  have hg : CMM.get p s.cm = (.ok (some (CMM.active s.cm.view p c)), (CMM.get p s.cm).2) := by
    rw [← h1]
  unfold RM.getConfig
  rw [M.bind_ok (NM.liftC_run hg)]
  rfl

theorem applyToLoaded_none {s : RS V} {p : List String} (h : s.objs.get? p = none) (config : Dict String V)
    (d : Option (Dict String V)) (kw : Dict String V) (l : List (Told V)) :
    NM.applyToLoaded p config d kw (s, l) = (.ok (), (s, l)) ∧ RM.applyToLoaded p config kw s = (.ok (), s) := by
  constructor
  · have h0 : NM.applyToLoaded p config d kw (s, l) = (match s.objs.get? p with
      | none => Pure.pure ()
      | some o => NM.lift (M.liftE (RM.applyConfig o config)) >>= fun o' =>
          NM.lift (M.modify (fun s => { s with objs := s.objs.set p o' })) >>= fun _ => NM.trackPost p config d kw :
        NM V Unit) (s, l) := rfl
    rw [h0, h]
    rfl
  · unfold RM.applyToLoaded
    rw [M.bind_ok (M.get_run _), h]
    rfl

theorem refresh_report [BEq V] {s : RS V} {p : List String} (hp : IsItem s.cm p) {c : Conf V}
    (hc : s.cm.view.own p = .ok c) :
    ∃ c', Report s p c (.refresh p) (match c.file with
      | none => none
      | some loc => match s.cm.fs.load loc with
        | .error _ => none
        | .ok new => if (c.changeFromRefresh new.values).items.isEmpty then none
          else some (c.changeFromRefresh new.values)) c' ∧ c' = (match c.file with
      | none => c
      | some loc => match s.cm.fs.load loc with
        | .error _ => c
        | .ok new => if (c.changeFromRefresh new.values).items.isEmpty then c
          else match c.refresh new.values with
            | .error _ => c
            | .ok (c', _) => c') := by
  obtain ⟨cm1, hv1, ht⟩ := NM.refreshConfig_told hp hc []
  have he := NM.refreshConfig_erases p s []
  have hv := CMM.vrefresh_item (a := s.cm.view) hp.item
  rw [hc] at hv
  have hr := CMM.refresh_ref (V := V) hp
  unfold CMM.Ref at hr
  rw [hr, show s.cm.view.fs = s.cm.fs from rfl] at hv
  have h1 := congrArg Prod.fst hv
  have h2 := congrArg Prod.snd hv
  simp only at h1 h2
  cases hu : CMM.refresh p s.cm with
  | mk r cm2 =>
  rw [hu] at h1 h2
  rw [NM.liftC_run hu] at he
  cases hn : NM.refreshConfig p (s, []) with
  | mk r' sl =>
  obtain ⟨s2, l⟩ := sl
  rw [hn] at ht he
  cases he
  simp only [List.nil_append] at ht
  have hcfg : (ChangeOp.refresh p).config s.cm = (r'.map (fun _ => ()), cm2) := config_run hu
  have htold : told (.refresh p) s = ((NM.refreshConfig p >>= fun cu => NM.lift M.get >>= fun s =>
      if cu.2.1 = true ∧ s.objs.contains p = true then
        NM.lift (RM.getConfig p) >>= fun c => NM.applyToLoaded p c.values (some cu.2.2) Dict.empty
      else pure ()) (s, [])).2.2 := rfl
  have hrun : (ChangeOp.refresh p).run s = (RM.liftC (CMM.refresh p) >>= fun cu => M.get >>= fun s =>
      if cu.2.1 = true ∧ s.objs.contains p = true then
        RM.getConfig p >>= fun c => RM.applyToLoaded p c.values Dict.empty
      else pure ()) s := rfl
  rw [M.bind_run, hn] at htold
  rw [M.bind_run, NM.liftC_run hu] at hrun
  refine ⟨_, ?_, rfl⟩
  cases hf : c.file with
  | none =>
    simp only [hf] at h1 h2 ht
    subst h1 ht
    exact .silent hv1 htold (by rw [hcfg, h2]; exact own_setConf _ _ _) (.inl (by rw [hrun]; simp))
  | some loc =>
    simp only [hf] at h1 h2 ht
    simp only
    cases hl : s.cm.fs.load loc with
    | error e =>
      simp only [hl] at h1 h2 ht
      subst h1 ht
      exact .silent hv1 htold (by rw [hcfg, h2]; exact own_setConf _ _ _) (.inl (by rw [hrun]; simp))
    | ok new =>
      simp only [hl] at h1 h2 ht
      simp only
      by_cases hch : (c.changeFromRefresh new.values).items.isEmpty = true
      · simp only [if_pos hch] at h1 h2 ht ⊢
        subst h1 ht
        refine .silent hv1 (htold.trans ?_) (by rw [hcfg, h2]; exact own_setConf _ _ _) (.inr ⟨rfl, by rw [hcfg]; rfl⟩)
        simp only
        rw [NM.lift_bind (M.get_run _), if_neg (by simp)]
        rfl
      · simp only [if_neg hch] at h1 h2 ht ⊢
        cases hrf : c.refresh new.values with
        | error e =>
          simp only [hrf] at h1 h2
          subst h1 ht
          exact .silent hv1 htold (by rw [hcfg, h2]; exact own_setConf _ _ _) (.inl (by rw [hrun]; simp))
        | ok r =>
          obtain ⟨c', us⟩ := r
          simp only [hrf] at h1 h2
          subst h1 ht
          simp only
          have hus : us = c.changeFromRefresh new.values := by
            unfold Conf.refresh at hrf
            simp only at hrf
            split at hrf
            · cases hrf
            · injection hrf with hrf
              injection hrf with _ hrf
              unfold Conf.changeFromRefresh at hch ⊢
              simp only at hch ⊢
              split
              · exact hrf.symm
              · rename_i hw
                rw [if_neg hw] at hch
                exact absurd rfl hch
          simp only at htold hrun
          rw [NM.lift_bind (M.get_run _)] at htold
          rw [M.bind_ok (M.get_run _)] at hrun
          have hcm2 : cm2.view.own p = .ok c' := by rw [h2]; exact own_setConf _ _ _
          have hp2 : IsItem cm2 p := by
            have h := CMM.step_item_isItem (op := .refresh p) hp .refresh hp
            have h' : s.cm.step (.refresh p) = cm2 := by
              show (CMM.refresh p s.cm).2 = _
              rw [hu]
            rw [h'] at h
            exact h
          by_cases hcon : s.objs.contains p = true
          · rw [if_pos ⟨trivial, hcon⟩] at htold hrun
            obtain ⟨cf, cm3, hg, hslot⟩ := getConfig_item (s := { s with cm := cm2 }) hp2 hcm2
            rw [NM.lift_bind hg] at htold
            rw [M.bind_ok hg] at hrun
            exact .applied (s2 := { s with cm := cm3 }) (cf := cf) hv1 htold hrun rfl hslot hus
              (by rw [hcfg]; exact hcm2) (by rw [hcfg]; rfl)
          · rw [if_neg (fun h => hcon h.2)] at htold hrun
            have hnone : s.objs.get? p = none := by
              cases h : s.objs.get? p with
              | none => rfl
              | some o => exact absurd (by unfold Dict.contains; rw [h]; rfl) hcon
            obtain ⟨ha1, ha2⟩ := applyToLoaded_none (s := { s with cm := cm2 }) hnone c'.values (some us) Dict.empty
              [⟨false, p, c.values, c.changeFromRefresh new.values, { s with cm := cm1 }⟩]
            exact .applied (s2 := { s with cm := cm2 }) (cf := c') (d := some us) (kw := Dict.empty) hv1
              (htold.trans (by rw [ha1]; rfl)) (hrun.trans (by rw [ha2]; rfl)) rfl
              (by rw [h2]; exact View.setConf_slot_self _ _ _) hus (by rw [hcfg]; exact hcm2) (by rw [hcfg]; rfl)

theorem config_fst {α : Type} (m : CMM V α) (s : CM V) :
    ((m >>= fun _ => (pure () : CMM V Unit)) s).1 = (m s).1.map (fun _ => ()) := by
  rw [M.bind_run]
  cases m s with
  | mk r t => cases r <;> rfl

theorem config_snd {α : Type} (m : CMM V α) (s : CM V) :
    ((m >>= fun _ => (pure () : CMM V Unit)) s).2 = (m s).2 := by
  rw [M.bind_run]
  cases m s with
  | mk r t => cases r <;> rfl

theorem update_config_result [BEq V] {s : CM V} {p : List String} (hp : IsItem s p) {c : Conf V}
    (hc : s.view.own p = .ok c) (d : Option (Dict String V)) (persist : Bool) (kw : Dict String V)
    (h : ((ChangeOp.update d (some p) persist kw).config s).1 = .ok ()) :
    CMM.determineWouldUpdate c d kw = .ok false ∨
      (CMM.determineWouldUpdate c d kw = .ok true ∧ Conf.clash Conf.updateReserved kw = false) := by
  have h0 : ((ChangeOp.update d (some p) persist kw).config s).1 = (CMM.update d (some p) persist kw s).1.map (fun _ => ()) :=
    config_fst _ _
  rw [h0] at h
  have hv := CMM.vupdate_item hp.item d persist kw
  rw [hc] at hv
  have hr := CMM.update_ref hp d persist kw
  unfold CMM.Ref at hr
  rw [hr] at hv
  have h1 := congrArg Prod.fst hv
  simp only at h1
  rw [h1] at h
  cases hd : CMM.determineWouldUpdate c d kw with
  | error e => simp [hd, Except.map] at h
  | ok b =>
    cases b with
    | false => exact .inl rfl
    | true =>
      refine .inr ⟨rfl, ?_⟩
      cases hcl : Conf.clash Conf.updateReserved kw with
      | false => rfl
      | true => simp [hd, hcl, Except.map] at h

theorem reset_config_result [BEq V] {s : CM V} {p : List String} (hp : IsItem s p) {c : Conf V}
    (hc : s.view.own p = .ok c) (h : ((ChangeOp.reset (V := V) (some p) false).config s).1 = .ok ()) :
    ∃ v b, s.fs.load (.item p) = .ok v ∧ CMM.determineWouldUpdate c none v.values = .ok b := by
  have h0 : ((ChangeOp.reset (V := V) (some p) false).config s).1 = (CMM.reset (some p) false s).1.map (fun _ => ()) :=
    config_fst _ _
  rw [h0] at h
  have hv := CMM.vreset_item (a := s.view) hp.item
  rw [hc] at hv
  have hr := CMM.reset_ref (V := V) hp
  unfold CMM.Ref at hr
  rw [hr, show s.view.fs = s.fs from rfl] at hv
  have h1 := congrArg Prod.fst hv
  simp only at h1
  rw [h1] at h
  cases hl : s.fs.load (.item p) with
  | error e => simp [hl, Except.map] at h
  | ok v =>
    cases hd : CMM.determineWouldUpdate c none v.values with
    | error e => simp [hl, hd, Except.map] at h
    | ok b => exact ⟨v, b, rfl, hd⟩

theorem refresh_config_result [BEq V] {s : CM V} {p : List String} (hp : IsItem s p) {c : Conf V}
    (hc : s.view.own p = .ok c) (h : ((ChangeOp.refresh (V := V) p).config s).1 = .ok ()) :
    ∃ loc new, c.file = some loc ∧ s.fs.load loc = .ok new ∧ ((c.changeFromRefresh new.values).items.isEmpty = true ∨
      ((c.changeFromRefresh new.values).items.isEmpty = false ∧ ∃ r, c.refresh new.values = .ok r)) := by
  have h0 : ((ChangeOp.refresh (V := V) p).config s).1 = (CMM.refresh p s).1.map (fun _ => ()) :=
    config_fst _ _
  rw [h0] at h
  have hv := CMM.vrefresh_item (a := s.view) hp.item
  rw [hc] at hv
  have hr := CMM.refresh_ref (V := V) hp
  unfold CMM.Ref at hr
  rw [hr, show s.view.fs = s.fs from rfl] at hv
  have h1 := congrArg Prod.fst hv
  simp only at h1
  rw [h1] at h
  cases hf : c.file with
  | none => simp [hf, Except.map] at h
  | some loc =>
    cases hl : s.fs.load loc with
    | error e => simp [hf, hl, Except.map] at h
    | ok new =>
      refine ⟨loc, new, rfl, hl, ?_⟩
      cases hi : (c.changeFromRefresh new.values).items.isEmpty with
      | true => exact .inl rfl
      | false =>
        refine .inr ⟨rfl, ?_⟩
        cases hrf : c.refresh new.values with
        | error e => simp [hf, hl, hi, hrf, Except.map] at h
        | ok r => exact ⟨r, rfl⟩

theorem changes_of_would [DecidableEq V] {c c' : Conf V} {u : Dict String V}
    (h : c.wouldUpdate (some u) Dict.empty = true) (hu : ∀ k x, u.get? k = some x → c'.values.get? k = some x) :
    Changes c c' := by
  rw [Conf.wouldUpdate_iff] at h
  obtain ⟨k, x, y, h1, h2, h3⟩ := h
  refine ⟨k, (Dict.mem_keys_iff _ _).2 ?_, ?_⟩
  · rw [h2]; rfl
  · rw [hu k x (by simpa using h1), h2]
    intro hh
    cases hh
    simp at h3

theorem not_changes_self (c : Conf V) : ¬ Changes c c := fun ⟨_, _, h⟩ => h rfl

theorem determine_true [BEq V] {c : Conf V} {d : Option (Dict String V)} {kw : Dict String V} {b : Bool}
    (h : CMM.determineWouldUpdate c d kw = .ok b) : c.wouldUpdate (some (NM.allUpdates d kw)) Dict.empty = b := by
  unfold CMM.determineWouldUpdate at h
  split at h
  · cases h
  · injection h

/-- The common part: from what the change does to what is told. -/
theorem before_of_report [DecidableEq V] {s : RS V} {p : List String} (hp : ConfigItem s.cm p) {c c' : Conf V}
    {op : ChangeOp V} {pre : Option (Dict String V)} (h : Report s p c op pre c')
    (hi : IsItem (op.config s.cm).2 p)
    (hm : (op.config s.cm).1 = .ok () → (pre = none → c' = c) ∧ ∀ u, pre = some u → Changes c c' ∧
      ∀ k, c'.values.get? k = (u.get? k).or (ChangeOp.kept op (c.values.get? k))) :
    (toldBefore (told op s)).length ≤ 1 ∧
    told op s = toldBefore (told op s) ++ toldAfter (told op s) ∧
    (∀ e ∈ toldBefore (told op s), e.path = p ∧ e.config = c.values ∧ ownConfig e.state.cm p = .ok c ∧
      e.state.objs = s.objs) ∧
    ∃ c', ownConfig (op.config s.cm).2 p = .ok c' ∧ ((op.config s.cm).1 = .ok () →
      (toldBefore (told op s) ≠ [] ↔ Changes c c') ∧ (toldBefore (told op s) = [] → c' = c) ∧
      ∀ e ∈ toldBefore (told op s), ∀ k,
        c'.values.get? k = (e.updates.get? k).or (ChangeOp.kept op (c.values.get? k))) := by
  obtain ⟨cm1, hv, hb⟩ := h.before
  have hi1 : IsItem cm1 p := by
    have hi0 := hp.isItem
    refine ⟨hi0.ne, ?_, ?_⟩
    · have : cm1.rootName = s.cm.rootName := congrArg View.rootName hv
      rw [this]; exact hi0.plain
    · rw [hv, View.setConf_slot_self]; rfl
  have hc' : ownConfig (op.config s.cm).2 p = .ok c' := by
    rw [ownConfig_eq (.of_isItem hi)]; exact h.config
  refine ⟨?_, h.order, ?_, c', hc', fun hok => ?_⟩
  · rw [hb]; cases pre <;> simp [announcement]
  · intro e he
    rw [hb] at he
    cases pre with
    | none => cases he
    | some u =>
      simp only [announcement, List.mem_singleton] at he
      subst he
      refine ⟨rfl, rfl, ?_, rfl⟩
      show ownConfig cm1 p = _
      rw [ownConfig_eq (.of_isItem hi1), hv]
      exact own_setConf _ _ _
  · obtain ⟨h1, h2⟩ := hm hok
    rw [hb]
    cases pre with
    | none =>
      have := h1 rfl
      subst this
      exact ⟨⟨fun h => absurd rfl h, fun h => absurd h (not_changes_self _)⟩, fun _ => rfl, by simp [announcement]⟩
    | some u =>
      obtain ⟨h3, h4⟩ := h2 u rfl
      refine ⟨⟨fun _ => h3, fun _ => by simp [announcement]⟩, by simp [announcement], ?_⟩
      intro e he
      simp only [announcement, List.mem_singleton] at he
      subst he
      exact h4

/-- The values after a change that the plugins were told about. -/
theorem report_of [DecidableEq V] {s : RS V} {p : List String} (hp : ConfigItem s.cm p) {c : Conf V}
    (hc : ownConfig s.cm p = .ok c) {op : ChangeOp V} (ho : OfItem p op) :
    ∃ pre c', Report s p c op pre c' ∧ IsItem (op.config s.cm).2 p ∧ ((op.config s.cm).1 = .ok () → (pre = none → c' = c) ∧
      ∀ u, pre = some u → Changes c c' ∧ ∀ k, c'.values.get? k = (u.get? k).or (ChangeOp.kept op (c.values.get? k))) := by
  have hi := hp.isItem
  rw [ownConfig_eq hp] at hc
  cases ho with
  | update d persist kw =>
    refine ⟨_, _, update_report hi hc d persist kw, ?_, fun hok => ?_⟩
    · have h : ((ChangeOp.update d (some p) persist kw).config s.cm).2 = (CMM.update d (some p) persist kw s.cm).2 :=
        config_snd _ _
      rw [h]
      exact CMM.step_item_isItem (op := .update d (some p) persist kw) hi (.update d persist kw) hi
    · rcases update_config_result hi hc d persist kw hok with h | ⟨h, hcl⟩
      · refine ⟨fun _ => by unfold Conf.updated; rw [h], fun u hu => by rw [h] at hu; cases hu⟩
      · refine ⟨(fun hn => by rw [h] at hn; cases hn), fun u hu => ?_⟩
        rw [h] at hu
        cases hu
        have hk : ∀ k, (c.updated d persist kw).values.get? k =
            ((NM.allUpdates d kw).get? k).or (c.values.get? k) := by
          intro k
          unfold Conf.updated
          rw [h]
          simp only [hcl]
          unfold Conf.update NM.allUpdates
          simp only [Bool.false_eq_true, if_false, Dict.get?_update, Option.or_assoc]
          cases d <;> rfl
        refine ⟨changes_of_would (determine_true h) (fun k x hx => by rw [hk, hx]; rfl), hk⟩
  | reset =>
    obtain ⟨c', hr, hc'⟩ := reset_report hi hc
    refine ⟨_, c', hr, ?_, fun hok => ?_⟩
    · have h : ((ChangeOp.reset (V := V) (some p) false).config s.cm).2 = (CMM.reset (some p) false s.cm).2 :=
        config_snd _ _
      rw [h]
      exact CMM.step_item_isItem (op := .reset (some p) false) hi .reset hi
    · obtain ⟨v, b, hl, hd⟩ := reset_config_result hi hc hok
      rw [hl] at hc' ⊢
      simp only [hd] at hc' ⊢
      cases b with
      | false => exact ⟨fun _ => hc', fun u hu => by cases hu⟩
      | true =>
        refine ⟨fun hn => (by cases hn), fun u hu => ?_⟩
        cases hu
        simp only at hc'
        subst hc'
        have hk : ∀ k, c'.values.get? k = ((NM.allUpdates none c'.values).get? k).or none := by
          intro k
          unfold NM.allUpdates
          simp
        exact ⟨changes_of_would (determine_true hd) (fun k x hx => by rw [hk, hx]; rfl), hk⟩
  | refresh =>
    obtain ⟨c', hr, hc'⟩ := refresh_report hi hc
    refine ⟨_, c', hr, ?_, fun hok => ?_⟩
    · have h : ((ChangeOp.refresh (V := V) p).config s.cm).2 = (CMM.refresh p s.cm).2 := config_snd _ _
      rw [h]
      exact CMM.step_item_isItem (op := .refresh p) hi .refresh hi
    · obtain ⟨loc, new, hf, hl, hch⟩ := refresh_config_result hi hc hok
      simp only [hf, hl] at hc' ⊢
      rcases hch with hch | ⟨hch, ⟨r1, r2⟩, hrf⟩
      · simp only [hch, if_true] at hc' ⊢
        exact ⟨fun _ => hc', fun u hu => by cases hu⟩
      · simp only [hch, Bool.false_eq_true, if_false, hrf] at hc' ⊢
        refine ⟨fun hn => (by cases hn), fun u hu => ?_⟩
        cases hu
        subst hc'
        obtain ⟨h1, h2, h3⟩ := C09_announced_change_is_made c c' new.values r2 hrf
        have hne : c.changeFromRefresh new.values ≠ Dict.empty := by
          intro h
          rw [h] at hch
          cases hch
        have h4 := h2 hne
        rw [h4]
        exact ⟨h1.1 hne, h3⟩

/-- C107, before a change (missing: sections, the local config, configs that do not exist yet, resets that may create something, and updates
that fail, for which the property fails, see `C107_failed_violated`): while an item is
updated, reset or refreshed, plugins are told at most once that its config is about to change, before anything else they are
told.  They get the config as it still is then.  If the config manager makes the change without an error, they are told so exactly
if a value changes, and the updates they are given are those that are made. -/
theorem C107_before_partial [DecidableEq V] (s : RS V) (p : List String) (hp : ConfigItem s.cm p) (c : Conf V)
    (hc : ownConfig s.cm p = .ok c) (op : ChangeOp V) (ho : OfItem p op) :
    (toldBefore (told op s)).length ≤ 1 ∧
    told op s = toldBefore (told op s) ++ toldAfter (told op s) ∧
    (∀ e ∈ toldBefore (told op s), e.path = p ∧ e.config = c.values ∧ ownConfig e.state.cm p = .ok c ∧
      e.state.objs = s.objs) ∧
    ∃ c', ownConfig (op.config s.cm).2 p = .ok c' ∧ ((op.config s.cm).1 = .ok () →
      (toldBefore (told op s) ≠ [] ↔ Changes c c') ∧ (toldBefore (told op s) = [] → c' = c) ∧
      ∀ e ∈ toldBefore (told op s), ∀ k,
        c'.values.get? k = (e.updates.get? k).or (ChangeOp.kept op (c.values.get? k))) := by
  obtain ⟨pre, c', hr, hi, hm⟩ := report_of hp hc ho
  exact before_of_report hp hr hi hm

/-- C107, after a change (missing: items that have not been created yet, see `C107_not_created_violated`, and changes that the
created object does not take over, see `C107_rejected_violated`): plugins are told at most once that the config of an item has changed, and only if the change
succeeds; then they are told so exactly if they were told before and the item has been created.  They are told when everything
is done, get the config as it is then, and the same updates as before. -/
theorem C107_after_partial [DecidableEq V] (s : RS V) (p : List String) (hp : ConfigItem s.cm p) (c : Conf V)
    (hc : ownConfig s.cm p = .ok c) (op : ChangeOp V) (ho : OfItem p op) :
    ((op.run s).1 ≠ .ok () → toldAfter (told op s) = []) ∧
    ((op.run s).1 = .ok () →
      (toldAfter (told op s)).length ≤ 1 ∧
      (toldAfter (told op s) ≠ [] ↔ toldBefore (told op s) ≠ [] ∧ (created s p).isSome = true) ∧
      ∀ e ∈ toldAfter (told op s), e.path = p ∧ e.state = (op.run s).2 ∧
        (∃ cf, (op.run s).2.cm.walk p = .ok (.conf cf) ∧ e.config = cf.values) ∧
        ∃ e' ∈ toldBefore (told op s), e'.updates = e.updates) := by
  obtain ⟨pre, c', hr, hi, hm⟩ := report_of hp hc ho
  obtain ⟨cm1, hv, hb⟩ := hr.before
  refine ⟨hr.failed, fun hok => ?_⟩
  obtain ⟨_, h2, h3, h4⟩ := hr.done hok
  have hpre : toldBefore (told op s) ≠ [] ↔ pre.isSome = true := by
    rw [hb]
    cases pre <;> simp [announcement]
  refine ⟨h2, by rw [h3, hpre], fun e he => ?_⟩
  obtain ⟨h5, h6, h7, cf, h8, h9⟩ := h4 e he
  refine ⟨h5, h6, ⟨cf, CM.walk_of_slot_conf h8, h9⟩, ?_⟩
  rw [hb, h7]
  exact ⟨⟨false, p, c.values, e.updates, { s with cm := cm1 }⟩, by simp [announcement], rfl⟩

/-- C107: telling the plugins changes nothing else. -/
theorem C107_only_told [BEq V] (s : RS V) (op : ChangeOp V) :
    (op.telling (s, [])).1 = (op.run s).1 ∧ (op.telling (s, [])).2.1 = (op.run s).2 := by
  have h := ChangeOp.telling_erases op s []
  exact ⟨congrArg Prod.fst h, congrArg Prod.snd h⟩

/-! ### A concrete project -/

/-- Changing `a` of the item of the example project. -/
def demoChange (es : List (String × Nat)) : ChangeOp Nat := .update none (some demoPath) true (Dict.ofList es)

/-- The example project after the item has been created. -/
def demoMade (k : Callable Nat) : RS Nat := (RM.get demoPath (demoRunner k)).2

example : (created (demoMade demoFunc) demoPath).isSome = true ∧
    (told (demoChange [("a", 7)]) (demoMade demoFunc)).map (fun e => (e.after, e.path, e.config.items, e.updates.items)) =
      [(false, demoPath, [("a", 2), ("b", 3), ("c", 0)], [("a", 7)]),
        (true, demoPath, [("a", 7), ("b", 3), ("c", 0)], [("a", 7)])] ∧
    ((demoChange [("a", 7)]).run (demoMade demoFunc)).1 = .ok () := ⟨rfl, rfl, rfl⟩

example : told (demoChange [("a", 2)]) (demoMade demoFunc) = [] := by rfl

example : (told (.reset (some demoPath) false) (demoMade demoFunc)).map (fun e => (e.after, e.config.items, e.updates.items)) =
    [(false, [("a", 2), ("b", 3), ("c", 0)], [("a", 0), ("b", 0), ("c", 0)]),
      (true, [("a", 0), ("b", 0), ("c", 0)], [("a", 0), ("b", 0), ("c", 0)])] := by decide +kernel

/-- C107 fails for an item that has not been created yet: plugins are not told after the change. -/
theorem C107_not_created_violated :
    ∃ (s : RS Nat) (p : List String) (c c' : Conf Nat) (op : ChangeOp Nat), s.Reachable ∧ ConfigItem s.cm p ∧ OfItem p op ∧
      ownConfig s.cm p = .ok c ∧ (op.run s).1 = .ok () ∧ ownConfig (op.run s).2.cm p = .ok c' ∧ Changes c c' ∧
      toldAfter (told op s) = [] :=
  ⟨demoRunner demoFunc, demoPath, _, _, demoChange [("a", 7)], demoRunner_reachable _, demo_item, .update _ _ _, rfl, rfl,
    rfl, ⟨"a", by decide, by decide⟩, rfl⟩

/-- C107 fails for an update that is given a name which `ConfigBase.update` has as a parameter: plugins are told of a change,
which then is not made. -/
theorem C107_failed_violated :
    ∃ (s : RS Nat) (p : List String) (c : Conf Nat) (op : ChangeOp Nat), s.Reachable ∧ ConfigItem s.cm p ∧ OfItem p op ∧
      ownConfig s.cm p = .ok c ∧ (op.run s).1 = .error .typeError ∧ ownConfig (op.run s).2.cm p = .ok c ∧
      (toldBefore (told op s)).length = 1 :=
  ⟨demoRunner demoFunc, demoPath, _, demoChange [("a", 7), ("E", 1)], demoRunner_reachable _, demo_item, .update _ _ _, rfl, rfl,
    rfl, rfl⟩

/-- A class whose objects cannot be updated. -/
def demoRigid : Callable Nat := { demoClass with upd := fun _ => .error (.userError 1) }

/-- C107 fails for an object that does not take over the new values: the config has changed, but plugins are not told after the
change. -/
theorem C107_rejected_violated :
    ∃ (s : RS Nat) (p : List String) (c c' : Conf Nat) (op : ChangeOp Nat), s.Reachable ∧ ConfigItem s.cm p ∧ OfItem p op ∧
      (created s p).isSome = true ∧ ownConfig s.cm p = .ok c ∧ (op.run s).1 = .error (.userError 1) ∧
      ownConfig (op.run s).2.cm p = .ok c' ∧ Changes c c' ∧ toldAfter (told op s) = [] :=
  ⟨demoMade demoRigid, demoPath, _, _, demoChange [("a", 7)], ⟨demoRunner demoRigid, [.get demoPath], demoRunner_fresh _,
    by simp [ROp.Valid, demoPath], rfl⟩, ⟨by decide, by decide, .inl ⟨_, rfl⟩⟩, .update _ _ _, rfl, rfl, rfl, rfl, ⟨"a", by decide, by decide⟩, rfl⟩

end Verif.Props

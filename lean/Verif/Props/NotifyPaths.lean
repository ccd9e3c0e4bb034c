import Verif.Props.Notify

/-
C107 for sections, the local config and configs that do not exist yet.
-/

namespace Verif.Model
open Verif.Py
variable {V α β : Type}

namespace NM

/-- All that `n` tells is about `p`. -/
def TellsOf (p : Option (List String)) (n : NM V α) : Prop :=
  ∀ s l, ∃ es, (n (s, l)).2.2 = l ++ es ∧ ∀ e ∈ es, some e.path = p

theorem TellsOf.nothing {p : Option (List String)} {n : NM V α} (h : ∀ s l, (n (s, l)).2.2 = l) : TellsOf p n := fun s l =>
  ⟨[], by rw [h, List.append_nil], fun e he => by cases he⟩

theorem TellsOf.lift (p : Option (List String)) (m : RM V α) : TellsOf p (NM.lift m) := .nothing (fun _ _ => rfl)
theorem TellsOf.pure (p : Option (List String)) (a : α) : TellsOf (V := V) p (Pure.pure a) := .nothing (fun _ _ => rfl)
theorem TellsOf.raise (p : Option (List String)) (e : PyErr) : TellsOf (V := V) (α := α) p (M.raise e) := .nothing (fun _ _ => rfl)
theorem TellsOf.tell (after : Bool) (p : List String) (c u : Dict String V) : TellsOf (some p) (NM.tell after p c u) := fun s _ =>
  ⟨[⟨after, p, c, u, s⟩], rfl, fun e he => by rw [List.mem_singleton.1 he]⟩

theorem TellsOf.bind {p : Option (List String)} {n : NM V α} {f : α → NM V β} (h : TellsOf p n) (hf : ∀ a, TellsOf p (f a)) :
    TellsOf p (n >>= f) := by
  intro s l
  obtain ⟨es, h1, h2⟩ := h s l
  rw [M.bind_run]
  cases hn : n (s, l) with
  | mk r t =>
    rw [hn] at h1
    cases r with
    | error e => exact ⟨es, h1, h2⟩
    | ok a =>
      obtain ⟨es', h3, h4⟩ := hf a t.1 t.2
      refine ⟨es ++ es', ?_, fun e he => ?_⟩
      · rw [show (f a (t.1, t.2)).2.2 = t.2 ++ es' from h3, show t.2 = l ++ es from h1, List.append_assoc]
      · rcases List.mem_append.1 he with he | he
        · exact h2 e he
        · exact h4 e he

theorem determine_tellsOf [BEq V] (c : Conf V) (p : Option (List String)) (d : Option (Dict String V)) (kw : Dict String V) :
    TellsOf p (determine c p d kw) := by
  unfold determine
  refine .bind (.lift _ _) (fun w => ?_)
  cases w with
  | false => exact .pure _ _
  | true =>
    cases p with
    | none => exact .pure _ _
    | some p => exact .bind (.tell _ _ _ _) (fun _ => .pure _ _)

theorem updateConfig_tellsOf [BEq V] (d : Option (Dict String V)) (p : Option (List String)) (persist : Bool)
    (kw : Dict String V) : TellsOf p (updateConfig d p persist kw) := by
  unfold updateConfig
  refine .bind (.lift _ _) (fun r => ?_)
  cases r with
  | none => exact .raise _ _
  | some c =>
    refine .bind (determine_tellsOf c p d kw) (fun w => ?_)
    cases w with
    | false => exact .pure _ _
    | true =>
      simp only [if_true]
      split
      · exact .raise _ _
      · exact .bind (.lift _ _) (fun _ => .pure _ _)

theorem refreshConfig_tellsOf [BEq V] (p : List String) : TellsOf (V := V) (some p) (refreshConfig p) := by
  unfold refreshConfig
  refine .bind (.lift _ _) (fun r => ?_)
  cases r with
  | none => exact .raise _ _
  | some c =>
    refine .bind (.lift _ _) (fun n => ?_)
    dsimp only
    split
    · exact .pure _ _
    · refine .bind (.tell _ _ _ _) (fun _ => .bind (.lift _ _) (fun n => ?_))
      cases c.refresh n.values with
      | error e => exact .raise _ _
      | ok x => exact .bind (.lift _ _) (fun _ => .pure _ _)

theorem setConfig_tellsOf [BEq V] (p : List String) (value : Node V) (b : Bool) :
    TellsOf (some p) (setConfig p value b) := by
  unfold setConfig
  refine .bind (.lift _ _) (fun r => ?_)
  cases r with
  | none => exact .bind (.lift _ _) (fun _ => .pure _ _)
  | some c =>
    cases value with
    | conf v =>
      refine .bind (determine_tellsOf c (some p) none v.values) (fun w => ?_)
      cases w with
      | false => exact .pure _ _
      | true => exact .bind (.lift _ _) (fun _ => .pure _ _)
    | _ => exact .raise _ _

theorem resetConfig_tellsOf [BEq V] (p : Option (List String)) (b : Bool) : TellsOf (V := V) p (resetConfig p b) := by
  cases p with
  | none => exact .bind (.lift _ _) (fun _ => .pure _ _)
  | some p => exact .bind (.lift _ _) (fun s => .bind (.lift _ _) (fun v => setConfig_tellsOf p v b))

theorem applyToLoaded_tellsOf (p : List String) (config : Dict String V) (d : Option (Dict String V)) (kw : Dict String V) :
    TellsOf (some p) (applyToLoaded p config d kw) := by
  unfold applyToLoaded
  refine .bind (.lift _ _) (fun s => ?_)
  cases s.objs.get? p with
  | none => exact .pure _ _
  | some o =>
    refine .bind (.lift _ _) (fun o' => .bind (.lift _ _) (fun _ => ?_))
    unfold trackPost
    split
    · exact .raise _ _
    · exact .tell _ _ _ _

/-- The path of a change. -/
def pathOf : ChangeOp V → Option (List String)
  | .update _ p _ _ => p
  | .reset p _ => p
  | .refresh p => some p

theorem telling_tellsOf [BEq V] (op : ChangeOp V) : TellsOf (pathOf op) op.telling := by
  cases op with
  | update d p persist kw =>
    refine .bind (updateConfig_tellsOf d p persist kw) (fun x => ?_)
    obtain ⟨c, w⟩ := x
    cases w with
    | false => exact .pure _ _
    | true => cases p with
      | none => exact .pure _ _
      | some p => exact applyToLoaded_tellsOf _ _ _ _
  | reset p b =>
    refine .bind (resetConfig_tellsOf p b) (fun x => ?_)
    obtain ⟨c, w⟩ := x
    cases w with
    | false => exact .pure _ _
    | true => cases p with
      | none => exact .pure _ _
      | some p => cases c with
        | conf c => exact applyToLoaded_tellsOf _ _ _ _
        | _ => exact .pure _ _
  | refresh p =>
    refine .bind (refreshConfig_tellsOf p) (fun x => ?_)
    obtain ⟨c, w, u⟩ := x
    refine .bind (.lift _ _) (fun s => ?_)
    split
    · exact .bind (.lift _ _) (fun c => applyToLoaded_tellsOf _ _ _ _)
    · exact .pure _ _

end NM

end Verif.Model

namespace Verif.Props
open Verif.Py Verif.Model

variable {V : Type}

/-- C107: all that plugins are told while a config is changed is about the path that the change was asked for; of a change without
path, of the local config, they are told nothing. -/
theorem C107_path [BEq V] (s : RS V) (op : ChangeOp V) (e : Told V) (he : e ∈ told op s) :
    match op with
    | .update _ p _ _ => p = some e.path
    | .reset p _ => p = some e.path
    | .refresh p => p = e.path := by
  obtain ⟨es, h1, h2⟩ := NM.telling_tellsOf op s []
  have : e ∈ es := by
    have h : told op s = es := h1
    exact h ▸ he
  have := h2 e this
  cases op with
  | update d p persist kw => exact this.symm
  | reset p b => exact this.symm
  | refresh p => exact (Option.some.inj this).symm

/-- C107, updates of a section or an item: if the section has a config, plugins are told before the change exactly if the update
would change it, with the config as it is and the updates. -/
theorem C107_update_any [BEq V] (s : RS V) (p : List String) (d : Option (Dict String V)) (persist : Bool) (kw : Dict String V)
    (c : Conf V) (cm1 : CM V) (hc : CMM.getProjectOrLocal (some p) s.cm = (.ok (some c), cm1)) (b : Bool)
    (hb : CMM.determineWouldUpdate c d kw = .ok b) :
    toldBefore (told (.update d (some p) persist kw) s) =
      if b then [⟨false, p, c.values, NM.allUpdates d kw, { s with cm := cm1 }⟩] else [] := by
  have hg : NM.lift (RM.liftC (CMM.getProjectOrLocal (some p))) (s, []) = (.ok (some c), ({ s with cm := cm1 }, ([] : List (Told V)))) := by
    show ((CMM.getProjectOrLocal (some p) s.cm).1, ({ s with cm := (CMM.getProjectOrLocal (some p) s.cm).2 }, _)) = _
    rw [hc]
  have hdet : NM.determine c (some p) d kw ({ s with cm := cm1 }, []) =
      (.ok b, ({ s with cm := cm1 }, if b then [⟨false, p, c.values, NM.allUpdates d kw, { s with cm := cm1 }⟩] else [])) := by
    unfold NM.determine
    rw [M.bind_ok (a := b) (s' := ({ s with cm := cm1 }, ([] : List (Told V))))]
    · cases b <;> rfl
    · show (CMM.determineWouldUpdate c d kw, _) = _
      rw [hb]
      rfl
  have h0 : told (.update d (some p) persist kw) s = (NM.update d (some p) persist kw (s, [])).2.2 := rfl
  rw [h0]
  unfold NM.update NM.updateConfig
  cases b with
  | false =>
    rw [M.bind_ok (a := (c, false)) (s' := ({ s with cm := cm1 }, ([] : List (Told V))))]
    · rfl
    · rw [M.bind_ok hg]
      dsimp only
      rw [M.bind_ok hdet]
      rfl
  | true =>
    obtain ⟨t, ht⟩ : ∃ t : Told V, t = ⟨false, p, c.values, NM.allUpdates d kw, { s with cm := cm1 }⟩ := ⟨_, rfl⟩
    rw [if_pos rfl] at hdet ⊢
    rw [← ht] at hdet ⊢
    have hta : t.after = false := by rw [ht]
    have hl : ∀ m : RM V Unit, ∃ r x, NM.lift m ({ s with cm := cm1 }, [t]) = (r, (x, [t])) := fun m => ⟨_, _, rfl⟩
    by_cases hcl : Conf.clash Conf.updateReserved kw = true
    · rw [M.bind_error (s' := ({ s with cm := cm1 }, [t])) (e := .typeError)]
      · show toldBefore [t] = _
        unfold toldBefore
        simp [hta]
      · rw [M.bind_ok hg]
        dsimp only
        rw [M.bind_ok hdet, if_pos rfl, if_pos hcl]
        rfl
    · obtain ⟨r, x, hw⟩ := hl (RM.liftC (CMM.writeBack (some p) (fun c => c.update d persist kw)))
      cases r with
      | error e =>
        rw [M.bind_error (s' := (x, [t])) (e := e)]
        · show toldBefore [t] = _
          unfold toldBefore
          simp [hta]
        · rw [M.bind_ok hg]
          dsimp only
          rw [M.bind_ok hdet, if_pos rfl, if_neg hcl, M.bind_error hw]
      | ok u =>
        rw [M.bind_ok (a := (c.update d persist kw, true)) (s' := (x, [t]))]
        · dsimp only
          have h1 := NM.applyToLoaded_told p (c.update d persist kw).values d kw x [t]
          rw [h1]
          unfold toldBefore
          split <;> simp [hta]
        · rw [M.bind_ok hg]
          dsimp only
          rw [M.bind_ok hdet, if_pos rfl, if_neg hcl, M.bind_ok hw]
          rfl

/-- C107, a config that does not exist yet: plugins are not told before it is made, and after it only if there is an object with its
path. -/
theorem C107_new_partial [BEq V] (s : RS V) (p : List String) (b : Bool)
    (hc : (CMM.getFuncOrSectionConfigs p s.cm).1 = .error .keyError ∨ (CMM.getFuncOrSectionConfigs p s.cm).1 = .ok none) :
    toldBefore (told (.reset (some p) b) s) = [] ∧
      (s.objs.get? p = none → told (.reset (some p) b) s = []) := by
  obtain ⟨cm1, hg⟩ : ∃ cm1, M.tryCatch (CMM.getFuncOrSectionConfigs p)
      (fun e => if e = PyErr.keyError then pure none else M.raise e) s.cm = (.ok none, cm1) := by
    unfold M.tryCatch
    rcases hg : CMM.getFuncOrSectionConfigs p s.cm with ⟨r, cm1⟩
    rw [hg] at hc
    rcases hc with hc | hc
    · cases hc; exact ⟨cm1, rfl⟩
    · cases hc; exact ⟨cm1, rfl⟩
  have h0 : told (.reset (some p) b) s = (NM.reset (some p) b (s, [])).2.2 := rfl
  have h1 : NM.lift (RM.liftC M.get) (s, []) = (.ok s.cm, (s, ([] : List (Told V)))) := rfl
  have h2 : NM.lift (RM.liftC (M.tryCatch (CMM.getFuncOrSectionConfigs p)
      (fun e => if e = PyErr.keyError then pure none else M.raise e))) (s, []) =
      (.ok none, ({ s with cm := cm1 }, ([] : List (Told V)))) := by
    show ((M.tryCatch (CMM.getFuncOrSectionConfigs p)
      (fun e => if e = PyErr.keyError then pure none else M.raise e) s.cm).1, ({ s with cm := (M.tryCatch (CMM.getFuncOrSectionConfigs p)
      (fun e => if e = PyErr.keyError then pure none else M.raise e) s.cm).2 }, _)) = _
    rw [hg]
  rw [h0]
  have h5 : NM.resetConfig (some p) b = (NM.lift (RM.liftC M.get) >>= fun s =>
      NM.lift (M.liftE (CMM.getDefault s p b)) >>= fun value => NM.setConfig p value b : NM V (Node V × Bool)) := rfl
  unfold NM.reset
  rw [h5]
  cases hd : CMM.getDefault s.cm p b with
  | error e =>
    rw [M.bind_error (s' := (s, ([] : List (Told V)))) (e := e)]
    · exact ⟨rfl, fun _ => rfl⟩
    · rw [M.bind_ok h1]
      exact M.bind_error (by rw [hd]; rfl)
  | ok v =>
    have h3 : NM.setConfig p v b (s, []) = (NM.lift (RM.liftC (CMM.setFuncOrSectionConfig p v b)) >>= fun _ => pure (v, true))
        ({ s with cm := cm1 }, ([] : List (Told V))) := by
      unfold NM.setConfig
      rw [M.bind_ok h2]
    obtain ⟨r, x, hx, ho⟩ : ∃ r x, NM.lift (RM.liftC (CMM.setFuncOrSectionConfig p v b)) ({ s with cm := cm1 }, ([] : List (Told V))) =
      (r, (x, [])) ∧ x.objs = s.objs := ⟨_, _, rfl, rfl⟩
    cases r with
    | error e =>
      rw [M.bind_error (s' := (x, ([] : List (Told V)))) (e := e)]
      · exact ⟨rfl, fun _ => rfl⟩
      · rw [M.bind_ok h1, M.bind_ok (a := v) (s' := (s, ([] : List (Told V)))) (by rw [hd]; rfl), h3, M.bind_error hx]
    | ok u =>
      rw [M.bind_ok (a := (v, true)) (s' := (x, ([] : List (Told V))))]
      · cases v with
        | conf c =>
          dsimp only
          have h4 := NM.applyToLoaded_told p c.values none c.values x []
          rw [h4]
          constructor
          · unfold toldBefore
            split <;> simp
          · intro hn
            rw [ho, hn]
            split
            · rename_i h; cases h
            · rfl
        | _ => exact ⟨rfl, fun _ => rfl⟩
      · rw [M.bind_ok h1, M.bind_ok (a := v) (s' := (s, ([] : List (Told V)))) (by rw [hd]; rfl), h3, M.bind_ok hx]
        rfl

/-- The value that an item has for a key where it is used. -/
def usedValue (s : RS Nat) (p : List String) (k : String) : Option Nat :=
  match (CMM.get p s.cm).1 with
  | .ok (some c) => c.values.get? k
  | _ => none

/-- C107 fails for values that items take from the sections around them: with an update of the section, plugins are told of the config
of the section only, although the config of the item changes. -/
theorem C107_section_violated :
    let s := demoMade demoFunc
    let op : ChangeOp Nat := .update none (some ["main"]) true (Dict.ofList [("a", 9)])
    s.Reachable ∧ usedValue s demoPath "a" = some 2 ∧ (op.run s).1 = .ok () ∧ usedValue (op.run s).2 demoPath "a" = some 9 ∧
      (told op s).map (fun e => (e.after, e.path, e.updates.items)) = [(false, ["main"], [("a", 9)])] :=
  ⟨⟨demoRunner demoFunc, [.get demoPath], demoRunner_fresh _, by simp [ROp.Valid, demoPath], rfl⟩, rfl, rfl, rfl, rfl⟩

/-- C107 for the local config: plugins are told nothing of an update without a path, which changes no config (C14). -/
theorem C107_local [BEq V] (s : RS V) (hs : s.cm.Reachable) (d : Option (Dict String V)) (persist : Bool) (kw : Dict String V) :
    told (.update d none persist kw) s = [] ∧ ((ChangeOp.update d none persist kw).run s).2 = s := by
  constructor
  · cases h : told (.update d none persist kw) s with
    | nil => rfl
    | cons e es =>
      have := C107_path s (.update d none persist kw) e (by rw [h]; exact List.mem_cons_self)
      cases this
  · obtain ⟨h1, _, h3⟩ := C14_local_update_violated s.cm hs d persist kw
    show (RM.update d none persist kw s).2 = s
    unfold RM.update
    rcases hu : CMM.update d none persist kw s.cm with ⟨r, cm1⟩
    rw [hu] at h1 h3
    dsimp only at h1
    subst h1
    have hl : RM.liftC (CMM.update d none persist kw) s = (r, s) := by
      show ((CMM.update d none persist kw s.cm).1, { s with cm := (CMM.update d none persist kw s.cm).2 }) = _
      rw [hu]
    cases r with
    | error e => rw [M.bind_error hl]
    | ok x =>
      rw [M.bind_ok hl]
      obtain ⟨c, b⟩ := x
      cases b <;> rfl

example : (demoMade demoFunc).cm.localConf.values.items = [] ∧
    (told (.update none none true (Dict.ofList [("a", 9)])) (demoMade demoFunc)) = [] := ⟨rfl, rfl⟩

/-- A config that does not exist. -/
example : (CMM.getFuncOrSectionConfigs ["main", "data", "gone"] (demoMade demoFunc).cm).1 = .error .keyError := rfl

/-- The config of a section, and an update that would change it. -/
example : ∃ c cm1, CMM.getProjectOrLocal (some ["main"]) (demoMade demoFunc).cm = (.ok (some c), cm1) ∧
    CMM.determineWouldUpdate c none (Dict.ofList [("a", 9)]) = .ok true ∧
    CMM.determineWouldUpdate c none (Dict.ofList [("a", 2)]) = .ok false := ⟨_, _, rfl, rfl, rfl⟩

end Verif.Props

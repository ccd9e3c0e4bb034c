import Verif.Model.RunLog
import Verif.Props.Runner

/-
C81 and C82: what is logged around a run.
-/

namespace Verif.Props
open Verif.Py Verif.Model

variable {V : Type}

/-! ## C81: logging a run does not change what it does -/

/-- The text of a value that is not a view, if it has one: that of a selector, the name of something that has a name, a
string in quotes, and the value's own text. -/
def plainText : Look → Option String
  | .selector => some "Selector()"
  | .named n => some n
  | .str t => some ("r'" ++ t ++ "'")
  | .other (.ok t) => some t
  | _ => none

/-- The logged run does what the run without logging does. -/
def SameRun {α : Type} (l : LogM V α) (m : RM V α) : Prop := ∀ s, (l s).1 = (m s.rs).1 ∧ (l s).2.rs = (m s.rs).2

namespace SameRun
variable {α β : Type}

theorem pure (a : α) : SameRun (V := V) (Pure.pure a) (Pure.pure a) := fun _ => ⟨rfl, rfl⟩
theorem raise (e : PyErr) : SameRun (V := V) (α := α) (M.raise e) (M.raise e) := fun _ => ⟨rfl, rfl⟩
theorem liftR (m : RM V α) : SameRun (LogM.liftR m) m := fun _ => ⟨rfl, rfl⟩
theorem liftE (x : Except PyErr α) : SameRun (V := V) (M.liftE x) (M.liftE x) := fun _ => ⟨rfl, rfl⟩

theorem bind {l : LogM V α} {m : RM V α} {f : α → LogM V β} {g : α → RM V β} (h : SameRun l m)
    (hf : ∀ a, SameRun (f a) (g a)) : SameRun (l >>= f) (m >>= g) := by
  intro s
  rw [M.bind_run, M.bind_run]
  obtain ⟨h1, h2⟩ := h s
  cases hl : l s with
  | mk r t =>
    cases hm : m s.rs with
    | mk r' t' =>
      rw [hl, hm] at h1 h2
      cases h1
      cases h2
      cases r with
      | error e => exact ⟨rfl, rfl⟩
      | ok a => exact hf a t

end SameRun

theorem outputRepr_plain (manager : String) {l : Look} {t : String} (h : plainText l = some t) (s : RS V) :
    LogM.outputRepr manager l s = (.ok t, s) := by
  unfold plainText at h
  split at h <;> cases h <;> rfl

theorem kwargLines_plain (manager : String) (look : V → Look) (items : List (String × V))
    (h : ∀ e ∈ items, (plainText (look e.2)).isSome = true) (s : RS V) :
    ∃ ts, LogM.kwargLines manager look items s = (.ok ts, s) := by
  induction items with
  | nil => exact ⟨[], rfl⟩
  | cons e rest ih =>
    obtain ⟨k, v⟩ := e
    obtain ⟨t, ht⟩ := Option.isSome_iff_exists.1 (h (k, v) (List.mem_cons_self ..))
    obtain ⟨ts, hts⟩ := ih (fun e he => h e (List.mem_cons_of_mem _ he))
    refine ⟨(k ++ " = " ++ t) :: ts, ?_⟩
    unfold LogM.kwargLines
    rw [M.bind_ok (outputRepr_plain manager ht s), M.bind_ok hts]
    rfl

theorem info_run (m : String) (s : LogS V) : LogM.info m s = (.ok (), { s with log := s.log ++ [m] }) := rfl

section
variable (manager : String) (look : V → Look) (text : V → Except PyErr String)

theorem runOne_same (hv : ∀ v, (plainText (look v)).isSome = true) (ht : ∀ v, ∃ t, text v = .ok t) (what : String)
    (getOne : List String → RM V (Obj V)) (p : List String) :
    SameRun (LogM.runOne manager look text what getOne p)
      (do let _ ← RM.funcAndConfig p; let o ← getOne p; M.liftE (RM.callObj o)) := by
  unfold LogM.runOne
  refine .bind (.liftR _) (fun r => .bind (.liftR _) (fun o => ?_))
  intro s
  obtain ⟨ts, hts⟩ := kwargLines_plain manager look r.2.items (fun e _ => hv e.2) s.rs
  have hk : LogM.liftR (LogM.kwargStr manager look r.2) s = (.ok ("\n\t" ++ String.intercalate ",\n\t" ts ++ "\n"), s) := by
    unfold LogM.liftR LogM.kwargStr
    rw [M.bind_ok hts]
    rfl
  rw [M.bind_ok hk, M.bind_ok (info_run _ _)]
  cases hc : RM.callObj o with
  | error e => exact ⟨rfl, rfl⟩
  | ok v =>
    obtain ⟨t, htv⟩ := ht v
    rw [M.bind_ok (M.liftE_run _ _), htv]
    exact ⟨rfl, rfl⟩

theorem runItems_same (hv : ∀ v, (plainText (look v)).isSome = true) (ht : ∀ v, ∃ t, text v = .ok t)
    {f : List String → LogM V (RM.RunRes V)} {g : List String → RM V (RM.RunRes V)} (h : ∀ q, SameRun (f q) (g q))
    (p : List String) (items : List (String × Reg V)) :
    SameRun (LogM.runItems manager look text f p items) (RM.runItems g p items) := by
  induction items with
  | nil => exact .pure _
  | cons e rest ih =>
    obtain ⟨x, r⟩ := e
    cases r with
    | other => exact .raise _
    | item k =>
      unfold LogM.runItems RM.runItems
      refine .bind ?_ (fun v => .bind ih (fun rs => .pure _))
      unfold LogM.runInside RM.runInside
      cases k.kind <;> exact runOne_same manager look text hv ht _ _ _
    | coll b items' =>
      cases b with
      | true => exact .raise _
      | false =>
        unfold LogM.runItems RM.runItems
        exact .bind (h _) (fun v => .bind ih (fun rs => .pure _))

theorem runSection_same (hv : ∀ v, (plainText (look v)).isSome = true) (ht : ∀ v, ∃ t, text v = .ok t) (n : Nat)
    (p : List String) : SameRun (LogM.runSection manager look text n p) (RM.runSection n p) := by
  induction n generalizing p with
  | zero => exact .raise _
  | succ n ih =>
    unfold LogM.runSection RM.runSection
    refine .bind (.liftR _) (fun r => ?_)
    cases r with
    | item k => exact .raise _
    | other => exact .raise _
    | coll b items => exact .bind (runItems_same manager look text hv ht ih p items) (fun rs => .pure _)

/-- C81, if no value is a view and every value has a text (missing: views, see `C81_item_partial` and `C81_view_violated`;
values without a text, see `C81_argument_violated` and `C81_result_violated`): a logged run of anything, an item or a section,
returns or raises what it would without logging, and leaves the same state. -/
theorem C81_run_partial (hv : ∀ v, (plainText (look v)).isSome = true) (ht : ∀ v, ∃ t, text v = .ok t)
    (p : List String) (s : LogS V) :
    (LogM.run1 manager look text p s).1 = (RM.run1 p s.rs).1 ∧ (LogM.run1 manager look text p s).2.rs = (RM.run1 p s.rs).2 := by
  have : SameRun (LogM.run1 manager look text p) (RM.run1 p) := by
    intro s
    unfold LogM.run1 RM.run1
    rw [M.bind_ok (M.get_run s), M.bind_ok (M.get_run s.rs)]
    refine SameRun.bind (.liftR _) (fun r => ?_) s
    cases r with
    | item k =>
      refine .bind ?_ (fun v => .pure _)
      unfold LogM.runItem RM.runItem
      cases k.kind <;> exact runOne_same manager look text hv ht _ _ _
    | other => exact .raise _
    | coll b items =>
      cases b with
      | true => exact .raise _
      | false => exact runSection_same manager look text hv ht _ _
  exact this s

/-- A view of an item whose object was created before, or of something that is not registered. -/
def QuietView (s : RS V) (q : List String) : Prop := (created s q).isSome = true ∨ s.reg.lookup q = .error .attributeError

/-- A value that can be logged without anything else happening during a run of `p`: it has a text, or it is a view of an item
whose object was created before, of `p` itself, or of something that is not registered. -/
def Harmless (s : RS V) (p : List String) (v : V) : Prop :=
  (plainText (look v)).isSome = true ∨ ∃ q, look v = .view q ∧ (q = p ∨ QuietView s q)

/-- The text of a value in the log. -/
def loggedText (v : V) : Option String :=
  match look v with
  | .view q => some ("s." ++ join '.' (manager :: q))
  | l => plainText l

/-- The text of arguments in the log. -/
def loggedArgs (d : Dict String V) : String :=
  "\n\t" ++ String.intercalate ",\n\t" (d.items.map (fun e => e.1 ++ " = " ++ (loggedText manager look e.2).getD "")) ++ "\n"

variable {look}

theorem probeView_created {s : RS V} (hi : s.Inv) {q : List String} {o : Obj V} (ho : created s q = some o) :
    LogM.probeView q s = (.ok (), s) := by
  have ho' : s.objs.get? q = some o := ho
  have hg : RM.get q s = (.ok (.obj o), s) := by
    rw [RM.get_item (hi.reg q o ho)]
    have : RM.getItem q o.callable s = (.ok o, s) := by
      unfold RM.getItem RM.getOneFunc RM.getOneObj
      cases o.callable.kind <;> simp only <;> rw [M.bind_ok (M.get_run _), ho'] <;> rfl
    rw [M.bind_ok this]
    rfl
  unfold LogM.probeView
  rw [hg]

theorem probeView_missing {s : RS V} {q : List String} (h : s.reg.lookup q = .error .attributeError) :
    LogM.probeView q s = (.ok (), s) := by
  have hg : RM.get q s = (.error .attributeError, s) := by
    unfold RM.get RM.lookup
    rw [M.bind_ok (M.get_run s)]
    refine M.bind_error ?_
    rw [M.bind_ok (M.get_run s), h]
    rfl
  unfold LogM.probeView
  rw [hg]

theorem outputRepr_logged {s : RS V} (hi : s.Inv) {v : V}
    (h : (plainText (look v)).isSome = true ∨ ∃ q, look v = .view q ∧ QuietView s q) :
    LogM.outputRepr manager (look v) s = (.ok ((loggedText manager look v).getD ""), s) := by
  unfold loggedText
  rcases h with h | ⟨q, hq, h⟩
  · obtain ⟨t, ht⟩ := Option.isSome_iff_exists.1 h
    rw [outputRepr_plain manager ht]
    cases hl : look v with
    | view q => rw [hl] at ht; cases ht
    | _ => rw [hl] at ht; simp only [ht]; rfl
  · have hp : LogM.probeView q s = (.ok (), s) := by
      rcases h with h | h
      · obtain ⟨o, ho⟩ := Option.isSome_iff_exists.1 h
        exact probeView_created hi ho
      · exact probeView_missing h
    rw [hq]
    show (LogM.probeView q >>= fun _ => pure _) s = _
    rw [M.bind_ok hp]
    rfl

theorem kwargLines_logged {s : RS V} (hi : s.Inv) (items : List (String × V))
    (h : ∀ e ∈ items, (plainText (look e.2)).isSome = true ∨ ∃ q, look e.2 = .view q ∧ QuietView s q) :
    LogM.kwargLines manager look items s =
      (.ok (items.map (fun e => e.1 ++ " = " ++ (loggedText manager look e.2).getD "")), s) := by
  induction items with
  | nil => rfl
  | cons e rest ih =>
    unfold LogM.kwargLines
    rw [M.bind_ok (outputRepr_logged manager hi (h e (List.mem_cons_self ..))),
      M.bind_ok (ih (fun e he => h e (List.mem_cons_of_mem _ he)))]
    rfl

/-- The object made for an item is the one it has from then on. -/
theorem getOneFunc_created {p : List String} {s t : RS V} {o : Obj V} (h : RM.getOneFunc p s = (.ok o, t)) :
    created t p = some o := by
  unfold RM.getOneFunc at h
  rw [M.bind_ok (M.get_run s)] at h
  cases hs : s.objs.get? p with
  | some o' =>
    rw [hs] at h
    cases h
    exact hs
  | none =>
    rw [hs] at h
    simp only at h
    rw [M.bind_run] at h
    cases hf : RM.funcAndConfig p s with
    | mk r s' =>
      rw [hf] at h
      cases r with
      | error e => cases h
      | ok r =>
        obtain ⟨reg, d⟩ := r
        cases reg with
        | item k =>
          simp only at h
          rw [M.bind_ok (M.get_run s')] at h
          cases h
          exact Dict.get?_set_self ..
        | coll _ _ => cases h
        | other => cases h

theorem getOneObj_created {p : List String} {s t : RS V} {o : Obj V} (h : RM.getOneObj p s = (.ok o, t)) :
    created t p = some o := by
  unfold RM.getOneObj at h
  rw [M.bind_ok (M.get_run s)] at h
  cases hs : s.objs.get? p with
  | some o' =>
    rw [hs] at h
    cases h
    exact hs
  | none =>
    rw [hs] at h
    simp only at h
    rw [M.bind_run] at h
    cases hl : RM.lookup p s with
    | mk r1 s1 =>
      rw [hl] at h
      cases r1 with
      | error e => cases h
      | ok _ =>
        simp only at h
        rw [M.bind_run] at h
        cases hf : RM.funcAndConfig p s1 with
        | mk r s' =>
          rw [hf] at h
          cases r with
          | error e => cases h
          | ok r =>
            obtain ⟨reg, d⟩ := r
            cases reg with
            | item k =>
              simp only at h
              rw [M.bind_ok (M.get_run s'), M.bind_run, M.liftE_run] at h
              cases hc : RM.construct s'.nextId k d with
              | error e => rw [hc] at h; cases h
              | ok o' =>
                rw [hc] at h
                cases h
                exact Dict.get?_set_self ..
            | coll _ _ => cases h
            | other => cases h

/-- A run of an item without logging. -/
def plainRun (getOne : List String → RM V (Obj V)) (p : List String) : RM V V :=
  RM.funcAndConfig p >>= fun _ => getOne p >>= fun o => M.liftE (RM.callObj o)

/-- A logged run of an item, step by step. -/
theorem runOne_logged [BEq V] {s : LogS V} (hi : s.rs.Inv) {p : List String} (hp : p ≠ [])
    (hv : ∀ c, (CMM.get p s.rs.cm).1 = .ok (some c) → ∀ x v, c.values.get? x = some v → Harmless look s.rs p v)
    (what : String) {getOne : List String → RM V (Obj V)} (he : ∀ s, RS.Evolves s (getOne p s).2)
    (hc : ∀ {s t : RS V} {o : Obj V}, getOne p s = (.ok o, t) → created t p = some o)
    (ht : ∀ v, (plainRun getOne p s.rs).1 = .ok v → ∃ t, text v = .ok t) :
    ((LogM.runOne manager look text what getOne p s).1 = (plainRun getOne p s.rs).1 ∧
      (LogM.runOne manager look text what getOne p s).2.rs = (plainRun getOne p s.rs).2) ∧
    ∀ v t, (plainRun getOne p s.rs).1 = .ok v → text v = .ok t →
      ∃ (c : Conf V) (r : Reg V × Dict String V) (o : Obj V), (CMM.get p s.rs.cm).1 = .ok (some c) ∧ s.rs.reg.lookup p = .ok r.1 ∧ RM.forFunction c r.1 = .ok r.2 ∧
        created (plainRun getOne p s.rs).2 p = some o ∧ RM.callObj o = .ok v ∧
        (∃ t1 t2, RM.funcAndConfig p s.rs = (.ok r, t1) ∧ getOne p t1 = (.ok o, t2)) ∧
        (LogM.runOne manager look text what getOne p s).2.log = s.log ++
          ["Running " ++ what ++ " " ++ join '.' p ++ "(" ++ loggedArgs manager look r.2 ++ ")", "Result:\n" ++ t ++ "\n"] := by
  cases hf : RM.funcAndConfig p s.rs with
  | mk r t1 =>
    have hlf : LogM.liftR (RM.funcAndConfig p) s = (r, ⟨t1, s.log⟩) := by
      unfold LogM.liftR
      rw [hf]
    have hi1 : t1.Inv := by
      have := RM.evo_funcAndConfig (V := V) hp s.rs
      rw [hf] at this
      exact this.inv hi
    cases r with
    | error e =>
      have h1 : plainRun getOne p s.rs = (.error e, t1) := M.bind_error hf
      have h2 : LogM.runOne manager look text what getOne p s = (.error e, ⟨t1, s.log⟩) := M.bind_error hlf
      rw [h1, h2]
      exact ⟨⟨rfl, rfl⟩, fun v t h => by cases h⟩
    | ok r =>
      obtain ⟨c, hg, hs1, hl, hd⟩ := RM.funcAndConfig_ok hf
      cases ho : getOne p t1 with
      | mk x t2 =>
        have hev := he t1
        rw [ho] at hev
        have hlo : LogM.liftR (getOne p) ⟨t1, s.log⟩ = (x, ⟨t2, s.log⟩) := by
          unfold LogM.liftR
          rw [ho]
        cases x with
        | error e =>
          have h1 : plainRun getOne p s.rs = (.error e, t2) := (M.bind_ok hf).trans (M.bind_error ho)
          have h2 : LogM.runOne manager look text what getOne p s = (.error e, ⟨t2, s.log⟩) :=
            (M.bind_ok hlf).trans (M.bind_error hlo)
          rw [h1, h2]
          exact ⟨⟨rfl, rfl⟩, fun v t h => by cases h⟩
        | ok o =>
          have hv' : ∀ e ∈ r.2.items, (plainText (look e.2)).isSome = true ∨
              ∃ q, look e.2 = .view q ∧ QuietView t2 q := by
            intro e hmem
            have hget : c.values.get? e.1 = some e.2 := by
              have h := (Dict.mem_items_iff r.2 e.1 e.2).1 hmem
              unfold RM.forFunction at hd
              split at hd
              · split at hd
                · injection hd with hd
                  rw [← hd, Dict.get?_filterKeys] at h
                  split at h
                  · exact h
                  · cases h
                · cases hd
              · cases hd
            rcases hv c (by rw [hg]) e.1 e.2 hget with h | ⟨q, hq, h⟩
            · exact .inl h
            · refine .inr ⟨q, hq, ?_⟩
              rcases h with rfl | h | h
              · exact .inl (by rw [hc ho]; rfl)
              · obtain ⟨o1, ho1⟩ := Option.isSome_iff_exists.1 h
                obtain ⟨o2, ho2, _⟩ := hev.objs q o1 (by rw [hs1]; exact ho1)
                have : created t2 q = some o2 := ho2
                exact .inl (by rw [this]; rfl)
              · exact .inr (by rw [hev.reg, hs1]; exact h)
          have hk : LogM.liftR (LogM.kwargStr manager look r.2) ⟨t2, s.log⟩ = (.ok (loggedArgs manager look r.2), ⟨t2, s.log⟩) := by
            have : LogM.kwargStr manager look r.2 t2 = (.ok (loggedArgs manager look r.2), t2) := by
              unfold LogM.kwargStr
              rw [M.bind_ok (kwargLines_logged manager (hev.inv hi1) r.2.items hv')]
              rfl
            unfold LogM.liftR
            rw [this]
          have h1 : plainRun getOne p s.rs = (RM.callObj o, t2) := (M.bind_ok hf).trans (M.bind_ok ho)
          have h2 := (M.bind_ok (f := fun x => LogM.liftR (getOne p) >>= fun o => LogM.liftR (LogM.kwargStr manager look x.2) >>=
            fun args => LogM.info ("Running " ++ what ++ " " ++ join '.' p ++ "(" ++ args ++ ")") >>= fun _ =>
              M.liftE (RM.callObj o) >>= fun v => M.liftE (text v) >>= fun t => LogM.info ("Result:\n" ++ t ++ "\n") >>= fun _ =>
                pure v) hlf).trans ((M.bind_ok hlo).trans ((M.bind_ok hk).trans (M.bind_ok (info_run _ _))))
          have h2' : LogM.runOne manager look text what getOne p s = _ := h2
          rw [h2', h1]
          cases hcall : RM.callObj o with
          | error e => exact ⟨⟨rfl, rfl⟩, fun v t h => by cases h⟩
          | ok v =>
            obtain ⟨t, htv⟩ := ht v (by rw [h1, hcall])
            have h3 : (M.liftE (Except.ok v) >>= fun v => M.liftE (text v) >>= fun t => LogM.info ("Result:\n" ++ t ++ "\n") >>= fun _ =>
                pure v : LogM V V) = fun s => (.ok v, { s with log := s.log ++ ["Result:\n" ++ t ++ "\n"] }) := by
              funext s
              rw [M.bind_ok (M.liftE_run _ _), htv]
              rfl
            rw [h3]
            refine ⟨⟨rfl, rfl⟩, fun v' t' e1 e2 => ?_⟩
            cases e1
            rw [htv] at e2
            cases e2
            refine ⟨c, r, o, by rw [hg], hl, hd, hc ho, hcall, ⟨t1, t2, rfl, ho⟩, ?_⟩
            show (s.log ++ [_]) ++ [_] = _
            rw [List.append_assoc]
            rfl

/-- How an item is run: `getOne` makes its object. -/
structure MadeBy [BEq V] (p : List String) (k : Callable V) (getOne : List String → RM V (Obj V)) : Prop where
  evolves : ∀ s, RS.Evolves s (getOne p s).2
  makes : ∀ {s t : RS V} {o : Obj V}, getOne p s = (.ok o, t) → created t p = some o
  plain : RM.runItem p k = plainRun getOne p
  logged : LogM.runItem manager look text p k =
    LogM.runOne manager look text (if k.kind = .func then "function" else "class") getOne p
  kwargs : ∀ {s t : RS V} {o : Obj V}, s.reg.lookup p = .ok (.item k) → created s p = none →
    getOne p s = (.ok o, t) → ∃ r d t', RM.funcAndConfig p s = (.ok (r, d), t') ∧ (k.kind ≠ .specific → o.kwargs = d) ∧
      (k.kind = .specific → ∃ own, k.sig.argNames true = .ok own ∧ o.kwargs = d.filterKeys (fun x => decide (x ∈ own)))

theorem getOneFunc_kwargs {p : List String} {s t : RS V} {o : Obj V} (hn : created s p = none)
    (h : RM.getOneFunc p s = (.ok o, t)) : ∃ r t', RM.funcAndConfig p s = (.ok (r, o.kwargs), t') := by
  unfold RM.getOneFunc at h
  replace hn : s.objs.get? p = none := hn
  rw [M.bind_ok (M.get_run s), hn] at h
  simp only at h
  rw [M.bind_run] at h
  cases hf : RM.funcAndConfig p s with
  | mk r s' =>
    rw [hf] at h
    cases r with
    | error e => cases h
    | ok r =>
      obtain ⟨reg, d⟩ := r
      cases reg with
      | item k =>
        simp only at h
        rw [M.bind_ok (M.get_run s')] at h
        cases h
        exact ⟨_, _, rfl⟩
      | coll _ _ => cases h
      | other => cases h

theorem getOneObj_kwargs {p : List String} {s t : RS V} {o : Obj V} {k : Callable V} (hk : k.kind = .klass)
    (hl : s.reg.lookup p = .ok (.item k)) (hn : created s p = none)
    (h : RM.getOneObj p s = (.ok o, t)) : ∃ r t', RM.funcAndConfig p s = (.ok (r, o.kwargs), t') := by
  unfold RM.getOneObj at h
  replace hn : s.objs.get? p = none := hn
  have hlk : RM.lookup p s = (.ok (.item k), s) := by
    unfold RM.lookup
    rw [M.bind_ok (M.get_run s), hl]
    rfl
  rw [M.bind_ok (M.get_run s), hn] at h
  simp only at h
  rw [M.bind_ok hlk, M.bind_run] at h
  cases hf : RM.funcAndConfig p s with
  | mk r s' =>
    rw [hf] at h
    cases r with
    | error e => cases h
    | ok r =>
      obtain ⟨c, _, _, hl', _⟩ := RM.funcAndConfig_ok hf
      obtain ⟨reg, d⟩ := r
      rw [hl] at hl'
      injection hl' with hl'
      subst hl'
      simp only at h
      rw [M.bind_ok (M.get_run s'), M.bind_run, M.liftE_run] at h
      unfold RM.construct at h
      rw [hk] at h
      simp only at h
      split at h
      · rename_i hx
        cases h
        injection hx with hx _
        split at hx
        · cases hx
        · split at hx
          · cases hx
          · cases hx
            exact ⟨_, _, rfl⟩
      · cases h

theorem getOneObj_kwargs_specific {p : List String} {s t : RS V} {o : Obj V} {k : Callable V} (hk : k.kind = .specific)
    (hl : s.reg.lookup p = .ok (.item k)) (hn : created s p = none) (h : RM.getOneObj p s = (.ok o, t)) :
    ∃ r d t' own, RM.funcAndConfig p s = (.ok (r, d), t') ∧ k.sig.argNames true = .ok own ∧
      o.kwargs = d.filterKeys (fun x => decide (x ∈ own)) := by
  unfold RM.getOneObj at h
  replace hn : s.objs.get? p = none := hn
  have hlk : RM.lookup p s = (.ok (.item k), s) := by
    unfold RM.lookup
    rw [M.bind_ok (M.get_run s), hl]
    rfl
  rw [M.bind_ok (M.get_run s), hn] at h
  simp only at h
  rw [M.bind_ok hlk, M.bind_run] at h
  cases hf : RM.funcAndConfig p s with
  | mk r s' =>
    rw [hf] at h
    cases r with
    | error e => cases h
    | ok r =>
      obtain ⟨c, _, _, hl', _⟩ := RM.funcAndConfig_ok hf
      obtain ⟨reg, d⟩ := r
      rw [hl] at hl'
      injection hl' with hl'
      subst hl'
      simp only at h
      rw [M.bind_ok (M.get_run s'), M.bind_run, M.liftE_run] at h
      unfold RM.construct at h
      rw [hk] at h
      simp only [RM.applyConfig] at h
      cases hown : k.sig.argNames true with
      | error e => rw [hown] at h; cases h
      | ok own =>
        rw [hown] at h
        simp only at h
        cases hu : k.upd (d.filterKeys (fun x => decide (x ∈ own))) with
        | error e => rw [hu] at h; cases h
        | ok _ =>
          rw [hu] at h
          cases h
          exact ⟨_, _, _, own, rfl, rfl, rfl⟩

theorem madeBy [BEq V] {p : List String} (hp : p ≠ []) (k : Callable V) :
    ∃ getOne, MadeBy (look := look) manager text p k getOne := by
  cases hk : k.kind with
  | func =>
    exact ⟨RM.getOneFunc, RM.evo_getOneFunc hp, getOneFunc_created, by unfold RM.runItem; rw [hk]; rfl,
      by unfold LogM.runItem; rw [hk]; rfl, fun _ hn h => by
        obtain ⟨r, t', e⟩ := getOneFunc_kwargs hn h
        exact ⟨r, _, t', e, fun _ => rfl, fun hs => by rw [hk] at hs; cases hs⟩⟩
  | klass =>
    exact ⟨RM.getOneObj, RM.evo_getOneObj hp, getOneObj_created, by unfold RM.runItem; rw [hk]; rfl,
      by unfold LogM.runItem; rw [hk]; rfl, fun hl hn h => by
        obtain ⟨r, t', e⟩ := getOneObj_kwargs hk hl hn h
        exact ⟨r, _, t', e, fun _ => rfl, fun hs => by rw [hk] at hs; cases hs⟩⟩
  | specific =>
    exact ⟨RM.getOneObj, RM.evo_getOneObj hp, getOneObj_created, by unfold RM.runItem; rw [hk]; rfl,
      by unfold LogM.runItem; rw [hk]; rfl, fun hl hn h => by
        obtain ⟨r, d, t', own, e1, e2, e3⟩ := getOneObj_kwargs_specific hk hl hn h
        exact ⟨r, d, t', e1, fun hs => absurd hk hs, fun _ => ⟨own, e2, e3⟩⟩⟩

/-- A logged run of an item, as a whole. -/
theorem run1_logged [BEq V] {s : LogS V} (hs : s.rs.Reachable) {p : List String} {k : Callable V}
    (hp : RunnerItem s.rs p k)
    (hv : ∀ c, (CMM.get p s.rs.cm).1 = .ok (some c) → ∀ x v, c.values.get? x = some v → Harmless look s.rs p v)
    (ht : ∀ v, (RM.run1 p s.rs).1 = .ok (.one v) → ∃ t, text v = .ok t) :
    ((LogM.run1 manager look text p s).1 = (RM.run1 p s.rs).1 ∧
      (LogM.run1 manager look text p s).2.rs = (RM.run1 p s.rs).2) ∧
    ∀ v t, (RM.run1 p s.rs).1 = .ok (.one v) → text v = .ok t →
      ∃ (c : Conf V) (names : List String) (o : Obj V), (CMM.get p s.rs.cm).1 = .ok (some c) ∧
        k.sig.argNames false = .ok names ∧ created (RM.run1 p s.rs).2 p = some o ∧ calling o = .ok v ∧
        (created s.rs p = none → (k.kind ≠ .specific → o.kwargs = c.values.filterKeys (fun x => decide (x ∈ names))) ∧
          (k.kind = .specific → ∃ own, k.sig.argNames true = .ok own ∧
            o.kwargs = (c.values.filterKeys (fun x => decide (x ∈ names))).filterKeys (fun x => decide (x ∈ own)))) ∧
        (LogM.run1 manager look text p s).2.log = s.log ++
          ["Running " ++ (if k.kind = .func then "function" else "class") ++ " " ++ join '.' p ++ "(" ++
            loggedArgs manager look (c.values.filterKeys (fun x => decide (x ∈ names))) ++ ")",
           "Result:\n" ++ t ++ "\n"] := by
  obtain ⟨getOne, hm⟩ := madeBy (look := look) manager text hp.config.1 k
  have hr1 := RM.run_item hp.registered
  have hr2 : LogM.run1 manager look text p s = (LogM.runItem manager look text p k >>= fun v => pure (.one v)) s := by
    unfold LogM.run1
    rw [M.bind_ok (M.get_run s)]
    have : LogM.liftR (RM.lookup p) s = (.ok (.item k), s) := by
      unfold LogM.liftR RM.lookup
      rw [M.bind_ok (M.get_run _), hp.registered]
      rfl
    rw [M.bind_ok this]
  rw [hm.plain] at hr1
  rw [hm.logged] at hr2
  have hone : ∀ v, (RM.run1 p s.rs).1 = .ok (.one v) ↔ (plainRun getOne p s.rs).1 = .ok v := by
    intro v
    rw [hr1, M.bind_run]
    cases plainRun getOne p s.rs with
    | mk x t' => cases x <;> simp
  have hst : (RM.run1 p s.rs).2 = (plainRun getOne p s.rs).2 := by
    rw [hr1, M.bind_run]
    cases plainRun getOne p s.rs with
    | mk x t' => cases x <;> rfl
  obtain ⟨⟨e1, e2⟩, e3⟩ := runOne_logged manager text (s := s) hs.inv hp.config.1 hv
    (if k.kind = .func then "function" else "class") hm.evolves hm.makes (fun v h => ht v ((hone v).2 h))
  refine ⟨?_, ?_⟩
  · rw [hr1, hr2, M.bind_run, M.bind_run]
    cases hl : LogM.runOne manager look text (if k.kind = .func then "function" else "class") getOne p s with
    | mk x t' =>
      cases hm' : plainRun getOne p s.rs with
      | mk x' t'' =>
        rw [hl, hm'] at e1 e2
        cases e1
        cases e2
        cases x <;> exact ⟨rfl, rfl⟩
  · intro v t hv1 hvt
    obtain ⟨c, r, o, hg, hl, hd, hcr, hcall, ⟨t1, t2, hf1, hf2⟩, hlog⟩ := e3 v t ((hone v).1 hv1) hvt
    rw [hp.registered] at hl
    injection hl with hl
    have hd' := hd
    unfold RM.forFunction at hd
    rw [← hl] at hd
    simp only at hd
    cases hn : k.sig.argNames false with
    | error e => rw [hn] at hd; cases hd
    | ok names =>
      rw [hn] at hd
      injection hd with hd
      refine ⟨c, names, o, hg, rfl, by rw [hst]; exact hcr, ?_, ?_, ?_⟩
      · rw [← hcall]
        unfold RM.callObj calling
        cases o.isPartial <;> rfl
      · intro hnone
        obtain ⟨c1, hg1, hs1, _, _⟩ := RM.funcAndConfig_ok hf1
        have hnone1 : created t1 p = none := by rw [hs1]; exact hnone
        obtain ⟨r', d', t', hf3, hkw, hkw'⟩ := hm.kwargs (by rw [hs1]; exact hp.registered) hnone1 hf2
        obtain ⟨c2, hg2, hs2, hl2, hd2⟩ := RM.funcAndConfig_ok hf3
        have hrep := (C11_lookup_repeatable_partial s.rs.cm hs.cm p hp.config [] (by simp)).1
        have hlk : lookups s.rs.cm [p] = t1.cm := by
          show (CMM.get p s.rs.cm).2 = t1.cm
          rw [hg1]
        rw [hlk, hg2, hg] at hrep
        injection hrep with hrep
        injection hrep with hrep
        subst hrep
        have hreg : t1.reg = s.rs.reg := by rw [hs1]
        rw [hreg, hp.registered] at hl2
        injection hl2 with hl2
        simp only at hl2 hd2
        rw [← hl2] at hd2
        unfold RM.forFunction at hd2
        simp only [hn] at hd2
        injection hd2 with hd2
        rw [← hd2] at hkw hkw'
        exact ⟨hkw, hkw'⟩
      · rw [hd, ← hlog, hr2, M.bind_run]
        have := e1.trans ((hone v).1 hv1)
        cases hl : LogM.runOne manager look text (if k.kind = .func then "function" else "class") getOne p s with
        | mk x t' =>
          rw [hl] at this
          simp only at this
          rw [this]
          rfl

/-- C81 for an item whose configuration may have views (missing: views of registered items that have no object yet, see
`C81_view_violated`; sections): if every value of the configuration can be logged without anything else happening and the
result has a text, the logged run returns or raises what it would without logging and leaves the same state.  After a run that
returns there are two more messages: one with the name of the item and the arguments it accepts of its configuration, one with
the result. -/
theorem C81_item_partial [BEq V] (s : LogS V) (hs : s.rs.Reachable) (p : List String) (k : Callable V)
    (hp : RunnerItem s.rs p k)
    (hv : ∀ c, (CMM.get p s.rs.cm).1 = .ok (some c) → ∀ x v, c.values.get? x = some v → Harmless look s.rs p v)
    (ht : ∀ v, (RM.run1 p s.rs).1 = .ok (.one v) → ∃ t, text v = .ok t) :
    ((LogM.run1 manager look text p s).1 = (RM.run1 p s.rs).1 ∧
      (LogM.run1 manager look text p s).2.rs = (RM.run1 p s.rs).2) ∧
    ∀ v t, (RM.run1 p s.rs).1 = .ok (.one v) → text v = .ok t →
      ∃ c names, (CMM.get p s.rs.cm).1 = .ok (some c) ∧ k.sig.argNames false = .ok names ∧
        (LogM.run1 manager look text p s).2.log = s.log ++
          ["Running " ++ (if k.kind = .func then "function" else "class") ++ " " ++ join '.' p ++ "(" ++
            loggedArgs manager look (c.values.filterKeys (fun x => decide (x ∈ names))) ++ ")",
           "Result:\n" ++ t ++ "\n"] := by
  obtain ⟨h1, h2⟩ := run1_logged manager text hs hp hv ht
  refine ⟨h1, fun v t h3 h4 => ?_⟩
  obtain ⟨c, names, _, e1, e2, _, _, _, e3⟩ := h2 v t h3 h4
  exact ⟨c, names, e1, e2, e3⟩

end

/-! ### Examples -/

/-- Numbers are shown as such; `3` stands for a view of `main.data.noargs`. -/
def demoLook (n : Nat) : Look := if n = 3 then .view ["main", "data", "noargs"] else .other (.ok (toString n))

/-- Every result has a text. -/
def demoText (n : Nat) : Except PyErr String := .ok (toString n)

/-- The same project with another item as `main.data.noargs`. -/
def logRunner (k : Callable Nat) : RS Nat where
  cm := demo
  reg := ⟨[], .coll false [("main", .coll false [("data", .coll false [("func", .item demoFunc), ("noargs", .item k)])])]⟩
  objs := Dict.empty
  nextId := 0

/-- A class that cannot be created. -/
def brokenClass : Callable Nat := { demoClass with init := fun _ => .error (.userError 1) }

def runsOk (r : Except PyErr (RM.RunRes Nat)) : Option Nat :=
  match r with
  | .ok (.one v) => some v
  | _ => none

/-- Non-vacuity of `C81_run_partial`: a run with its messages. -/
example : (∀ v : Nat, (plainText ((fun n => .other (.ok (toString n))) v)).isSome = true) ∧ (∀ v, ∃ t, demoText v = .ok t) ∧
    (LogM.run1 "pm" (fun n => .other (.ok (toString n))) demoText demoPath ⟨demoRunner demoFunc, []⟩).2.log =
      ["Running function main.data.func(\n\ta = 2,\n\tb = 3,\n\tc = 0\n)", "Result:\n230\n"] :=
  ⟨fun _ => rfl, fun v => ⟨_, rfl⟩, by decide +kernel⟩

/-- Non-vacuity of `C81_item_partial`: `b` is a view of `main.data.noargs`, whose object was created before. -/
example : (after (demoRunner demoFunc) [.get ["main", "data", "noargs"]]).Reachable ∧
    (∀ v, Harmless demoLook (after (demoRunner demoFunc) [.get ["main", "data", "noargs"]]) demoPath v) ∧
    (LogM.run1 "pm" demoLook demoText demoPath ⟨after (demoRunner demoFunc) [.get ["main", "data", "noargs"]], []⟩).2.log =
      ["Running function main.data.func(\n\ta = 2,\n\tb = s.pm.main.data.noargs,\n\tc = 0\n)", "Result:\n230\n"] := by
  refine ⟨⟨demoRunner demoFunc, [.get ["main", "data", "noargs"]], demoRunner_fresh _, by simp [ROp.Valid], rfl⟩, ?_, by decide +kernel⟩
  intro v
  by_cases h : v = 3
  · exact .inr ⟨_, if_pos h, .inr (.inl (by decide +kernel))⟩
  · exact .inl (by unfold demoLook; rw [if_neg h]; rfl)

/-- C81 fails for views: the log creates the object of an item that is only mentioned in the configuration.  If it cannot be
created, the run fails, although the function was not even called. -/
theorem C81_view_violated :
    (created (LogM.run1 "pm" demoLook demoText demoPath ⟨logRunner demoFunc, []⟩).2.rs ["main", "data", "noargs"]).isSome = true ∧
    (created (RM.run1 demoPath (logRunner demoFunc)).2 ["main", "data", "noargs"]).isSome = false ∧
    (LogM.run1 "pm" demoLook demoText demoPath ⟨logRunner brokenClass, []⟩).1.toOption.isSome = false ∧
    (LogM.run1 "pm" demoLook demoText demoPath ⟨logRunner brokenClass, []⟩).2.log = [] ∧
    runsOk (RM.run1 demoPath (logRunner brokenClass)).1 = some 230 := by
  decide +kernel

/-- C81 fails for an argument that raises something else than an `AttributeError` when it is asked for `_is_selector`, or
something else than that and a `KeyError` when it is asked for `__name__`, and for one whose text cannot be made: the function
is not called. -/
theorem C81_argument_violated :
    (∀ l ∈ [Look.raises (.userError 1), .other (.error (.userError 1))],
      (LogM.run1 "pm" (fun _ => l) demoText demoPath ⟨logRunner demoFunc, []⟩).1.toOption.isSome = false ∧
      (LogM.run1 "pm" (fun _ => l) demoText demoPath ⟨logRunner demoFunc, []⟩).2.log = []) ∧
    runsOk (RM.run1 demoPath (logRunner demoFunc)).1 = some 230 := by
  decide +kernel

/-- C81 fails for a result without a text: the function was called and returned, but the run fails and the result is lost. -/
theorem C81_result_violated :
    (LogM.run1 "pm" (fun n => .other (.ok (toString n))) (fun _ => .error (.userError 1)) demoPath
      ⟨logRunner demoFunc, []⟩).1.toOption.isSome = false ∧
    (LogM.run1 "pm" (fun n => .other (.ok (toString n))) (fun _ => .error (.userError 1)) demoPath
      ⟨logRunner demoFunc, []⟩).2.log = ["Running function main.data.func(\n\ta = 2,\n\tb = 3,\n\tc = 0\n)"] ∧
    runsOk (RM.run1 demoPath (logRunner demoFunc)).1 = some 230 := by
  decide +kernel

/-! ## C82: the logged arguments are those of the call -/

/-- The number of backslashes at the end of a text. -/
def endSlashes (cs : List Char) : Nat := (cs.reverse.takeWhile (· = '\\')).length

/-- A text that can stand between `r'` and `'`: before every quote and line break in it there is an odd number of backslashes,
and an even number at its end. -/
def FitsRaw (cs : List Char) : Prop :=
  (∀ a c b, cs = a ++ c :: b → c = '\'' ∨ c = '\n' → endSlashes a % 2 = 1) ∧ endSlashes cs % 2 = 0

theorem endSlashes_cons {c : Char} (h : c ≠ '\\') (cs : List Char) : endSlashes (c :: cs) = endSlashes cs := by
  unfold endSlashes
  rw [List.reverse_cons, List.takeWhile_append]
  split
  · rename_i hl
    simp [h, hl]
  · rfl

theorem endSlashes_pair (c : Char) (cs : List Char) : endSlashes ('\\' :: c :: cs) % 2 = endSlashes cs % 2 := by
  unfold endSlashes
  rw [List.reverse_cons, List.reverse_cons, List.append_assoc, List.takeWhile_append]
  split
  · rename_i hl
    by_cases h : c = '\\'
    · subst h
      rw [hl]
      simp
    · simp [h, hl]
  · rfl

theorem fitsRaw_cons {c : Char} (h : c ≠ '\\') (cs : List Char) :
    FitsRaw (c :: cs) ↔ (c ≠ '\'' ∧ c ≠ '\n') ∧ FitsRaw cs := by
  unfold FitsRaw
  rw [endSlashes_cons h]
  constructor
  · rintro ⟨h1, h2⟩
    refine ⟨⟨fun hc => ?_, fun hc => ?_⟩, fun a d b e hd => ?_, h2⟩
    · have := h1 [] c cs rfl (.inl hc)
      simp [endSlashes] at this
    · have := h1 [] c cs rfl (.inr hc)
      simp [endSlashes] at this
    · have := h1 (c :: a) d b (by rw [e]; rfl) hd
      rwa [endSlashes_cons h] at this
  · rintro ⟨⟨hq, hn⟩, h1, h2⟩
    refine ⟨fun a d b e hd => ?_, h2⟩
    cases a with
    | nil =>
      injection e with e1 e2
      subst e1
      rcases hd with hd | hd
      · exact absurd hd hq
      · exact absurd hd hn
    | cons c' a =>
      injection e with e1 e2
      subst e1
      rw [endSlashes_cons h]
      exact h1 a d b e2 hd

theorem fitsRaw_pair (c : Char) (cs : List Char) : FitsRaw ('\\' :: c :: cs) ↔ FitsRaw cs := by
  unfold FitsRaw
  rw [endSlashes_pair]
  constructor
  · rintro ⟨h1, h2⟩
    refine ⟨fun a d b e hd => ?_, h2⟩
    have := h1 ('\\' :: c :: a) d b (by rw [e]; rfl) hd
    rwa [endSlashes_pair] at this
  · rintro ⟨h1, h2⟩
    refine ⟨fun a d b e hd => ?_, h2⟩
    match a with
    | [] =>
      injection e with e1 e2
      subst e1
      rcases hd with hd | hd <;> cases hd
    | [x] =>
      injection e with e1 e2
      subst e1
      rfl
    | x :: y :: a =>
      injection e with e1 e2
      injection e2 with e2 e3
      subst e1 e2
      rw [endSlashes_pair]
      exact h1 a d b e3 hd

theorem readRaw_cons {c : Char} (h1 : c ≠ '\'') (h2 : c ≠ '\n') (h3 : c ≠ '\\') (rest : List Char) :
    readRaw (c :: rest) = (readRaw rest).map (fun r => (c :: r.1, r.2)) := by
  rw [readRaw]
  all_goals simp_all

theorem readRaw_iff (cs rest : List Char) : readRaw (cs ++ '\'' :: rest) = some (cs, rest) ↔ FitsRaw cs := by
  match cs with
  | [] =>
    refine ⟨fun _ => ⟨fun a c b e => ?_, rfl⟩, fun _ => ?_⟩
    · cases a <;> cases e
    · unfold readRaw; rfl
  | c :: cs =>
    by_cases h1 : c = '\\'
    · subst h1
      match cs with
      | [] =>
        constructor
        · intro h
          have h' : readRaw ('\\' :: '\'' :: rest) = some (['\\'], rest) := h
          rw [readRaw] at h'
          cases hr : readRaw rest with
          | none => rw [hr] at h'; cases h'
          | some r => rw [hr] at h'; simp at h'
        · intro h
          have := h.2
          simp [endSlashes] at this
      | c :: cs =>
        rw [fitsRaw_pair, ← readRaw_iff cs rest]
        have : readRaw ('\\' :: c :: cs ++ '\'' :: rest) =
            (readRaw (cs ++ '\'' :: rest)).map (fun r => ('\\' :: c :: r.1, r.2)) := by
          show readRaw ('\\' :: c :: (cs ++ '\'' :: rest)) = _
          rw [readRaw]
        rw [this]
        cases readRaw (cs ++ '\'' :: rest) with
        | none => simp
        | some r => simp [Prod.ext_iff]
    · rw [fitsRaw_cons h1, ← readRaw_iff cs rest]
      show readRaw (c :: (cs ++ '\'' :: rest)) = _ ↔ _
      by_cases hq : c = '\''
      · subst hq
        rw [readRaw]
        simp
      · by_cases hn : c = '\n'
        · subst hn
          rw [readRaw]
          simp
        · rw [readRaw_cons hq hn h1]
          cases readRaw (cs ++ '\'' :: rest) with
          | none => simp
          | some r => simp [Prod.ext_iff, hq, hn]

/-- C82 for a string: what is between `r'` and the end of its text in the log reads as the string, by Python's rule for raw
strings, exactly if every quote and line break in it comes after an odd number of backslashes and it ends with an even number
of them. -/
theorem C82_string (manager t : String) :
    loggedText manager Look.str t = some ("r'" ++ (t ++ "'")) ∧
    ∀ rest, readRaw ((t ++ "'").toList ++ rest) = some (t.toList, rest) ↔ FitsRaw t.toList := by
  refine ⟨?_, fun rest => ?_⟩
  · show some ("r'" ++ t ++ "'") = _
    rw [String.append_assoc]
  · rw [String.toList_append, List.append_assoc]
    exact readRaw_iff t.toList rest

example : FitsRaw "C:\\\\data\\x".toList ∧ ¬FitsRaw "it's".toList ∧ ¬FitsRaw "C:\\".toList := by
  rw [← readRaw_iff _ [], ← readRaw_iff _ [], ← readRaw_iff _ []]
  decide +kernel

/-- A keyword: no spaces or line breaks in it. -/
def Keyword (k : String) : Prop := ' ' ∉ k.toList ∧ '\n' ∉ k.toList

theorem sep_inj {c : Char} {a a' b b' : List Char} (ha : c ∉ a) (ha' : c ∉ a') (h : a ++ c :: b = a' ++ c :: b') :
    a = a' ∧ b = b' := by
  induction a generalizing a' with
  | nil =>
    cases a' with
    | nil => injection h with _ h; exact ⟨rfl, h⟩
    | cons x a' =>
      injection h with h _
      exact absurd (by rw [h]; exact List.mem_cons_self ..) ha'
  | cons x a ih =>
    cases a' with
    | nil =>
      injection h with h _
      exact absurd (by rw [h]; exact List.mem_cons_self ..) ha
    | cons y a' =>
      injection h with h1 h2
      obtain ⟨h3, h4⟩ := ih (fun h => ha (List.mem_cons_of_mem _ h)) (fun h => ha' (List.mem_cons_of_mem _ h)) h2
      exact ⟨by rw [h1, h3], h4⟩

/-- The characters of the arguments after the first line break and tab. -/
def argChars : List (String × String) → List Char
  | [] => ['\n']
  | [(k, v)] => k.toList ++ ' ' :: '=' :: ' ' :: 'r' :: '\'' :: (v.toList ++ '\'' :: ['\n'])
  | (k, v) :: e :: rest => k.toList ++ ' ' :: '=' :: ' ' :: 'r' :: '\'' :: (v.toList ++ '\'' :: ',' :: '\n' :: '\t' :: argChars (e :: rest))

theorem argChars_eq (manager : String) (items : List (String × String)) :
    ("\n\t" ++ String.intercalate ",\n\t" (items.map (fun e => e.1 ++ " = " ++ (loggedText manager Look.str e.2).getD "")) ++
      "\n").toList = '\n' :: '\t' :: argChars items := by
  rw [String.toList_append, String.toList_append, String.toList_intercalate]
  show '\n' :: '\t' :: (_ ++ ['\n']) = _
  congr 2
  induction items with
  | nil => rfl
  | cons e rest ih =>
    obtain ⟨k, v⟩ := e
    have hl : (k ++ " = " ++ (loggedText manager Look.str v).getD "").toList =
        k.toList ++ ' ' :: '=' :: ' ' :: 'r' :: '\'' :: (v.toList ++ ['\'']) := by
      show (k ++ " = " ++ ("r'" ++ v ++ "'")).toList = _
      simp only [String.toList_append, List.append_assoc]
      rfl
    cases rest with
    | nil =>
      simp only [List.map_cons, List.map_nil, hl, List.intercalate, List.intersperse, argChars]
      simp
    | cons e' rest =>
      unfold argChars
      rw [← ih]
      simp only [List.map_cons, hl, List.intercalate, List.intersperse]
      simp

theorem argChars_inj {es es' : List (String × String)}
    (h : ∀ e ∈ es, Keyword e.1 ∧ FitsRaw e.2.toList) (h' : ∀ e ∈ es', Keyword e.1 ∧ FitsRaw e.2.toList)
    (he : argChars es = argChars es') : es = es' := by
  have hne : ∀ {k : String} {x : List Char}, Keyword k → k.toList ++ ' ' :: x ≠ ['\n'] := by
    intro k x hk e
    cases hl : k.toList with
    | nil => rw [hl] at e; injection e with e _; cases e
    | cons a l =>
      rw [hl] at e
      injection e with e _
      exact hk.2 (by rw [hl, e]; exact List.mem_cons_self ..)
  have hkv : ∀ {k k' v v' : String} {x x' : List Char}, Keyword k → Keyword k' → FitsRaw v.toList → FitsRaw v'.toList →
      k.toList ++ ' ' :: '=' :: ' ' :: 'r' :: '\'' :: (v.toList ++ '\'' :: x) =
        k'.toList ++ ' ' :: '=' :: ' ' :: 'r' :: '\'' :: (v'.toList ++ '\'' :: x') → k = k' ∧ v = v' ∧ x = x' := by
    intro k k' v v' x x' hk hk' hv hv' e
    obtain ⟨e1, e2⟩ := sep_inj hk.1 hk'.1 e
    injection e2 with _ e2
    injection e2 with _ e2
    injection e2 with _ e2
    injection e2 with _ e2
    have h1 := (readRaw_iff v.toList x).2 hv
    have h2 := (readRaw_iff v'.toList x').2 hv'
    rw [e2, h2] at h1
    injection h1 with h1
    injection h1 with h3 h4
    exact ⟨String.toList_inj.1 e1, String.toList_inj.1 h3.symm, h4.symm⟩
  induction es generalizing es' with
  | nil =>
    match es' with
    | [] => rfl
    | [(k, v)] => exact absurd he.symm (hne (h' _ (List.mem_cons_self ..)).1)
    | (k, v) :: e :: rest => exact absurd he.symm (hne (h' _ (List.mem_cons_self ..)).1)
  | cons e rest ih =>
    obtain ⟨k, v⟩ := e
    obtain ⟨hk, hv⟩ := h (k, v) (List.mem_cons_self ..)
    match es' with
    | [] =>
      cases rest with
      | nil => exact absurd he (hne hk)
      | cons e' rest => exact absurd he (hne hk)
    | (k', v') :: rest' =>
      obtain ⟨hk', hv'⟩ := h' (k', v') (List.mem_cons_self ..)
      cases rest with
      | nil =>
        cases rest' with
        | nil =>
          obtain ⟨rfl, rfl, _⟩ := hkv hk hk' hv hv' he
          rfl
        | cons e2 rest' =>
          obtain ⟨_, _, e3⟩ := hkv hk hk' hv hv' he
          injection e3 with e3 _
          cases e3
      | cons e1 rest =>
        cases rest' with
        | nil =>
          obtain ⟨_, _, e3⟩ := hkv hk hk' hv hv' he
          injection e3 with e3 _
          cases e3
        | cons e2 rest' =>
          obtain ⟨rfl, rfl, e3⟩ := hkv hk hk' hv hv' he
          injection e3 with _ e3
          injection e3 with _ e3
          injection e3 with _ e3
          rw [ih (fun e he => h e (List.mem_cons_of_mem _ he)) (fun e he => h' e (List.mem_cons_of_mem _ he)) e3]

/-- C82 for arguments that are strings (missing: other values, whose text is their own): if the strings can be quoted, the
logged arguments tell what the arguments were and in which order. -/
theorem C82_arguments_partial (manager : String) (d d' : Dict String String)
    (h : ∀ k v, d.get? k = some v → Keyword k ∧ FitsRaw v.toList)
    (h' : ∀ k v, d'.get? k = some v → Keyword k ∧ FitsRaw v.toList)
    (he : loggedArgs manager Look.str d = loggedArgs manager Look.str d') : d = d' := by
  apply Dict.ext_items
  refine argChars_inj (fun e hm => h e.1 e.2 ((Dict.mem_items_iff d e.1 e.2).1 hm))
    (fun e hm => h' e.1 e.2 ((Dict.mem_items_iff d' e.1 e.2).1 hm)) ?_
  have := congrArg String.toList he
  unfold loggedArgs at this
  rw [argChars_eq, argChars_eq] at this
  injection this with _ this
  injection this

example : Keyword "path" ∧ FitsRaw "C:\\data".toList := by
  rw [← readRaw_iff _ []]
  unfold Keyword
  decide +kernel

/-- C82 fails for strings with quotes: two different calls are logged in the same way. -/
theorem C82_quote_violated :
    loggedArgs "pm" Look.str (Dict.ofList [("a", "1',\n\tb = r'2")]) =
      loggedArgs "pm" Look.str (Dict.ofList [("a", "1"), ("b", "2")]) ∧
    (Dict.ofList [("a", "1',\n\tb = r'2")]).items ≠ (Dict.ofList [("a", "1"), ("b", "2")]).items := by
  decide +kernel

/-- C82 for the call itself, at the first use of a function or a class of the general registrar (missing: specific
classes, see `C82_specific_partial`; items used before, see `C82_stale_violated`): the arguments in the log are those that the
object was made with. -/
theorem C82_call_partial [BEq V] (manager : String) (look : V → Look) (text : V → Except PyErr String) (s : LogS V)
    (hs : s.rs.Reachable) (p : List String) (k : Callable V) (hp : RunnerItem s.rs p k) (hk : k.kind ≠ .specific)
    (hn : created s.rs p = none)
    (hv : ∀ c, (CMM.get p s.rs.cm).1 = .ok (some c) → ∀ x v, c.values.get? x = some v → Harmless look s.rs p v)
    (v : V) (t : String) (hr : (RM.run1 p s.rs).1 = .ok (.one v)) (ht : text v = .ok t) :
    ∃ o, created (LogM.run1 manager look text p s).2.rs p = some o ∧ calling o = .ok v ∧
      (LogM.run1 manager look text p s).2.log = s.log ++
        ["Running " ++ (if k.kind = .func then "function" else "class") ++ " " ++ join '.' p ++ "(" ++
          loggedArgs manager look o.kwargs ++ ")", "Result:\n" ++ t ++ "\n"] := by
  obtain ⟨h1, h2⟩ := run1_logged manager text hs hp hv (fun v' h => by
    rw [hr] at h
    cases h
    exact ⟨t, ht⟩)
  obtain ⟨c, names, o, _, _, e1, e2, e3, e4⟩ := h2 v t hr ht
  exact ⟨o, by rw [h1.2]; exact e1, e2, by rw [e4, (e3 hn).1 hk]⟩

example : demoFunc.kind ≠ .specific ∧ created (demoRunner demoFunc) demoPath = none ∧
    runsOk (RM.run1 demoPath (demoRunner demoFunc)).1 = some 230 := by
  decide +kernel

theorem filterKeys_all (d : Dict String V) (q : String → Bool) (h : ∀ x v, d.get? x = some v → q x = true) : d.filterKeys q = d := by
  apply Dict.ext_items
  show d.items.filter _ = d.items
  rw [List.filter_eq_self]
  intro e he
  exact h e.1 e.2 ((Dict.mem_items_iff d e.1 e.2).1 he)

/-- C82 for the call itself, at the first use of an object of a specific class whose configuration has no value for the first parameter of
`__init__`, usually `self` (missing: such a value, see `C82_self_violated`; items used before): the arguments in the log are those that
the object was updated with. -/
theorem C82_specific_partial [BEq V] (manager : String) (look : V → Look) (text : V → Except PyErr String) (s : LogS V)
    (hs : s.rs.Reachable) (p : List String) (k : Callable V) (hp : RunnerItem s.rs p k) (hk : k.kind = .specific)
    (hn : created s.rs p = none)
    (hv : ∀ c, (CMM.get p s.rs.cm).1 = .ok (some c) → ∀ x v, c.values.get? x = some v → Harmless look s.rs p v)
    (hself : ∀ c, (CMM.get p s.rs.cm).1 = .ok (some c) → ∀ x, k.sig.args.head? = some x → c.values.get? x = none)
    (v : V) (t : String) (hr : (RM.run1 p s.rs).1 = .ok (.one v)) (ht : text v = .ok t) :
    ∃ o, created (LogM.run1 manager look text p s).2.rs p = some o ∧ calling o = .ok v ∧
      (LogM.run1 manager look text p s).2.log = s.log ++
        ["Running class " ++ join '.' p ++ "(" ++ loggedArgs manager look o.kwargs ++ ")", "Result:\n" ++ t ++ "\n"] := by
  obtain ⟨h1, h2⟩ := run1_logged manager text hs hp hv (fun v' h => by
    rw [hr] at h
    cases h
    exact ⟨t, ht⟩)
  obtain ⟨c, names, o, hc, hnames, e1, e2, e3, e4⟩ := h2 v t hr ht
  refine ⟨o, by rw [h1.2]; exact e1, e2, ?_⟩
  obtain ⟨own, hown, hkw⟩ := (e3 hn).2 hk
  have hall : (c.values.filterKeys (fun x => decide (x ∈ names))).filterKeys (fun x => decide (x ∈ own)) =
      c.values.filterKeys (fun x => decide (x ∈ names)) := by
    refine filterKeys_all _ _ (fun x w hx => ?_)
    rw [Dict.get?_filterKeys] at hx
    split at hx
    · rename_i hmem
      replace hmem : x ∈ names := by simpa using hmem
      have hne := hself c hc
      unfold Sig.argNames at hnames hown
      cases ha : k.sig.args with
      | nil => rw [ha] at hown; cases hown
      | cons a as =>
        rw [ha] at hown hnames hne
        simp only [Except.ok.injEq] at hown hnames
        subst hown hnames
        have hxa : x ≠ a := by
          rintro rfl
          rw [hne x rfl] at hx
          cases hx
        simpa [hxa] using hmem
    · cases hx
  rw [e4, hkw, hall, hk, if_neg (by decide)]
  rfl

/-- An object of a specific class that shows how many arguments it was updated with. -/
def selfObject : Callable Nat := { demoClass with kind := .specific, exec := fun d => .ok d.items.length }

example : selfObject.kind = .specific ∧ created (smallRunner selfObject) ["f"] = none ∧
    runsOk (RM.run1 ["f"] (smallRunner selfObject)).1 = some 1 := by
  decide +kernel

/-- C82 fails for a value of the configuration that is called like the first parameter of `__init__`: the log shows it among the arguments,
but the object is not given it. -/
theorem C82_self_violated :
    let s := after (smallRunner selfObject) [.update (some (Dict.ofList [("self", 5), ("a", 2)])) (some ["f"]) true Dict.empty]
    (LogM.run1 "pm" (fun n => .other (.ok (toString n))) demoText ["f"] ⟨s, []⟩).2.log =
      ["Running class f(\n\ta = 2,\n\tself = 5\n)", "Result:\n1\n"] := by
  decide +kernel

/-- C82 fails for an item that was used before: after a reset the function is still called with `b`, which an update had
added (C16), but the log does not show it. -/
theorem C82_stale_violated :
    ((created (after (smallRunner demoFunc)
      [.update none (some ["f"]) true (Dict.ofList [("a", 2), ("b", 3)]), .get ["f"], .reset (some ["f"]) false]) ["f"]).map
        (fun o => o.kwargs.items)) = some [("a", 1), ("b", 3)] ∧
    (LogM.run1 "pm" (fun n => .other (.ok (toString n))) demoText ["f"] ⟨after (smallRunner demoFunc)
      [.update none (some ["f"]) true (Dict.ofList [("a", 2), ("b", 3)]), .get ["f"], .reset (some ["f"]) false], []⟩).2.log =
      ["Running function f(\n\ta = 1\n)", "Result:\n130\n"] := by
  decide +kernel

end Verif.Props

import Verif.Lemmas.RunnerObj
import Verif.Props.Runner
import Verif.Props.Lasting

/-
Property theorems about what the runner creates, over histories with runs: C16, C110.
-/

namespace Verif.Props
open Verif.Py Verif.Model

variable {V : Type}

/-! ## Specification -/

/-- Whether a call that changes the configuration returned. -/
def returns [BEq V] (s : RS V) : ROp V → Prop
  | .update d p persist kw => (RM.update d p persist kw s).1 = .ok ()
  | .reset p allowCreate => (RM.reset p allowCreate s).1 = .ok ()
  | .refresh p => (RM.refresh p s).1 = .ok ()
  | _ => True

/-- All calls of a history which change the configuration of `p` return. -/
def AllReturn [BEq V] (p : List String) : RS V → List (ROp V) → Prop
  | _, [] => True
  | s, op :: ops => (op.OnItem p → returns s op) ∧ AllReturn p (s.step op) ops

/-- A call for some item, or an edit of the files by someone else. -/
def ItemCall (s : RS V) (op : ROp V) : Prop := (∃ q k, RunnerItem s q k ∧ op.OnItem q) ∨ ∃ fs, op = .edit fs

/-- The values for the given parameters. -/
def valuesFor (params : List String) (d : Dict String V) : Dict String V := d.filterKeys (fun x => decide (x ∈ params))

/-! ## Lemmas -/

theorem filterKeys_set {d : Dict String V} {q : String → Bool} {x : String} {v : V} (hx : q x = false) :
    (d.set x v).filterKeys q = d.filterKeys q := by
  apply Dict.ext_items
  show (AList.set d.items x v).filter _ = d.items.filter _
  generalize d.items = l
  induction l with
  | nil => simp [AList.set, hx]
  | cons e l ih =>
    obtain ⟨y, w⟩ := e
    unfold AList.set
    split
    · rename_i h
      subst h
      rw [List.filter_cons_of_neg (by simp [hx]), List.filter_cons_of_neg (by simp [hx])]
    · rw [List.filter_cons, List.filter_cons, ih]

theorem filterKeys_update {d e : Dict String V} {q : String → Bool} (h : ∀ x ∈ e.keys, q x = false) :
    (d.update e).filterKeys q = d.filterKeys q := by
  unfold Dict.update
  have h' : ∀ x ∈ e.items.map (·.1), q x = false := h
  generalize e.items = es at h'
  induction es generalizing d with
  | nil => rfl
  | cons a es ih =>
    show ((d.set a.1 a.2).setAll es).filterKeys q = _
    rw [ih (fun x hx => h' x (List.mem_cons_of_mem _ hx)), filterKeys_set (h' a.1 (by simp))]

theorem filterKeys_updates {d : Dict String V} {q : String → Bool} (es : List (Dict String V))
    (h : ∀ e ∈ es, ∀ x ∈ e.keys, q x = false) : (es.foldl Dict.update d).filterKeys q = d.filterKeys q := by
  induction es generalizing d with
  | nil => rfl
  | cons e es ih =>
    rw [List.foldl_cons, ih (fun e' he' => h e' (List.mem_cons_of_mem _ he')),
      filterKeys_update (h e List.mem_cons_self)]

/-- Looking up the active configuration leaves the values that no section says anything about. -/
theorem active_filterKeys {s : CM V} (ho : OwnFiles s.view) {p : List String} (hp : IsItem s p) {c : Conf V}
    (hc : s.view.own p = .ok c) {names : List String} (hn : ∀ x ∈ names, NotInherited s p x) :
    (CMM.active s.view p c).values.filterKeys (fun x => decide (x ∈ names)) =
      c.values.filterKeys (fun x => decide (x ∈ names)) := by
  unfold CMM.active
  split
  · rfl
  · unfold CMM.overridden
    rw [CMM.foldl_applyLevel_values c _ (CMM.levels_otherFile ho hp (ho.own hp.plain hc)), filterKeys_updates]
    intro e he x hx
    obtain ⟨l, hl, rfl⟩ := List.mem_map.1 he
    by_cases hxn : x ∈ names
    · have := (notInherited_iff _ _ _).1 (hn x hxn) l hl
      obtain ⟨v, hv⟩ := Dict.get?_isSome_of_mem hx
      rw [hv] at this
      cases this
    · simp [hxn]

/-- Running an item whose object exists looks up its configuration. -/
theorem run_created [BEq V] {s : RS V} {p : List String} {k : Callable V} (hk : s.reg.lookup p = .ok (.item k)) {o : Obj V}
    (ho : s.objs.get? p = some o) :
    (s.step (.run p)).objs = s.objs ∧ (s.step (.run p)).cm = (CMM.get p s.cm).2 := by
  have hfc : ∃ r, RM.funcAndConfig p s = (r, { s with cm := (CMM.get p s.cm).2 }) := by
    unfold RM.funcAndConfig
    cases hg : (CMM.get p s.cm).1 with
    | error e =>
      have hgc : RM.getConfig p s = (.error e, { s with cm := (CMM.get p s.cm).2 }) := by
        unfold RM.getConfig
        rw [M.bind_run]
        unfold RM.liftC
        simp only [hg]
      rw [M.bind_error hgc]
      exact ⟨_, rfl⟩
    | ok r =>
      cases r with
      | none =>
        have hgc : RM.getConfig p s = (.error .notLoaded, { s with cm := (CMM.get p s.cm).2 }) := by
          unfold RM.getConfig
          rw [M.bind_run]
          unfold RM.liftC
          simp only [hg]
          rfl
        rw [M.bind_error hgc]
        exact ⟨_, rfl⟩
      | some c =>
        have hgc : RM.getConfig p s = (.ok c, { s with cm := (CMM.get p s.cm).2 }) := by
          unfold RM.getConfig
          rw [M.bind_run]
          unfold RM.liftC
          simp only [hg]
          rfl
        rw [M.bind_ok hgc]
        have hlk : RM.lookup p { s with cm := (CMM.get p s.cm).2 } =
            (.ok (.item k), { s with cm := (CMM.get p s.cm).2 }) := by
          show (s.reg.lookup p, _) = _
          rw [hk]
        rw [M.bind_ok hlk]
        rw [M.bind_run, M.liftE_run]
        cases RM.forFunction c (.item k) with
        | error e => exact ⟨_, rfl⟩
        | ok d => exact ⟨_, rfl⟩
  obtain ⟨r, hfc⟩ := hfc
  have hget : RM.getItem p k { s with cm := (CMM.get p s.cm).2 } = (.ok o, { s with cm := (CMM.get p s.cm).2 }) := by
    unfold RM.getItem RM.getOneFunc RM.getOneObj
    cases k.kind <;> simp only <;> rw [M.bind_ok (M.get_run _)] <;> simp only [ho] <;> rfl
  have hri : (RM.runItem p k s).2 = { s with cm := (CMM.get p s.cm).2 } := by
    unfold RM.runItem RM.runOneFunc RM.runOneObj
    unfold RM.getItem at hget
    cases hkk : k.kind <;> rw [hkk] at hget <;> simp only at hget ⊢ <;> (
      cases r with
      | error e => rw [M.bind_error hfc]
      | ok d =>
        rw [M.bind_ok hfc, M.bind_ok hget]
        rfl)
  have hrun : (s.step (.run p)) = { s with cm := (CMM.get p s.cm).2 } := by
    show (RM.run1 p s).2 = _
    rw [RM.run_item hk, M.bind_run]
    rw [← hri]
    cases hh : RM.runItem p k s with
    | mk a b => cases a <;> rfl
  rw [hrun]
  exact ⟨rfl, rfl⟩

theorem reachable_step [BEq V] {s : RS V} (h : s.Reachable) {op : ROp V} (hv : op.Valid) : (s.step op).Reachable := by
  obtain ⟨s0, ops, h0, hvs, rfl⟩ := h
  refine ⟨s0, ops ++ [op], h0, ?_, by rw [List.foldl_append]; rfl⟩
  intro o ho
  rcases List.mem_append.1 ho with ho | ho
  · exact hvs o ho
  · rw [List.mem_singleton] at ho
    rw [ho]
    exact hv

theorem onItem_valid {p : List String} (hp : p ≠ []) {op : ROp V} (h : op.OnItem p) : op.Valid := by
  cases h <;> exact hp

theorem frame_levels {s t : RS V} {p q : List String} (hp : IsItem s.cm p) (hq : IsItem s.cm q) (h : RS.Frame q s t) :
    t.cm.view.levels p = s.cm.view.levels p := by
  unfold View.levels
  apply List.map_congr_left
  intro j hj
  unfold View.sectCfg
  rw [h.slots]
  intro hh
  obtain ⟨cfg, hs⟩ := hp.prefix_sect (List.mem_range.1 hj)
  rw [hh] at hs
  have := hq.item
  rw [hs] at this
  cases this

theorem carries_after [BEq V] {s : RS V} {p : List String} {k : Callable V} (hp : RunnerItem s p k) {names : List String}
    (hn : k.sig.argNames true = .ok names) (ops : List (ROp V)) (hops : ∀ op ∈ ops, ItemCall s op)
    (hrun : .run p ∈ ops → ∀ x ∈ names, NotInherited s.cm p x) :
    ∀ t : RS V, t.Reachable → t.reg = s.reg → (∀ q, IsItem s.cm q → IsItem t.cm q) →
      t.cm.view.levels p = s.cm.view.levels p → t.cm.localConf = s.cm.localConf →
      ((∀ d, k.upd d = .ok ()) ∨ AllReturn p t ops) →
      (∃ o c, t.Carries k names p o c) → ∃ o c, (after t ops).Carries k names p o c := by
  induction ops with
  | nil => intro t _ _ _ _ _ _ h; exact h
  | cons op ops ih =>
    intro t ht hreg hitems hlev hloc hret h
    have hpi := hitems p hp.config.isItem
    rcases hops op List.mem_cons_self with ⟨q, k', hq, ho⟩ | ⟨fs, rfl⟩
    · have hqi := hitems q hq.config.isItem
      have hqk : t.reg.lookup q = .ok (.item k') := by rw [hreg]; exact hq.registered
      have hfr := RS.step_frame hqi hqk ho
      refine ih (fun o ho => hops o (List.mem_cons_of_mem _ ho)) (fun hm => hrun (List.mem_cons_of_mem _ hm)) (t.step op)
        (reachable_step ht (onItem_valid hqi.ne ho)) (hfr.reg.trans hreg) (fun r hr => hfr.items r (hitems r hr))
        ((frame_levels hpi hqi hfr).trans hlev) (hfr.rest.2.1.trans hloc) (hret.imp_right (fun h => h.2)) ?_
      obtain ⟨o, c, hc⟩ := h
      by_cases hqp : q = p
      · subst hqp
        have hret' : (∀ d, k.upd d = .ok ()) ∨ returns t op := hret.imp_right (fun h => h.1 ho)
        cases ho with
        | get =>
          have := hc.get hqk
          exact ⟨o, c, by show RS.Carries k names (RM.get q t).2 q o c; rw [this]; exact hc⟩
        | run =>
          obtain ⟨r1, r2⟩ := run_created hqk hc.obj
          have hown : t.cm.view.own q = .ok c := by unfold View.own; rw [hc.conf]
          obtain ⟨_, g2⟩ := CMM.get_of_own hqi hown
          refine ⟨o, CMM.active t.cm.view q c, by rw [r1]; exact hc.obj, hc.isObject, hc.callable, ?_, ?_⟩
          · rw [r2, g2, View.setConf_slot_self]
          · rw [hc.same]
            symm
            apply active_filterKeys ht.cm.good.ownFiles hqi hown
            intro x hx
            exact notInherited_frame hlev hloc (hrun List.mem_cons_self x hx)
        | update d persist kw => exact hc.update hn hqi d persist kw hret'
        | reset => exact hc.reset hn hqi hret'
        | refresh => exact hc.refresh hn hqi hret'
      · exact ⟨o, c, hc.congr (hfr.objs p (Ne.symm hqp)) (hfr.slots p (Ne.symm hqp))⟩
    · refine ih (fun o ho => hops o (List.mem_cons_of_mem _ ho)) (fun hm => hrun (List.mem_cons_of_mem _ hm)) _
        (reachable_step ht (op := .edit fs) trivial) hreg
        (fun q hq => ⟨(hitems q hq).ne, (hitems q hq).plain, (hitems q hq).item⟩) hlev hloc (hret.imp_right (fun h => h.2)) ?_
      obtain ⟨o, c, hc⟩ := h
      exact ⟨o, c, hc.congr rfl rfl⟩

theorem active_same {s : CM V} (ho : OwnFiles s.view) {p : List String} (hp : IsItem s p) {c : Conf V}
    (hc : s.view.own p = .ok c) {x : String} (hx : NotInherited s p x) :
    (CMM.active s.view p c).values.get? x = c.values.get? x := by
  have h := congrArg (fun d => Dict.get? d x) (active_filterKeys ho hp hc (names := [x])
    (fun y hy => by rw [List.mem_singleton] at hy; rw [hy]; exact hx))
  simpa [Dict.get?_filterKeys] using h

theorem follows_after_run [BEq V] {s : RS V} {p : List String} {k : Callable V} (hp : RunnerItem s p k) {strong : Bool}
    (ops : List (ROp V)) (hops : ∀ op ∈ ops, ItemCall s op)
    (hreset : strong = true → .reset (some p) false ∉ ops)
    (hrun : .run p ∈ ops → ∀ x ∈ k.sig.args ++ k.sig.kwonly, NotInherited s.cm p x) :
    ∀ t : RS V, t.Reachable → t.reg = s.reg → (∀ q, IsItem s.cm q → IsItem t.cm q) →
      t.cm.view.levels p = s.cm.view.levels p → t.cm.localConf = s.cm.localConf →
      (∃ o c, t.Follows strong p o c) → ∃ o c, (after t ops).Follows strong p o c := by
  induction ops with
  | nil => intro t _ _ _ _ _ h; exact h
  | cons op ops ih =>
    intro t ht hreg hitems hlev hloc h
    have hpi := hitems p hp.config.isItem
    have hreset' : strong = true → .reset (some p) false ∉ ops := fun h hm => hreset h (List.mem_cons_of_mem _ hm)
    rcases hops op List.mem_cons_self with ⟨q, k', hq, ho⟩ | ⟨fs, rfl⟩
    · have hqi := hitems q hq.config.isItem
      have hqk : t.reg.lookup q = .ok (.item k') := by rw [hreg]; exact hq.registered
      have hfr := RS.step_frame hqi hqk ho
      refine ih (fun o ho => hops o (List.mem_cons_of_mem _ ho)) hreset' (fun hm => hrun (List.mem_cons_of_mem _ hm))
        (t.step op) (reachable_step ht (onItem_valid hqi.ne ho)) (hfr.reg.trans hreg)
        (fun r hr => hfr.items r (hitems r hr)) ((frame_levels hpi hqi hfr).trans hlev) (hfr.rest.2.1.trans hloc) ?_
      obtain ⟨o, c, hfol⟩ := h
      by_cases hqp : q = p
      · subst hqp
        cases ho with
        | get =>
          have := hfol.get hqk
          exact ⟨o, c, by show RS.Follows strong (RM.get q t).2 q o c; rw [this]; exact hfol⟩
        | run =>
          obtain ⟨r1, r2⟩ := run_created hqk hfol.obj
          have hown : t.cm.view.own q = .ok c := by unfold View.own; rw [hfol.conf]
          obtain ⟨_, g2⟩ := CMM.get_of_own hqi hown
          have hk' : o.callable = k := by
            have h1 := ht.inv.reg q o hfol.obj
            rw [hreg, hp.registered] at h1
            cases h1
            rfl
          refine ⟨o, CMM.active t.cm.view q c, by rw [r1]; exact hfol.obj, hfol.isPartial, ?_, ?_, ?_⟩
          · rw [r2, g2, View.setConf_slot_self]
          · intro x v v' hv hv'
            have hx := ht.inv.names q o hfol.obj x (Dict.mem_keys_of_get? hv)
            rw [hk'] at hx
            rw [active_same ht.cm.good.ownFiles hqi hown
              (notInherited_frame hlev hloc (hrun List.mem_cons_self x hx))] at hv'
            exact hfol.agree x v v' hv hv'
          · intro hst x hx
            exact CMM.active_keys _ _ _ x (hfol.cover hst x hx)
        | update d persist kw => exact hfol.update hqi d persist kw
        | reset =>
          cases strong with
          | true => exact absurd List.mem_cons_self (hreset rfl)
          | false => exact hfol.reset hqi
        | refresh => exact hfol.refresh hqi
      · exact ⟨o, c, hfol.congr (hfr.objs p (Ne.symm hqp)) (hfr.slots p (Ne.symm hqp))⟩
    · refine ih (fun o ho => hops o (List.mem_cons_of_mem _ ho)) hreset' (fun hm => hrun (List.mem_cons_of_mem _ hm)) _
        (reachable_step ht (op := .edit fs) trivial) hreg
        (fun q hq => ⟨(hitems q hq).ne, (hitems q hq).plain, (hitems q hq).item⟩) hlev hloc ?_
      obtain ⟨o, c, hfol⟩ := h
      exact ⟨o, c, hfol.congr rfl rfl⟩

/-! ## C16 -/

/-- C16 with runs of the item (missing: resets, and runs where a section or the local config sets a parameter): if none does,
each keyword bound in the function has the current value of the configuration also after runs of it, and after edits of the
files. -/
theorem C16_bound_is_current_run_partial [BEq V] (s : RS V) (hs : s.Reachable) (p : List String) (k : Callable V)
    (hp : RunnerItem s p k) (hf : k.kind = .func) (hn : created s p = none) (o : Obj V)
    (ho : (RM.get p s).1 = .ok (.obj o)) (ops : List (ROp V)) (hops : ∀ op ∈ ops, ItemCall s op)
    (hreset : .reset (some p) false ∉ ops)
    (hrun : .run p ∈ ops → ∀ x ∈ k.sig.args ++ k.sig.kwonly, NotInherited s.cm p x) :
    ∃ o' c, created (after (RM.get p s).2 ops) p = some o' ∧
      (after (RM.get p s).2 ops).cm.walk p = .ok (.conf c) ∧
      ∀ x v, bound o' x = some v → c.values.get? x = some v := by
  have hi := hp.config.isItem
  obtain ⟨o1, c1, hfol⟩ := follows_created hp hf hn ho (strong := true) [] (by simp)
  have hfr := RS.step_frame hi hp.registered (.get (V := V) (p := p))
  obtain ⟨o', c, h⟩ := follows_after_run hp ops hops (fun _ => hreset) hrun (s.step (.get p))
    (reachable_step hs (op := .get p) hi.ne) hfr.reg hfr.items (frame_levels hi hi hfr) hfr.rest.2.1 ⟨o1, c1, hfol⟩
  refine ⟨o', c, h.obj, CM.walk_of_slot_conf h.conf, ?_⟩
  intro x v hv
  have hx := h.cover rfl x (Dict.mem_keys_of_get? hv)
  obtain ⟨v', hv'⟩ := Dict.get?_isSome_of_mem hx
  rw [hv', h.agree x v v' hv hv']

/-- A function with a parameter no section sets. -/
example : (smallRunner demoFunc).Reachable ∧ RunnerItem (smallRunner demoFunc) ["f"] demoFunc ∧
    (∀ x ∈ demoFunc.sig.args ++ demoFunc.sig.kwonly, NotInherited (smallRunner demoFunc).cm ["f"] x) := by
  refine ⟨smallRunner_reachable _, smallRunner_item _, fun x _ => ⟨?_, rfl⟩⟩
  intro d hd
  have : enclosingValues (smallRunner demoFunc).cm ["f"] = [Dict.empty] := rfl
  rw [this, List.mem_singleton] at hd
  rw [hd]
  rfl

/-! ## C110 -/

/-- C110 (missing: running the item where sections set its parameters, see `C110_run_violated`, classes that raise, see
`C110_raises_violated`, classes that are got with their section first, see `C110_section_violated`): the object created for a
class or an object of a specific class was last given exactly the values which the current configuration has for its
parameters, after any sequence of getting, running, updating, refreshing and resetting any items, and edits of the files. -/
theorem C110_arguments_partial [BEq V] (s : RS V) (hs : s.Reachable) (p : List String) (k : Callable V)
    (hp : RunnerItem s p k) (hk : k.kind ≠ .func) (names : List String) (hn : k.sig.argNames true = .ok names)
    (hnone : created s p = none) (r : RM.GetRes V) (hr : (RM.get p s).1 = .ok r) (ops : List (ROp V))
    (hops : ∀ op ∈ ops, ItemCall s op) (hrun : .run p ∈ ops → ∀ x ∈ names, NotInherited s.cm p x)
    (hret : (∀ d, k.upd d = .ok ()) ∨ AllReturn p (RM.get p s).2 ops) :
    ∃ o c, created (after (RM.get p s).2 ops) p = some o ∧ o.isPartial = false ∧ o.callable = k ∧
      (after (RM.get p s).2 ops).cm.walk p = .ok (.conf c) ∧ o.kwargs = valuesFor names c.values ∧
      ∀ x, bound o x = if x ∈ names then c.values.get? x else none := by
  have hi := hp.config.isItem
  obtain ⟨o, c, _, hc⟩ := RS.Carries.create hi hp.registered hk hn hnone hr
  have hfr := RS.step_frame hi hp.registered (.get (V := V) (p := p))
  obtain ⟨o', c', h⟩ := carries_after hp hn ops hops hrun (s.step (.get p)) (reachable_step hs (op := .get p) hi.ne)
    hfr.reg hfr.items (frame_levels hi hi hfr) hfr.rest.2.1 hret ⟨o, c, hc⟩
  refine ⟨o', c', h.obj, h.isObject, h.callable, CM.walk_of_slot_conf h.conf, h.same, ?_⟩
  intro x
  unfold bound
  rw [h.same, Dict.get?_filterKeys]
  simp

/-- C110: so it is called with the same as an object that is made from the current configuration, and gives the same. -/
theorem C110_as_new_partial [BEq V] (s : RS V) (hs : s.Reachable) (p : List String) (k : Callable V)
    (hp : RunnerItem s p k) (hk : k.kind ≠ .func) (names : List String) (hn : k.sig.argNames true = .ok names)
    (hnone : created s p = none) (r : RM.GetRes V) (hr : (RM.get p s).1 = .ok r) (ops : List (ROp V))
    (hops : ∀ op ∈ ops, ItemCall s op) (hrun : .run p ∈ ops → ∀ x ∈ names, NotInherited s.cm p x)
    (hret : (∀ d, k.upd d = .ok ()) ∨ AllReturn p (RM.get p s).2 ops) (c : Conf V)
    (hc : (after (RM.get p s).2 ops).cm.walk p = .ok (.conf c)) (d : Dict String V)
    (hd : RM.forFunction c (.item k) = .ok d) (id : Nat) (new : Obj V) (hnew : RM.construct id k d = .ok new) :
    ∃ o, created (after (RM.get p s).2 ops) p = some o ∧ o.kwargs = new.kwargs ∧ calling o = calling new := by
  obtain ⟨o, c', h1, h2, h3, h4, h5, _⟩ := C110_arguments_partial s hs p k hp hk names hn hnone r hr ops hops hrun hret
  rw [hc] at h4
  cases h4
  obtain ⟨n1, n2, n3⟩ := RM.construct_object hn hd hnew
  refine ⟨o, h1, ?_, ?_⟩
  · rw [h5, n3]
    rfl
  · unfold calling
    rw [h2, n1, h3, n2, h5, n3]
    rfl

/-- The hypotheses are met by a history that updates, refreshes, resets and gets. -/
example : (demoRunner demoClass).Reachable ∧ RunnerItem (demoRunner demoClass) demoPath demoClass ∧
    demoClass.kind ≠ .func ∧ demoClass.sig.argNames true = .ok ["a", "b", "c"] ∧
    created (demoRunner demoClass) demoPath = none ∧
    (∃ r, (RM.get demoPath (demoRunner demoClass)).1 = .ok r) ∧ (∀ d, demoClass.upd d = .ok ()) ∧
    (∀ op ∈ [demoUpdate [("b", 7)], .edit demoFiles, .refresh demoPath, .reset (some demoPath) false, .get demoPath],
      ItemCall (demoRunner demoClass) op) := by
  refine ⟨demoRunner_reachable _, demoRunner_item _, (by decide), rfl, rfl, ⟨_, rfl⟩, fun _ => rfl, ?_⟩
  intro op hop
  simp only [List.mem_cons, List.not_mem_nil, or_false] at hop
  rcases hop with rfl | rfl | rfl | rfl | rfl
  · exact .inl ⟨_, _, demoRunner_item _, .update _ _ _⟩
  · exact .inr ⟨_, rfl⟩
  · exact .inl ⟨_, _, demoRunner_item _, .refresh⟩
  · exact .inl ⟨_, _, demoRunner_item _, .reset⟩
  · exact .inl ⟨_, _, demoRunner_item _, .get⟩

/-- C110 fails when the item is run and a section sets a parameter: the configuration is set back to `a = 2`, the object keeps
`a = 7`. -/
theorem C110_run_violated :
    demoBoundAndConfig (after (demoRunner demoClass) [.get demoPath, demoUpdate [("a", 7)]]) "a" = (some 7, some 7) ∧
    demoBoundAndConfig (after (demoRunner demoClass) [.get demoPath, demoUpdate [("a", 7)], .run demoPath]) "a" =
      (some 7, some 2) := by
  decide +kernel

/-- A class whose update refuses values of `a` above 5. -/
def demoRefusing : Callable Nat where
  kind := .klass
  sig := ⟨["self", "a", "b", "c"], [], []⟩
  app _ := .ok 0
  init _ := .ok ()
  upd d := if (d.get? "a").getD 0 > 5 then .error .valueError else .ok ()
  exec d := .ok ((d.get? "a").getD 0)

/-- C110 fails when the class raises: the update fails, the configuration has the refused value all the same, and the object
has the old one; a second update with the same value does not fail. -/
theorem C110_raises_violated :
    smallBoundAndConfig (after (smallRunner demoRefusing) [.get ["f"]]) "a" = (some 1, some 1) ∧
    ¬ returns (after (smallRunner demoRefusing) [.get ["f"]]) (.update none (some ["f"]) true (Dict.ofList [("a", 7)])) ∧
    smallBoundAndConfig (after (smallRunner demoRefusing)
      [.get ["f"], .update none (some ["f"]) true (Dict.ofList [("a", 7)])]) "a" = (some 1, some 7) ∧
    returns (after (smallRunner demoRefusing) [.get ["f"], .update none (some ["f"]) true (Dict.ofList [("a", 7)])])
      (.update none (some ["f"]) true (Dict.ofList [("a", 7)])) := by
  refine ⟨by decide +kernel, (fun h => ?_), by decide +kernel, rfl⟩
  cases h

/-- A class with one parameter more than there are in the file. -/
def demoWide : Callable Nat := { demoClass with sig := ⟨["self", "a", "b", "c", "d"], [], []⟩ }

/-- C110 fails for a class that is got with its section: what is kept is a `partial` of the class, and a parameter that the
configuration gets later is not bound in it. -/
theorem C110_section_violated :
    ((created (after (demoRunner demoWide) [.get ["main", "data"]]) demoPath).map (·.isPartial)) = some true ∧
    demoBoundAndConfig (after (demoRunner demoWide) [.get demoPath, demoUpdate [("a", 7), ("d", 9)]]) "d" =
      (some 9, some 9) ∧
    demoBoundAndConfig (after (demoRunner demoWide) [.get ["main", "data"], demoUpdate [("a", 7), ("d", 9)]]) "d" =
      (none, some 9) := by
  decide +kernel

/-! ## C17 for classes -/

/-- Nothing is an update of a config without keys. -/
theorem updated_empty [BEq V] {c : Conf V} (h : c.values = Dict.empty) (d : Option (Dict String V)) (persist : Bool)
    (kw : Dict String V) : c.updated d persist kw = c := by
  unfold Conf.updated
  cases hd : CMM.determineWouldUpdate c d kw with
  | error e => rfl
  | ok b =>
    cases b with
    | false => rfl
    | true =>
      exfalso
      unfold CMM.determineWouldUpdate at hd
      split at hd
      · cases hd
      · simp only [Except.ok.injEq] at hd
        rw [Conf.wouldUpdate_iff] at hd
        obtain ⟨x, v, w, _, h2, _⟩ := hd
        rw [h] at h2
        cases h2

/-- Updating keys that are not inherited, before or after what is inherited is put in. -/
theorem updated_active [BEq V] {s : CM V} (ho : OwnFiles s.view) {p : List String} (hp : IsItem s p) {c : Conf V}
    (hc : c.file = some (.item p)) (d : Option (Dict String V)) (persist : Bool) (kw : Dict String V)
    (hkeys : ∀ x v, (kw.get? x).or (d.bind (·.get? x)) = some v → inherited s p x = none) (x : String) :
    ((CMM.active s.view p c).updated d persist kw).values.get? x =
      (CMM.active s.view p (c.updated d persist kw)).values.get? x := by
  by_cases hE : c.values = Dict.empty
  · rw [active_empty hE, updated_empty hE, active_empty hE]
  · have hU : ∀ (e : Conf V) y, (e.update d persist kw).values.get? y =
        ((kw.get? y).or (d.bind (·.get? y))).or (e.values.get? y) := by
      intro e y
      rw [Conf.get?_update_values, Option.or_assoc]
    have hsame : ∀ y v, (kw.get? y).or (d.bind (·.get? y)) = some v →
        (CMM.active s.view p c).values.get? y = c.values.get? y := by
      intro y v hv
      rw [active_get? ho hp hc hE, hkeys y v hv]
      rfl
    rcases Conf.updated_congr persist hsame with ⟨e1, e2⟩ | ⟨e1, e2⟩
    · rw [e1, e2]
    · have hE' : (c.update d persist kw).values ≠ Dict.empty := by
        intro h
        apply hE
        apply Dict.ext_of_keys_get?
        · apply List.eq_nil_iff_forall_not_mem.2
          intro y hy
          have : y ∈ (c.update d persist kw).values.keys := by
            rw [Dict.mem_keys_iff] at hy ⊢
            rw [hU]
            simp [hy]
          rw [h] at this
          cases this
        · intro y
          have := hU c y
          rw [h, Dict.get?_empty] at this
          rw [Dict.get?_empty]
          rw [eq_comm, Option.or_eq_none_iff] at this
          exact this.2
      rw [e1, e2, hU, active_get? ho hp (show (c.update d persist kw).file = _ from hc) hE', active_get? ho hp hc hE, hU]
      cases hx : (kw.get? x).or (d.bind (·.get? x)) with
      | none => simp
      | some v =>
        rw [hkeys x v hx]
        simp

/-- C17 for classes and objects of specific classes (missing: keys that an enclosing section, the project or the local config
sets, see `C17_class_inherited_violated`, and classes that raise): creating the object and then updating it gives an object with the
same arguments as updating first and creating it afterwards, and calling it gives the same.  Other than for functions the
config need not have the keys. -/
theorem C17_class_partial [BEq V] (s : RS V) (hs : s.Reachable) (p : List String) (k : Callable V)
    (hp : RunnerItem s p k) (hk : k.kind ≠ .func) (names : List String) (hn : k.sig.argNames true = .ok names)
    (hnone : created s p = none) (d : Option (Dict String V)) (persist : Bool) (kw : Dict String V)
    (hkeys : ∀ x v, (kw.get? x).or (d.bind (·.get? x)) = some v → inherited s.cm p x = none)
    (r r' : RM.GetRes V) (hr : (RM.get p s).1 = .ok r)
    (hret : (∀ d, k.upd d = .ok ()) ∨ (RM.update d (some p) persist kw (RM.get p s).2).1 = .ok ())
    (hr' : (RM.get p (RM.update d (some p) persist kw s).2).1 = .ok r') :
    ∃ o o', created (after s [.get p, .update d (some p) persist kw]) p = some o ∧
      created (after s [.update d (some p) persist kw, .get p]) p = some o' ∧
      o.isPartial = o'.isPartial ∧ o.callable = o'.callable ∧ (∀ x, bound o x = bound o' x) ∧
      ∀ x, (bound o x).isSome = true → x ∈ names := by
  have hi := hp.config.isItem
  have ho := hs.cm.good.ownFiles
  obtain ⟨oA, c, _, hc, hcA⟩ := RS.Carries.create_active hi hp.registered hk hn hnone hr
  have hcf := ho.own hi.plain hc
  -- get, then update
  generalize hcAe : CMM.active s.cm.view p c = cA at hcA
  have hfrA := RS.step_frame hi hp.registered (.get (V := V) (p := p))
  have hiA : IsItem (RM.get p s).2.cm p := hfrA.item
  obtain ⟨o1, c1, hc1⟩ := hcA.update hn hiA d persist kw hret
  have hAown : (RM.get p s).2.cm.view.own p = .ok cA := by unfold View.own; rw [hcA.conf]
  obtain ⟨hA1, _, _, _⟩ := RM.update_cm hiA hAown d persist kw
  have e1 : c1 = cA.updated d persist kw := by
    have := hc1.conf
    rw [hA1, View.setConf_slot_self] at this
    cases this
    rfl
  -- update, then get
  obtain ⟨hB1, hB2, hB3, _⟩ := RM.update_cm hi hc d persist kw
  have hfrB := RS.step_frame hi hp.registered (ROp.OnItem.update d persist kw)
  have hiB : IsItem (RM.update d (some p) persist kw s).2.cm p := hfrB.item
  have hownB : (RM.update d (some p) persist kw s).2.cm.view.own p = .ok (c.updated d persist kw) := by
    unfold View.own
    rw [hB1, View.setConf_slot_self]
  obtain ⟨o2, cB, _, hcB, hc2⟩ := RS.Carries.create_active (s := (RM.update d (some p) persist kw s).2) hiB
    (by rw [hB2]; exact hp.registered) hk hn (by rw [hB3 hnone]; exact hnone) hr'
  have hactB : CMM.active (RM.update d (some p) persist kw s).2.cm.view p (c.updated d persist kw) =
      CMM.active s.cm.view p (c.updated d persist kw) := by
    refine CMM.active_congr hfrB.rest.2.1 ?_ _
    intro j hj
    refine hfrB.slots _ ?_
    intro hh
    obtain ⟨cfg, hsl⟩ := hi.prefix_sect hj
    have := hi.item
    rw [← hh, hsl] at this
    cases this
  rw [hownB] at hcB
  cases hcB
  rw [hactB] at hc2
  have hb : ∀ x, bound o1 x = if x ∈ names then (cA.updated d persist kw).values.get? x else none := by
    intro x
    unfold bound
    rw [hc1.same, Dict.get?_filterKeys, e1]
    simp
  refine ⟨o1, o2, hc1.obj, hc2.obj, by rw [hc1.isObject, hc2.isObject], by rw [hc1.callable, hc2.callable], ?_, ?_⟩
  · intro x
    rw [hb]
    unfold bound
    rw [hc2.same, Dict.get?_filterKeys, ← hcAe, updated_active ho hi hcf d persist kw hkeys x]
    simp
  · intro x hx
    rw [hb] at hx
    by_cases hxn : x ∈ names
    · exact hxn
    · rw [if_neg hxn] at hx
      cases hx

/-- The hypotheses are met with an update of a key that the config lacks together with one that it has. -/
example : (smallRunner demoWide).Reachable ∧ RunnerItem (smallRunner demoWide) ["f"] demoWide ∧ demoWide.kind ≠ .func ∧
    demoWide.sig.argNames true = .ok ["a", "b", "c", "d"] ∧ created (smallRunner demoWide) ["f"] = none ∧
    (∀ x, inherited (smallRunner demoWide).cm ["f"] x = none) ∧
    (∃ r, (RM.get ["f"] (smallRunner demoWide)).1 = .ok r) ∧ (∀ d, demoWide.upd d = .ok ()) ∧
    (∃ r, (RM.get ["f"] (RM.update none (some ["f"]) true (Dict.ofList [("a", 7), ("d", 9)]) (smallRunner demoWide)).2).1 =
      .ok r) ∧
    (smallBoundAndConfig (after (smallRunner demoWide)
      [.get ["f"], .update none (some ["f"]) true (Dict.ofList [("a", 7), ("d", 9)])]) "d").1 = some 9 :=
  ⟨smallRunner_reachable _, smallRunner_item _, (by decide), rfl, rfl, fun _ => rfl, ⟨_, rfl⟩, fun _ => rfl, ⟨_, rfl⟩,
    by decide +kernel⟩

/-- C17 fails for a class too for a key set by an enclosing section: updated after it was created the object has `a = 7`, updated
before it has `a = 2`. -/
theorem C17_class_inherited_violated :
    (demoBoundAndConfig (after (demoRunner demoClass) [.get demoPath, demoUpdate [("a", 7)]]) "a").1 = some 7 ∧
    (demoBoundAndConfig (after (demoRunner demoClass) [demoUpdate [("a", 7)], .get demoPath]) "a").1 = some 2 := by
  decide +kernel

/-- C17 fails for a class that raises when it is updated: updated after it was created the object keeps `a = 1`, created after the
update it has `a = 7`. -/
theorem C17_class_raises_violated :
    (smallBoundAndConfig (after (smallRunner demoRefusing)
      [.get ["f"], .update none (some ["f"]) true (Dict.ofList [("a", 7)])]) "a").1 = some 1 ∧
    (smallBoundAndConfig (after (smallRunner demoRefusing)
      [.update none (some ["f"]) true (Dict.ofList [("a", 7)]), .get ["f"]]) "a").1 = some 7 := by
  decide +kernel

end Verif.Props

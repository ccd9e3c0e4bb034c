import Verif.Lemmas.RunnerItem
import Verif.Props.Store

/-
Property theorems about the runner and the objects it creates: C12, C16, C17, C18, C19, C20.
-/

namespace Verif.Props
open Verif.Py Verif.Model

variable {V : Type}

/-! ## Specification -/

/-- `p` is the path of a registered item `k` that has a config. -/
structure RunnerItem (s : RS V) (p : List String) (k : Callable V) : Prop where
  config : ConfigItem s.cm p
  registered : s.reg.lookup p = .ok (.item k)

/-- The object created for the item at `p`, if it has been created. -/
def created (s : RS V) (p : List String) : Option (Obj V) := s.objs.get? p

/-- The value bound to a keyword of a created object. -/
def bound (o : Obj V) (x : String) : Option V := o.kwargs.get? x

/-- What calling a created object with what is bound in it returns: the function, or executing the
object. -/
def calling (o : Obj V) : Except PyErr V :=
  match o.isPartial with
  | true => o.callable.app o.kwargs
  | false => o.callable.exec o.kwargs

/-- The state after a history of calls. -/
def after [BEq V] (s : RS V) (ops : List (ROp V)) : RS V := ops.foldl RS.step s

/-! ### A concrete project -/

/-- A function with parameters `a`, `b` and `c`. -/
def demoFunc : Callable Nat where
  kind := .func
  sig := ⟨["a", "b", "c"], [], []⟩
  app d := .ok ((d.get? "a").getD 0 * 100 + (d.get? "b").getD 0 * 10 + (d.get? "c").getD 0)
  init _ := .ok ()
  upd _ := .ok ()
  exec _ := .ok 0

/-- A class with `__init__(self, a, b, c)`. -/
def demoClass : Callable Nat where
  kind := .klass
  sig := ⟨["self", "a", "b", "c"], [], []⟩
  app _ := .ok 0
  init _ := .ok ()
  upd _ := .ok ()
  exec d := .ok ((d.get? "a").getD 0)

/-- A function `f(a, *, b, c)`. -/
def demoKwOnly : Callable Nat where
  kind := .func
  sig := ⟨["a"], ["b", "c"], []⟩
  app d := .ok ((d.get? "a").getD 0)
  init _ := .ok ()
  upd _ := .ok ()
  exec _ := .ok 0

/-- The project `demo` of `Verif/Props/Store.lean` with `k` registered as `main.data.func` and
`demoFunc` as `main.data.noargs`. -/
def demoRunner (k : Callable Nat) : RS Nat where
  cm := demo
  reg := ⟨[], .coll false [("main", .coll false [("data", .coll false
    [("func", .item k), ("noargs", .item demoFunc)])])]⟩
  objs := Dict.empty
  nextId := 0

/-- Its path. -/
def demoPath : List String := ["main", "data", "func"]

theorem demoRunner_fresh (k : Callable Nat) : (demoRunner k).Fresh := ⟨rfl, rfl, demoFiles, "defaults", demo_load⟩

theorem demoRunner_reachable (k : Callable Nat) : (demoRunner k).Reachable :=
  ⟨demoRunner k, [], demoRunner_fresh k, by simp, rfl⟩

theorem demoRunner_item (k : Callable Nat) : RunnerItem (demoRunner k) demoPath k := ⟨demo_item, rfl⟩

theorem demoRunner_noargs (k : Callable Nat) : RunnerItem (demoRunner k) ["main", "data", "noargs"] demoFunc :=
  ⟨demo_noargs, rfl⟩

/-! ## C12 -/

/-- C12 for the runner: getting, running, updating, refreshing and resetting one item leaves the
created object and the configuration of every other item as they were. -/
theorem C12_runner_frame [BEq V] (s : RS V) (p : List String) (k : Callable V) (hp : RunnerItem s p k)
    (op : ROp V) (ho : op.OnItem p) :
    (∀ q, q ≠ p → created (s.step op) q = created s q ∧ (s.step op).cm.view.slot q = s.cm.view.slot q) ∧
    (s.step op).cm.localConf = s.cm.localConf ∧ (s.step op).cm.fs = s.cm.fs ∧ (s.step op).reg = s.reg := by
  have h := RS.step_frame hp.config.isItem hp.registered ho
  exact ⟨fun q hq => ⟨h.objs q hq, h.slots q hq⟩, h.rest.2.1, h.rest.1, h.reg⟩

example : RunnerItem (demoRunner demoFunc) demoPath demoFunc ∧
    (ROp.update none (some demoPath) true (Dict.ofList [("a", 7)]) : ROp Nat).OnItem demoPath :=
  ⟨demoRunner_item _, .update _ _ _⟩

/-! ## C16 -/

theorem get_error [BEq V] {s : RS V} {p : List String} {k : Callable V} (hp : RunnerItem s p k)
    (hf : k.kind = .func) (hn : created s p = none) {e : PyErr} (he : s.cm.view.own p = .error e) :
    (RM.get p s).1 = .error e := by
  rw [RM.get_item hp.registered]
  unfold RM.getItem
  rw [hf]
  simp only
  unfold RM.getOneFunc
  obtain ⟨g1, _⟩ := CMM.get_of_own_error hp.config.isItem he
  have hgc : RM.getConfig p s = (.error e, { s with cm := (CMM.get p s.cm).2 }) := by
    unfold RM.getConfig
    rw [M.bind_run]
    unfold RM.liftC
    simp only [g1]
  have hfc : RM.funcAndConfig p s = (.error e, { s with cm := (CMM.get p s.cm).2 }) := by
    unfold RM.funcAndConfig
    rw [M.bind_error hgc]
  rw [M.bind_run, M.bind_ok (M.get_run s), show s.objs.get? p = none from hn]
  simp only
  rw [M.bind_error hfc]

/-- The calls considered by C16. -/
structure KeepsFollowing (s : RS V) (p : List String) (strong : Bool) (op : ROp V) : Prop where
  onItem : ∃ q k', RunnerItem s q k' ∧ op.OnItem q
  notRun : op ≠ .run p
  notReset : strong = true → op ≠ .reset (some p) false

theorem follows_after [BEq V] {s : RS V} {p : List String} {k : Callable V} (hp : RunnerItem s p k)
    {strong : Bool} (ops : List (ROp V)) (hops : ∀ op ∈ ops, KeepsFollowing s p strong op) :
    ∀ t : RS V, t.reg = s.reg → (∀ q, IsItem s.cm q → IsItem t.cm q) →
      (∃ o c, t.Follows strong p o c) → ∃ o c, (after t ops).Follows strong p o c := by
  induction ops with
  | nil => intro t _ _ h; exact h
  | cons op ops ih =>
    intro t hreg hitems h
    obtain ⟨⟨q, k', hq, ho⟩, hnr, hnres⟩ := hops op List.mem_cons_self
    have hqi := hitems q hq.config.isItem
    have hqk : t.reg.lookup q = .ok (.item k') := by rw [hreg]; exact hq.registered
    have hfr := RS.step_frame hqi hqk ho
    refine ih (fun o ho => hops o (List.mem_cons_of_mem _ ho)) (t.step op) (hfr.reg.trans hreg)
      (fun r hr => hfr.items r (hitems r hr)) ?_
    obtain ⟨o, c, hfol⟩ := h
    by_cases hqp : q = p
    · subst hqp
      cases ho with
      | get =>
        have := hfol.get hqk
        exact ⟨o, c, by show RS.Follows strong (RM.get q t).2 q o c; rw [this]; exact hfol⟩
      | run => exact absurd rfl hnr
      | update d persist kw => exact hfol.update hqi d persist kw
      | reset =>
        cases strong with
        | true => exact absurd rfl (hnres rfl)
        | false => exact hfol.reset hqi
      | refresh => exact hfol.refresh hqi
    · exact ⟨o, c, hfol.congr (hfr.objs p (Ne.symm hqp)) (hfr.slots p (Ne.symm hqp))⟩

theorem follows_created [BEq V] {s : RS V} {p : List String} {k : Callable V} (hp : RunnerItem s p k)
    (hf : k.kind = .func) (hn : created s p = none) {o : Obj V} (ho : (RM.get p s).1 = .ok (.obj o))
    {strong : Bool} (ops : List (ROp V)) (hops : ∀ op ∈ ops, KeepsFollowing s p strong op) :
    ∃ o c, (after (RM.get p s).2 ops).Follows strong p o c := by
  cases hown : s.cm.view.own p with
  | error e => rw [get_error hp hf hn hown] at ho; cases ho
  | ok c =>
    obtain ⟨o1, c1, _, hfol⟩ := RS.Follows.create hp.config.isItem hp.registered hf hn hown
    have hfr := RS.step_frame hp.config.isItem hp.registered (.get (V := V) (p := p))
    refine follows_after hp ops hops _ hfr.reg hfr.items ⟨o1, c1, ?_⟩
    exact ⟨hfol.obj, hfol.isPartial, hfol.conf, hfol.agree, fun _ => hfol.cover rfl⟩

/-- C16 (missing: running the item, see `C16_run_violated`, and resetting it, see
`C16_reset_violated`): once a function is created, each keyword bound in it equals the current
configuration value for it, after any sequence of getting, updating and refreshing it, and
getting, running, updating, refreshing and resetting other items. -/
theorem C16_bound_is_current_partial [BEq V] (s : RS V) (p : List String) (k : Callable V)
    (hp : RunnerItem s p k) (hf : k.kind = .func) (hn : created s p = none) (o : Obj V)
    (ho : (RM.get p s).1 = .ok (.obj o)) (ops : List (ROp V))
    (hops : ∀ op ∈ ops, (∃ q k', RunnerItem s q k' ∧ op.OnItem q) ∧ op ≠ .run p ∧ op ≠ .reset (some p) false) :
    ∃ o' c, created (after (RM.get p s).2 ops) p = some o' ∧
      (after (RM.get p s).2 ops).cm.walk p = .ok (.conf c) ∧
      ∀ x v, bound o' x = some v → c.values.get? x = some v := by
  obtain ⟨o', c, h⟩ := follows_created hp hf hn ho (strong := true) ops
    (fun op hop => ⟨(hops op hop).1, (hops op hop).2.1, fun _ => (hops op hop).2.2⟩)
  refine ⟨o', c, h.obj, CM.walk_of_slot_conf h.conf, ?_⟩
  intro x v hv
  have hx := h.cover rfl x (Dict.mem_keys_of_get? hv)
  obtain ⟨v', hv'⟩ := Dict.get?_isSome_of_mem hx
  rw [hv', h.agree x v v' hv hv']

/-- C16 with resets of the item (missing: keywords the configuration has lost by the reset): each
bound keyword that the configuration has a value for has that value. -/
theorem C16_bound_is_current_reset_partial [BEq V] (s : RS V) (p : List String) (k : Callable V)
    (hp : RunnerItem s p k) (hf : k.kind = .func) (hn : created s p = none) (o : Obj V)
    (ho : (RM.get p s).1 = .ok (.obj o)) (ops : List (ROp V))
    (hops : ∀ op ∈ ops, (∃ q k', RunnerItem s q k' ∧ op.OnItem q) ∧ op ≠ .run p) :
    ∃ o' c, created (after (RM.get p s).2 ops) p = some o' ∧
      (after (RM.get p s).2 ops).cm.walk p = .ok (.conf c) ∧
      ∀ x v v', bound o' x = some v → c.values.get? x = some v' → v = v' := by
  obtain ⟨o', c, h⟩ := follows_created hp hf hn ho (strong := false) ops
    (fun op hop => ⟨(hops op hop).1, (hops op hop).2, nofun⟩)
  exact ⟨o', c, h.obj, CM.walk_of_slot_conf h.conf, h.agree⟩

/-- The hypotheses are met by a history that updates, refreshes and gets. -/
example : created (demoRunner demoFunc) demoPath = none ∧
    (∃ o, (RM.get demoPath (demoRunner demoFunc)).1 = .ok (.obj o)) ∧
    (ROp.refresh demoPath : ROp Nat).OnItem demoPath :=
  ⟨rfl, ⟨_, rfl⟩, .refresh⟩

/-- Update `main.data.func` with the given values. -/
def demoUpdate (es : List (String × Nat)) : ROp Nat := .update none (some demoPath) true (Dict.ofList es)

/-- What the item's object has bound to `x`, and what its config has. -/
def demoBoundAndConfig (s : RS Nat) (x : String) : Option Nat × Option Nat :=
  ((created s demoPath).bind (bound · x),
    match s.cm.walk demoPath with
    | .ok (.conf c) => c.values.get? x
    | _ => none)

/-- C16 fails when the item is run: `main/section.py` sets `a = 2`; after creating the function
and updating `a = 7`, running it calls it with `a = 7` but sets the item's configuration back to
`a = 2`. -/
theorem C16_run_violated :
    demoBoundAndConfig (after (demoRunner demoFunc) [.get demoPath, demoUpdate [("a", 7)]]) "a" = (some 7, some 7) ∧
    demoBoundAndConfig (after (demoRunner demoFunc) [.get demoPath, demoUpdate [("a", 7)], .run demoPath]) "a" =
      (some 7, some 2) := by
  decide +kernel

/-- A project with the single file `f.py`: `a = 1`. -/
def smallFiles : Files Nat where
  read
    | .item ["f"] => .ok (Dict.ofList [("a", 1)])
    | _ => .error .osError
  tree := .mk false ["f"] []

/-- The manager after loading it. -/
def small : CM Nat where
  fs := smallFiles
  rootName := "defaults"
  root := .sect none [] [("f", .file (.item ["f"]))]
  localConf := Conf.ofDict Dict.empty

theorem small_load : CM.load smallFiles "defaults" = .ok small := by rfl

/-- With `k` registered as `f`. -/
def smallRunner (k : Callable Nat) : RS Nat where
  cm := small
  reg := ⟨[], .coll false [("f", .item k)]⟩
  objs := Dict.empty
  nextId := 0

theorem smallRunner_reachable (k : Callable Nat) : (smallRunner k).Reachable :=
  ⟨smallRunner k, [], ⟨rfl, rfl, smallFiles, "defaults", small_load⟩, by simp, rfl⟩

theorem smallRunner_item (k : Callable Nat) : RunnerItem (smallRunner k) ["f"] k :=
  ⟨⟨by simp, (by decide : PlainPath "defaults" ["f"]), .inr ⟨.item ["f"], rfl⟩⟩, rfl⟩

/-- What the object of `f` has bound to `x`, and what its config has. -/
def smallBoundAndConfig (s : RS Nat) (x : String) : Option Nat × Option Nat :=
  ((created s ["f"]).bind (bound · x),
    match s.cm.walk ["f"] with
    | .ok (.conf c) => c.values.get? x
    | _ => none)

/-- C16 fails after a reset: a keyword that an update added and that the file does not set stays
bound, although the configuration no longer has it. -/
theorem C16_reset_violated :
    smallBoundAndConfig (after (smallRunner demoFunc)
      [.update none (some ["f"]) true (Dict.ofList [("a", 2), ("b", 3)]), .get ["f"], .reset (some ["f"]) false])
      "b" = (some 3, none) := by
  decide +kernel

/-! ## C17 -/

/-- The values an item inherits, whatever its own config is. -/
def inherited (s : CM V) (p : List String) (x : String) : Option V :=
  lastDefining x (enclosingValues s p ++ [s.localConf.values])

theorem active_get? {s : CM V} (ho : OwnFiles s.view) {p : List String} (hp : IsItem s p) {c : Conf V}
    (hc : c.file = some (.item p)) (hne : c.values ≠ Dict.empty) (x : String) :
    (CMM.active s.view p c).values.get? x = (inherited s p x).or (c.values.get? x) := by
  have hne' : ¬ c.values.items.isEmpty = true := by
    intro h
    apply hne
    apply Dict.ext_items
    exact List.isEmpty_iff.1 h
  unfold CMM.active
  rw [if_neg hne']
  unfold CMM.overridden inherited
  rw [CMM.foldl_applyLevel_values c _ (CMM.levels_otherFile ho hp hc), CMM.get?_foldl_update, lastDefining_eq,
    enclosingValues_eq, List.map_append]
  rfl

theorem active_empty {a : View V} {p : List String} {c : Conf V} (h : c.values = Dict.empty) :
    CMM.active a p c = c := by
  unfold CMM.active
  rw [h]
  rfl

/-- C17 (missing: keys that an enclosing section, the project or the local config sets, see
`C17_inherited_violated`, and keys the item's config does not have yet, see
`C17_new_key_violated`): creating a function and then updating it gives an object with the
same keywords bound to the same values as updating it first and creating it afterwards. -/
theorem C17_update_create_partial [BEq V] (s : RS V) (hs : s.Reachable) (p : List String) (k : Callable V)
    (hp : RunnerItem s p k) (hf : k.kind = .func) (hn : created s p = none) (c : Conf V)
    (hc : ownConfig s.cm p = .ok c) (d : Option (Dict String V)) (persist : Bool) (kw : Dict String V)
    (hkeys : ∀ x v, (kw.get? x).or (d.bind (·.get? x)) = some v →
      (c.values.get? x).isSome = true ∧ inherited s.cm p x = none) :
    ∃ o o', created (after s [.get p, .update d (some p) persist kw]) p = some o ∧
      created (after s [.update d (some p) persist kw, .get p]) p = some o' ∧
      ∀ x, bound o x = bound o' x := by
  have hi := hp.config.isItem
  rw [ownConfig_eq hp.config] at hc
  have ho := hs.cm.good.ownFiles
  have hcf := ho.own hi.plain hc
  -- get, then update
  obtain ⟨names, hnames, hget⟩ := RM.get_creates hi hp.registered hf hn hc
  obtain ⟨_, g2⟩ := CMM.get_of_own hi hc
  have hiA : IsItem (CMM.get p s.cm).2 p := CMM.step_item_isItem (V := V) hi (op := .get p) .get hi
  generalize hca : CMM.active s.cm.view p c = ca at hget g2
  have hownA : (CMM.get p s.cm).2.view.own p = .ok ca := by
    unfold View.own
    rw [g2, View.setConf_slot_self]
  have hobjA : ∀ o : Obj V, (s.objs.set p o).get? p = some o := fun o => Dict.get?_set_self _ _ _
  generalize hoA : (⟨s.nextId, true, k, ca.values.filterKeys (fun x => decide (x ∈ names))⟩ : Obj V) = oA at hget
  obtain ⟨_, _, _, hA⟩ := RM.update_cm
    (s := { s with cm := (CMM.get p s.cm).2, objs := s.objs.set p oA, nextId := s.nextId + 1 })
    hiA hownA d persist kw
  obtain ⟨o1, ho1, hA⟩ := hA oA (hobjA oA) (by rw [← hoA])
  -- update, then get
  obtain ⟨hB1, hB2, hB3, _⟩ := RM.update_cm hi hc d persist kw
  have hfrB := RS.step_frame hi hp.registered (ROp.OnItem.update d persist kw)
  have hiB := hfrB.item
  have hownB : (RM.update d (some p) persist kw s).2.cm.view.own p = .ok (c.updated d persist kw) := by
    unfold View.own
    rw [hB1, View.setConf_slot_self]
  obtain ⟨names', hnames', hgetB⟩ := RM.get_creates (s := (RM.update d (some p) persist kw s).2) hiB
    (by rw [hB2]; exact hp.registered) hf (by rw [hB3 hn]; exact hn) hownB
  rw [hnames] at hnames'
  cases hnames'
  have hactB : CMM.active (RM.update d (some p) persist kw s).2.cm.view p (c.updated d persist kw) =
      CMM.active s.cm.view p (c.updated d persist kw) := by
    refine CMM.active_congr hfrB.rest.2.1 ?_ _
    intro j hj
    refine hfrB.slots _ ?_
    intro hh
    obtain ⟨cfg, hsl⟩ := hi.prefix_sect hj
    have := hi.item
    rw [← hh, hsl] at this
    cases this
  rw [hactB] at hgetB
  generalize hoB : (⟨(RM.update d (some p) persist kw s).2.nextId, true, k,
    (CMM.active s.cm.view p (c.updated d persist kw)).values.filterKeys (fun x => decide (x ∈ names))⟩ : Obj V) = oB at hgetB
  refine ⟨o1, oB, ?_, ?_, ?_⟩
  · show (RM.update d (some p) persist kw (RM.get p s).2).2.objs.get? p = _
    rw [hget]; exact ho1
  · show (RM.get p (RM.update d (some p) persist kw s).2).2.objs.get? p = _
    rw [hgetB]
    exact Dict.get?_set_self _ _ _
  -- the bound values
  have hU : ∀ (e : Conf V) x, (e.update d persist kw).values.get? x =
      ((kw.get? x).or (d.bind (·.get? x))).or (e.values.get? x) := by
    intro e x
    rw [Conf.get?_update_values, Option.or_assoc]
  have hsame : ∀ x v, (kw.get? x).or (d.bind (·.get? x)) = some v → ca.values.get? x = c.values.get? x := by
    intro x v hv
    obtain ⟨h1, h2⟩ := hkeys x v hv
    rw [← hca, active_get? ho hi hcf ?_, h2]
    · rfl
    · intro hE
      rw [hE] at h1
      cases h1
  have hact : ∀ x, (ca.updated d persist kw).values.get? x =
      (CMM.active s.cm.view p (c.updated d persist kw)).values.get? x := by
    intro x
    rcases Conf.updated_congr persist hsame with ⟨e1, e2⟩ | ⟨e1, e2⟩
    · rw [e1, e2, hca]
    · rw [e1, e2, hU]
      by_cases hE : c.values = Dict.empty
      · have hnone : ∀ y, (kw.get? y).or (d.bind (·.get? y)) = none := by
          intro y
          cases hy : (kw.get? y).or (d.bind (·.get? y)) with
          | none => rfl
          | some v =>
            have := (hkeys y v hy).1
            rw [hE] at this
            cases this
        have hE' : (c.update d persist kw).values = Dict.empty := by
          apply Dict.ext_of_keys_get?
          · apply List.eq_nil_iff_forall_not_mem.2
            intro y hy
            rw [Dict.mem_keys_iff, hU, hnone, hE] at hy
            cases hy
          · intro y
            rw [hU, hnone, hE]
            rfl
        rw [active_empty hE', hE', hnone, ← hca, active_empty hE, hE]
        rfl
      · have hE' : (c.update d persist kw).values ≠ Dict.empty := by
          intro h
          apply hE
          apply Dict.ext_of_keys_get?
          · apply List.eq_nil_iff_forall_not_mem.2
            intro y hy
            have : y ∈ (c.update d persist kw).values.keys := by
              rw [Dict.mem_keys_iff] at hy ⊢
              rw [hU]
              simp [hy]
            rw [h] at this
            cases this
          · intro y
            have := hU c y
            rw [h, Dict.get?_empty] at this
            rw [Dict.get?_empty]
            rw [eq_comm, Option.or_eq_none_iff] at this
            exact this.2
        rw [active_get? ho hi (show (c.update d persist kw).file = _ from hcf) hE', ← hca,
          active_get? ho hi hcf hE, hU]
        cases hx : (kw.get? x).or (d.bind (·.get? x)) with
        | none => simp
        | some v =>
          rw [(hkeys x v hx).2]
          simp
  intro x
  have hB : bound oB x = if x ∈ names then (ca.updated d persist kw).values.get? x else none := by
    rw [hact, ← hoB]
    show ((CMM.active s.cm.view p (c.updated d persist kw)).values.filterKeys _).get? x = _
    rw [Dict.get?_filterKeys]
    simp
  have hoAx : ∀ y, oA.kwargs.get? y = if y ∈ names then ca.values.get? y else none := by
    intro y
    rw [← hoA]
    show (ca.values.filterKeys _).get? y = _
    rw [Dict.get?_filterKeys]
    simp
  rw [hB]
  rcases hA with ⟨e1, e0⟩ | hA
  · show o1.kwargs.get? x = _
    rw [e0, hoAx, e1]
  · show o1.kwargs.get? x = _
    rw [RM.get?_apply (by rw [← hoA]) hA]
    have hcont : oA.kwargs.contains x = (decide (x ∈ names) && (ca.values.get? x).isSome) := by
      unfold Dict.contains
      rw [hoAx]
      by_cases hx : x ∈ names <;> simp [hx]
    rw [hcont, hoAx]
    by_cases hx : x ∈ names
    · simp only [hx, if_true, decide_true, Bool.true_and]
      rcases Conf.updated_congr persist hsame with ⟨_, e2⟩ | ⟨_, e2⟩
      · rw [e2]
        cases ca.values.get? x <;> rfl
      · rw [e2, hU]
        cases hu : (kw.get? x).or (d.bind (·.get? x)) with
        | none => cases ca.values.get? x <;> rfl
        | some v =>
          have := (hkeys x v hu).1
          rw [← hsame x v hu] at this
          rw [if_pos this]
          rfl
    · simp [hx]

example : ∃ c, ownConfig (demoRunner demoFunc).cm demoPath = .ok c ∧ (c.values.get? "c").isSome = true ∧
    inherited (demoRunner demoFunc).cm demoPath "c" = none := ⟨_, rfl, rfl, by decide +kernel⟩

/-- C17 fails for a key set by an enclosing section (`main/section.py`: `a = 2`): updated after
creation the function has `a = 7`, updated before creation it has `a = 2`. -/
theorem C17_inherited_violated :
    (demoBoundAndConfig (after (demoRunner demoFunc) [.get demoPath, demoUpdate [("a", 7)]]) "a").1 = some 7 ∧
    (demoBoundAndConfig (after (demoRunner demoFunc) [demoUpdate [("a", 7)], .get demoPath]) "a").1 = some 2 := by
  decide +kernel

/-- C17 fails for a parameter that the config of the item does not have: updated (together with
one that it has) before creation it is bound, updated after creation it is not. -/
theorem C17_new_key_violated :
    (smallBoundAndConfig (after (smallRunner demoFunc)
      [.get ["f"], .update none (some ["f"]) true (Dict.ofList [("a", 2), ("b", 3)])]) "b").1 = none ∧
    (smallBoundAndConfig (after (smallRunner demoFunc)
      [.update none (some ["f"]) true (Dict.ofList [("a", 2), ("b", 3)]), .get ["f"]]) "b").1 = some 3 := by
  decide +kernel

/-! ## C18 -/

/-- C18: whatever happened since the load, the keywords bound in a created object are parameters
of the item registered at its path. -/
theorem C18_only_accepted [BEq V] (s : RS V) (hs : s.Reachable) (p : List String) (o : Obj V)
    (ho : created s p = some o) :
    ∃ k, s.reg.lookup p = .ok (.item k) ∧ ∀ x v, bound o x = some v → x ∈ k.sig.args ∨ x ∈ k.sig.kwonly := by
  have hi := hs.inv
  refine ⟨o.callable, hi.reg p o ho, ?_⟩
  intro x v hv
  have := hi.names p o ho x (Dict.mem_keys_of_get? hv)
  rwa [List.mem_append] at this

example : ∃ o, created (after (demoRunner demoFunc) [.get demoPath]) demoPath = some o := ⟨_, rfl⟩

/-- C18: the names bound in a created function never change (missing: objects of classes, see
`C18_class_names_violated`). -/
theorem C18_names_fixed_partial [BEq V] (s : RS V) (p : List String) (o : Obj V) (ho : created s p = some o)
    (hf : o.isPartial = true) (ops : List (ROp V)) (hv : ∀ op ∈ ops, op.Valid) :
    ∃ o', created (after s ops) p = some o' ∧ o'.kwargs.keys = o.kwargs.keys := by
  obtain ⟨o', h1, h2⟩ := (RS.steps_evolve ops hv s).objs p o ho
  exact ⟨o', h1, h2.keys hf⟩

example : ∃ o, created (after (demoRunner demoFunc) [.get demoPath]) demoPath = some o ∧ o.isPartial = true :=
  ⟨_, rfl, rfl⟩

/-- C18: the names passed to an object of a class can change: an update of `a` that also names
`b`, which the config does not have, makes the object be initialised with `b` as well. -/
theorem C18_class_names_violated :
    (created (after (smallRunner demoClass) [.get ["f"]]) ["f"]).map (fun o => o.kwargs.keys) = some ["a"] ∧
    (created (after (smallRunner demoClass)
      [.get ["f"], .update none (some ["f"]) true (Dict.ofList [("a", 2), ("b", 3)])]) ["f"]).map
        (fun o => o.kwargs.keys) = some ["a", "b"] := by
  decide +kernel

/-! ## C19 -/

/-- The parameters that the code finds in a signature: all positional ones (for a class without
the first), and the keyword-only ones if at least one keyword-only parameter has a default. -/
def Found (k : Callable V) (x : String) : Prop :=
  x ∈ (if k.kind = .func then k.sig.args else k.sig.args.tail) ∨ (x ∈ k.sig.kwonly ∧ k.sig.kwonlyDefaults ≠ [])

theorem argNames_found {sig : Sig} {b : Bool} {names : List String} (h : sig.argNames b = .ok names) (x : String)
    (hx : x ∈ (if b = true then sig.args.tail else sig.args) ∨ (x ∈ sig.kwonly ∧ sig.kwonlyDefaults ≠ [])) :
    x ∈ names := by
  have hkw : x ∈ sig.kwonly ∧ sig.kwonlyDefaults ≠ [] → x ∈ Sig.argNames.kwonlyNames sig := by
    rintro ⟨h1, h2⟩
    unfold Sig.argNames.kwonlyNames
    rw [if_neg (by simpa using h2)]
    exact h1
  unfold Sig.argNames at h
  cases b with
  | false =>
    simp only [Except.ok.injEq] at h
    subst h
    rw [List.mem_append]
    exact hx.imp (by simp) hkw
  | true =>
    cases ha : sig.args with
    | nil => rw [ha] at h; cases h
    | cons a as =>
      rw [ha] at h hx
      simp only [Except.ok.injEq] at h
      subst h
      rw [List.mem_append]
      exact hx.imp (by simp) hkw

/-- C19 (missing: keyword-only parameters of a callable none of whose keyword-only parameters has
a default, see `C19_keyword_only_violated`): when an item is created, each parameter is bound to
its value in the active configuration, if it has one there, and is otherwise not bound. -/
theorem C19_configured_bound_partial [BEq V] (s : RS V) (p : List String) (k : Callable V)
    (hp : RunnerItem s p k) (hn : created s p = none) (o : Obj V) (ho : (RM.get p s).1 = .ok (.obj o))
    (c : Conf V) (hc : (CMM.get p s.cm).1 = .ok (some c)) (x : String) (hx : Found k x) :
    bound o x = c.values.get? x := by
  rw [RM.get_item hp.registered, M.bind_run] at ho
  have key : ∀ {d : Dict String V} {s' : RS V} {r : Reg V}, RM.funcAndConfig p s = (.ok (r, d), s') →
      r = .item k ∧ d.get? x = c.values.get? x := by
    intro d s' r h
    obtain ⟨c', h1, _, h3, h4⟩ := RM.funcAndConfig_ok h
    rw [h1] at hc
    cases hc
    rw [hp.registered] at h3
    cases h3
    refine ⟨rfl, ?_⟩
    unfold RM.forFunction at h4
    simp only at h4
    cases hnm : k.sig.argNames false with
    | error e => rw [hnm] at h4; cases h4
    | ok names =>
      rw [hnm] at h4
      cases h4
      rw [Dict.get?_filterKeys, if_pos]
      rw [decide_eq_true_eq]
      apply argNames_found hnm
      refine hx.imp ?_ id
      intro h
      rw [if_neg (by simp)]
      split at h
      · exact h
      · exact List.mem_of_mem_tail h
  have hfunc : ∀ {s' : RS V}, k.kind = .func → RM.getOneFunc p s = (.ok o, s') → bound o x = c.values.get? x := by
    intro s' _ h
    unfold RM.getOneFunc at h
    rw [M.bind_ok (M.get_run s), show s.objs.get? p = none from hn] at h
    simp only at h
    rw [M.bind_run] at h
    cases hfc : RM.funcAndConfig p s with
    | mk r s1 =>
      rw [hfc] at h
      cases r with
      | error e => simp only at h; cases h
      | ok r =>
        obtain ⟨rg, d⟩ := r
        obtain ⟨rfl, hd⟩ := key hfc
        simp only at h
        rw [M.bind_ok (M.get_run s1)] at h
        have h' := congrArg Prod.fst h
        cases h'
        exact hd
  have hobj : ∀ {s' : RS V}, k.kind ≠ .func → RM.getOneObj p s = (.ok o, s') → bound o x = c.values.get? x := by
    intro s' hk h
    unfold RM.getOneObj at h
    rw [M.bind_ok (M.get_run s), show s.objs.get? p = none from hn] at h
    simp only at h
    have hlk : RM.lookup p s = (.ok (.item k), s) := by
      show (s.reg.lookup p, s) = _
      rw [hp.registered]
    rw [M.bind_ok hlk, M.bind_run] at h
    cases hfc : RM.funcAndConfig p s with
    | mk r s1 =>
      rw [hfc] at h
      cases r with
      | error e => simp only at h; cases h
      | ok r =>
        obtain ⟨rg, d⟩ := r
        obtain ⟨rfl, hd⟩ := key hfc
        simp only at h
        rw [M.bind_ok (M.get_run s1), M.bind_run, M.liftE_run] at h
        cases hcs : RM.construct s1.nextId k d with
        | error e => rw [hcs] at h; simp only at h; cases h
        | ok o1 =>
          rw [hcs] at h
          have h' := congrArg Prod.fst h
          cases h'
          show o.kwargs.get? x = _
          rw [← hd]
          unfold RM.construct at hcs
          cases hkd : k.kind with
          | func => exact absurd hkd hk
          | klass =>
            rw [hkd] at hcs
            simp only at hcs
            split at hcs
            · cases hcs
            · cases hin : k.init d with
              | error e => rw [hin] at hcs; cases hcs
              | ok u => rw [hin] at hcs; cases hcs; rfl
          | specific =>
            rw [hkd] at hcs
            simp only [RM.applyConfig] at hcs
            cases hnm : k.sig.argNames true with
            | error e => rw [hnm] at hcs; cases hcs
            | ok names =>
              rw [hnm] at hcs
              simp only at hcs
              cases hup : k.upd (d.filterKeys (fun x => decide (x ∈ names))) with
              | error e => rw [hup] at hcs; cases hcs
              | ok u =>
                rw [hup] at hcs
                cases hcs
                show (d.filterKeys _).get? x = _
                rw [Dict.get?_filterKeys, if_pos]
                rw [decide_eq_true_eq]
                apply argNames_found hnm
                refine hx.imp ?_ id
                intro h
                rw [if_neg hk] at h
                rw [if_pos rfl]
                exact h
  cases hg : RM.getItem p k s with
  | mk r s' =>
    rw [hg] at ho
    cases r with
    | error e => cases ho
    | ok o1 =>
      have h' : o1 = o := by
        have : (Except.ok (RM.GetRes.obj o1) : Except PyErr (RM.GetRes V)) = .ok (.obj o) := ho
        cases this; rfl
      subst h'
      unfold RM.getItem at hg
      cases hkd : k.kind with
      | func => rw [hkd] at hg; exact hfunc hkd hg
      | klass => rw [hkd] at hg; exact hobj (by rw [hkd]; simp) hg
      | specific => rw [hkd] at hg; exact hobj (by rw [hkd]; simp) hg

example : Found demoClass "a" ∧ (∃ o, (RM.get demoPath (demoRunner demoClass)).1 = .ok (.obj o)) ∧
    ∃ c, (CMM.get demoPath (demoRunner demoClass).cm).1 = .ok (some c) ∧ c.values.get? "a" = some 2 :=
  ⟨.inl (by decide), ⟨_, rfl⟩, ⟨_, rfl, by decide +kernel⟩⟩

/-- C19 fails for keyword-only parameters without defaults: `f(a, *, b, c)` with configured `b`
is created without `b`. -/
theorem C19_keyword_only_violated :
    "b" ∈ demoKwOnly.sig.kwonly ∧
    demoBoundAndConfig (after (demoRunner demoKwOnly) [.get demoPath]) "b" = (none, some 3) := by
  decide +kernel

/-! ## C20 -/

/-- C20: once an item is created, its object is the same after any history, a lookup returns that
object and changes nothing, and a run that succeeds returns what calling that object
returns. -/
theorem C20_same_object [BEq V] (s : RS V) (hs : s.Reachable) (p : List String) (o : Obj V)
    (ho : created s p = some o) (ops : List (ROp V)) (hv : ∀ op ∈ ops, op.Valid) :
    ∃ o', created (after s ops) p = some o' ∧ o'.id = o.id ∧
      RM.get p (after s ops) = (.ok (.obj o'), after s ops) ∧
      ∀ r, (RM.run1 p (after s ops)).1 = .ok r → ∃ v, calling o' = .ok v ∧ r = .one v := by
  have hcall : ∀ o : Obj V, RM.callObj o = calling o := by
    intro o
    unfold RM.callObj calling
    cases o.isPartial <;> rfl
  have hev := RS.steps_evolve ops hv s
  obtain ⟨o', h1, h2⟩ := hev.objs p o ho
  have hreg : (after s ops).reg.lookup p = .ok (.item o'.callable) := (hev.inv hs.inv).reg p o' h1
  refine ⟨o', h1, h2.id, ?_, ?_⟩
  · rw [RM.get_item hreg]
    have : RM.getItem p o'.callable (after s ops) = (.ok o', after s ops) := by
      have h1' : (after s ops).objs.get? p = some o' := h1
      unfold RM.getItem RM.getOneFunc RM.getOneObj
      cases o'.callable.kind <;> simp only <;> rw [M.bind_ok (M.get_run _), h1'] <;> rfl
    rw [M.bind_ok this]
    rfl
  · intro r hr
    rw [RM.run_item hreg, M.bind_run] at hr
    replace h1 : (after s ops).objs.get? p = some o' := h1
    generalize after s ops = t at h1 hr
    have hone : ∀ {t' : RS V}, t'.objs = t.objs → RM.getOneFunc p t' = (.ok o', t') ∧ RM.getOneObj p t' = (.ok o', t') := by
      intro t' ht
      have h1' : t'.objs.get? p = some o' := by rw [ht]; exact h1
      constructor
      · unfold RM.getOneFunc
        rw [M.bind_ok (M.get_run _), h1']; rfl
      · unfold RM.getOneObj
        rw [M.bind_ok (M.get_run _), h1']; rfl
    have hrun : ∀ v, (RM.runItem p o'.callable t).1 = .ok v → RM.callObj o' = .ok v := by
      intro v hrv
      have hfc : ∀ {f : RM V (Obj V)}, (∀ {t' : RS V}, t'.objs = t.objs → f t' = (.ok o', t')) →
          ((RM.funcAndConfig p >>= fun _ => f >>= fun o => M.liftE (RM.callObj o)) t).1 = .ok v →
          RM.callObj o' = .ok v := by
        intro f hf hh
        rw [M.bind_run] at hh
        cases hfc : RM.funcAndConfig p t with
        | mk r t' =>
          rw [hfc] at hh
          cases r with
          | error e => cases hh
          | ok a =>
            obtain ⟨_, _, ht', _, _⟩ := RM.funcAndConfig_ok hfc
            simp only at hh
            rw [M.bind_ok (hf (by rw [ht']))] at hh
            exact hh
      unfold RM.runItem RM.runOneFunc RM.runOneObj at hrv
      cases hk : o'.callable.kind with
      | func => rw [hk] at hrv; exact hfc (fun h => (hone h).1) hrv
      | klass => rw [hk] at hrv; exact hfc (fun h => (hone h).2) hrv
      | specific => rw [hk] at hrv; exact hfc (fun h => (hone h).2) hrv
    cases hri : RM.runItem p o'.callable t with
    | mk x t' =>
      rw [hri] at hr hrun
      cases x with
      | error e => cases hr
      | ok v =>
        refine ⟨v, (hcall o').symm.trans (hrun v rfl), ?_⟩
        have : (Except.ok (RM.RunRes.one v) : Except PyErr (RM.RunRes V)) = .ok r := hr
        cases this
        rfl

example : ∃ o, created (after (demoRunner demoFunc) [.get demoPath]) demoPath = some o ∧
    (∀ op ∈ [demoUpdate [("a", 7)], .refresh demoPath, .run demoPath], op.Valid) := by
  refine ⟨_, rfl, ?_⟩
  simp [ROp.Valid, demoUpdate, demoPath]

/-- C20: objects are created once per item: as many objects have been created since the load as
there are items with a created object, and objects of different items are different. -/
theorem C20_created_once [BEq V] (s : RS V) (hs : s.Reachable) :
    s.nextId = s.objs.items.length ∧
    ∀ p q o o', created s p = some o → created s q = some o' → o.id = o'.id → p = q :=
  ⟨hs.inv.count, hs.inv.inj⟩

/-- C16 for what is called: after any sequence of getting, updating and refreshing a created
function, a run of it that succeeds returns what the function returns for keyword arguments each of
which is the current configuration value. -/
theorem C16_run_is_current_partial [BEq V] (s : RS V) (hs : s.Reachable) (p : List String) (k : Callable V)
    (hp : RunnerItem s p k) (hf : k.kind = .func) (hn : created s p = none) (o : Obj V)
    (ho : (RM.get p s).1 = .ok (.obj o)) (ops : List (ROp V))
    (hops : ∀ op ∈ ops, (∃ q k', RunnerItem s q k' ∧ op.OnItem q) ∧ op ≠ .run p ∧ op ≠ .reset (some p) false)
    (r : RM.RunRes V) (hr : (RM.run1 p (after s (.get p :: ops))).1 = .ok r) :
    ∃ args c v, (after s (.get p :: ops)).cm.walk p = .ok (.conf c) ∧
      (∀ x w, Dict.get? args x = some w → c.values.get? x = some w) ∧ k.app args = .ok v ∧ r = .one v := by
  obtain ⟨o', c, h⟩ := follows_created hp hf hn ho (strong := true) ops
    (fun op hop => ⟨(hops op hop).1, (hops op hop).2.1, fun _ => (hops op hop).2.2⟩)
  have hv : ∀ op ∈ ROp.get p :: ops, op.Valid := by
    have hon : ∀ {op : ROp V} {q : List String}, q ≠ [] → op.OnItem q → op.Valid := by
      intro op q hq h
      cases h <;> simp [ROp.Valid, hq]
    intro op hop
    rcases List.mem_cons.1 hop with rfl | hop
    · exact hon hp.config.1 .get
    · obtain ⟨⟨q, k', hq, hoq⟩, _⟩ := hops op hop
      exact hon hq.config.1 hoq
  have hev := RS.steps_evolve (.get p :: ops) hv s
  have hcr : created (after s (.get p :: ops)) p = some o' := h.obj
  have hreach : (after s (.get p :: ops)).Reachable := by
    obtain ⟨s0, ops0, h1, h2, rfl⟩ := hs
    refine ⟨s0, ops0 ++ .get p :: ops, h1, fun op hop => ?_, by unfold after; rw [List.foldl_append]⟩
    rcases List.mem_append.1 hop with hop | hop
    · exact h2 op hop
    · exact hv op hop
  obtain ⟨o2, e1, _, _, e2⟩ := C20_same_object _ hreach p o' hcr [] (by simp)
  have : o2 = o' := by
    have : created (after s (.get p :: ops)) p = some o2 := e1
    rw [hcr] at this
    cases this; rfl
  subst this
  obtain ⟨v, hv1, hv2⟩ := e2 r hr
  have hk : o2.callable = k := by
    have h1 := hreach.inv.reg p o2 hcr
    have h2 : (after s (.get p :: ops)).reg = s.reg := hev.reg
    rw [h2, hp.registered] at h1
    injection h1 with h1
    injection h1 with h1
    exact h1.symm
  refine ⟨o2.kwargs, c, v, CM.walk_of_slot_conf h.conf, fun x w hx => ?_, ?_, hv2⟩
  · have hc := h.cover rfl x (Dict.mem_keys_of_get? hx)
    obtain ⟨v', hv'⟩ := Dict.get?_isSome_of_mem hc
    rw [hv', h.agree x w v' hx hv']
  · unfold calling at hv1
    rw [h.isPartial] at hv1
    rw [← hk]
    exact hv1

/-- Non-vacuity: after updating `a`, the run returns the value for it. -/
example : (RM.run1 demoPath (after (demoRunner demoFunc) [.get demoPath, demoUpdate [("a", 7)]])).1.toOption.map
    (fun | .one v => v / 100 | _ => 0) = some 7 := by decide +kernel

end Verif.Props

import Verif.Props.Runner
import Verif.Props.Cascade

/-
Property theorems about updates that fail: C73.
-/

namespace Verif.Props
open Verif.Py Verif.Model

variable {V : Type}

/-- The two states have the same objects and the same configs; the config of `p` may be read from its file by now. -/
structure SameConfigs (p : List String) (s t : RS V) : Prop where
  objects : t.objs = s.objs
  registered : t.reg = s.reg
  files : t.cm.fs = s.cm.fs
  localConf : t.cm.localConf = s.cm.localConf
  others : ∀ q, q ≠ p → t.cm.view.slot q = s.cm.view.slot q
  own : t.cm.view.own p = s.cm.view.own p

theorem own_setConf (a : View V) (p : List String) (c : Conf V) : (a.setConf p c).own p = .ok c := by
  unfold View.own
  rw [View.setConf_slot_self]

theorem sameConfigs_of_view {p : List String} {s t : RS V} {c : Conf V} (hv : t.cm.view = s.cm.view.setConf p c)
    (hc : s.cm.view.own p = .ok c) (ho : t.objs = s.objs) (hr : t.reg = s.reg) : SameConfigs p s t :=
  ⟨ho, hr, congrArg View.fs hv, congrArg View.localConf hv,
    fun q hq => by rw [hv, View.setConf_slot_ne _ _ hq], by rw [hv, own_setConf, hc]⟩

/-- C73, exactly what an update that fails leaves.  Nothing has changed; or the item has an object, its config is updated, and
either the object rejects the new configuration, with this exception, and stays as it is, or the object has it already, and
announcing the change failed because of the name of a keyword argument. -/
theorem C73_failed [BEq V] (s : RS V) (p : List String) (hp : ConfigItem s.cm p)
    (d : Option (Dict String V)) (persist : Bool) (kw : Dict String V) (e : PyErr)
    (he : (RM.update d (some p) persist kw s).1 = .error e) :
    SameConfigs p s (RM.update d (some p) persist kw s).2 ∨
    ∃ c o, s.cm.view.own p = .ok c ∧ created s p = some o ∧
      (RM.update d (some p) persist kw s).2.cm.view = s.cm.view.setConf p (c.update d persist kw) ∧
      (RM.update d (some p) persist kw s).2.reg = s.reg ∧
      ((RM.applyConfig o (c.update d persist kw).values = .error e ∧ (RM.update d (some p) persist kw s).2.objs = s.objs) ∨
        ∃ o', RM.applyConfig o (c.update d persist kw).values = .ok o' ∧
          (RM.update d (some p) persist kw s).2.objs = s.objs.set p o' ∧ e = .typeError ∧ "d" ∈ kw.keys) := by
  have hi := hp.isItem
  have hv := CMM.vupdate_item hi.item d persist kw
  have hr := CMM.update_ref hi d persist kw
  unfold CMM.Ref at hr
  rw [hr] at hv
  have h1 := congrArg Prod.fst hv
  have h2 := congrArg Prod.snd hv
  revert he
  unfold RM.update
  rw [M.bind_run]
  unfold RM.liftC
  cases hc : s.cm.view.own p with
  | error e' =>
    simp only [hc] at h1 h2
    simp only [h1]
    intro _
    exact .inl ⟨rfl, rfl, congrArg View.fs h2, congrArg View.localConf h2, fun q _ => congrFun (congrArg View.slot h2) q,
      congrArg (fun a => View.own a p) h2⟩
  | ok c =>
    simp only [hc] at h1 h2
    cases hd : CMM.determineWouldUpdate c d kw with
    | error e' =>
      simp only [hd] at h1 h2
      simp only [h1]
      intro _
      exact .inl (sameConfigs_of_view h2 hc rfl rfl)
    | ok b =>
      cases b with
      | false =>
        simp only [hd] at h1 h2
        simp only [h1]
        intro he
        cases he
      | true =>
        simp only [hd] at h1 h2
        by_cases hcl : Conf.clash Conf.updateReserved kw = true
        · rw [if_pos hcl] at h1 h2
          simp only [h1]
          intro _
          exact .inl (sameConfigs_of_view h2 hc rfl rfl)
        · rw [if_neg hcl] at h1 h2
          simp only [h1]
          unfold RM.applyToLoaded
          rw [M.bind_ok (M.get_run _)]
          simp only
          cases hso : s.objs.get? p with
          | none => intro he; cases he
          | some o =>
            simp only
            rw [M.bind_run, M.liftE_run]
            cases ha : RM.applyConfig o (c.update d persist kw).values with
            | error e' =>
              intro he
              cases he
              exact .inr ⟨c, o, rfl, hso, h2, rfl, .inl ⟨ha, rfl⟩⟩
            | ok o' =>
              simp only
              rw [M.bind_ok (M.modify_run _ _)]
              split
              · next hcl' =>
                intro he
                cases he
                refine .inr ⟨c, o, rfl, hso, h2, rfl, .inr ⟨o', ha, rfl, rfl, ?_⟩⟩
                unfold Conf.clash at hcl'
                rw [List.any_eq_true] at hcl'
                obtain ⟨k, hk, hk'⟩ := hcl'
                have hk' : k ∈ RM.trackReserved := by simpa using hk'
                have hno : Conf.clash CMM.determineReserved kw = false := by
                  unfold CMM.determineWouldUpdate at hd
                  split at hd
                  · cases hd
                  · next h => simpa using h
                have hnot : k ∉ CMM.determineReserved := by
                  intro h
                  have : Conf.clash CMM.determineReserved kw = true := by
                    unfold Conf.clash
                    rw [List.any_eq_true]
                    exact ⟨k, hk, by simpa using h⟩
                  rw [hno] at this
                  cases this
                simp only [RM.trackReserved, List.mem_cons, List.not_mem_nil, or_false] at hk'
                rcases hk' with rfl | rfl | rfl | rfl
                · exact absurd (by decide) hnot
                · exact absurd (by decide) hnot
                · exact absurd (by decide) hnot
                · exact hk
              · intro he; cases he

/-- C73 (missing: objects that reject values, a keyword argument called `d` and items that others read, see the `_violated`
theorems): an update that fails changes nothing, if the item is a function or has no object, or a class that takes all
values. -/
theorem C73_unchanged_partial [BEq V] (s : RS V) (p : List String) (hp : ConfigItem s.cm p)
    (hobj : ∀ o, created s p = some o → o.isPartial = true ∨
      ((∃ names, o.callable.sig.argNames true = .ok names) ∧ ∀ vals, o.callable.upd vals = .ok ()))
    (d : Option (Dict String V)) (persist : Bool) (kw : Dict String V) (hd : "d" ∉ kw.keys) (e : PyErr)
    (he : (RM.update d (some p) persist kw s).1 = .error e) :
    SameConfigs p s (RM.update d (some p) persist kw s).2 := by
  rcases C73_failed s p hp d persist kw e he with h | ⟨c, o, _, ho, _, _, ⟨ha, _⟩ | ⟨_, _, _, _, hk⟩⟩
  · exact h
  · unfold RM.applyConfig at ha
    rcases hobj o ho with hpart | ⟨⟨names, hn⟩, hu⟩
    · rw [hpart] at ha
      cases ha
    · cases hpt : o.isPartial with
      | true => rw [hpt] at ha; cases ha
      | false => rw [hpt, hn] at ha; simp only [hu] at ha; cases ha
  · exact absurd hk hd

/-- A reserved name makes an update fail. -/
example : (RM.update none (some ["f"]) true (Dict.ofList [("a", 2), ("E", 3)]) (after (smallRunner demoFunc) [.get ["f"]])).1.toOption = none ∧
    ConfigItem (after (smallRunner demoFunc) [.get ["f"]]).cm ["f"] ∧
    (created (after (smallRunner demoFunc) [.get ["f"]]) ["f"]).isSome = true :=
  ⟨by decide +kernel, ⟨by simp, (by decide : PlainPath "defaults" ["f"]), .inl ⟨_, rfl⟩⟩, by decide +kernel⟩

/-- A class that rejects `a = 13`. -/
def pickyClass : Callable Nat where
  kind := .klass
  sig := ⟨["self", "a"], [], []⟩
  app _ := .ok 0
  init d := if d.get? "a" = some 13 then .error .valueError else .ok ()
  upd d := if d.get? "a" = some 13 then .error .valueError else .ok ()
  exec d := .ok ((d.get? "a").getD 0)

/-- C73 fails for an object that rejects the new value: the update raises, but the config has the value from then on while the
object has the old one; the same update once more is not an error, and does not reach the object either. -/
theorem C73_object_violated :
    let s := after (smallRunner pickyClass) [.get ["f"]]
    let t := (RM.update none (some ["f"]) true (Dict.ofList [("a", 13)]) s).2
    (RM.update none (some ["f"]) true (Dict.ofList [("a", 13)]) s).1.toOption = none ∧
    ((ownConfig s.cm ["f"]).toOption.map (fun c => c.values.get? "a")) = some (some 1) ∧
    ((ownConfig t.cm ["f"]).toOption.map (fun c => c.values.get? "a")) = some (some 13) ∧
    ((created t ["f"]).map (fun o => bound o "a")) = some (some 1) ∧
    (RM.update none (some ["f"]) true (Dict.ofList [("a", 13)]) t).1.toOption = some () ∧
    ((created (RM.update none (some ["f"]) true (Dict.ofList [("a", 13)]) t).2 ["f"]).map (fun o => bound o "a")) =
      some (some 1) := by
  decide +kernel

/-- A function `f(a, d)` with `a = 1` and `d = 2`. -/
def dFiles : Files Nat where
  read
    | .item ["f"] => .ok (Dict.ofList [("a", 1), ("d", 2)])
    | _ => .error .osError
  tree := .mk false ["f"] []

/-- Its manager. -/
def dRunner : RS Nat where
  cm := ⟨dFiles, "defaults", .sect none [] [("f", .file (.item ["f"]))], Conf.ofDict Dict.empty⟩
  reg := ⟨[], .coll false [("f", .item { demoFunc with sig := ⟨["a", "d"], [], []⟩ })]⟩
  objs := Dict.empty
  nextId := 0

/-- C73 fails for a parameter called `d`: the update of a created item raises a `TypeError` after it is done. -/
theorem C73_parameter_d_violated :
    let s := after dRunner [.get ["f"]]
    let t := (RM.update none (some ["f"]) true (Dict.ofList [("d", 5)]) s).2
    dRunner.Reachable ∧
    (RM.update none (some ["f"]) true (Dict.ofList [("d", 5)]) s).1.toOption = none ∧
    ((ownConfig t.cm ["f"]).toOption.map (fun c => c.values.get? "d")) = some (some 5) ∧
    ((created t ["f"]).map (fun o => bound o "d")) = some (some 5) := by
  refine ⟨⟨dRunner, [], ⟨rfl, rfl, dFiles, "defaults", ?_⟩, by simp, rfl⟩, ?_⟩
  · simp only [CM.load, dFiles, dRunner, fromFiles, fromFilesDirs]
    rfl
  · decide +kernel

/-- A project in which `m.b` and `m.c` read `x` of `m.a`, which `m.b` does not accept if it is large. -/
def failingWorld : World Nat where
  files q :=
    if q = "m.a" then .done (Dict.ofList [("x", 1)])
    else if q = "m.b" then .read "m.a" "x" (fun v => if v < 5 then .done (Dict.ofList [("y", v)]) else .raise .valueError)
    else if q = "m.c" then .read "m.a" "x" (fun v => .done (Dict.ofList [("z", v)]))
    else .raise .attributeError
  attr _ o a := match o.get? a with
    | some v => .ok v
    | none => .error .attributeError
  order _ xs := xs

/-- C73 fails for items that others read: the file of `m.b` raises when it is refreshed, so the update of `m.a` raises; `m.a` is
updated nevertheless, and `m.c` is not, whose file could be executed.  The same update once more succeeds and does nothing, so
`m.c` keeps the old value. -/
theorem C73_dependents_violated :
    let s := (GM.ops failingWorld 9 [.get "m.b", .get "m.c"] GS.new).2
    let t := (GM.op failingWorld 9 (.update "m.a" none true (Dict.ofList [("x", 7)])) s).2
    let u := (GM.op failingWorld 9 (.update "m.a" none true (Dict.ofList [("x", 7)])) t).2
    (GM.op failingWorld 9 (.update "m.a" none true (Dict.ofList [("x", 7)])) s).1.isOk = false ∧
    configured s "m.a" "x" = some 1 ∧ configured t "m.a" "x" = some 7 ∧ configured t "m.c" "z" = some 1 ∧
    (GM.op failingWorld 9 (.update "m.a" none true (Dict.ofList [("x", 7)])) t).1.isOk = true ∧
    configured u "m.a" "x" = some 7 ∧ configured u "m.c" "z" = some 1 := by
  decide +kernel

end Verif.Props

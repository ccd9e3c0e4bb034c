import Verif.Model.View
import Verif.Lemmas.SectionPath
import Verif.Props.Attr
import Verif.Props.Config

/-
Property theorems about setting, reading and calling item views: C67, C68.
-/

namespace Verif.Props
open Verif.Py Verif.Model

variable {V : Type}

/-! ### Lemmas -/

theorem belowManager_eq {path m : String} {p : List String} (h : (SectionPath.mk path).sections = m :: p) (hne : p ≠ []) :
    belowManager p = p := by
  have := SectionPath.hasDot_sections (SectionPath.mk path)
  rw [h] at this
  exact SectionPath.sections_fromSectionStrList hne (fun x hx => this x (List.mem_cons_of_mem _ hx))

theorem on_some {α : Type} {e : PyErr} {m : String} {op : AM V α} {s : VS V} {a : AS V} (h : AList.get? s m = some a) :
    VM.on e m op s = ((op a).1, AList.set s m (op a).2) := by
  unfold VM.on
  rw [h]

/-- The config after one value has been set. -/
theorem updated_one [DecidableEq V] (c : Conf V) (key : String) (value : V) (h : key ∈ c.values.keys) (x : String) :
    (c.updated (some (Dict.ofList [(key, value)])) true Dict.empty).values.get? x =
      if x = key then some value else c.values.get? x := by
  have hget : ∀ y, (Dict.ofList [(key, value)]).get? y = if key = y then some value else none := by
    intro y
    show (Dict.set Dict.empty key value).get? y = _
    rw [Dict.get?_set]
    rfl
  have hU : (c.update (some (Dict.ofList [(key, value)])) true Dict.empty).values.get? x =
      if x = key then some value else c.values.get? x := by
    rw [Conf.get?_update_values]
    simp only [Dict.get?_empty, Option.none_or, Option.bind_some]
    rw [hget]
    by_cases hx : x = key
    · rw [if_pos hx, if_pos hx.symm]; rfl
    · rw [if_neg hx, if_neg (fun e => hx e.symm)]; rfl
  unfold Conf.updated
  have hd : CMM.determineWouldUpdate c (some (Dict.ofList [(key, value)])) Dict.empty =
      .ok (c.wouldUpdate (some (Dict.ofList [(key, value)])) Dict.empty) := rfl
  rw [hd]
  cases hw : c.wouldUpdate (some (Dict.ofList [(key, value)])) Dict.empty with
  | true =>
    simp only
    rw [if_neg (by simp [Conf.clash, Dict.keys, Dict.empty])]
    exact hU
  | false =>
    simp only
    have := C07_no_update_is_invisible c (some (Dict.ofList [(key, value)])) Dict.empty true hw (by
      intro y v hg
      rcases hg with hg | ⟨_, hg⟩
      · rw [Dict.get?_empty] at hg; cases hg
      · obtain ⟨E, hE, hg⟩ := hg
        cases hE
        rw [hget] at hg
        split at hg
        · next e => rw [← e]; exact h
        · cases hg)
    have e := congrArg (fun d : Dict String V => d.get? x) this
    exact e.symm.trans hU

/-- An update that succeeds leaves a created object that is not a partial as it was, or initialised with the new config. -/
theorem update_object [BEq V] {s : RS V} {p : List String} (hp : IsItem s.cm p) {c : Conf V} (hc : s.cm.view.own p = .ok c)
    {d : Option (Dict String V)} {persist : Bool} {kw : Dict String V} {o : Obj V} (ho : s.objs.get? p = some o)
    (hok : (RM.update d (some p) persist kw s).1 = .ok ()) :
    ∃ o', (RM.update d (some p) persist kw s).2.objs.get? p = some o' ∧
      ((CMM.determineWouldUpdate c d kw = .ok false ∧ o' = o) ∨
        RM.applyConfig o (c.updated d persist kw).values = .ok o') := by
  have hv := CMM.vupdate_item hp.item d persist kw
  rw [hc] at hv
  have hr := CMM.update_ref hp d persist kw
  unfold CMM.Ref at hr
  rw [hr] at hv
  have h1 := congrArg Prod.fst hv
  revert hok
  unfold RM.update
  rw [M.bind_run]
  unfold RM.liftC Conf.updated
  cases hd : CMM.determineWouldUpdate c d kw with
  | error e =>
    simp only [hd] at h1
    simp only [h1]
    intro h; cases h
  | ok b =>
    cases b with
    | false =>
      simp only [hd] at h1
      simp only [h1]
      exact fun _ => ⟨o, ho, .inl ⟨trivial, rfl⟩⟩
    | true =>
      simp only [hd] at h1
      by_cases hcl : Conf.clash Conf.updateReserved kw = true
      · rw [if_pos hcl] at h1
        simp only [h1]
        intro h; cases h
      · rw [if_neg hcl] at h1
        simp only [h1, if_neg hcl]
        unfold RM.applyToLoaded
        rw [M.bind_ok (M.get_run _)]
        simp only
        rw [ho]
        simp only
        rw [M.bind_run, M.liftE_run]
        cases ha : RM.applyConfig o (c.update d persist kw).values with
        | error e => intro h; cases h
        | ok o' =>
          simp only
          rw [M.bind_ok (M.modify_run _ _)]
          intro _
          refine ⟨o', ?_, .inr rfl⟩
          split <;> exact Dict.get?_set_self _ _ _

/-- What the first `get` of a registered class binds. -/
theorem get_object {s : RS V} {p : List String} (hp : IsItem s.cm p) {k : Callable V} (hk : s.reg.lookup p = .ok (.item k))
    (hf : k.kind ≠ .func) (ho : s.objs.get? p = none) {c : Conf V} (hc : s.cm.view.own p = .ok c) {names : List String}
    (hn : k.sig.argNames true = .ok names) {x : String} (hx : x ∈ names) {r : RM.GetRes V} (hr : (RM.get p s).1 = .ok r) :
    ∃ o, r = .obj o ∧ o.isPartial = false ∧ o.callable = k ∧ o.kwargs.get? x = (CMM.active s.cm.view p c).values.get? x := by
  have hn' : ∃ names', k.sig.argNames false = .ok names' ∧ x ∈ names' := by
    unfold Sig.argNames at hn ⊢
    cases ha : k.sig.args with
    | nil => rw [ha] at hn; cases hn
    | cons y ys =>
      rw [ha] at hn
      cases hn
      exact ⟨_, rfl, by simp only [List.mem_append] at hx; simp only [List.cons_append, List.mem_cons, List.mem_append]; exact .inr hx⟩
  obtain ⟨names', hn', hx'⟩ := hn'
  obtain ⟨g1, g2⟩ := CMM.get_of_own hp hc
  have hfc : RM.funcAndConfig p s = (.ok (.item k,
      (CMM.active s.cm.view p c).values.filterKeys (fun x => decide (x ∈ names'))),
      { s with cm := (CMM.get p s.cm).2 }) := by
    unfold RM.funcAndConfig
    have hgc : RM.getConfig p s = (.ok (CMM.active s.cm.view p c), { s with cm := (CMM.get p s.cm).2 }) := by
      unfold RM.getConfig
      rw [M.bind_run]
      unfold RM.liftC
      simp only [g1]
      rfl
    rw [M.bind_ok hgc]
    have hlk : RM.lookup p { s with cm := (CMM.get p s.cm).2 } =
        (.ok (.item k), { s with cm := (CMM.get p s.cm).2 }) := by
      show (s.reg.lookup p, _) = _
      rw [hk]
    rw [M.bind_ok hlk]
    have hff : RM.forFunction (CMM.active s.cm.view p c) (.item k) =
        .ok ((CMM.active s.cm.view p c).values.filterKeys (fun x => decide (x ∈ names'))) := by
      unfold RM.forFunction
      simp only [hn']
    rw [hff]
    rfl
  have hlk : RM.lookup p s = (.ok (.item k), s) := by
    show (s.reg.lookup p, _) = _
    rw [hk]
  have hgi : RM.getItem p k = RM.getOneObj p := by
    unfold RM.getItem
    cases hkk : k.kind with
    | func => exact absurd hkk hf
    | klass => rfl
    | specific => rfl
  rw [RM.get_item hk, hgi, M.bind_run] at hr
  unfold RM.getOneObj at hr
  rw [M.bind_ok (M.get_run s), ho] at hr
  simp only at hr
  rw [M.bind_ok hlk, M.bind_ok hfc] at hr
  simp only at hr
  rw [M.bind_ok (M.get_run _), M.bind_run, M.liftE_run] at hr
  simp only at hr
  have hbind : ((CMM.active s.cm.view p c).values.filterKeys (fun x => decide (x ∈ names'))).get? x =
      (CMM.active s.cm.view p c).values.get? x := by
    rw [Dict.get?_filterKeys]
    simp [hx']
  cases hcon : RM.construct s.nextId k ((CMM.active s.cm.view p c).values.filterKeys (fun x => decide (x ∈ names'))) with
  | error e => rw [hcon] at hr; cases hr
  | ok o =>
    rw [hcon] at hr
    have hr' : r = .obj o := by cases hr; rfl
    refine ⟨o, hr', ?_⟩
    unfold RM.construct at hcon
    have key : (if ((CMM.active s.cm.view p c).values.filterKeys (fun x => decide (x ∈ names'))).contains
          (k.sig.args.headD "self") then .error .typeError
        else match k.init ((CMM.active s.cm.view p c).values.filterKeys (fun x => decide (x ∈ names'))) with
          | .error e => .error e
          | .ok () => .ok ⟨s.nextId, false, k,
              (CMM.active s.cm.view p c).values.filterKeys (fun x => decide (x ∈ names'))⟩ : Except PyErr (Obj V)) = .ok o →
        o.isPartial = false ∧ o.callable = k ∧ o.kwargs.get? x = (CMM.active s.cm.view p c).values.get? x := by
      intro h
      split at h
      · cases h
      · split at h
        · cases h
        · cases h; exact ⟨rfl, rfl, hbind⟩
    cases hkk : k.kind with
    | func => exact absurd hkk hf
    | klass => rw [hkk] at hcon; exact key hcon
    | specific =>
      rw [hkk] at hcon
      simp only [RM.applyConfig, hn] at hcon
      split at hcon
      · cases hcon
      · cases hcon
        refine ⟨rfl, rfl, ?_⟩
        show (Dict.filterKeys _ _).get? x = _
        rw [Dict.get?_filterKeys, if_pos (by simpa using hx)]
        exact hbind

/-! ## C67 -/

/-- C67. Setting an attribute that is not one of the view itself does exactly what updating the item with that value does, on
the manager of the view and on no other, and returns or raises what that does. -/
theorem C67_set [BEq V] (s : VS V) (path m : String) (p : List String) (hv : (SectionPath.mk path).sections = m :: p)
    (hne : p ≠ []) (a : AS V) (ha : AList.get? s m = some a) (key : String) (value : V) (hown : key ∉ viewOwnAttrs) :
    viewSet path key value s =
      ((RM.update (some (Dict.ofList [(key, value)])) (some p) true Dict.empty a.rs).1,
        AList.set s m ⟨(RM.update (some (Dict.ofList [(key, value)])) (some p) true Dict.empty a.rs).2, a.full⟩) := by
  unfold viewSet
  rw [if_neg hown, hv]
  simp only
  rw [belowManager_eq hv hne, on_some ha]
  rfl

/-- C67. If the config of the item has the key, it has the value after setting it, also if the object of the item could not be
changed; its other values, the other items and the other managers stay as they are. -/
theorem C67_config [DecidableEq V] (s : VS V) (path m : String) (p : List String)
    (hv : (SectionPath.mk path).sections = m :: p) (a : AS V) (ha : AList.get? s m = some a) (k : Callable V)
    (hp : RunnerItem a.rs p k) (c : Conf V) (hc : ownConfig a.rs.cm p = .ok c) (key : String) (value : V)
    (hown : key ∉ viewOwnAttrs) (hkey : key ∈ c.values.keys) :
    ∃ a', AList.get? (viewSet path key value s).2 m = some a' ∧
      (∃ c', a'.rs.cm.walk p = .ok (.conf c') ∧ ∀ x, c'.values.get? x = if x = key then some value else c.values.get? x) ∧
      (∀ q, q ≠ p → created a'.rs q = created a.rs q ∧ a'.rs.cm.view.slot q = a.rs.cm.view.slot q) ∧
      a'.rs.cm.localConf = a.rs.cm.localConf ∧ a'.rs.cm.fs = a.rs.cm.fs ∧ a'.rs.reg = a.rs.reg ∧ a'.full = a.full ∧
      ∀ n, n ≠ m → AList.get? (viewSet path key value s).2 n = AList.get? s n := by
  rw [C67_set s path m p hv hp.config.ne a ha key value hown]
  obtain ⟨f1, f2, f3, f4⟩ := C12_runner_frame a.rs p k hp (.update (some (Dict.ofList [(key, value)])) (some p) true Dict.empty)
    (.update _ _ _)
  refine ⟨⟨(RM.update (some (Dict.ofList [(key, value)])) (some p) true Dict.empty a.rs).2, a.full⟩,
    by rw [AList.get?_set, if_pos rfl], ?_, f1, f2, f3, f4, rfl, ?_⟩
  · rw [ownConfig_eq hp.config] at hc
    obtain ⟨h1, _⟩ := RM.update_cm hp.config.isItem hc (some (Dict.ofList [(key, value)])) true Dict.empty
    refine ⟨c.updated (some (Dict.ofList [(key, value)])) true Dict.empty, ?_, updated_one c key value hkey⟩
    apply CM.walk_of_slot_conf
    show (RM.update (some (Dict.ofList [(key, value)])) (some p) true Dict.empty a.rs).2.cm.view.slot p = _
    rw [h1, View.setConf_slot_self]
  · intro n hn
    rw [AList.get?_set, if_neg (fun e => hn e.symm)]

/-- C67. Reading the attribute after setting it gives the value, if it gives anything: for an object whose class keeps its
arguments as attributes (`hlaw`), a parameter that its config has, and if no enclosing config sets it as well when the object
has yet to be created (missing: functions, see `C67_function_violated`, keys that the config does not have, see
`C67_new_key_violated`, inherited values, see `C67_inherited_violated`, and names that views use themselves, see
`C67_own_names_violated`). -/
theorem C67_read_partial [DecidableEq V] (s : VS V) (path m : String) (p : List String)
    (hv : (SectionPath.mk path).sections = m :: p) (a : AS V) (ha : AList.get? s m = some a) (hclean : a.full = "")
    (hs : a.rs.Reachable) (k : Callable V) (hp : RunnerItem a.rs p k) (hpa : AttrItem a.rs.reg p k) (hk : k.kind ≠ .func)
    (c : Conf V) (hc : ownConfig a.rs.cm p = .ok c) (key : String) (value : V) (hown : key ∉ viewNames)
    (hkey : key ∈ c.values.keys) (names : List String) (hnames : k.sig.argNames true = .ok names) (hacc : key ∈ names)
    (hinh : created a.rs p = none → inherited a.rs.cm p key = none)
    (hobj : ∀ o, created a.rs p = some o → o.isPartial = false ∧ (c.values.get? key = some value → bound o key = some value))
    (sel : Sel V) (hsel : selContains sel (path ++ "." ++ key) = .ok false) (own : Obj V → String → Except PyErr V)
    (hlaw : ∀ o x v, o.callable = k → o.isPartial = false → bound o x = some v → own o x = .ok v)
    (hset : (viewSet path key value s).1 = .ok ()) (r : ViewAttr V)
    (hr : (viewGet sel own path key (viewSet path key value s).2).1 = .ok r) : r = .value value := by
  have hown' : key ∉ viewOwnAttrs := fun h => hown ((by decide : ∀ x ∈ viewOwnAttrs, x ∈ viewNames) key h)
  have hi := hp.config.isItem
  have hne := hp.config.ne
  rw [C67_set s path m p hv hne a ha key value hown'] at hset hr
  simp only at hset hr
  have hc' := hc
  rw [ownConfig_eq hp.config] at hc
  generalize hD : some (Dict.ofList [(key, value)]) = D at hset hr
  obtain ⟨h1, h2, h3, _⟩ := RM.update_cm hi hc D true Dict.empty
  have hfr := RS.step_frame hi hp.registered (ROp.OnItem.update D true Dict.empty)
  have hval : (c.updated D true Dict.empty).values.get? key = some value := by
    rw [← hD, updated_one c key value hkey, if_pos rfl]
  have hreg := hs.inv.reg
  -- reading
  unfold viewGet at hr
  rw [if_neg hown, hsel] at hr
  simp only at hr
  rw [M.bind_run] at hr
  unfold realItem at hr
  rw [hv] at hr
  simp only at hr
  rw [belowManager_eq hv hne, on_some (by rw [AList.get?_set, if_pos rfl])] at hr
  have hacc' := C25_access_partial ⟨(RM.update D (some p) true Dict.empty a.rs).2, a.full⟩ hclean p k (by
    rw [show (RM.update D (some p) true Dict.empty a.rs).2.reg = a.rs.reg from h2]; exact hpa)
  rw [hacc'] at hr
  simp only at hr
  -- the object
  have hgot : ∀ g, (RM.get p (RM.update D (some p) true Dict.empty a.rs).2).1 = .ok g →
      ∃ o, g = .obj o ∧ o.callable = k ∧ o.isPartial = false ∧ bound o key = some value := by
    intro g hg
    cases ho : a.rs.objs.get? p with
    | some o =>
      obtain ⟨o', ho', hcase⟩ := update_object hi hc ho hset
      obtain ⟨hpart, hb⟩ := hobj o ho
      have hcall : o.callable = k := by
        have := hreg p o ho
        rw [hp.registered] at this
        cases this
        rfl
      have hg' : (RM.get p (RM.update D (some p) true Dict.empty a.rs).2).1 = .ok (.obj o') := by
        rw [RM.get_item (by rw [h2]; exact hp.registered), M.bind_run]
        unfold RM.getItem
        cases hkk : k.kind with
        | func => exact absurd hkk hk
        | klass => simp only; unfold RM.getOneObj; rw [M.bind_ok (M.get_run _), ho']; rfl
        | specific => simp only; unfold RM.getOneObj; rw [M.bind_ok (M.get_run _), ho']; rfl
      rw [hg'] at hg
      cases hg
      refine ⟨o', rfl, ?_⟩
      rcases hcase with ⟨hw, rfl⟩ | happ
      · refine ⟨hcall, hpart, hb ?_⟩
        unfold Conf.updated at hval
        rw [hw] at hval
        exact hval
      · unfold RM.applyConfig at happ
        rw [hpart] at happ
        simp only [hcall, hnames] at happ
        split at happ
        · cases happ
        · cases happ
          refine ⟨rfl, rfl, ?_⟩
          show (Dict.filterKeys _ _).get? key = _
          rw [Dict.get?_filterKeys, if_pos (by simpa using hacc)]
          exact hval
    | none =>
      have hownB : (RM.update D (some p) true Dict.empty a.rs).2.cm.view.own p = .ok (c.updated D true Dict.empty) := by
        unfold View.own
        rw [h1, View.setConf_slot_self]
      obtain ⟨o, e1, e2, e3, e4⟩ := get_object hfr.item (by
          show (RM.update D (some p) true Dict.empty a.rs).2.reg.lookup p = _
          rw [h2]; exact hp.registered) hk (by
          show (RM.update D (some p) true Dict.empty a.rs).2.objs.get? p = _
          rw [h3 ho]; exact ho) hownB hnames hacc hg
      refine ⟨o, e1, e3, e2, ?_⟩
      have hact : CMM.active (RM.update D (some p) true Dict.empty a.rs).2.cm.view p (c.updated D true Dict.empty) =
          CMM.active a.rs.cm.view p (c.updated D true Dict.empty) := by
        refine CMM.active_congr hfr.rest.2.1 ?_ _
        intro j hj
        refine hfr.slots _ ?_
        intro hh
        obtain ⟨cfg, hsl⟩ := hi.prefix_sect hj
        have := hi.item
        rw [← hh, hsl] at this
        cases this
      have hof := hs.cm.good.ownFiles
      have hfile : (c.updated D true Dict.empty).file = some (.item p) := by
        have := hof.own hi.plain hc
        unfold Conf.updated
        split
        · split
          · exact this
          · exact this
        · exact this
      show o.kwargs.get? key = _
      rw [e4]
      show (CMM.active (RM.update D (some p) true Dict.empty a.rs).2.cm.view p _).values.get? key = _
      rw [hact, active_get? hof hi hfile ?_, hinh ho, hval]
      · rfl
      · intro hE
        rw [hE] at hval
        cases hval
  cases hres : (RM.get p (RM.update D (some p) true Dict.empty a.rs).2).1 with
  | error e =>
    rw [hres] at hr
    cases hr
  | ok g =>
    rw [hres] at hr
    obtain ⟨o, rfl, o1, o2, o3⟩ := hgot g hres
    simp only [asAttr] at hr
    rw [M.bind_run, M.liftE_run] at hr
    have : o.attr own key = .ok value := by
      unfold Obj.attr
      rw [if_neg (by rw [o2]; simp)]
      exact hlaw o key value o1 o2 o3
    rw [this] at hr
    cases hr
    rfl

/-! ### A concrete project -/

/-- Objects with their arguments as attributes. -/
def keepsArgs (o : Obj Nat) (x : String) : Except PyErr Nat :=
  match bound o x with
  | some v => .ok v
  | none => .error .attributeError

/-- The manager `pm` with the project `demoRunner`, or `smallRunner`. -/
def demoManagers (k : Callable Nat) : VS Nat := [("pm", ⟨demoRunner k, ""⟩)]

def smallManagers (k : Callable Nat) : VS Nat := [("pm", ⟨smallRunner k, ""⟩)]

/-- What is in the selector. -/
def managersSel (s : VS Nat) : Sel Nat := s.map (fun e => (e.1, e.2.rs.reg))

/-- The result of reading an attribute after setting one: a value, or an exception, or something else. -/
def readAfter (s : VS Nat) (path key : String) (value : Nat) (x : String) : Option (Except PyErr Nat) :=
  match viewSet path key value s with
  | (.error _, _) => none
  | (.ok (), s') => match (viewGet (managersSel s) keepsArgs path x s').1 with
    | .ok (.value v) => some (.ok v)
    | .error e => some (.error e)
    | .ok _ => none

/-- The values of a config. -/
def confValue (s : VS Nat) (m : String) (p : List String) (x : String) : Option Nat :=
  match AList.get? s m with
  | none => none
  | some a => match ownConfig a.rs.cm p with
    | .ok c => c.values.get? x
    | .error _ => none

theorem smallItem (k : Callable Nat) : AttrItem (smallRunner k).reg ["f"] k :=
  ⟨⟨by decide, by decide⟩, rfl, by decide, by decide⟩

/-- The hypotheses are met, and the value is read. -/
example : RunnerItem (smallRunner demoClass) ["f"] demoClass ∧ AttrItem (smallRunner demoClass).reg ["f"] demoClass ∧
    (smallRunner demoClass).Reachable ∧ demoClass.kind ≠ .func ∧ "a" ∉ viewNames ∧
    (∃ c, ownConfig (smallRunner demoClass).cm ["f"] = .ok c ∧ "a" ∈ c.values.keys) ∧
    (∃ names, demoClass.sig.argNames true = .ok names ∧ "a" ∈ names) ∧
    inherited (smallRunner demoClass).cm ["f"] "a" = none ∧ created (smallRunner demoClass) ["f"] = none ∧
    (selContains (managersSel (smallManagers demoClass)) "pm.f.a").toOption = some false ∧
    readAfter (smallManagers demoClass) "pm.f" "a" 3 "a" = some (.ok 3) :=
  ⟨smallRunner_item _, smallItem _, smallRunner_reachable _, by decide, by decide, ⟨_, rfl, by decide⟩,
    ⟨_, rfl, by decide⟩, by decide, rfl, by decide +kernel, by decide +kernel⟩

theorem realItem_item {s : VS V} {path m : String} {p : List String} (hv : (SectionPath.mk path).sections = m :: p) {a : AS V}
    (ha : AList.get? s m = some a) (hclean : a.full = "") {k : Callable V} (hp : AttrItem a.rs.reg p k) :
    realItem path s = (asAttr (RM.get p a.rs).1, AList.set s m ⟨(RM.get p a.rs).2, ""⟩) := by
  unfold realItem
  rw [hv]
  simp only
  rw [belowManager_eq hv hp.sections.1, on_some ha, C25_access_partial a hclean p k hp]

/-- C67. What reading an attribute of the view of an item gives, if the attribute is no name of views and no item below: that
of the object that `get` gives, and for a function only the attributes of a `partial`; if `get` fails, its exception. -/
theorem C67_reading (s : VS V) (path m : String) (p : List String) (hv : (SectionPath.mk path).sections = m :: p) (a : AS V)
    (ha : AList.get? s m = some a) (hclean : a.full = "") (k : Callable V) (hp : AttrItem a.rs.reg p k) (sel : Sel V)
    (own : Obj V → String → Except PyErr V) (x : String) (hx : x ∉ viewNames)
    (hsel : selContains sel (path ++ "." ++ x) = .ok false) :
    (∀ e rs', RM.get p a.rs = (.error e, rs') → (viewGet sel own path x s).1 = .error e) ∧
    (∀ o rs', RM.get p a.rs = (.ok (.obj o), rs') → o.isPartial = false →
      (viewGet sel own path x s).1 = (own o x).map .value) ∧
    (∀ o rs', RM.get p a.rs = (.ok (.obj o), rs') → o.isPartial = true →
      (viewGet sel own path x s).1 =
        if x = "func" ∨ x = "args" ∨ x = "keywords" then (own o x).map .value else .error .attributeError) := by
  have hr := realItem_item hv ha hclean hp
  have hg : ∀ o rs', RM.get p a.rs = (.ok (.obj o), rs') →
      (viewGet sel own path x s).1 = (o.attr own x).map .value := by
    intro o rs' hget
    unfold viewGet
    rw [if_neg hx, hsel]
    simp only
    rw [hget] at hr
    rw [M.bind_ok hr]
    simp only
    rw [M.bind_run]
    cases o.attr own x <;> rfl
  refine ⟨fun e rs' hget => ?_, fun o rs' hget ho => ?_, fun o rs' hget ho => ?_⟩
  · unfold viewGet
    rw [if_neg hx, hsel]
    simp only
    rw [hget] at hr
    rw [M.bind_run, hr]
    rfl
  · rw [hg o rs' hget, Obj.attr, if_neg (by simp [ho])]
  · rw [hg o rs' hget, Obj.attr]
    by_cases h : x ∈ partialAttrs
    · rw [if_neg (by simp [h]), if_pos (by simpa [partialAttrs] using h)]
    · rw [if_pos ⟨ho, h⟩, if_neg (by simpa [partialAttrs] using h)]
      rfl

/-- The hypotheses are met for a function, whose `keywords` are read. -/
example : AttrItem (smallRunner demoFunc).reg ["f"] demoFunc ∧ "keywords" ∉ viewNames ∧
    (selContains (managersSel (smallManagers demoFunc)) "pm.f.keywords").toOption = some false ∧
    (match (RM.get ["f"] (smallRunner demoFunc)).1 with | .ok (.obj o) => o.isPartial | _ => false) = true ∧
    (match (viewGet (managersSel (smallManagers demoFunc)) (fun _ _ => .ok 5) "pm.f" "keywords" (smallManagers demoFunc)).1 with
      | .ok (.value v) => v | _ => 0) = 5 :=
  ⟨smallItem _, by decide, by decide +kernel, by decide +kernel, by decide +kernel⟩

/-- C67 fails for a parameter that is not in the config of the item: setting it does nothing, without an error. -/
theorem C67_new_key_violated :
    (viewSet "pm.f" "b" 3 (smallManagers demoClass)).1.toOption = some () ∧
    confValue (viewSet "pm.f" "b" 3 (smallManagers demoClass)).2 "pm" ["f"] "b" = none ∧
    readAfter (smallManagers demoClass) "pm.f" "b" 3 "b" = some (.error .attributeError) := by
  decide +kernel

/-- C67 fails for functions: the value is set, and reading the attribute raises an `AttributeError`. -/
theorem C67_function_violated :
    confValue (viewSet "pm.f" "a" 3 (smallManagers demoFunc)).2 "pm" ["f"] "a" = some 3 ∧
    readAfter (smallManagers demoFunc) "pm.f" "a" 3 "a" = some (.error .attributeError) := by
  decide +kernel

/-- C67 fails if an enclosing config sets the parameter as well and the object has yet to be created: reading the attribute
gives the value of the enclosing config. -/
theorem C67_inherited_violated :
    readAfter (demoManagers demoClass) "pm.main.data.func" "a" 7 "a" = some (.ok 2) := by
  decide +kernel

/-- C67 fails for the names that views use themselves: setting `selector`, `section_path_str`, `_section_path_str` or
`_is_item_view` changes no config, and reading `type` or `item` gives something of the view. -/
theorem C67_own_names_violated [BEq V] (s : VS V) (path : String) (value : V) (sel : Sel V) (own : Obj V → String → Except PyErr V) :
    (∀ key ∈ ["selector", "section_path_str", "_section_path_str", "_is_item_view"], viewSet path key value s = (.ok (), s)) ∧
    (∀ x ∈ ["type", "item"], viewGet sel own path x s = (.ok .own, s)) := by
  constructor
  · intro key h
    unfold viewSet
    rw [if_pos (by simp only [List.mem_cons, List.not_mem_nil, or_false] at h; rcases h with rfl | rfl | rfl | rfl <;> decide)]
    rfl
  · intro x h
    unfold viewGet
    rw [if_pos (by simp only [List.mem_cons, List.not_mem_nil, or_false] at h; rcases h with rfl | rfl <;> decide)]
    rfl

/-! ## C68 -/

/-- The last of the collections of a specific class with this class. -/
def lastOfClass (cs : List ClassColl) (n : Nat) : Option ClassColl :=
  (cs.filter (fun c => decide (c.klass = n))).getLast?

theorem get?_map_class (cs : List ClassColl) (n : Nat) (m : List (Nat × ClassColl)) :
    AList.get? (cs.foldl (fun m c => AList.set m c.klass c) m) n = (lastOfClass cs n).or (AList.get? m n) := by
  induction cs generalizing m with
  | nil => rfl
  | cons c cs ih =>
    rw [List.foldl_cons, ih, AList.get?_set]
    unfold lastOfClass
    by_cases h : c.klass = n
    · rw [if_pos h, List.filter_cons_of_pos (by simpa using h)]
      cases hl : (cs.filter (fun c => decide (c.klass = n))).getLast? with
      | none =>
        rw [List.getLast?_eq_none_iff] at hl
        rw [hl]
        rfl
      | some x =>
        rw [List.getLast?_cons, hl]
        rfl
    · rw [if_neg h, List.filter_cons_of_neg (by simpa using h)]

theorem classMap_eq (managers : List (String × List ClassColl)) :
    classMap managers = ((managers.flatMap Prod.snd).filter (fun c => decide (c.name ≠ "_general"))).foldl
      (fun m c => AList.set m c.klass c) [] := by
  unfold classMap
  generalize managers.flatMap Prod.snd = cs
  generalize ([] : List (Nat × ClassColl)) = m
  induction cs generalizing m with
  | nil => rfl
  | cons c cs ih =>
    rw [List.foldl_cons, ih]
    by_cases h : c.name = "_general"
    · rw [if_pos h, List.filter_cons_of_neg (by simp [h])]
    · rw [if_neg h, List.filter_cons_of_pos (by simp [h]), List.foldl_cons]

theorem get?_classMap (managers : List (String × List ClassColl)) (n : Nat) :
    AList.get? (classMap managers) n =
      lastOfClass ((managers.flatMap Prod.snd).filter (fun c => decide (c.name ≠ "_general"))) n := by
  rw [classMap_eq, get?_map_class]
  cases lastOfClass _ n <;> rfl

theorem lastOfClass_isSome (cs : List ClassColl) (n : Nat) :
    (lastOfClass cs n).isSome = true ↔ ∃ c ∈ cs, c.klass = n := by
  unfold lastOfClass
  rw [List.getLast?_isSome]
  constructor
  · intro h
    obtain ⟨c, hc⟩ := List.exists_mem_of_ne_nil _ h
    rw [List.mem_filter] at hc
    exact ⟨c, hc.1, by simpa using hc.2⟩
  · rintro ⟨c, h1, h2⟩ h
    have : c ∈ cs.filter (fun c => decide (c.klass = n)) := List.mem_filter.2 ⟨h1, by simpa using h2⟩
    rw [h] at this
    cases this

theorem lastOfClass_some {cs : List ClassColl} {n : Nat} {c : ClassColl} (h : lastOfClass cs n = some c) :
    c ∈ cs ∧ c.klass = n := by
  unfold lastOfClass at h
  have := List.mem_of_getLast? h
  rw [List.mem_filter] at this
  exact ⟨this.1, by simpa using this.2⟩

/-- The collections of specific classes of all managers. -/
def allColls (managers : List (String × List ClassColl)) : List ClassColl :=
  (managers.flatMap Prod.snd).filter (fun c => decide (c.name ≠ "_general"))

theorem classMap_any (managers : List (String × List ClassColl)) (f : Nat → Bool) :
    (classMap managers).any (fun e => f e.1) = true ↔ ∃ c ∈ allColls managers, f c.klass = true := by
  have hkeys : ∀ n, n ∈ (classMap managers).map Prod.fst ↔ ∃ c ∈ allColls managers, c.klass = n := by
    intro n
    rw [← AList.get?_isSome_iff, get?_classMap, lastOfClass_isSome]
    rfl
  rw [List.any_eq_true]
  constructor
  · rintro ⟨e, he, hf⟩
    obtain ⟨c, hc, hn⟩ := (hkeys e.1).1 (List.mem_map.2 ⟨e, he, rfl⟩)
    exact ⟨c, hc, by rw [hn]; exact hf⟩
  · rintro ⟨c, hc, hf⟩
    obtain ⟨e, he, hn⟩ := List.mem_map.1 ((hkeys c.klass).2 ⟨c, hc, rfl⟩)
    exact ⟨e, he, by rw [hn]; exact hf⟩

/-- C68. If getting the item of a view fails, calling the view fails in the same way, and calls nothing. -/
theorem C68_failure (cls : Classes V) (managers : List (String × List ClassColl)) (s : VS V) (path m : String)
    (p : List String) (hv : (SectionPath.mk path).sections = m :: p) (a : AS V) (ha : AList.get? s m = some a)
    (hclean : a.full = "") (k : Callable V) (hp : AttrItem a.rs.reg p k) (e : PyErr) (rs' : RS V)
    (hget : RM.get p a.rs = (.error e, rs')) :
    viewCall cls managers path s = (.error e, AList.set s m ⟨rs', ""⟩) := by
  unfold viewCall
  rw [M.bind_run, realItem_item hv ha hclean hp, hget]
  rfl

/-- C68. Calling the view of a function calls the configured function, the one `get` gives, and leaves the managers as `get`
does. -/
theorem C68_function (cls : Classes V) (managers : List (String × List ClassColl)) (s : VS V) (path m : String)
    (p : List String) (hv : (SectionPath.mk path).sections = m :: p) (a : AS V) (ha : AList.get? s m = some a)
    (hclean : a.full = "") (k : Callable V) (hp : AttrItem a.rs.reg p k) (o : Obj V) (rs' : RS V)
    (hget : RM.get p a.rs = (.ok (.obj o), rs')) (ho : o.isPartial = true) :
    viewCall cls managers path s = (.ok (.func o), AList.set s m ⟨rs', ""⟩) := by
  unfold viewCall
  have hr := realItem_item hv ha hclean hp
  rw [hget] at hr
  rw [M.bind_ok hr, hv]
  obtain ⟨x, rest, rfl⟩ := List.exists_cons_of_ne_nil hp.sections.1
  simp only [ho, if_true]
  rfl

/-- C68. What calling the view of an object does, for every structure of collections.  Under a collection (or the name
`general`), if the class of the object or one above it is the class of some collection of some manager: the method named by
the last collection, of all managers, with exactly the class of the object, or a `KeyError` if there is none.  Otherwise
nothing is called, and the object is returned. -/
theorem C68_object (cls : Classes V) (managers : List (String × List ClassColl)) (s : VS V) (path m x : String)
    (rest : List String) (hv : (SectionPath.mk path).sections = m :: x :: rest) (a : AS V) (ha : AList.get? s m = some a)
    (hclean : a.full = "") (k : Callable V) (hp : AttrItem a.rs.reg (x :: rest) k) (o : Obj V) (rs' : RS V)
    (hget : RM.get (x :: rest) a.rs = (.ok (.obj o), rs')) (ho : o.isPartial = false) :
    let inColl := x = "general" ∨ ∃ c ∈ (AList.get? managers m).getD [], c.name = x
    let above := ∃ c ∈ allColls managers, cls.sub (cls.of o) c.klass = true
    (inColl ∧ above → ∀ c, lastOfClass (allColls managers) (cls.of o) = some c →
      viewCall cls managers path s = (.ok (.method o c.execute), AList.set s m ⟨rs', ""⟩)) ∧
    (inColl ∧ above → (∀ c ∈ allColls managers, c.klass ≠ cls.of o) →
      viewCall cls managers path s = (.error .keyError, AList.set s m ⟨rs', ""⟩)) ∧
    (¬ (inColl ∧ above) → viewCall cls managers path s = (.ok (.object o), AList.set s m ⟨rs', ""⟩)) := by
  intro inColl above
  have hr := realItem_item hv ha hclean hp
  rw [hget] at hr
  have hin : (x ∈ "general" :: ((AList.get? managers m).getD []).map ClassColl.name) ↔ inColl := by
    simp [inColl]
  have hab := classMap_any managers (fun n => cls.sub (cls.of o) n)
  have hmap : AList.get? (classMap managers) (cls.of o) = lastOfClass (allColls managers) (cls.of o) :=
    get?_classMap managers (cls.of o)
  unfold viewCall
  refine ⟨fun h c hc => ?_, fun h hn => ?_, fun h => ?_⟩
  · rw [M.bind_ok hr, hv]
    simp only [ho]
    rw [if_neg (by simp), if_pos (by simp only [Bool.and_eq_true, decide_eq_true_eq]; exact ⟨hin.2 h.1, hab.2 h.2⟩), hmap,
      hc]
    rfl
  · have : lastOfClass (allColls managers) (cls.of o) = none := by
      cases hl : lastOfClass (allColls managers) (cls.of o) with
      | none => rfl
      | some c => exact absurd (lastOfClass_some hl).2 (hn c (lastOfClass_some hl).1)
    rw [M.bind_ok hr, hv]
    simp only [ho]
    rw [if_neg (by simp), if_pos (by simp only [Bool.and_eq_true, decide_eq_true_eq]; exact ⟨hin.2 h.1, hab.2 h.2⟩), hmap,
      this]
    rfl
  · rw [M.bind_ok hr, hv]
    simp only [ho]
    rw [if_neg (by simp), if_neg (by
      simp only [Bool.and_eq_true, decide_eq_true_eq]
      exact fun hh => h ⟨hin.1 hh.1, hab.1 hh.2⟩)]
    rfl

/-- C68. The method that the collection of the object names is called, if the object has exactly the class of its collection
and all collections of all managers with that class name the same method (missing: collections that name different methods,
see `C68_same_class_violated`, and objects of subclasses, see `C68_subclass_violated`). -/
theorem C68_method_partial (cls : Classes V) (hrefl : ∀ n, cls.sub n n = true) (managers : List (String × List ClassColl))
    (s : VS V) (path m x : String) (rest : List String) (hv : (SectionPath.mk path).sections = m :: x :: rest) (a : AS V)
    (ha : AList.get? s m = some a) (hclean : a.full = "") (k : Callable V) (hp : AttrItem a.rs.reg (x :: rest) k) (o : Obj V)
    (rs' : RS V) (hget : RM.get (x :: rest) a.rs = (.ok (.obj o), rs')) (ho : o.isPartial = false)
    (colls : List ClassColl) (hcolls : AList.get? managers m = some colls) (c : ClassColl) (hc : c ∈ colls) (hname : c.name = x)
    (hgen : x ≠ "_general") (hclass : cls.of o = c.klass)
    (hagree : ∀ c' ∈ allColls managers, c'.klass = c.klass → c'.execute = c.execute) :
    viewCall cls managers path s = (.ok (.method o c.execute), AList.set s m ⟨rs', ""⟩) := by
  have hall : c ∈ allColls managers := by
    unfold allColls
    rw [List.mem_filter]
    exact ⟨List.mem_flatMap.2 ⟨(m, colls), AList.mem_of_get? hcolls, hc⟩, by simp [hname, hgen]⟩
  obtain ⟨h1, _, _⟩ := C68_object cls managers s path m x rest hv a ha hclean k hp o rs' hget ho
  obtain ⟨c', hc'⟩ := Option.isSome_iff_exists.1 ((lastOfClass_isSome (allColls managers) (cls.of o)).2 ⟨c, hall, hclass.symm⟩)
  obtain ⟨e1, e2⟩ := lastOfClass_some hc'
  rw [h1 ⟨Or.inr ⟨c, by rw [hcolls]; exact hc, hname⟩, c, hall, by rw [hclass]; exact hrefl _⟩ c' hc',
    hagree c' e1 (e2.trans hclass)]

/-- C68, the same for running the item instead of calling the view: what is called is the method named by the last collection
of the manager of the item with exactly the class of the object. -/
theorem C68_run (cls : Classes V) (colls : List ClassColl) (rs : RS V) (p : List String) (k : Callable V)
    (hk : rs.reg.lookup p = .ok (.item k)) (hspec : k.kind = .specific) (r : Called V)
    (hr : (runTarget cls colls p rs).1 = .ok r) :
    ∃ o c, lastOfClass colls (cls.of o) = some c ∧ r = .method o c.execute := by
  have hlk : RM.lookup p rs = (.ok (.item k), rs) := by
    show (rs.reg.lookup p, _) = _
    rw [hk]
  unfold runTarget at hr
  rw [M.bind_ok hlk] at hr
  simp only [hspec] at hr
  rw [M.bind_run] at hr
  cases h1 : RM.funcAndConfig p rs with
  | mk x1 s1 =>
    rw [h1] at hr
    cases x1 with
    | error e => cases hr
    | ok y =>
      simp only at hr
      rw [M.bind_run] at hr
      cases h2 : RM.getOneObj p s1 with
      | mk x2 s2 =>
        rw [h2] at hr
        cases x2 with
        | error e => cases hr
        | ok o =>
          simp only at hr
          have hmap : AList.get? (registrarMap colls) (cls.of o) = lastOfClass colls (cls.of o) := by
            unfold registrarMap
            rw [get?_map_class]
            cases lastOfClass colls (cls.of o) <;> rfl
          rw [hmap] at hr
          cases h3 : lastOfClass colls (cls.of o) with
          | none => rw [h3] at hr; cases hr
          | some c =>
            rw [h3] at hr
            cases hr
            exact ⟨o, c, h3, rfl⟩

/-! ### A concrete project -/

/-- An object of a specific class with `__init__(self, a)`. -/
def toyObject : Callable Nat where
  kind := .specific
  sig := ⟨["self", "a"], [], []⟩
  app _ := .ok 0
  init _ := .ok ()
  upd _ := .ok ()
  exec _ := .ok 0

/-- Two collections `A` and `B` with an object each, and a class `C` in the general registrar. -/
def toyCallFiles : Files Nat where
  read
    | .item ["A", "x"] => .ok (Dict.ofList [("a", 1)])
    | .item ["B", "y"] => .ok (Dict.ofList [("a", 2)])
    | .item ["C"] => .ok (Dict.ofList [("a", 3)])
    | _ => .error .osError
  tree := .mk false ["C"] [("A", .mk false ["x"] []), ("B", .mk false ["y"] [])]

def toyCallManager : AS Nat where
  rs :=
    { cm :=
        { fs := toyCallFiles
          rootName := "defaults"
          root := .sect none [] [("C", .file (.item ["C"])), ("A", .sect none [] [("x", .file (.item ["A", "x"]))]),
            ("B", .sect none [] [("y", .file (.item ["B", "y"]))])]
          localConf := Conf.ofDict Dict.empty }
      reg := ⟨[("A", .coll true [("x", .item toyObject)]), ("B", .coll true [("y", .item toyObject)])],
        .coll false [("C", .item demoClass)]⟩
      objs := Dict.empty
      nextId := 0 }
  full := ""

/-- What is called: the number and the method. -/
def calledName (x : Except PyErr (Called Nat)) : Option (Nat × String) :=
  match x with
  | .ok (.method o n) => some (o.id, n)
  | .ok (.object o) => some (o.id, "returned")
  | .ok (.func o) => some (o.id, "called")
  | .ok .runner => some (0, "runner")
  | .error .keyError => some (0, "KeyError")
  | .error _ => none

/-- All objects have the same class; or those of the second number have a subclass of the class 0. -/
def oneClass : Classes Nat := ⟨fun _ => 0, fun a b => decide (a = b)⟩

def subClass : Classes Nat := ⟨fun _ => 1, fun a b => decide (a = b ∨ (a = 1 ∧ b = 0))⟩

/-- The hypotheses of the theorems are met, and the method of the collection is called. -/
example : AttrItem toyCallManager.rs.reg ["A", "x"] toyObject ∧
    calledName (viewCall oneClass [("pm", [⟨"A", 0, "run_a"⟩])] "pm.A.x" [("pm", toyCallManager)]).1 = some (0, "run_a") ∧
    calledName (runTarget oneClass [⟨"A", 0, "run_a"⟩] ["A", "x"] toyCallManager.rs).1 = some (0, "run_a") :=
  ⟨⟨⟨by decide, by decide⟩, rfl, by decide, by decide⟩, by decide +kernel, by decide +kernel⟩

example : calledName (viewCall oneClass [("pm", [])] "pm.f" (smallManagers demoFunc)).1 = some (0, "called") := by
  decide +kernel

/-- C68 fails if two collections of a manager have the same class and name different methods: the method of the last one is
called on the objects of both, by calling the view and by running the item. -/
theorem C68_same_class_violated :
    calledName (viewCall oneClass [("pm", [⟨"A", 0, "run_a"⟩, ⟨"B", 0, "run_b"⟩])] "pm.A.x" [("pm", toyCallManager)]).1 =
      some (0, "run_b") ∧
    calledName (runTarget oneClass [⟨"A", 0, "run_a"⟩, ⟨"B", 0, "run_b"⟩] ["A", "x"] toyCallManager.rs).1 =
      some (0, "run_b") := by
  decide +kernel

/-- C68 fails if a collection of another manager has the same class: its method is called on the objects of this manager,
while running the item calls the method of its own collection. -/
theorem C68_other_manager_violated :
    calledName (viewCall oneClass [("pm", [⟨"A", 0, "run_a"⟩]), ("other", [⟨"D", 0, "run_d"⟩])] "pm.A.x"
      [("pm", toyCallManager), ("other", toyCallManager)]).1 = some (0, "run_d") ∧
    calledName (runTarget oneClass [⟨"A", 0, "run_a"⟩] ["A", "x"] toyCallManager.rs).1 = some (0, "run_a") := by
  decide +kernel

/-- C68 fails for an object of a subclass of the class of its collection: a `KeyError`. -/
theorem C68_subclass_violated :
    calledName (viewCall subClass [("pm", [⟨"A", 0, "run_a"⟩])] "pm.A.x" [("pm", toyCallManager)]).1 =
      some (0, "KeyError") ∧
    calledName (runTarget subClass [⟨"A", 0, "run_a"⟩] ["A", "x"] toyCallManager.rs).1 = some (0, "KeyError") := by
  decide +kernel

/-- C68 fails for a class of the general registrar: calling its view calls nothing and returns the object, with the arguments
dropped, while running it calls the object. -/
theorem C68_general_class_violated :
    calledName (viewCall oneClass [("pm", [⟨"A", 0, "run_a"⟩])] "pm.C" [("pm", toyCallManager)]).1 = some (0, "returned") ∧
    calledName (runTarget oneClass [⟨"A", 0, "run_a"⟩] ["C"] toyCallManager.rs).1 = some (0, "__call__") := by
  decide +kernel

/-- C68 fails for the view of a section: the runner is returned, and the manager takes the next attribute for a part of the
path that is left over: getting the object of another view fails. -/
theorem C68_section_violated :
    calledName (viewCall oneClass [("pm", [⟨"A", 0, "run_a"⟩])] "pm.A" [("pm", toyCallManager)]).1 = some (0, "runner") ∧
    (((AList.get? (viewCall oneClass [("pm", [⟨"A", 0, "run_a"⟩])] "pm.A" [("pm", toyCallManager)]).2 "pm").map AS.full) =
      some "A.__self__") ∧
    calledName (viewCall oneClass [("pm", [⟨"A", 0, "run_a"⟩])] "pm.A.x"
      (viewCall oneClass [("pm", [⟨"A", 0, "run_a"⟩])] "pm.A" [("pm", toyCallManager)]).2).1 = none := by
  decide +kernel

end Verif.Props

import Verif.Props.Session

/-
C79 and C80 for items called like an attribute of sections.
-/

namespace Verif.Props
open Verif.Py Verif.Model

variable {V : Type}

/-! ## Specification -/

/-- Names that sections of configs have as attributes (section.py:14-109, container.py:5-58); `config` is left out, as this
is the config of the section. -/
def namesOfConfigSections : List String :=
  ["items", "name", "append", "extend", "config_map", "update", "from_files", "insert", "copy", "add_if_missing", "append_if_missing",
   "insert_if_missing", "repr_cols", "_items", "_config_map", "_set_config_map"]

/-! ## Lemmas -/

theorem child_reserved {res : List String} {nm : String} {n n' : Node V} {x : String} (hx : x ∈ res) (h : n.child res nm x = .ok n') :
    n' = .other := by
  unfold Node.child at h
  cases n with
  | sect cfg attrs map =>
    simp only at h
    rw [if_pos hx] at h
    cases h
    rfl
  | conf c =>
    simp only at h
    cases hg : c.getattr x with
    | ok v => rw [hg] at h; cases h; rfl
    | error e => rw [hg] at h; cases h
  | file l => cases h
  | own => cases h
  | other => cases h

theorem walk_reserved {x : String} (hx : x ∈ sectionReserved) : ∀ (q : List String) (res : List String) (nm : String) (n n' : Node V),
    (∀ y ∈ sectionReserved, y ∈ res) → n.walk res nm (q ++ [x]) = .ok n' → n' = .other := by
  intro q
  induction q with
  | nil =>
    intro res nm n n' hr h
    rw [List.nil_append, Node.walk] at h
    cases hc : n.child res nm x with
    | error e => rw [hc] at h; cases h
    | ok m =>
      rw [hc] at h
      cases h
      exact child_reserved (hr x hx) hc
  | cons y q ih =>
    intro res nm n n' hr h
    rw [List.cons_append, Node.walk] at h
    cases hc : n.child res nm y with
    | error e => rw [hc] at h; cases h
    | ok m =>
      rw [hc] at h
      exact ih _ _ _ _ (fun _ h => h) h

theorem config_reserved {x : String} (hx : x ∈ sectionReserved) (q : List String) (s : CM V) :
    ∃ e, CMM.getFuncOrSectionConfigs (q ++ [x]) s = (.error e, s) := by
  unfold CMM.getFuncOrSectionConfigs
  rw [M.bind_ok (M.get_run s)]
  cases hw : s.walk (q ++ [x]) with
  | error e => exact ⟨e, by rw [M.bind_error (M.liftE_run _ _)]⟩
  | ok n =>
    have : n = .other := walk_reserved hx q _ _ _ _ (fun y hy => List.mem_append_right _ hy) hw
    subst this
    exact ⟨.valueError, rfl⟩

theorem get_reserved {x : String} (hx : x ∈ sectionReserved) (q : List String) (s : CM V) : ∃ e, CMM.get (q ++ [x]) s = (.error e, s) := by
  obtain ⟨e, h⟩ := config_reserved hx q s
  exact ⟨e, by unfold CMM.get; rw [M.bind_error h]⟩

theorem funcAndConfig_reserved {x : String} (hx : x ∈ sectionReserved) (q : List String) (s : RS V) :
    ∃ e, RM.funcAndConfig (q ++ [x]) s = (.error e, s) := by
  obtain ⟨e, h⟩ := get_reserved hx q s.cm
  have hl : RM.liftC (CMM.get (q ++ [x])) s = (.error e, s) := by
    unfold RM.liftC
    rw [h]
  have hg : RM.getConfig (q ++ [x]) s = (.error e, s) := by unfold RM.getConfig; rw [M.bind_error hl]
  exact ⟨e, by unfold RM.funcAndConfig; rw [M.bind_error hg]⟩

theorem getItem_reserved {x : String} (hx : x ∈ sectionReserved) (q : List String) (s : RS V) (hn : created s (q ++ [x]) = none)
    (k : Callable V) : ∃ e, RM.getItem (q ++ [x]) k s = (.error e, s) := by
  have hn' : s.objs.get? (q ++ [x]) = none := hn
  obtain ⟨e, h⟩ := funcAndConfig_reserved hx q s
  have hf : RM.getOneFunc (q ++ [x]) s = (.error e, s) := by
    unfold RM.getOneFunc
    rw [M.bind_ok (M.get_run s), hn']
    simp only
    rw [M.bind_error h]
  have ho : ∃ e, RM.getOneObj (q ++ [x]) s = (.error e, s) := by
    unfold RM.getOneObj
    rw [M.bind_ok (M.get_run s), hn']
    simp only
    cases hk : s.reg.lookup (q ++ [x]) with
    | error e' =>
      have : RM.lookup (q ++ [x]) s = (.error e', s) := by
        unfold RM.lookup
        rw [M.bind_ok (M.get_run s), hk]
        rfl
      exact ⟨e', by rw [M.bind_error this]⟩
    | ok r =>
      have : RM.lookup (q ++ [x]) s = (.ok r, s) := by
        unfold RM.lookup
        rw [M.bind_ok (M.get_run s), hk]
        rfl
      exact ⟨e, by rw [M.bind_ok this, M.bind_error h]⟩
  unfold RM.getItem
  cases k.kind with
  | func => exact ⟨e, hf⟩
  | _ => exact ho

theorem reset_absent [BEq V] (p : List String) (s : RS V) (hn : s.objs.get? p = none) : (RM.reset (some p) true s).2.objs = s.objs := by
  unfold RM.reset
  rw [M.bind_run]
  have ho : (RM.liftC (CMM.reset (some p) true) s).2.objs = s.objs := rfl
  cases hl : RM.liftC (CMM.reset (some p) true) s with
  | mk r s1 =>
    rw [hl] at ho
    cases r with
    | error e => exact ho
    | ok v =>
      obtain ⟨d, b⟩ := v
      simp only at ho ⊢
      have ha : ∀ x y, (RM.applyToLoaded p x y s1).2.objs = s.objs := by
        intro x y
        unfold RM.applyToLoaded
        rw [M.bind_ok (M.get_run s1), ho, hn]
        exact ho
      cases b with
      | false => exact ho
      | true =>
        cases d with
        | conf c => exact ha _ _
        | _ => exact ho

/-! ## C80 -/

/-- C80 fails for all items called like an attribute of sections, whatever was created and loaded: when `create` has returned, the item
has no config that can be got, and getting it gives no object. -/
theorem C80_reserved_violated [BEq V] (env : FsEnv) (lang : CreateLang V) (text : ItemText V)
    (eval : EvalText V) (list : Fs → DirTree) (folder base : String) (classes : List String) (sections : List String)
    (f : Option (NewItem V)) (s s' : Created V (RS V)) (q : Request V) (hq : requested lang folder classes sections f = some q)
    (h : createItem env lang text folder base classes (resetCreated eval list (env.resolve base)) sections f s = (.ok (), s'))
    (p : List String) (hp : q.registrar.toList ++ q.path ++ [q.name] = p) (hx : q.name ∈ namesOfConfigSections)
    (hn : created s.rest p = none) :
    (∃ e, (CMM.get p s'.rest.cm).1 = .error e) ∧ ∀ o, (RM.get p s'.rest).1 ≠ .ok (.obj o) := by
  have hn' : created s'.rest p = none := by
    obtain ⟨q', r0, c, fs1, s1, g, base', b, items, a0, a1, a2, a3, a4, a5, a6, a7, a8, a9⟩ :=
      C66_created env lang text folder base classes _ sections f s s' h
    rw [hq] at a0
    cases a0
    rw [hp] at a9
    unfold resetCreated at a9
    rw [a4] at a9
    simp only at a9
    injection a9 with b1 b2
    subst b2
    have hn1 : s1.rest.objs.get? p = none := by rw [a5]; exact hn
    show (RM.reset (some p) true _).2.objs.get? p = none
    rw [reset_absent]
    · exact hn1
    · exact hn1
  clear hn
  subst hp
  have hx' : q.name ∈ sectionReserved := List.mem_cons_of_mem _ (by
    simp only [namesOfConfigSections, List.mem_cons, List.not_mem_nil, or_false] at hx ⊢
    rcases hx with h | h | h | h | h | h | h | h | h | h | h | h | h | h | h | h <;> simp [h])
  obtain ⟨e, h1⟩ := get_reserved hx' (q.registrar.toList ++ q.path) s'.rest.cm
  refine ⟨⟨e, by rw [h1]⟩, fun o => ?_⟩
  generalize s'.rest = r at *
  unfold RM.get
  rw [M.bind_ok (M.get_run r)]
  cases hk : r.reg.lookup (q.registrar.toList ++ q.path ++ [q.name]) with
  | error e' =>
    have : RM.lookup (q.registrar.toList ++ q.path ++ [q.name]) r = (.error e', r) := by
      unfold RM.lookup
      rw [M.bind_ok (M.get_run r), hk]
      rfl
    rw [M.bind_error this]
    simp
  | ok n =>
    have : RM.lookup (q.registrar.toList ++ q.path ++ [q.name]) r = (.ok n, r) := by
      unfold RM.lookup
      rw [M.bind_ok (M.get_run r), hk]
      rfl
    rw [M.bind_ok this]
    cases n with
    | coll b items =>
      simp only
      unfold RM.getSection
      rw [M.bind_ok this]
      simp only
      split
      · rw [M.bind_run]
        split <;> simp [pure, M.pure]
      · rw [M.bind_run]
        split <;> simp [pure, M.pure]
    | item k =>
      simp only
      obtain ⟨e2, h2⟩ := getItem_reserved hx' (q.registrar.toList ++ q.path) r hn' k
      rw [M.bind_error h2]
      simp
    | other => simp [M.raise]

/-! ## C79 -/

theorem child_other (res : List String) (nm y : String) : (Node.other : Node V).child res nm y = .error .attributeError := rfl

/-- A path through such a name leads nowhere. -/
theorem through_reserved {x : String} (hx : x ∈ sectionReserved) (q r : List String) (s : CM V) (hr : r ≠ []) :
    ∃ e, s.walk (q ++ x :: r) = .error e := by
  obtain ⟨y, r, rfl⟩ := List.exists_cons_of_ne_nil hr
  have key : ∀ (q : List String) (res : List String) (nm : String) (n : Node V), (∀ y ∈ sectionReserved, y ∈ res) →
      ∃ e, n.walk res nm (q ++ x :: y :: r) = .error e := by
    intro q
    induction q with
    | nil =>
      intro res nm n hres
      rw [List.nil_append, Node.walk]
      cases hc : n.child res nm x with
      | error e => exact ⟨e, rfl⟩
      | ok m =>
        rw [child_reserved (hres x hx) hc]
        simp only
        rw [Node.walk, child_other]
        exact ⟨_, rfl⟩
    | cons z q ih =>
      intro res nm n hres
      rw [List.cons_append, Node.walk]
      cases hc : n.child res nm z with
      | error e => exact ⟨e, rfl⟩
      | ok m => exact ih _ _ _ (fun _ h => h)
  exact key q _ _ _ (fun y hy => List.mem_append_right _ hy)

/-- C79 fails for all items called like an attribute of sections, and for all items in sections that are: after a load, getting them
raises, whatever is in their files. (Attributes of attributes are not modelled: a path like `copy.__self__` leads back to the section
in Python.) -/
theorem C79_reserved_violated [BEq V] (env : FsEnv) (lang : DefLang V L) (text : ItemText V)
    (eval : EvalText V) (list : Fs → DirTree) (folder base : String) (classes : List ClassConfig) (fs fs' : Fs)
    (rs : RS V) (h : loadProject env lang text eval list folder base classes fs = (.ok rs, fs'))
    (p : List String) (k : Callable V) (hk : rs.reg.lookup p = .ok (.item k)) (x : String) (hx : x ∈ namesOfConfigSections) (hp : x ∈ p) :
    ∃ e, (RM.get p rs).1 = .error e := by
  obtain ⟨_, _, h3, _⟩ := loadProject_ok h
  have hx' : x ∈ sectionReserved := List.mem_cons_of_mem _ (by
    simp only [namesOfConfigSections, List.mem_cons, List.not_mem_nil, or_false] at hx ⊢
    rcases hx with h | h | h | h | h | h | h | h | h | h | h | h | h | h | h | h <;> simp [h])
  have hn : created rs p = none := by show rs.objs.get? _ = none; rw [h3]; exact Dict.get?_empty _
  have hg : ∃ e, (CMM.get p rs.cm).1 = .error e := by
    obtain ⟨q, r, rfl⟩ := List.append_of_mem hp
    by_cases hr : r = []
    · subst hr
      obtain ⟨e, he⟩ := get_reserved hx' q rs.cm
      exact ⟨e, by rw [he]⟩
    · obtain ⟨e, he⟩ := through_reserved hx' q r rs.cm hr
      refine ⟨e, ?_⟩
      unfold CMM.get CMM.getFuncOrSectionConfigs
      rw [M.bind_error (e := e) (s' := rs.cm) (by rw [M.bind_ok (M.get_run _), he, M.bind_error (M.liftE_run _ _)])]
  obtain ⟨e, hg⟩ := hg
  exact ⟨e, get_raises hk hn hg⟩

/-! ## Non-vacuity -/

def createNewU : NewItem Unit := ⟨"update", .ok (⟨some "m", ["update"], [], false⟩), .ok scaffoldItem⟩

def createRequestU : Request Unit :=
  ⟨none, Path.join2 "p" "pipeline_dict.py", ["s"], .name "update", .ok [⟨some "m", ["update"], [], false⟩], "update", .ok scaffoldItem⟩

def createdTextU : String := "from m import update\n\npipeline_dict = {\"s\": [update,],}"

def createdItemsU : List (String × Reg Unit) := [("update", .item scaffoldItem)]

def createFs1U : Fs := createFs.put ["p", "pipeline_dict.py"] (.file createdTextU)

theorem create_requested_u : requested createToy "p" [] ["s"] (some createNewU) = some createRequestU := by
  simp [requested, createNewU, createRequestU, Except.map]

theorem create_text_u : NewText createToy false ["s"] (.name "update") (.ok [⟨some "m", ["update"], [], false⟩])
    (some "# comment\nhelper = 1\n") createdTextU := by
  have h : (readFile toy (some "# comment\nhelper = 1\n")).toOption.map Model.Loaded.imports = some [] := by decide +kernel
  cases hf : readFile toy (some "# comment\nhelper = 1\n") with
  | error e => rw [hf] at h; cases h
  | ok f =>
    rw [hf] at h
    have hi : f.imports = [] := Option.some.inj h
    have ha : addItem (Leaf.name "update") [] ["s"] = (.ok (), [("s", Def.list [.leaf (.name "update")])]) := by
      simp [addItem, AList.get?, AList.set]
    refine ⟨f, [], _, "pipeline_dict = {\"s\": [update,],}", _, hf, rfl, rfl, by rw [ha], ?_, rfl, ?_⟩
    · rw [ha]
      simp only [Bool.false_eq_true, if_false]
      rw [renderDefinition, renderEntries, renderList, renderList, renderEntries]
      decide +kernel
    · rw [hi]
      decide +kernel

theorem create_added_u : EntryAdded freeEnv createToy false createRequestU.file ["s"] (.name "update")
    (.ok [⟨some "m", ["update"], [], false⟩]) createFs createFs1U := by
  have hf : freeEnv.resolve createRequestU.file = ["p", "pipeline_dict.py"] := by decide +kernel
  rw [EntryAdded, hf]
  exact ⟨by decide +kernel, by decide +kernel, rfl, createdTextU, create_text_u, rfl⟩

theorem create_set_u : createBlank.set none ["s"] ("update", .item scaffoldItem) =
    (.ok (), ⟨[], .coll false [("s", .coll false createdItemsU)]⟩) := by
  have : ("s" ∈ registrarReserved) = False := by simp [registrarReserved, collectionReserved]
  simp [createBlank, Registry.set, Reg.setAt, this, Reg.nameDict, AList.get?, createdItemsU]

theorem create_walk_u : (Reg.coll false [("s", .coll false createdItemsU)]).walk registrarReserved ["s"] = .ok (.coll false createdItemsU) := by
  have : ("s" ∈ registrarReserved) = False := by simp [registrarReserved, collectionReserved]
  simp [Reg.walk, Reg.attr, this, Reg.nameDict, AList.get?, AList.set]

theorem create_whole_u (objs : Dict (List String) (Obj Unit))
    (hr : ∀ fs2, fs2 ["d", "s", "update.py"] = some (.file "# update") → (RM.reset (some ["s", "update"]) true (V := Unit)
      { createRest objs with
        reg := ⟨[], .coll false [("s", .coll false createdItemsU)]⟩
        cm := { (createRest objs).cm with fs := configFiles emptyEval (fun _ => .mk false [] []) ["d"] fs2 } }).1 = .ok ()) :
    ∃ s', createItem freeEnv createToy keepText "p" "d" [] (resetCreated emptyEval (fun _ => .mk false [] []) (freeEnv.resolve "d")) ["s"]
      (some createNewU) (createWhole objs) = (.ok (), s') ∧
      s'.reg = some ⟨[], .coll false [("s", .coll false createdItemsU)]⟩ := by
  have h := createItem_run freeEnv createToy keepText "p" "d" [] (resetCreated emptyEval (fun _ => .mk false [] []) (freeEnv.resolve "d"))
    ["s"] (some createNewU) (createWhole objs)
  rw [create_requested_u] at h
  rcases h with ⟨_, hn⟩ | ⟨fs', h1, ⟨_, hn⟩ | ⟨r, c, h2, h3⟩⟩
  · exact absurd ⟨_, create_added_u⟩ hn
  · exact absurd ⟨createBlank, scaffoldItem, rfl, rfl, by intro k hk; cases hk⟩ hn
  · obtain ⟨h4, h5, _⟩ := h2
    cases h4
    cases h5
    rw [h3, createRegistered_run, ← EntryAdded.unique create_added_u h1]
    simp only [createWhole, createRequestU, create_set_u, registrarAt, scaffoldFor_run, create_walk_u]
    have h6 : (Reg.scaffold freeEnv keepText "d/s" (.coll false createdItemsU) createFs1U).1 = .ok () := by
      simp only [createdItemsU, Reg.scaffold, outputItems]
      decide +kernel
    have h7 : (Reg.scaffold freeEnv keepText "d/s" (.coll false createdItemsU) createFs1U).2 ["d", "s", "update.py"] = some (.file "# update") := by
      simp only [createdItemsU, Reg.scaffold, outputItems]
      decide +kernel
    have hb : List.foldl Path.join2 "d" ["s"] = "d/s" := by decide +kernel
    have hd : freeEnv.resolve "d" = ["d"] := by decide +kernel
    rw [hb]
    cases hs : Reg.scaffold freeEnv keepText "d/s" (.coll false createdItemsU) createFs1U with
    | mk res fs2 =>
      rw [hs] at h6 h7
      cases res with
      | error e => cases h6
      | ok u =>
        have := hr fs2 h7
        simp only [hd]
        refine ⟨_, Prod.ext this rfl, rfl⟩

theorem create_resets_u (objs : Dict (List String) (Obj Unit))
    (ho : ∀ s : RS Unit, s.objs = objs → (RM.applyToLoaded ["s", "update"] Dict.empty Dict.empty s).1 = .ok ()) (fs2 : Fs)
    (h : fs2 ["d", "s", "update.py"] = some (.file "# update")) : (RM.reset (some ["s", "update"]) true (V := Unit)
      { createRest objs with
        reg := ⟨[], .coll false [("s", .coll false createdItemsU)]⟩
        cm := { (createRest objs).cm with fs := configFiles emptyEval (fun _ => .mk false [] []) ["d"] fs2 } }).1 = .ok () := by
  have hread : readConfig emptyEval ["d"] fs2 (.item ["s", "update"]) = .ok Dict.empty := by
    unfold readConfig
    rw [show (FileLoc.item ["s", "update"]).place ["d"] = ["d", "s", "update.py"] by decide +kernel, h]
    rfl
  have h1 : (CMM.reset (some ["s", "update"]) true
      { (createRest objs).cm with fs := configFiles emptyEval (fun _ => .mk false [] []) ["d"] fs2 }).1 =
      .ok (.conf (Conf.ofFile (.item ["s", "update"]) Dict.empty), true) := by
    have hd : CMM.getDefault { (createRest objs).cm with fs := configFiles emptyEval (fun _ => .mk false [] []) ["d"] fs2 } ["s", "update"]
        true = .ok (.conf (Conf.ofFile (.item ["s", "update"]) Dict.empty)) := by
      show (Files.load (configFiles emptyEval (fun _ => .mk false [] []) ["d"] fs2) (.item ["s", "update"])).map Node.conf = _
      unfold Files.load
      rw [show (configFiles emptyEval (fun _ => .mk false [] []) ["d"] fs2).read (.item ["s", "update"]) = _ from hread]
      rfl
    unfold CMM.reset
    simp only
    rw [M.bind_ok (M.get_run _), hd]
    rfl
  unfold RM.reset
  rw [M.bind_run]
  have hl : RM.liftC (CMM.reset (some ["s", "update"]) true) { createRest objs with
        reg := ⟨[], .coll false [("s", .coll false createdItemsU)]⟩
        cm := { (createRest objs).cm with fs := configFiles emptyEval (fun _ => .mk false [] []) ["d"] fs2 } } =
      (.ok (.conf (Conf.ofFile (.item ["s", "update"]) Dict.empty), true), ⟨(CMM.reset (some ["s", "update"]) true
        { (createRest objs).cm with fs := configFiles emptyEval (fun _ => .mk false [] []) ["d"] fs2 }).2,
        ⟨[], .coll false [("s", .coll false createdItemsU)]⟩, objs, objs.items.length⟩) := Prod.ext h1 rfl
  rw [hl]
  exact ho _ rfl

/-- `create` of a function called `update` succeeds. -/
example : ∃ s', createItem freeEnv createToy keepText "p" "d" [] (resetCreated emptyEval (fun _ => .mk false [] []) (freeEnv.resolve "d"))
      ["s"] (some createNewU) (createWhole Dict.empty) = (.ok (), s') ∧ createRequestU.name ∈ namesOfConfigSections ∧
      created (createWhole Dict.empty).rest ["s", "update"] = none ∧
      requested createToy "p" [] ["s"] (some createNewU) = some createRequestU := by
  obtain ⟨s', h, _⟩ := create_whole_u Dict.empty (create_resets_u Dict.empty (by
    intro s hs
    unfold RM.applyToLoaded
    rw [M.bind_ok (M.get_run _), hs]
    rfl))
  exact ⟨s', h, by decide, rfl, create_requested_u⟩

/-- Definitions of one item, called `update`. -/
def updateDefs : DefLang Unit String where
  read _ o := match o with
    | none => .error .valueError
    | some t => .ok [("s", .list [.leaf t])]
  resolve _ x := .ok (x, scaffoldItem)

def updateRegistry : Registry Unit := ⟨[], .coll false [("s", .coll false [("update", .item scaffoldItem)])]⟩

theorem update_load : createRegistrars freeEnv updateDefs keepText "p" "d" [] (toyDefFs "update" "x") =
    (.ok updateRegistry, (createRegistrars freeEnv updateDefs keepText "p" "d" [] (toyDefFs "update" "x")).2) := by
  have h1 : contentAt (toyDefFs "update" "x") (freeEnv.resolve (Path.join2 "p" "pipeline_dict.py")) = some "update" := by decide +kernel
  have hr := (readRegistry_iff freeEnv updateDefs "p" [] (toyDefFs "update" "x") updateRegistry).2
    ⟨⟨by decide +kernel, [("s", .list [.leaf "update"])], by rw [h1]; rfl, by
      simp [Reg.fromDefinition, fromDict, fromList, updateDefs, updateRegistry, bind, Except.bind, pure, Except.pure]⟩, .nil⟩
  obtain ⟨_, h2, h3⟩ := createRegistrars_seq freeEnv updateDefs keepText "p" "d" [] (toyDefFs "update" "x") _ _ rfl hr
    (by decide +kernel)
  have : ((do scaffoldSpecific freeEnv keepText "d" updateRegistry.specific
              (Reg.coll false [("s", .coll false [("update", .item scaffoldItem)])]).scaffold freeEnv keepText "d" : FM Unit)
            (toyDefFs "update" "x")).1 = .ok () := by
    simp only [updateRegistry, scaffoldSpecific, Reg.scaffold, outputItems]
    decide +kernel
  obtain ⟨r, h⟩ := h2.2 this
  have := h3 r h
  subst this
  rw [← h]

/-- An instance of `C79_reserved_violated`: the item is registered, and cannot be used. -/
example : ∃ (list : Fs → DirTree) (rs : RS Unit) (fs' : Fs),
    loadProject freeEnv updateDefs keepText (fun _ _ => .ok Dict.empty) list "p" "d" [] (toyDefFs "update" "x") = (.ok rs, fs') ∧
    rs.reg.lookup ["s", "update"] = .ok (.item scaffoldItem) ∧ ∃ e, (RM.get ["s", "update"] rs).1 = .error e := by
  have hpl : PlainTree (Registry.entries updateRegistry) := by
    simp only [Registry.entries, updateRegistry, List.nil_append, PlainTree]
    decide +kernel
  have hf := createRegistrars_finite (by decide +kernel) update_load hpl (toyDefFs_finite "update" "x")
  obtain ⟨t, ht⟩ := treeOf_exists hf (freeEnv.resolve "d")
  obtain ⟨rs, h1, h2⟩ := C79_loads freeEnv updateDefs keepText (fun _ _ => .ok Dict.empty) (fun _ => t) "p" "d" []
    (toyDefFs "update" "x") _ _ update_load ht (fun _ _ _ => ⟨_, rfl⟩)
  have hk : rs.reg.lookup ["s", "update"] = .ok (.item scaffoldItem) := by
    rw [h2]
    have h2 : ("s" ∈ registrarReserved) = False := by simp [registrarReserved, collectionReserved]
    have h3 : ("update" ∈ collectionReserved) = False := by simp [collectionReserved]
    simp [updateRegistry, Registry.lookup, Reg.walk, Reg.attr, h2, h3, Reg.nameDict, AList.get?, AList.set]
  exact ⟨fun _ => t, rs, _, h1, hk, C79_reserved_violated freeEnv updateDefs keepText _ _ "p" "d" [] _ _ rs h1 _ _ hk "update" (by decide)
    (by decide)⟩

end Verif.Props

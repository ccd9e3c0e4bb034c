import Verif.Props.CreateReserved

/-
C79 and C80 for sections called like an attribute of the config manager.
-/

namespace Verif.Props
open Verif.Py Verif.Model

variable {V : Type}

/-! ## Specification -/

/-- Names that config managers have as attributes (manager.py:20-348), without those of sections; `section`, `local_config` and
`pipeline_manager` are left out, as these lead to sections and configs, or to the pipeline manager. -/
def namesOfManagersOnly : List String :=
  ["basepath", "pipeline_manager_name", "load", "refresh", "refresh_dependent_configs", "reset", "pop", "get", "set", "track_post_update"]

/-! ## Lemmas -/

theorem manager_walk {x : String} (hx : x ∈ managerReserved) (r : List String) (s : CM V) :
    (r = [] ∧ s.walk (x :: r) = .ok .other) ∨ ∃ e, s.walk (x :: r) = .error e := by
  unfold CM.walk
  rw [Node.walk]
  cases hc : s.root.child managerReserved s.rootName x with
  | error e => exact .inr ⟨e, rfl⟩
  | ok m =>
    rw [child_reserved hx hc]
    cases r with
    | nil => exact .inl ⟨rfl, rfl⟩
    | cons y r =>
      refine .inr ⟨.attributeError, ?_⟩
      simp only
      rw [Node.walk, child_other]

theorem manager_get {x : String} (hx : x ∈ managerReserved) (r : List String) (s : CM V) : ∃ e, CMM.get (x :: r) s = (.error e, s) := by
  unfold CMM.get CMM.getFuncOrSectionConfigs
  rcases manager_walk hx r s with ⟨rfl, h⟩ | ⟨e, h⟩
  · refine ⟨.valueError, ?_⟩
    rw [M.bind_error (e := .valueError) (s' := s) (by rw [M.bind_ok (M.get_run _), h]; rfl)]
  · refine ⟨e, ?_⟩
    rw [M.bind_error (e := e) (s' := s) (by rw [M.bind_ok (M.get_run _), h, M.bind_error (M.liftE_run _ _)])]

/-! ## C79 -/

/-- C79 fails for all items in a section outside others that is called like an attribute of the config manager, as `load` or `reset`:
after a load, getting them raises, whatever is in their files. (Attributes of attributes are not modelled, as in
`C79_reserved_violated`.) -/
theorem C79_manager_violated [BEq V] (env : FsEnv) (lang : DefLang V L) (text : ItemText V)
    (eval : EvalText V) (list : Fs → DirTree) (folder base : String) (classes : List ClassConfig) (fs fs' : Fs)
    (rs : RS V) (h : loadProject env lang text eval list folder base classes fs = (.ok rs, fs'))
    (x : String) (r : List String) (k : Callable V) (hk : rs.reg.lookup (x :: r) = .ok (.item k)) (hx : x ∈ namesOfManagersOnly) :
    ∃ e, (RM.get (x :: r) rs).1 = .error e := by
  obtain ⟨_, _, h3, _⟩ := loadProject_ok h
  have hx' : x ∈ managerReserved := List.mem_append_left _ (by
    simp only [namesOfManagersOnly, List.mem_cons, List.not_mem_nil, or_false] at hx ⊢
    rcases hx with h | h | h | h | h | h | h | h | h | h <;> simp [h])
  have hn : created rs (x :: r) = none := by show rs.objs.get? _ = none; rw [h3]; exact Dict.get?_empty _
  obtain ⟨e, hg⟩ := manager_get hx' r rs.cm
  exact ⟨e, get_raises hk hn (by rw [hg])⟩

/-! ## C80 -/

theorem managersOnly_reserved {x : String} (hx : x ∈ namesOfManagersOnly) : x ∈ managerReserved := List.mem_append_left _ (by
  simp only [namesOfManagersOnly, List.mem_cons, List.not_mem_nil, or_false] at hx ⊢
  rcases hx with h | h | h | h | h | h | h | h | h | h <;> simp [h])

theorem manager_set [BEq V] {x : String} (hx : x ∈ managerReserved) (r : List String) (s : CM V) (cfg : Option (Conf V))
    (attrs map : List (String × Node V)) (hs : s.root = .sect cfg attrs map) (v : Node V) : ∃ e, (CMM.set (x :: r) v true s).1 = .error e := by
  have hc : s.root.child managerReserved s.rootName x = .ok .other := by rw [hs]; exact if_pos hx
  have hg : ∃ e, e ≠ PyErr.keyError ∧ CMM.getFuncOrSectionConfigs (x :: r) s = (.error e, s) := by
    unfold CMM.getFuncOrSectionConfigs
    rw [M.bind_ok (M.get_run _)]
    cases r with
    | nil =>
      have hw : s.walk [x] = .ok .other := by
        unfold CM.walk
        rw [Node.walk, hc]
        rfl
      exact ⟨.valueError, by decide, by rw [hw]; rfl⟩
    | cons y r =>
      have hw : s.walk (x :: y :: r) = .error .attributeError := by
        unfold CM.walk
        rw [Node.walk, hc]
        simp only
        rw [Node.walk, child_other]
      exact ⟨.attributeError, by decide, by rw [hw, M.bind_error (M.liftE_run _ _)]⟩
  obtain ⟨e, he, hg⟩ := hg
  refine ⟨e, ?_⟩
  unfold CMM.set
  rw [M.bind_error (e := e) (s' := s)]
  unfold M.tryCatch
  rw [hg]
  simp only
  rw [if_neg he]
  rfl

theorem manager_reset [BEq V] {x : String} (hx : x ∈ managerReserved) (r : List String) (s : RS V) (cfg : Option (Conf V))
    (attrs map : List (String × Node V)) (hs : s.cm.root = .sect cfg attrs map) : ∃ e, (RM.reset (some (x :: r)) true s).1 = .error e := by
  have hc : ∃ e, (CMM.reset (some (x :: r)) true s.cm).1 = .error e := by
    have hr : CMM.reset (some (x :: r)) true = (do
        let s : CM V ← M.get
        let value ← M.liftE (CMM.getDefault s (x :: r) true)
        CMM.set (x :: r) value true) := rfl
    rw [hr, M.bind_ok (M.get_run _)]
    cases CMM.getDefault s.cm (x :: r) true with
    | error e => exact ⟨e, by rw [M.bind_error (M.liftE_run _ _)]⟩
    | ok v => rw [M.bind_ok (M.liftE_run _ _)]; exact manager_set hx r s.cm cfg attrs map hs v
  obtain ⟨e, hc⟩ := hc
  refine ⟨e, ?_⟩
  unfold RM.reset
  have hl : RM.liftC (CMM.reset (some (x :: r)) true) s = (.error e, { s with cm := (CMM.reset (some (x :: r)) true s.cm).2 }) := by
    unfold RM.liftC
    rw [hc]
  rw [M.bind_error hl]

/-- C80 fails for all sections outside others that are called like an attribute of the config manager: `create` always raises for
items in them, with whatever there was before. (Attributes of attributes are not modelled, as in `C79_reserved_violated`.) -/
theorem C80_manager_violated [BEq V] (env : FsEnv) (lang : CreateLang V) (text : ItemText V)
    (eval : EvalText V) (list : Fs → DirTree) (folder base : String) (classes : List String) (x : String) (path : List String)
    (f : Option (NewItem V)) (s : Created V (RS V)) (hx : x ∈ namesOfManagersOnly) (cfg : Option (Conf V))
    (attrs map : List (String × Node V)) (hs : s.rest.cm.root = .sect cfg attrs map) :
    ∃ e, (createItem env lang text folder base classes (resetCreated eval list (env.resolve base)) (x :: path) f s).1 = .error e := by
  cases h : createItem env lang text folder base classes (resetCreated eval list (env.resolve base)) (x :: path) f s with
  | mk r s' =>
  cases r with
  | error e => exact ⟨e, rfl⟩
  | ok u =>
    exfalso
    obtain ⟨q, r0, c, fs1, s1, g, base', b, items, a0, a1, a2, a3, a4, a5, a6, a7, a8, a9⟩ :=
      C66_created env lang text folder base classes _ (x :: path) f s s' h
    have hp : ∃ r, q.registrar.toList ++ q.path ++ [q.name] = x :: r := by
      cases f with
      | some f =>
        simp only [requested] at a0
        split at a0
        · cases a0
        · cases a0
          exact ⟨path ++ [f.name], rfl⟩
      | none =>
        simp only [requested] at a0
        split at a0
        · cases a0
          exact ⟨_, rfl⟩
        · cases a0
    obtain ⟨r, hp⟩ := hp
    rw [hp] at a9
    unfold resetCreated at a9
    rw [a4] at a9
    simp only at a9
    injection a9 with b1 b2
    have hm : ∀ now : RS V, now.cm.root = s1.rest.cm.root → (RM.reset (some (x :: r)) true now).1 ≠ .ok () := by
      intro now hn hk
      obtain ⟨e, he⟩ := manager_reset (managersOnly_reserved hx) r now cfg attrs map (by rw [hn, a5]; exact hs)
      rw [he] at hk
      cases hk
    refine hm _ ?_ b1
    rfl

/-! ## Non-vacuity -/

/-- Definitions of one item, in a section called `load`. -/
def loadDefs : DefLang Unit String where
  read _ o := match o with
    | none => .error .valueError
    | some t => .ok [("load", .list [.leaf t])]
  resolve _ x := .ok (x, scaffoldItem)

def loadRegistry : Registry Unit := ⟨[], .coll false [("load", .coll false [("f", .item scaffoldItem)])]⟩

theorem load_load : createRegistrars freeEnv loadDefs keepText "p" "d" [] (toyDefFs "f" "x") =
    (.ok loadRegistry, (createRegistrars freeEnv loadDefs keepText "p" "d" [] (toyDefFs "f" "x")).2) := by
  have h1 : contentAt (toyDefFs "f" "x") (freeEnv.resolve (Path.join2 "p" "pipeline_dict.py")) = some "f" := by decide +kernel
  have hr := (readRegistry_iff freeEnv loadDefs "p" [] (toyDefFs "f" "x") loadRegistry).2
    ⟨⟨by decide +kernel, [("load", .list [.leaf "f"])], by rw [h1]; rfl, by
      simp [Reg.fromDefinition, fromDict, fromList, loadDefs, loadRegistry, bind, Except.bind, pure, Except.pure]⟩, .nil⟩
  obtain ⟨_, h2, h3⟩ := createRegistrars_seq freeEnv loadDefs keepText "p" "d" [] (toyDefFs "f" "x") _ _ rfl hr
    (by decide +kernel)
  have : ((do scaffoldSpecific freeEnv keepText "d" loadRegistry.specific
              (Reg.coll false [("load", .coll false [("f", .item scaffoldItem)])]).scaffold freeEnv keepText "d" : FM Unit)
            (toyDefFs "f" "x")).1 = .ok () := by
    simp only [loadRegistry, scaffoldSpecific, Reg.scaffold, outputItems]
    decide +kernel
  obtain ⟨r, h⟩ := h2.2 this
  have := h3 r h
  subst this
  rw [← h]

/-- An instance of `C79_manager_violated`: the item is registered, and cannot be used. -/
example : ∃ (list : Fs → DirTree) (rs : RS Unit) (fs' : Fs),
    loadProject freeEnv loadDefs keepText (fun _ _ => .ok Dict.empty) list "p" "d" [] (toyDefFs "f" "x") = (.ok rs, fs') ∧
    rs.reg.lookup ["load", "f"] = .ok (.item scaffoldItem) ∧ ∃ e, (RM.get ["load", "f"] rs).1 = .error e := by
  have hpl : PlainTree (Registry.entries loadRegistry) := by
    simp only [Registry.entries, loadRegistry, List.nil_append, PlainTree]
    decide +kernel
  have hf := createRegistrars_finite (by decide +kernel) load_load hpl (toyDefFs_finite "f" "x")
  obtain ⟨t, ht⟩ := treeOf_exists hf (freeEnv.resolve "d")
  obtain ⟨rs, h1, h2⟩ := C79_loads freeEnv loadDefs keepText (fun _ _ => .ok Dict.empty) (fun _ => t) "p" "d" []
    (toyDefFs "f" "x") _ _ load_load ht (fun _ _ _ => ⟨_, rfl⟩)
  have hk : rs.reg.lookup ["load", "f"] = .ok (.item scaffoldItem) := by
    rw [h2]
    have h2 : ("load" ∈ registrarReserved) = False := by simp [registrarReserved, collectionReserved]
    have h3 : ("f" ∈ collectionReserved) = False := by simp [collectionReserved]
    simp [loadRegistry, Registry.lookup, Reg.walk, Reg.attr, h2, h3, Reg.nameDict, AList.get?, AList.set]
  exact ⟨fun _ => t, rs, _, h1, hk, C79_manager_violated freeEnv loadDefs keepText _ _ "p" "d" [] _ _ rs h1 "load" ["f"] _ hk (by decide)⟩

/-- An instance of `C80_manager_violated`, where `create` succeeds for an item in another section. -/
example : (∃ s', createItem freeEnv createToy keepText "p" "d" [] (resetCreated emptyEval (fun _ => .mk false [] []) (freeEnv.resolve "d"))
      ["s"] (some createNewU) (createWhole Dict.empty) = (.ok (), s')) ∧
    ∃ e, (createItem freeEnv createToy keepText "p" "d" [] (resetCreated emptyEval (fun _ => .mk false [] []) (freeEnv.resolve "d"))
      ["load"] (some createNewU) (createWhole Dict.empty)).1 = .error e := by
  refine ⟨?_, C80_manager_violated freeEnv createToy keepText emptyEval _ "p" "d" [] "load" [] _ _ (by decide) _ _ _ rfl⟩
  obtain ⟨s', h, _⟩ := create_whole_u Dict.empty (create_resets_u Dict.empty (by
    intro s hs
    unfold RM.applyToLoaded
    rw [M.bind_ok (M.get_run _), hs]
    rfl))
  exact ⟨s', h⟩

end Verif.Props

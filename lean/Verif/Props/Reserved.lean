import Verif.Props.Attr
import Verif.Props.Listing
import Verif.Props.Selector
import Verif.Props.ItemView
import Verif.Props.Store

/-
The names of attributes that win over items: part of C25, C36 and C86.  The names are written out here once more, so that the
theorems that leave them out say which they are.
-/

namespace Verif.Props
open Verif.Py Verif.Model

variable {V : Type}

/-- Methods and attributes of collections. -/
def namesOfCollections : List String :=
  ["_items", "_output_config_file", "_output_config_files", "_output_section_config_file", "_set_name_map", "_transform_item",
   "_transform_items", "add_if_missing", "always_assign_strs", "always_import_strs", "append", "append_if_missing", "basepath", "copy", "execute_attr",
   "extend", "from_dict", "from_list", "get", "imports", "insert", "insert_if_missing", "items", "key_attr", "klass", "name",
   "name_dict", "name_for_obj", "repr_cols", "to_nested_dict"]

/-- Methods and attributes registrars have beside. -/
def namesOfRegistrars : List String := ["collection", "collection_class", "scaffold_config", "scaffold_config_for", "set"]

/-- Methods and attributes of managers. -/
def namesOfManagers : List String :=
  ["_convert_list_or_single_item_view_or_str_to_strs", "_create_pipeline_dict_entry", "_create_project_if_needed",
   "_create_specific_class_dict_entry", "_general_registrar", "_get_section_path_str_from_section_path_str_or_view",
   "_import_tracker", "_load_pipeline_config_and_runner", "_loaded_modules", "_need_to_create_project", "_registrar_dict",
   "_registrars", "_run_depending_on_settings", "_run_with_auto_pdb", "_run_with_force_continue", "_update", "_validate_options",
   "_wipe_loaded_modules", "auto_pdb", "config", "create", "default_config_path", "folder", "force_continue", "get",
   "get_manager_by_filepath", "get_manager_by_section_path_str", "load", "name", "pipeline_dict_path", "refresh", "reload", "reset",
   "run", "run_product", "run_product_gen", "runner", "specific_class_config_dicts", "specific_class_names", "update",
   "update_batch"]

/-- Methods and attributes of runners. -/
def namesOfRunners : List String :=
  ["_add_full_section_path_str_to_obj", "_add_to_config_dependencies_if_necessary", "_all_specific_classes", "_config",
   "_full_getattr", "_general_registrar", "_get_class_and_config", "_get_config", "_get_func_and_config", "_get_func_or_collection",
   "_get_one_func_with_config", "_get_one_obj_with_config", "_get_section", "_is_specific_class", "_loaded_objects",
   "_manager_name", "_registrars", "_run", "_run_one_class", "_run_one_func", "_run_one_specific_class", "_run_section",
   "_specific_class_registrar_map", "get", "refresh", "repr_cols", "reset", "run", "update"]

theorem subset_iff {as bs : List String} (h1 : ∀ x ∈ as, x ∈ bs) (h2 : ∀ x ∈ bs, x ∈ as) (x : String) : x ∈ as ↔ x ∈ bs :=
  ⟨h1 x, h2 x⟩

theorem collectionReserved_iff (x : String) : x ∈ collectionReserved ↔ x ∈ namesOfCollections :=
  subset_iff (by decide +kernel) (by decide +kernel) x

theorem registrarReserved_iff (x : String) : x ∈ registrarReserved ↔ x ∈ namesOfRegistrars ∨ x ∈ namesOfCollections := by
  unfold registrarReserved
  rw [List.mem_append, collectionReserved_iff]
  exact or_congr Iff.rfl Iff.rfl

theorem managerAttrs_iff (x : String) : x ∈ managerAttrs ↔ x ∈ namesOfManagers :=
  subset_iff (by decide +kernel) (by decide +kernel) x

theorem runnerAttrs_iff (x : String) : x ∈ runnerAttrs ↔ x ∈ namesOfRunners :=
  subset_iff (by decide +kernel) (by decide +kernel) x

/-- What is found under a name, if the names in `own` are methods and attributes. -/
def foundUnder (own : List String) (items : List (String × Reg V)) (x : String) : Except PyErr (Reg V) :=
  if x ∈ own then .ok .other
  else match AList.get? items.reverse x with
    | some n => .ok n
    | none => .error .attributeError

theorem attr_foundUnder {res own : List String} (h : ∀ x, x ∈ res ↔ x ∈ own) (b : Bool) (items : List (String × Reg V)) (x : String) :
    Reg.attr res (.coll b items) x = foundUnder own items x := by
  unfold Reg.attr foundUnder
  by_cases hx : x ∈ own
  · rw [if_pos hx]
    exact if_pos ((h x).2 hx)
  · rw [if_neg hx]
    dsimp only
    rw [if_neg (fun hh => hx ((h x).1 hh)), Reg.get?_nameDict]
    cases AList.get? items.reverse x <;> rfl

/-- C36: in a collection, a name leads to the last thing registered under it, but for names of methods and attributes of
collections, which lead to those; from a registrar, also for its own. -/
theorem C36_names_partial (b : Bool) (items : List (String × Reg V)) (x : String) :
    Reg.attr collectionReserved (.coll b items) x = foundUnder namesOfCollections items x ∧
    Reg.attr registrarReserved (.coll b items) x = foundUnder (namesOfRegistrars ++ namesOfCollections) items x :=
  ⟨attr_foundUnder collectionReserved_iff b items x,
    attr_foundUnder (fun x => by rw [registrarReserved_iff, List.mem_append]) b items x⟩

example : foundUnder namesOfCollections [("f", (.item demoFunc : Reg Nat)), ("get", .item demoFunc)] "get" = .ok .other ∧
    foundUnder namesOfCollections [("f", (.item demoFunc : Reg Nat)), ("get", .item demoFunc)] "f" = .ok (.item demoFunc) :=
  ⟨rfl, rfl⟩

/-- C25: which names lead to something of the manager itself, whatever is registered: those of its methods and attributes and of
those of its runner.  All others are looked up. -/
theorem C25_own_names (s : AS V) (x : String) :
    (AM.managerAttr x s = (.ok .own, s) ∧ (x ∈ namesOfManagers ∨ x ∈ namesOfRunners)) ∨
    (AM.managerAttr x s = AM.missing x s ∧ x ∉ namesOfManagers ∧ x ∉ namesOfRunners) := by
  unfold AM.managerAttr AM.runnerAttr
  by_cases h1 : x ∈ managerAttrs
  · rw [if_pos h1]
    exact .inl ⟨rfl, .inl ((managerAttrs_iff x).1 h1)⟩
  · rw [if_neg h1]
    by_cases h2 : x ∈ runnerAttrs
    · rw [if_pos h2]
      exact .inl ⟨rfl, .inr ((runnerAttrs_iff x).1 h2)⟩
    · rw [if_neg h2]
      exact .inr ⟨rfl, fun h => h1 ((managerAttrs_iff x).2 h), fun h => h2 ((runnerAttrs_iff x).2 h)⟩

/-- C25 fails for every item that is called like a method or attribute of managers or runners. -/
theorem C25_own_name_violated (x : String) (hx : x ∈ namesOfManagers ∨ x ∈ namesOfRunners) (s : AS V) :
    AM.access [x] s = (.ok .own, s) := by
  rcases C25_own_names s x with ⟨h, _⟩ | ⟨_, h1, h2⟩
  · have hb : AM.access [x] s = (AM.managerAttr x >>= fun r => AM.accessFrom r []) s := rfl
    rw [hb, M.bind_ok h]
    rfl
  · rcases hx with h | h
    · exact absurd h h1
    · exact absurd h h2

/-- C86: what is listed for a registrar: these four, and what is registered. -/
theorem C86_registrar_names (items : List (String × Reg V)) (x : String) :
    x ∈ dirRegistrar items ↔ x ∈ ["basepath", "get", "name", "scaffold_config"] ∨ x ∈ items.map Prod.fst := by
  rw [dirRegistrar_mem, subset_iff (as := registrarExposed) (bs := ["basepath", "get", "name", "scaffold_config"]) (by decide) (by decide)]

/-- Methods of collections. -/
def callableNames : List String :=
  ["_output_config_file", "_output_config_files", "_output_section_config_file", "_set_name_map", "_transform_item",
   "_transform_items", "add_if_missing", "append", "append_if_missing", "copy", "extend", "from_dict", "from_list", "get", "insert", "insert_if_missing",
   "name_for_obj", "to_nested_dict"]

/-- C52: of the names every collection has, these count as registered in a manager (`klass` beside them, for collections of one
class); the others do not. -/
theorem C52_names_violated (sel : Sel V) (m : String) (r : Registry V) (hm : AList.get? sel m = some r)
    (hg : "_general" ∉ r.specific.map Prod.fst) (x : String) (hx : x ∈ namesOfCollections) (hs : x ∉ r.specific.map Prod.fst)
    (b : Bool) (items : List (String × Reg V)) (hc : r.general = .coll b items) (path : String)
    (hp : (SectionPath.mk path).sections = [m, x]) :
    selContains sel path = .ok (decide (x ∈ callableNames ∨ (x = "klass" ∧ b = true))) := by
  rw [(C52_attributes sel m r hm hg x ((collectionReserved_iff x).2 hx) path).1 b items hc hs hp]
  have := subset_iff (as := collectionMethods) (bs := callableNames) (by decide +kernel) (by decide +kernel) x
  rw [Except.ok.injEq, decide_eq_decide, this]

/-! ### Configs -/

/-- Methods and attributes of the sections of configs. -/
def namesOfSections : List String :=
  ["_config_map", "_items", "_set_config_map", "add_if_missing", "append", "append_if_missing", "config", "config_map", "copy", "extend", "from_files", "insert",
   "insert_if_missing", "items", "name", "repr_cols", "update"]

/-- Methods and attributes config managers have beside. -/
def namesOfConfigManagers : List String :=
  ["_determine_and_track_if_config_would_be_refreshed", "_determine_and_track_if_config_would_be_updated",
   "_get_default_func_or_section_config", "_get_func_or_section_configs", "_get_project_config_or_local_config_by_section_path",
   "_is_function_or_pipeline_path", "_set_func_or_config_no_create", "_set_func_or_config_with_create",
   "_set_func_or_section_config", "_track_pre_update", "basepath", "get", "load", "local_config", "pipeline_manager", "pipeline_manager_name", "pop", "refresh",
   "refresh_dependent_configs", "reset", "section", "set", "track_post_update"]

theorem sectionReserved_iff (x : String) : x ∈ sectionReserved ↔ x ∈ namesOfSections :=
  subset_iff (by decide +kernel) (by decide +kernel) x

theorem managerReserved_iff (x : String) : x ∈ managerReserved ↔ x ∈ namesOfConfigManagers ∨ x ∈ namesOfSections := by
  unfold managerReserved
  rw [List.mem_append, sectionReserved_iff]
  refine or_congr_left ?_
  exact subset_iff (by decide +kernel) (by decide +kernel) x

/-- C53: in a section of configs, a name leads to what is stored under it, but for the names of methods and attributes. -/
theorem C53_names_partial (nm : String) (cfg : Option (Conf V)) (attrs map : List (String × Node V)) (x : String) :
    (Node.child sectionReserved nm (.sect cfg attrs map) x =
      if x ∈ namesOfSections then .ok .other else Node.child [] nm (.sect cfg attrs map) x) ∧
    (Node.child managerReserved nm (.sect cfg attrs map) x =
      if x ∈ namesOfConfigManagers ∨ x ∈ namesOfSections then .ok .other else Node.child [] nm (.sect cfg attrs map) x) := by
  refine ⟨?_, ?_⟩
  · by_cases h : x ∈ namesOfSections
    · rw [if_pos h]
      exact if_pos ((sectionReserved_iff x).2 h)
    · rw [if_neg h]
      have h1 : x ∉ sectionReserved := fun hh => h ((sectionReserved_iff x).1 hh)
      simp only [Node.child, if_neg h1, if_neg (List.not_mem_nil (a := x))]
  · by_cases h : x ∈ namesOfConfigManagers ∨ x ∈ namesOfSections
    · rw [if_pos h]
      exact if_pos ((managerReserved_iff x).2 h)
    · rw [if_neg h]
      have h1 : x ∉ managerReserved := fun hh => h ((managerReserved_iff x).1 hh)
      simp only [Node.child, if_neg h1, if_neg (List.not_mem_nil (a := x))]

/-- C53 fails for items that are called like a method or attribute: no config is found for them, whatever is in their file.
(Not for `config`, `local_config` and `section`, which lead to other configs in Python.) -/
theorem C53_names_violated (s : CM V) (cfg : Option (Conf V)) (attrs map : List (String × Node V)) (hs : s.root = .sect cfg attrs map)
    (x : String) (hx : x ∈ namesOfConfigManagers ∨ x ∈ namesOfSections) (_hc : x ∉ ["config", "local_config", "section"]) : ownConfig s [x] = .error .valueError := by
  have hw : s.walk [x] = .ok .other := by
    unfold CM.walk
    rw [hs, Node.walk, (C53_names_partial s.rootName cfg attrs map x).2, if_pos hx]
    rfl
  unfold ownConfig
  rw [hw]

/-! ### Views -/

/-- Attributes that selectors have themselves. -/
def namesOfSelectors : List String :=
  ["_attach_to_pipeline_manager", "_get_collection_obj_and_relative_section_path_from_structure", "_get_dir_for_section_path",
   "_get_real_item", "_is_selector", "_load_structure", "_managers", "_set_attr_for_item", "_structure", "get_type"]

/-- Attributes that views have themselves. -/
def namesOfViews : List String :=
  ["_add_to_config_dependencies_if_necessary", "_is_item_view", "_section_path_str", "_specific_class_collection_map",
   "_specific_classes", "from_section_path_str", "item", "section_path_str", "selector", "type"]

/-- C52: attributes of a selector are views of what is in it, but for its own; attributes of a view are never views if the view has
them itself. -/
theorem C52_view_names_violated (sel : Sel V) (real : RealAttr) (x p : String) :
    (SelView.attr sel real .selector x = .ok (if x ∈ namesOfSelectors then .foreign x else .view x)) ∧
    (x ∈ namesOfViews → SelView.attr sel real (.view p) x = .ok (.foreign (p ++ "." ++ x))) ∧
    (x ∉ namesOfViews →
      selContains sel (p ++ "." ++ x) = .ok true → SelView.attr sel real (.view p) x = .ok (.view (p ++ "." ++ x))) := by
  have hv := subset_iff (as := viewReserved) (bs := namesOfViews)
    (by decide +kernel) (by decide +kernel) x
  refine ⟨?_, ?_, ?_⟩
  · have h1 : x ∈ selectorReserved ↔ x ∈ namesOfSelectors := subset_iff (by decide +kernel) (by decide +kernel) x
    unfold SelView.attr
    by_cases h : x ∈ namesOfSelectors
    · rw [if_pos (h1.2 h), if_pos h]
    · rw [if_neg (fun hh => h (h1.1 hh)), if_neg h]
  · intro h
    unfold SelView.attr
    exact if_pos (hv.2 h)
  · intro h hc
    unfold SelView.attr
    dsimp only
    rw [if_neg (fun hh => h (hv.1 hh)), hc]

theorem viewNames_iff (x : String) : x ∈ viewNames ↔ x ∈ namesOfViews :=
  subset_iff (by decide +kernel) (by decide +kernel) x

/-- C67: reading one of these names from a view gives what the view has itself, and touches no manager; whatever the view shows under
that name is not reached.  Any other name that the selector has below the view is another view. -/
theorem C67_view_names_violated [BEq V] (sel : Sel V) (own : Obj V → String → Except PyErr V) (path x : String) :
    (x ∈ namesOfViews → viewGet sel own path x = pure .own) ∧
    (x ∉ namesOfViews → selContains sel (path ++ "." ++ x) = .ok true → viewGet sel own path x = pure (.view (path ++ "." ++ x))) := by
  refine ⟨fun h => ?_, fun h hc => ?_⟩
  · unfold viewGet
    exact if_pos ((viewNames_iff x).2 h)
  · unfold viewGet
    rw [if_neg (fun hh => h ((viewNames_iff x).1 hh)), hc]

/-- C67: setting one of these four names sets it on the view, and touches no manager; any other name is set in the config of the item. -/
theorem C67_set_names [BEq V] (path x : String) (v : V) (m : String) (rest : List String)
    (hp : (SectionPath.mk path).sections = m :: rest) :
    viewSet path x v = if x ∈ ["_is_item_view", "_section_path_str", "section_path_str", "selector"] then pure ()
      else VM.on .keyError m (AM.liftR (RM.update (some (Dict.ofList [(x, v)])) (some (belowManager rest)) true Dict.empty)) := by
  have hv := subset_iff (as := viewOwnAttrs) (bs := ["_is_item_view", "_section_path_str", "section_path_str", "selector"])
    (by decide +kernel) (by decide +kernel) x
  unfold viewSet
  by_cases h : x ∈ viewOwnAttrs
  · rw [if_pos h, if_pos (hv.1 h)]
  · rw [if_neg h, if_neg (fun hh => h (hv.2 hh)), hp]

example : ("items" ∈ namesOfSections) ∧ ("load" ∈ namesOfConfigManagers) ∧ ("stuff" ∉ namesOfSections) ∧ ("item" ∈ namesOfViews) ∧
    ("_is_item_view" ∉ namesOfSections) := by decide

end Verif.Props

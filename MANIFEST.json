{
 "claims": [
  {
   "property": "C01",
   "status": "proved",
   "theorems": [
    "Verif.Props.C01_text_sections_round_trip"
   ],
   "note": ""
  },
  {
   "property": "C02",
   "status": "proved",
   "theorems": [
    "Verif.Props.C02_join_concatenates"
   ],
   "note": ""
  },
  {
   "property": "C03",
   "status": "proved",
   "theorems": [
    "Verif.Props.C03_absolute",
    "Verif.Props.C03_any_file",
    "Verif.Props.C03_folder_itself",
    "Verif.Props.C03_outside_files",
    "Verif.Props.C03_file_round_trip_py",
    "Verif.Props.C03_file_round_trip",
    "Verif.Props.C03_files_distinct"
   ],
   "note": "Beside the statement, C03_any_file gives the section path of any file for any folder, and C03_outside_files what becomes of files that are not below the folder."
  },
  {
   "property": "C04",
   "status": "partial",
   "theorems": [
    "Verif.Props.C04_endswith_exact",
    "Verif.Props.C04_endswith_suffix_partial",
    "Verif.Props.C04_endswith_suffix_violated"
   ],
   "note": "The code violates the property when the argument is longer than the receiver (witness six / six.moves); exact characterisation proved, suffix relation proved otherwise."
  },
  {
   "property": "C05",
   "status": "proved",
   "theorems": [
    "Verif.Props.C05_denotes_unique",
    "Verif.Props.C05_from_ambiguous",
    "Verif.Props.C05_list_from_ambiguous"
   ],
   "note": ""
  },
  {
   "property": "C06",
   "status": "proved",
   "theorems": [
    "Verif.Props.C06_update_changes_named_keys"
   ],
   "note": ""
  },
  {
   "property": "C07",
   "status": "proved",
   "theorems": [
    "Verif.Props.C07_would_update_iff_visible",
    "Verif.Props.C07_would_update_iff_changes",
    "Verif.Props.C07_no_update_is_invisible"
   ],
   "note": ""
  },
  {
   "property": "C08",
   "status": "proved",
   "theorems": [
    "Verif.Props.C08_refresh_after_any_history",
    "Verif.Props.C08_refresh_idempotent"
   ],
   "note": ""
  },
  {
   "property": "C09",
   "status": "proved",
   "theorems": [
    "Verif.Props.C09_announced_change_is_made"
   ],
   "note": ""
  },
  {
   "property": "C10",
   "status": "partial",
   "theorems": [
    "Verif.Props.C10_inheritance_order_partial",
    "Verif.Props.C10_unreadable_file",
    "Verif.Props.C10_empty_config_violated"
   ],
   "note": "Proved for items whose own config has at least one key; items without any key inherit nothing (witness)."
  },
  {
   "property": "C11",
   "status": "partial",
   "theorems": [
    "Verif.Props.C11_lookup_repeatable_partial",
    "Verif.Props.C11_lookup_stores_inherited_violated",
    "Verif.Props.C11_section_lookup_violated"
   ],
   "note": "Repeated lookups of items agree and leave items not looked up alone; the first lookup rewrites the item's stored config, and looking up a section rewrites the section (witnesses)."
  },
  {
   "property": "C12",
   "status": "proved",
   "theorems": [
    "Verif.Props.C12_runner_frame",
    "Verif.Props.C12_item_frame",
    "Verif.Props.C12_section_frame"
   ],
   "note": "Frame for every operation on one item, for the config manager and for the runner (created objects, configs, local config, files)."
  },
  {
   "property": "C13",
   "status": "partial",
   "theorems": [
    "Verif.Props.C13_reset_partial",
    "Verif.Props.C13_unreadable_file",
    "Verif.Props.C13_extra_key_survives_violated",
    "Verif.Props.C13_reserved_name_violated",
    "Verif.Props.C13_section_reset_violated"
   ],
   "note": "Keys get their file values back; keys the file does not have and recorded updates survive when nothing else differs (witness); files with reserved names and sections with a config cannot be reset (proved)."
  },
  {
   "property": "C14",
   "status": "partial",
   "theorems": [
    "Verif.Props.C14_local_update_violated"
   ],
   "note": "The opposite is proved: in every reachable state an update without a path is lost."
  },
  {
   "property": "C15",
   "status": "partial",
   "theorems": [
    "Verif.Props.C15_edits_not_visible",
    "Verif.Props.C15_refresh_reads_file_partial",
    "Verif.Props.C15_added_key_violated"
   ],
   "note": "Edits are invisible to lookups, updates and pops; refresh shows them unless the edit only adds names (witness)."
  },
  {
   "property": "C16",
   "status": "partial",
   "theorems": [
    "Verif.Props.C16_bound_is_current_run_partial",
    "Verif.Props.C16_bound_is_current_partial",
    "Verif.Props.C16_bound_is_current_reset_partial",
    "Verif.Props.C16_run_violated",
    "Verif.Props.C16_reset_violated",
    "Verif.Props.C16_run_is_current_partial"
   ],
   "note": "Proved over all histories of update/refresh (and reset) of the item, and over histories with runs if no section sets a parameter (C16_bound_is_current_run_partial); running the item where a section does, or resetting with keys missing from the file breaks it (witnesses)."
  },
  {
   "property": "C17",
   "status": "partial",
   "theorems": [
    "Verif.Props.C17_class_partial",
    "Verif.Props.C17_class_inherited_violated",
    "Verif.Props.C17_class_raises_violated",
    "Verif.Props.C17_update_create_partial",
    "Verif.Props.C17_inherited_violated",
    "Verif.Props.C17_new_key_violated"
   ],
   "note": "C17_update_create_partial (functions): proved for keys the enclosing sections do not define and the config has. C17_class_partial (classes and objects of specific classes): the same for any keys the enclosing sections do not define, if the class does not raise. Counterexamples: inherited keys (C17_inherited_violated, C17_class_inherited_violated), keys new to the config of a function (C17_new_key_violated), classes that raise when updated (C17_class_raises_violated)."
  },
  {
   "property": "C18",
   "status": "partial",
   "theorems": [
    "Verif.Props.C18_only_accepted",
    "Verif.Props.C18_names_fixed_partial",
    "Verif.Props.C18_class_names_violated"
   ],
   "note": "Only accepted names are ever bound; the set of names is fixed for functions, for classes it changes (witness)."
  },
  {
   "property": "C19",
   "status": "partial",
   "theorems": [
    "Verif.Props.C19_configured_bound_partial",
    "Verif.Props.C19_keyword_only_violated"
   ],
   "note": "Proved for parameters the introspection finds; keyword-only parameters of a function without any keyword-only default are missed (witness)."
  },
  {
   "property": "C20",
   "status": "proved",
   "theorems": [
    "Verif.Props.C20_same_object",
    "Verif.Props.C20_created_once"
   ],
   "note": ""
  },
  {
   "property": "C21",
   "status": "partial",
   "theorems": [
    "Verif.Props.C21_list_partial",
    "Verif.Props.C21_list_raises",
    "Verif.Props.C21_single",
    "Verif.Props.C21_one_entry_violated"
   ],
   "note": "Exact for lists of length other than one; a one-element list is treated like its element (proved for every path)."
  },
  {
   "property": "C22",
   "status": "partial",
   "theorems": [
    "Verif.Props.C22_force_continue_partial",
    "Verif.Props.C22_interrupt",
    "Verif.Props.C22_single",
    "Verif.Props.C22_section_violated"
   ],
   "note": "Exact trace for lists of length other than one (C22_force_continue_partial, C22_interrupt) and for a single path (C22_single); a one-element list returns the bare result (C21). Counterexample: an item of a section that raises ends the run of the section, so later items of the section are not attempted (C22_section_violated)."
  },
  {
   "property": "C23",
   "status": "partial",
   "theorems": [
    "Verif.Props.C23_run_section_partial",
    "Verif.Props.C23_each_once_in_order_partial",
    "Verif.Props.C23_nesting_partial",
    "Verif.Props.C23_class_in_section_violated",
    "Verif.Props.C23_class_first_violated"
   ],
   "note": "Proved for sections of functions at any depth; classes inside a section are run under the path of the section (witness)."
  },
  {
   "property": "C24",
   "status": "partial",
   "theorems": [
    "Verif.Props.C24_attribute_value_error",
    "Verif.Props.C24_items_partial",
    "Verif.Props.C24_subsections",
    "Verif.Props.C24_mixed_raises",
    "Verif.Props.C24_mixed_value_error",
    "Verif.Props.C24_all_created",
    "Verif.Props.C24_class_in_section_violated"
   ],
   "note": "Proved for sections of functions and specific-class objects and for subsections; classes inside a section are wrapped instead of created (witness)."
  },
  {
   "property": "C25",
   "status": "partial",
   "theorems": [
    "Verif.Props.C25_access_partial",
    "Verif.Props.C25_history_partial",
    "Verif.Props.C25_after_failed_access",
    "Verif.Props.C25_failed_access_violated",
    "Verif.Props.C25_section_access_violated",
    "Verif.Props.C25_own_names",
    "Verif.Props.C25_own_name_violated"
   ],
   "note": "Proved for every history of calls and completed accesses; a failed access or an access that stops at a section breaks the following ones (characterised and witnessed)."
  },
  {
   "property": "C26",
   "status": "proved",
   "theorems": [
    "Verif.Props.C26_balanced",
    "Verif.Props.C26_innermost",
    "Verif.Props.C26_outcome",
    "Verif.Props.C26_reset_inside",
    "Verif.Props.C26_reset_inside_outer"
   ],
   "note": "Every nesting of runs, gets, file loads, view uses, exceptions and handlers. context.reset() is not one of the actions; C26_reset_inside shows what it does when called by code that is being run or loaded (IndexError, also for everything around it)."
  },
  {
   "property": "C27",
   "status": "proved",
   "theorems": [
    "Verif.Props.C27_sound",
    "Verif.Props.C27_kept",
    "Verif.Props.C27_only_uses",
    "Verif.Props.C27_reset"
   ],
   "note": "Every history of such operations, direct records and resets."
  },
  {
   "property": "C28",
   "status": "partial",
   "theorems": [
    "Verif.Props.C28_consistent",
    "Verif.Props.C28_objects",
    "Verif.Props.C28_new_key_violated",
    "Verif.Props.C28_itself_violated",
    "Verif.Props.C28_circle",
    "Verif.Props.C28_runner_partial",
    "Verif.Props.C28_runner_all_partial"
   ],
   "note": "Proved for configs of items without section configs, over all histories of reads, updates, refreshes and resets, in all projects, circular ones included, for all items whose file does not read the item itself: C28_consistent, C28_objects. C28_circle: items that wait for one another are never got. C28_new_key_violated: a key the file assigns only in some cases is not added by a refresh. C28_itself_violated: a file that reads its own item is not refreshed when this item is updated. Values that compare equal are assumed to be the same. C28_runner_partial, C28_runner_all_partial: for functions, and for classes and objects of specific classes whose constructors and update methods do not raise, whose files read no other items, the operations of this model return, raise and change configs and objects as those of the runner's model do. Missing there: items whose files read others."
  },
  {
   "property": "C29",
   "status": "proved",
   "theorems": [
    "Verif.Props.C29_terminates",
    "Verif.Props.C29_records",
    "Verif.Props.C29_guard_unreachable"
   ],
   "note": "Termination for acyclic projects, with the result independent of the bound, for updates, refreshes and resets; the guard is unreachable in every state, circles included."
  },
  {
   "property": "C30",
   "status": "partial",
   "theorems": [
    "Verif.Props.C30_update_partial",
    "Verif.Props.C30_plugins_partial",
    "Verif.Props.C30_parameter_violated",
    "Verif.Props.C30_overlap_violated"
   ],
   "note": "Violated when the dict and the keyword arguments give one key different values (C30_overlap_violated); the partial theorem covers all other updates and those changed by plugins."
  },
  {
   "property": "C31",
   "status": "partial",
   "theorems": [
    "Verif.Props.C31_product",
    "Verif.Props.C31_members",
    "Verif.Props.C31_missing_path",
    "Verif.Props.C31_plugins",
    "Verif.Props.C31_keys_partial",
    "Verif.Props.C31_keys_error",
    "Verif.Props.C31_no_path",
    "Verif.Props.C31_section_paths",
    "Verif.Props.C31_same_runner",
    "Verif.Props.C31_views_never",
    "Verif.Props.C31_section_paths_base",
    "Verif.Props.C31_section_paths_no_base",
    "Verif.Props.C31_views_one_case",
    "Verif.Props.C31_views_violated",
    "Verif.Props.C31_mixed_violated"
   ],
   "note": "For paths that are strings the cases are given as a mixed-radix enumeration (length, i-th case) and as a membership criterion (C31_product, C31_members); an update without a path is a KeyError. C31_keys_partial: the same for paths of every form, over the keys the updates are grouped by. C31_section_paths: section paths are like their strings; C31_section_paths_base, C31_section_paths_no_base: the runner then is the same too if there is a base, and there is none otherwise. It fails where a string and a section path are the same path (C31_mixed_violated) and for item views, which are replaced by copies of their items: each update is for a path of its own (C31_views_violated, C31_views_one_case), and the runner is never made (C31_views_never)."
  },
  {
   "property": "C32",
   "status": "partial",
   "theorems": [
    "Verif.Props.C32_results",
    "Verif.Props.C32_one_result_per_case",
    "Verif.Props.C32_own_manager",
    "Verif.Props.C32_defaults",
    "Verif.Props.C32_no_config_violated",
    "Verif.Props.C32_case_partial",
    "Verif.Props.C32_unknown_key_violated",
    "Verif.Props.C32_section_violated",
    "Verif.Props.C32_dict_violated",
    "Verif.Props.C32_second_run_violated",
    "Verif.Props.C32_applied"
   ],
   "note": "For every reachable state and every list of earlier cases of the same runner: each key of each case item has the case's value, or else the value at creation, unless the case names a key that an enclosing section or the local config defines. C32_applied: which updates of a case are applied. Counterexamples for unknown keys, section keys, d_ and a second run. Run items may be items and sections of functions, nested in any way. Run items that are sections with classes, whose runs fail, and plugins around updates and runs, are missing (for plugins that give cases see C106)."
  },
  {
   "property": "C33",
   "status": "partial",
   "theorems": [
    "Verif.Props.C33_active_partial",
    "Verif.Props.C33_state_partial",
    "Verif.Props.C33_section_violated"
   ],
   "note": "Active configurations are always the same; the whole state, with created objects, is the same where no section or local config defines anything around the case items. Counterexample: with a section value the created object differs."
  },
  {
   "property": "C34",
   "status": "proved",
   "theorems": [
    "Verif.Props.C34_rejected",
    "Verif.Props.C34_uncollected",
    "Verif.Props.C34_lazy_prefix",
    "Verif.Props.C34_lazy"
   ],
   "note": "Lazy, eager and uncollected runs agree for every should_run and every number of next() calls; rejected cases are as if not there. should_run is assumed to change nothing."
  },
  {
   "property": "C35",
   "status": "partial",
   "theorems": [
    "Verif.Props.C35_batch",
    "Verif.Props.C35_update_batch",
    "Verif.Props.C35_foreign_view_violated",
    "Verif.Props.C35_plugins",
    "Verif.Props.C35_reset"
   ],
   "note": "A batch is the sequence of its updates up to the first failing one, for any managers. update_batch with a view of an item of another manager updates this manager's item instead (violated witness)."
  },
  {
   "property": "C36",
   "status": "partial",
   "theorems": [
    "Verif.Props.C36_found_partial",
    "Verif.Props.C36_lookup_partial",
    "Verif.Props.C36_list_in_list_violated",
    "Verif.Props.C36_leaf_violated",
    "Verif.Props.C36_reserved_violated",
    "Verif.Props.C36_names_partial"
   ],
   "note": "Proved for every definition that loads and every path without names that are attributes of collections (those are shadowed, witness); items directly in a dictionary are silently left out (witness)."
  },
  {
   "property": "C37",
   "status": "proved",
   "theorems": [
    "Verif.Props.C37_succeeds_iff",
    "Verif.Props.C37_failure",
    "Verif.Props.C37_added",
    "Verif.Props.C37_others",
    "Verif.Props.C37_on_the_way",
    "Verif.Props.C37_kind"
   ],
   "note": "Success characterised exactly, failure leaves the definition unchanged, all other entries and orders kept."
  },
  {
   "property": "C38",
   "status": "partial",
   "theorems": [
    "Verif.Props.C38_kind",
    "Verif.Props.C38_general",
    "Verif.Props.C38_specific",
    "Verif.Props.C38_quote_needed",
    "Verif.Props.C38_section_in_list_violated",
    "Verif.Props.C38_general_succeeds_iff",
    "Verif.Props.C38_specific_succeeds_iff",
    "Verif.Props.C38_create"
   ],
   "note": "Proved for dictionaries of lists of names (general) and for arbitrary nested lists/dicts of arbitrary strings (specific classes), for every text with the same tokens up to trailing commas (what black changes); a section inside a list can be loaded but not written (witness). The reader is an own specification of Python's literal grammar."
  },
  {
   "property": "C39",
   "status": "partial",
   "theorems": [
    "Verif.Props.C39_found_partial",
    "Verif.Props.C39_kept_partial",
    "Verif.Props.C39_sections_partial",
    "Verif.Props.C39_succeeds_iff_partial",
    "Verif.Props.C39_failure_partial",
    "Verif.Props.C39_shadow_violated",
    "Verif.Props.C39_reserved_violated"
   ],
   "note": "Proved for names that are not attributes of collections; an item with the name of an existing one shadows it, and an item called like an attribute is not found (witnesses)."
  },
  {
   "property": "C40",
   "status": "proved",
   "theorems": [
    "Verif.Props.C40_names",
    "Verif.Props.C40_resolves"
   ],
   "note": ""
  },
  {
   "property": "C41",
   "status": "partial",
   "theorems": [
    "Verif.Props.C41_always",
    "Verif.Props.C41_function_partial",
    "Verif.Props.C41_object_partial",
    "Verif.Props.C41_succeeds_iff",
    "Verif.Props.C41_import_text_violated",
    "Verif.Props.C41_parameter_lost_violated",
    "Verif.Props.C41_kind"
   ],
   "note": "Exact contents of the written file (selector, old assignments in order, missing parameters in order) for functions and objects, under laws about Python's parser and astor that are hypotheses (shown consistent with a small language), if the import section has imports only. Counterexamples: a first line with the text 'import' in it is dropped together with its assignment. Success is characterised exactly. Functions called DataPipeline are included. always_assign_strs other than the default or none: C76."
  },
  {
   "property": "C42",
   "status": "partial",
   "theorems": [
    "Verif.Props.C42_function_partial",
    "Verif.Props.C42_object_partial",
    "Verif.Props.C42_newline_violated",
    "Verif.Props.C42_blank_lines_violated",
    "Verif.Props.C42_grows_violated",
    "Verif.Props.C42_alternates_violated"
   ],
   "note": "Second write has the same lines, third the same text, if imports come first and the last line is not blank. Counterexamples: final newline, blank lines at the end, imports after a comment (one more import line per write, for every n), a class without selector whose first parameter is called import_path."
  },
  {
   "property": "C43",
   "status": "partial",
   "theorems": [
    "Verif.Props.C43_function_partial",
    "Verif.Props.C43_object_partial",
    "Verif.Props.C43_section",
    "Verif.Props.C43_comment_violated"
   ],
   "note": "From the first line that is not blank and has no 'import' in it all lines are kept verbatim, in one block (an empty last line may go). Counterexample: comments before it with the text 'import'."
  },
  {
   "property": "C44",
   "status": "partial",
   "theorems": [
    "Verif.Props.C44_read_back",
    "Verif.Props.C44_again",
    "Verif.Props.C44_kept",
    "Verif.Props.C44_provided_partial",
    "Verif.Props.C44_renamed_violated",
    "Verif.Props.C44_two_names_violated",
    "Verif.Props.C44_relative_violated"
   ],
   "note": "Written imports read back as the same import; adding twice is adding once; existing imports keep their order. Counterexamples: renamed names, several names across imports and relative imports (level is dropped)."
  },
  {
   "property": "C45",
   "status": "partial",
   "theorems": [
    "Verif.Props.C45_kept",
    "Verif.Props.C45_only",
    "Verif.Props.C45_created",
    "Verif.Props.C45_again",
    "Verif.Props.C45_needed_partial",
    "Verif.Props.C45_succeeds_iff",
    "Verif.Props.C45_custom_violated",
    "Verif.Props.C45_empty_violated",
    "Verif.Props.C45_file_violated"
   ],
   "note": "Nothing is overwritten and nothing else is created, on success and on failure anywhere; success gives everything needed, a second run changes nothing, and success is characterised exactly. Counterexamples: another default_config_folder_name is never created (always needed again), the empty folder name is always needed again, a file counts as the folder."
  },
  {
   "property": "C46",
   "status": "partial",
   "theorems": [
    "Verif.Props.C46_failed",
    "Verif.Props.C46_failed_exact",
    "Verif.Props.C46_returned",
    "Verif.Props.C46_reload",
    "Verif.Props.C46_session",
    "Verif.Props.C46_reload_partial",
    "Verif.Props.C46_stuck",
    "Verif.Props.C46_interrupt_violated",
    "Verif.Props.C46_nested_violated",
    "Verif.Props.C46_deleted_violated",
    "Verif.Props.C46_lazy_violated"
   ],
   "note": "Proved for all bodies (failed loads) and all sessions that load one manager at a time without interrupts (reloads). Counterexamples: an interrupt leaves modules and makes every later reload fail, nested loads claim the same modules, a module removed by others makes reloads fail for ever, modules imported after the load are not removed."
  },
  {
   "property": "C47",
   "status": "partial",
   "theorems": [
    "Verif.Props.C47_latest",
    "Verif.Props.C47_path",
    "Verif.Props.C47_missing",
    "Verif.Props.C47_failed",
    "Verif.Props.C47_unfinished_violated",
    "Verif.Props.C47_dot_violated"
   ],
   "note": "Exact for all histories. Counterexamples: a manager whose project could not be created stays registered and replaces a working one; a manager with a dot in its name cannot be found by a path."
  },
  {
   "property": "C48",
   "status": "partial",
   "theorems": [
    "Verif.Props.C48_first",
    "Verif.Props.C48_unique_partial",
    "Verif.Props.C48_innermost_violated",
    "Verif.Props.C48_root_violated"
   ],
   "note": "Exact (first manager whose folder contains the file) for folders other than the root. Counterexamples: nested folders (the manager registered first wins, not the innermost), the root folder."
  },
  {
   "property": "C49",
   "status": "partial",
   "theorems": [
    "Verif.Props.C49_names",
    "Verif.Props.C49_set_only",
    "Verif.Props.C49_set_value",
    "Verif.Props.C49_reset",
    "Verif.Props.C49_reset_default",
    "Verif.Props.C49_exit_default",
    "Verif.Props.C49_restores_iff_violated",
    "Verif.Props.C49_reset_stops_violated",
    "Verif.Props.C49_assign_violated"
   ],
   "note": "Setting changes one option only, resetting gives defaults, leaving the context manager gives the defaults - not the options as they were on entering (counterexample). Counterexamples too: a reset that raises leaves the options after it, and a directly assigned attribute is not followed by its side effects."
  },
  {
   "property": "C50",
   "status": "partial",
   "theorems": [
    "Verif.Props.C50_set_partial",
    "Verif.Props.C50_one_folder_partial",
    "Verif.Props.C50_twice_violated",
    "Verif.Props.C50_stuck_violated",
    "Verif.Props.C50_uncreated_violated",
    "Verif.Props.C50_settings_violated",
    "Verif.Props.C50_add_handler"
   ],
   "note": "Proved when log_folder is set once from a state without handler. Counterexamples: setting log_folder twice leaves two handlers, after which a reset fails or leaves one; a folder that cannot be created leaves the option set without handler; direct assignment."
  },
  {
   "property": "C51",
   "status": "partial",
   "theorems": [
    "Verif.Props.C51_logged",
    "Verif.Props.C51_written",
    "Verif.Props.C51_returns",
    "Verif.Props.C51_caught",
    "Verif.Props.C51_no_exceptions",
    "Verif.Props.C51_wrapped_partial",
    "Verif.Props.C51_raises_violated",
    "Verif.Props.C51_nests_violated"
   ],
   "note": "Restored whenever the run returns or its exceptions are caught inside, for all nestings. Counterexample: a run that raises leaves the replacement in place, and n failing runs nest n replacements (for all n)."
  },
  {
   "property": "C52",
   "status": "partial",
   "theorems": [
    "Verif.Props.C52_names_violated",
    "Verif.Props.C52_view_names_violated",
    "Verif.Props.C52_contains_partial",
    "Verif.Props.C52_unknown_violated",
    "Verif.Props.C52_methods_violated",
    "Verif.Props.C52_attributes",
    "Verif.Props.C52_same_path",
    "Verif.Props.C52_under",
    "Verif.Props.C52_registered_partial",
    "Verif.Props.C52_equal",
    "Verif.Props.C52_selector",
    "Verif.Props.C52_unloaded_error",
    "Verif.Props.C52_unloaded_violated",
    "Verif.Props.C52_shadow_violated"
   ],
   "note": "Equality, hash and path of a view proved without restriction; registered iff in the selector for paths without names of collection attributes. Counterexamples: methods of collections count as registered, an unknown manager raises KeyError, names such as item and type cannot be viewed, an unloaded manager makes every selector fail."
  },
  {
   "property": "C53",
   "status": "partial",
   "theorems": [
    "Verif.Props.C53_names_partial",
    "Verif.Props.C53_names_violated",
    "Verif.Props.C53_own_file_partial",
    "Verif.Props.C53_named_like_section_violated",
    "Verif.Props.C53_read_on_use",
    "Verif.Props.C53_reserved_name_violated",
    "Verif.Props.C53_section_partial",
    "Verif.Props.C53_load_fails",
    "Verif.Props.C53_section_ignored_violated"
   ],
   "note": "Proved for plain, non-reserved paths; items named like their section or like a section attribute violate it (witnesses). Sections: C53_section_partial, and C53_section_ignored_violated: a section file that raises a ValueError is ignored without an error."
  },
  {
   "property": "C54",
   "status": "partial",
   "theorems": [
    "Verif.Props.C54_additional_paths",
    "Verif.Props.C54_additional_results",
    "Verif.Props.C54_in_place_violated",
    "Verif.Props.C54_list_violated"
   ],
   "note": "Additional paths and results proved; in-place changes are ignored (proved for all plugins) and returned lists are not taken apart (witness)."
  },
  {
   "property": "C55",
   "status": "proved",
   "theorems": [
    "Verif.Props.C55_any",
    "Verif.Props.C55_auto_pdb"
   ],
   "note": ""
  },
  {
   "property": "C56",
   "status": "partial",
   "theorems": [
    "Verif.Props.C56_used_items_partial",
    "Verif.Props.C56_get_again_violated",
    "Verif.Props.C56_failed_run_violated",
    "Verif.Props.C56_nested_partial"
   ],
   "note": "C56_used_items_partial for one use, C56_nested_partial for every use an execution comes to, at any depth and whether it ends normally or raises. Violated for items got before (nothing is recorded) and for items whose run fails."
  },
  {
   "property": "C57",
   "status": "partial",
   "theorems": [
    "Verif.Props.C57_attribute_partial",
    "Verif.Props.C57_attribute_violated"
   ],
   "note": "Violated for every key: __getattr__ has no return statement."
  },
  {
   "property": "C58",
   "status": "partial",
   "theorems": [
    "Verif.Props.C58_found_iff",
    "Verif.Props.C58_binds",
    "Verif.Props.C58_same_partial",
    "Verif.Props.C58_renamed_violated",
    "Verif.Props.C58_first_violated",
    "Verif.Props.C58_imported_name"
   ],
   "note": "Found iff some import mentions the name; proved to bind it where no rename hides it. Counterexamples for renamed originals and for a later import rebinding the name."
  },
  {
   "property": "C59",
   "status": "partial",
   "theorems": [
    "Verif.Props.C59_defaults_partial",
    "Verif.Props.C59_posonly_violated",
    "Verif.Props.C59_self_violated",
    "Verif.Props.C59_required_violated",
    "Verif.Props.C59_required_error",
    "Verif.Props.C59_config_partial",
    "Verif.Props.C59_annotations"
   ],
   "note": "Proved for all signatures accepted by Python in which no positional-only parameter has a default and no keyword-only parameter lacks one. Counterexamples: such a positional-only default makes it fail (exactly these), a required keyword-only parameter makes it fail, __init__(self, /, a) loses a."
  },
  {
   "property": "C60",
   "status": "partial",
   "theorems": [
    "Verif.Props.C60_succeeds_iff",
    "Verif.Props.C60_binds",
    "Verif.Props.C60_assigned_violated",
    "Verif.Props.C60_builtin_violated",
    "Verif.Props.C60_kind"
   ],
   "note": "Success characterised exactly, and the imports bind exactly the needed names. Counterexamples: a default assigned in the module (the code means to import it from there but raises), a builtin type as default; annotations a.b.C and x | None are not accepted (part of the characterisation)."
  },
  {
   "property": "C61",
   "status": "partial",
   "theorems": [
    "Verif.Props.C61_denoted_partial",
    "Verif.Props.C61_one_definition",
    "Verif.Props.C61_config_partial",
    "Verif.Props.C61_class_partial",
    "Verif.Props.C61_async_violated",
    "Verif.Props.C61_nested_violated",
    "Verif.Props.C61_two_violated",
    "Verif.Props.C61_rebound_violated",
    "Verif.Props.C61_inherited_violated",
    "Verif.Props.C61_relative_violated",
    "Verif.Props.C61_local_violated",
    "Verif.Props.C61_unreadable_violated",
    "Verif.Props.C61_modules_violated"
   ],
   "note": "Proved for modules without async functions whose names are bound once, that can be read, and in which a name is imported by absolute imports of one module only: through any chain of imports and renames, the parameters found are those of the denoted function or __init__, and (with C59) the config written has exactly its keyword parameters with their defaults. Counterexamples: async functions, functions nested in them, two definitions in branches, rebinding, inherited __init__, relative imports, imports in function bodies, any file with an assignment to several targets or an import of several modules, wherever it stands."
  },
  {
   "property": "C62",
   "status": "partial",
   "theorems": [
    "Verif.Props.C62_found",
    "Verif.Props.C62_found_iff",
    "Verif.Props.C62_gives_partial",
    "Verif.Props.C62_alias_violated",
    "Verif.Props.C62_other_object_violated",
    "Verif.Props.C62_skipped",
    "Verif.Props.C62_main_violated",
    "Verif.Props.C62_raising_violated"
   ],
   "note": "Which module is found and when one is found is exact, and so is which modules are passed over (C62_skipped). The import gives the object if every module having the object has it under its __name__. Counterexamples: a module that imports it under another name, a name bound to another object, __main__, attributes that raise."
  },
  {
   "property": "C63",
   "status": "partial",
   "theorems": [
    "Verif.Props.C63_name_partial",
    "Verif.Props.C63_registered_name",
    "Verif.Props.C63_module_violated",
    "Verif.Props.C63_attribute_violated",
    "Verif.Props.C63_call_violated",
    "Verif.Props.C63_several_violated",
    "Verif.Props.C63_twice_violated"
   ],
   "note": "Proved for entries that are names imported from one module and not renamed by another import; the registered name is exact for all entries. Counterexamples: mod.f after import mod, attributes, calls, entries with several names, names imported twice."
  },
  {
   "property": "C64",
   "status": "partial",
   "theorems": [
    "Verif.Props.C64_frame",
    "Verif.Props.C64_items",
    "Verif.Props.C64_failure",
    "Verif.Props.C64_succeeds_iff",
    "Verif.Props.C64_again",
    "Verif.Props.C64_other_value_error",
    "Verif.Props.C64_section_violated",
    "Verif.Props.C64_same_name_violated"
   ],
   "note": "For every tree with plain distinct names: exactly which files are written, with which text, when scaffolding succeeds, and that a failure leaves each file as before or complete. Counterexamples: an item named section shares its file with the section file; two items or sections with the same name share a file."
  },
  {
   "property": "C65",
   "status": "partial",
   "theorems": [
    "Verif.Props.C65_rejected",
    "Verif.Props.C65_incomplete",
    "Verif.Props.C65_changed",
    "Verif.Props.C65_loaded",
    "Verif.Props.C65_frame",
    "Verif.Props.C65_late_violated"
   ],
   "note": "Exact: a definition that cannot be read, resolved or validated leaves all files as they are, and a load gives the registered tree and files of its entries. Counterexample: scaffolding fails late (a text cannot be made) after other files were written."
  },
  {
   "property": "C66",
   "status": "partial",
   "theorems": [
    "Verif.Props.C66_rejected",
    "Verif.Props.C66_created",
    "Verif.Props.C66_complete_partial",
    "Verif.Props.C66_failure_partial",
    "Verif.Props.C66_unloaded_violated",
    "Verif.Props.C66_scaffold_violated",
    "Verif.Props.C66_body_violated"
   ],
   "note": "Proved: rejected calls change nothing; after a successful call, up to the reset at its end (for which see C80), definition file, registered item and config file are complete (for plain names, config folder not above the definition file). C66_failure_partial says how far a failing call got. Counterexamples: before loading, failing scaffolding, and everything else in the definition file is lost."
  },
  {
   "property": "C67",
   "status": "partial",
   "theorems": [
    "Verif.Props.C67_set",
    "Verif.Props.C67_config",
    "Verif.Props.C67_read_partial",
    "Verif.Props.C67_reading",
    "Verif.Props.C67_new_key_violated",
    "Verif.Props.C67_function_violated",
    "Verif.Props.C67_inherited_violated",
    "Verif.Props.C67_own_names_violated",
    "Verif.Props.C67_view_names_violated",
    "Verif.Props.C67_set_names"
   ],
   "note": "Setting is proved to be exactly the update of the item in the manager of the view (C67_set), and the config to have the value afterwards if it had the key (C67_config). Reading back is proved for objects whose class keeps its arguments as attributes (C67_read_partial). It fails for keys the config does not have, functions, inherited values and names of the views themselves (the _violated theorems). Plugins, and views as values, are not modelled."
  },
  {
   "property": "C68",
   "status": "partial",
   "theorems": [
    "Verif.Props.C68_failure",
    "Verif.Props.C68_function",
    "Verif.Props.C68_object",
    "Verif.Props.C68_method_partial",
    "Verif.Props.C68_run",
    "Verif.Props.C68_same_class_violated",
    "Verif.Props.C68_other_manager_violated",
    "Verif.Props.C68_subclass_violated",
    "Verif.Props.C68_general_class_violated",
    "Verif.Props.C68_section_violated",
    "Verif.Props.C68_attributes_refine",
    "Verif.Props.C68_attributes",
    "Verif.Props.C68_attribute_object",
    "Verif.Props.C68_attribute_failure",
    "Verif.Props.C68_static_method_violated",
    "Verif.Props.C68_general_method_violated"
   ],
   "note": "Proved for functions (C68_function) and, for objects, exactly which method is called (C68_object, C68_run); this is the method of the own collection if all collections of that class name the same (C68_method_partial). It fails for several collections of a class, in one manager or in several, for subclasses, for classes of the general registrar and for sections (the _violated theorems). Views of methods and of other attributes of items are in MethodView: exactly what a call comes to for every path of names below an item (C68_attributes, C68_attribute_object, C68_attribute_failure), and for views of items the models agree (C68_attributes_refine). Static methods, class methods and methods of classes of the general registrar are not called (C68_static_method_violated, C68_general_method_violated)."
  },
  {
   "property": "C69",
   "status": "partial",
   "theorems": [
    "Verif.Props.C69_once_partial",
    "Verif.Props.C69_none_or_several",
    "Verif.Props.C69_sound",
    "Verif.Props.C69_chained_violated",
    "Verif.Props.C69_attribute_violated",
    "Verif.Props.C69_annotated_violated",
    "Verif.Props.C69_unpacked_violated",
    "Verif.Props.C69_nested_violated",
    "Verif.Props.C69_call_violated",
    "Verif.Props.C69_specific_violated"
   ],
   "note": "C69_once_partial: for a file whose assignments are all to single names, of which one is to the definition and gives nested dictionaries and lists, exactly the structure is read; C69_none_or_several: without assignment the definition is empty, with several a ValueError; C69_sound: whatever is read is what the only assignment in the file means. The code does not do so for all files: chained assignments (NotImplementedError), assignments to attributes and elements (AttributeError), annotations with lists, ** in dictionaries, variables of the same name in functions, values made by calls, and specific classes without a file or assignment (AttributeError) are proved as _violated. Parsing of python source into statements is not modelled."
  },
  {
   "property": "C70",
   "status": "partial",
   "theorems": [
    "Verif.Props.C70_loaded",
    "Verif.Props.C70_loads",
    "Verif.Props.C70_assigned_partial",
    "Verif.Props.C70_error",
    "Verif.Props.C70_chained_violated",
    "Verif.Props.C70_import_violated",
    "Verif.Props.C70_passed_violated",
    "Verif.Props.C70_left_out_violated"
   ],
   "note": "Exact for every file (C70_loaded, C70_loads, C70_error): each name has the value bound to it last, except names beginning with two underscores and modules. This is the property if imports and definitions bind modules only, or names assigned afterwards (C70_assigned_partial). Counterexamples: imported objects are part of the config, and are passed to functions with a parameter of that name; names with two underscores and modules are left out; a file with a = b = 1 is not loaded. Statements that delete names are not modelled, and expressions are part of the statements."
  },
  {
   "property": "C71",
   "status": "partial",
   "theorems": [
    "Verif.Props.C71_found",
    "Verif.Props.C71_sound_partial",
    "Verif.Props.C71_error_partial",
    "Verif.Props.C71_disk",
    "Verif.Props.C71_missing",
    "Verif.Props.C71_no_package_violated",
    "Verif.Props.C71_main_violated",
    "Verif.Props.C71_missing_parent"
   ],
   "note": "C71_disk: for modules on disk, the file is the one at its place in the folders. C71_missing: what is not found is an AttributeError. C71_found: what the import would load is found, without restriction. C71_sound_partial, C71_error_partial: nothing else is found if the modules around the name are packages. Counterexamples: for a.b where a is a module and no package, a module b at the top level is found; a script that is run has no file. Importing a package is taken not to change where its modules are; relative names are not modelled (the code drops the dots, C44)."
  },
  {
   "property": "C72",
   "status": "partial",
   "theorems": [
    "Verif.Props.C72_project_section",
    "Verif.Props.C72_nested_violated",
    "Verif.Props.C72_no_name",
    "Verif.Props.C72_item_partial",
    "Verif.Props.C72_section_violated",
    "Verif.Props.C72_section_folder_violated"
   ],
   "note": "C72_item_partial: for items, in every reachable state. For the files of sections the recorded path ends with 'section', which is a KeyError in every state (C72_section_violated), so every later change of an item such a file has read raises; if there is a section called section, its config is refreshed instead (C72_section_folder_violated). For the file of the project's own section that path leads to the config of the project, because managers have an attribute 'section' (C72_project_section, in the model with objects). If the folder of the manager is inside that of a manager made before, the recorded path is one of that manager which leads nowhere, and refreshing it is a KeyError (C72_nested_violated)."
  },
  {
   "property": "C73",
   "status": "partial",
   "theorems": [
    "Verif.Props.C73_failed",
    "Verif.Props.C73_unchanged_partial",
    "Verif.Props.C73_object_violated",
    "Verif.Props.C73_parameter_d_violated",
    "Verif.Props.C73_dependents_violated",
    "Verif.Props.C73_announced_violated"
   ],
   "note": "C73_failed: exactly what a failing update leaves, for every item without dependents. C73_unchanged_partial: nothing has changed for functions, items without object and classes that accept all values. Counterexamples: an object that rejects a value (the config has it from then on, and repeating the update does nothing and raises nothing), a parameter called d (TypeError after the update), a dependent whose file raises (the item is updated, later dependents are not, and repeating the update does nothing)."
  },
  {
   "property": "C74",
   "status": "partial",
   "theorems": [
    "Verif.Props.C74_active_partial",
    "Verif.Props.C74_object_partial",
    "Verif.Props.C74_created_violated",
    "Verif.Props.C74_new_key_violated",
    "Verif.Props.C74_no_config_violated"
   ],
   "note": "C74_active_partial, C74_object_partial: proved for the active configuration of every item whose own config is not empty, and for objects created after the update, for keys the section's config has (or any key if some value changes). Counterexamples, stated for all reachable states: created objects are never touched (C74_created_violated), new keys alone are dropped without an error (C74_new_key_violated), a section without a config file raises (C74_no_config_violated)."
  },
  {
   "property": "C75",
   "status": "partial",
   "theorems": [
    "Verif.Props.C75_values_partial",
    "Verif.Props.C75_same_runner_partial",
    "Verif.Props.C75_no_views_violated",
    "Verif.Props.C75_not_recorded_violated",
    "Verif.Props.C75_view_violated"
   ],
   "note": "C75_values_partial, C75_same_runner_partial: proved for all updates whose values are not item views: the cases are the products of the updates with every value replaced by its deep copy. Views are replaced by a copy of the item as it is when the runner is made (C75_view_violated, C75_no_views_violated), and no dependency is recorded (C75_not_recorded_violated); stated for all updates and states. What copying makes of a plain value is a parameter."
  },
  {
   "property": "C76",
   "status": "partial",
   "theorems": [
    "Verif.Props.C76_file_partial",
    "Verif.Props.C76_wished",
    "Verif.Props.C76_succeeds_iff",
    "Verif.Props.C76_selector_partial",
    "Verif.Props.C76_selector_violated",
    "Verif.Props.C76_twice_partial",
    "Verif.Props.C76_lines_partial",
    "Verif.Props.C76_parameter_violated",
    "Verif.Props.C76_attribute_violated",
    "Verif.Props.C76_repeated_violated",
    "Verif.Props.C76_tuple_violated",
    "Verif.Props.C76_end_violated",
    "Verif.Props.C76_import_kind",
    "Verif.Props.C76_assignment_kind"
   ],
   "note": "C76_file_partial gives the exact contents of the file for all strings that assign one name and for all lists of import strings with one import each, under the laws about the parser of C41; C76_wished what is written if a name is asked for repeatedly; C76_succeeds_iff when strings are refused; C76_twice_partial, C76_lines_partial the counterparts of C42 and C43; C76_selector_partial the default. Counterexamples: names that are parameters, attributes, repeated names, empty tuples, the default given explicitly (written at the end), and, for all classes that ask for imports without Selector but not for assignments, a file that uses Selector without importing it (C76_selector_violated)."
  },
  {
   "property": "C77",
   "status": "partial",
   "theorems": [
    "Verif.Props.C77_reset_partial",
    "Verif.Props.C77_frame",
    "Verif.Props.C77_gone",
    "Verif.Props.C77_failed",
    "Verif.Props.C77_configured_violated",
    "Verif.Props.C77_created_violated"
   ],
   "note": "C77_reset_partial: for every state and every section without a config everything found at or below the path is what a manager that loads the files now finds there; C77_frame: nothing else changes; C77_gone, C77_failed: deleted folders, folders that cannot be loaded. Counterexamples, stated for all states: sections with a config cannot be reset (C77_configured_violated), created objects are not touched (C77_created_violated)."
  },
  {
   "property": "C78",
   "status": "partial",
   "theorems": [
    "Verif.Props.C78_new_partial",
    "Verif.Props.C78_refused",
    "Verif.Props.C78_below_item",
    "Verif.Props.C78_existing_violated",
    "Verif.Props.C78_reserved_violated",
    "Verif.Props.C78_object_violated"
   ],
   "note": "C78_new_partial: for every reachable state and every missing path, with all sections on the way; C78_refused, C78_below_item: what is refused, without any change. Counterexamples: for every item that has a config the reset has no effect although it reports the values of the file (C78_existing_violated), so that a created object and its config disagree (C78_object_violated); names that sections have as attributes (C78_reserved_violated)."
  },
  {
   "property": "C79",
   "status": "partial",
   "theorems": [
    "Verif.Props.C79_reserved_violated",
    "Verif.Props.C79_manager_violated",
    "Verif.Props.C79_usable_partial",
    "Verif.Props.C79_edited_partial",
    "Verif.Props.C79_loads",
    "Verif.Props.C79_ignored_violated"
   ],
   "note": "C79_usable_partial composes the load of definitions (C65), scaffolding, the load of configs (C53), inheritance (C10) and object creation (C19) into one statement about the files before and the objects after; C79_loads: the load succeeds if the definitions load and the section files can be executed. Missing: names like that of the section around them (C53), items called section, items beside a folder of their name. Counterexample for every section starting with _ or .: its files are made but its configs are never loaded, so get raises KeyError (C79_ignored_violated); for every item with a name of an attribute of sections anywhere in its path, get raises (C79_reserved_violated), as for every item in a section outside others with a name of an attribute of the config manager, as load or reset (C79_manager_violated); items are used with what their files hold at first use, also after edits (C79_edited_partial)."
  },
  {
   "property": "C80",
   "status": "partial",
   "theorems": [
    "Verif.Props.C80_reserved_violated",
    "Verif.Props.C80_manager_violated",
    "Verif.Props.C80_usable_partial",
    "Verif.Props.C80_stale_violated"
   ],
   "note": "C80_usable_partial composes create (C66) with the reset at its end (C78), inheritance (C10) and object creation (C19), for items without a config as well as for leftover config files that were not loaded. Missing: names like that of the section around them. Counterexample: if there is an object of an item of the same path, it stays with the callable it had (C80_stale_violated). C80_reserved_violated: for every item called like an attribute of sections, such as update, create can return, but no config can be got for it and getting it gives no object. C80_manager_violated: in every section outside others that is called like an attribute of the config manager, as load or reset, create always raises."
  },
  {
   "property": "C81",
   "status": "partial",
   "theorems": [
    "Verif.Props.C81_run_partial",
    "Verif.Props.C81_item_partial",
    "Verif.Props.C81_view_violated",
    "Verif.Props.C81_argument_violated",
    "Verif.Props.C81_result_violated"
   ],
   "note": "C81_run_partial is for all runs if no value is a view and every value has a text; C81_item_partial is for items with views of items that have an object already, and says which messages there are. Counterexamples: looking at a view for the log creates the object of the item it stands for, and the run fails if that fails (C81_view_violated); a value that raises when it is asked for an attribute makes the run fail before the call (C81_argument_violated); a result without a text makes it fail after the call (C81_result_violated)."
  },
  {
   "property": "C82",
   "status": "partial",
   "theorems": [
    "Verif.Props.C82_string",
    "Verif.Props.C82_arguments_partial",
    "Verif.Props.C82_quote_violated",
    "Verif.Props.C82_call_partial",
    "Verif.Props.C82_specific_partial",
    "Verif.Props.C82_self_violated",
    "Verif.Props.C82_stale_violated"
   ],
   "note": "C82_string says for exactly which strings the logged literal reads as the string; C82_arguments_partial that the message determines arguments that are such strings; C82_call_partial that at the first use the logged arguments are those of the object called. C82_specific_partial: the same for objects of specific classes. Missing: values other than strings. Counterexamples: different arguments with the same message (C82_quote_violated); an object used before that keeps an argument which is not in the log (C82_stale_violated); a value called self, which objects of specific classes are not given (C82_self_violated)."
  },
  {
   "property": "C83",
   "status": "partial",
   "theorems": [
    "Verif.Props.C83_made",
    "Verif.Props.C83_accepted_iff",
    "Verif.Props.C83_found_partial",
    "Verif.Props.C83_renamed_violated",
    "Verif.Props.C83_none_violated",
    "Verif.Props.C83_init_violated",
    "Verif.Props.C83_kind"
   ],
   "note": "C83_made: exactly what an object is made with; C83_accepted_iff: for exactly which __init__ Python accepts the call (classes without **kwargs); C83_found_partial: the dictionary loads and every name is found at its path. Missing: names of attributes of collections (C36). Counterexamples: classes that change their name are registered elsewhere (C83_renamed_violated), classes that do not accept None for a required parameter cannot be used at all (C83_none_violated), nor can those with required keyword-only parameters only or with another name for self (C83_init_violated)."
  },
  {
   "property": "C84",
   "status": "partial",
   "theorems": [
    "Verif.Props.C84_now",
    "Verif.Props.C84_same_partial",
    "Verif.Props.C84_reloaded",
    "Verif.Props.C84_destroyed",
    "Verif.Props.C84_reload_violated",
    "Verif.Props.C84_new_violated",
    "Verif.Props.C84_unloaded_error",
    "Verif.Props.C84_reset_violated"
   ],
   "note": "C84_same_partial: proved for every manager that was not loaded again, not replaced by another of its name and whose context was not reset, with any items created in it and any other managers; C84_now: a selector just made answers by the collections the managers have (C52 says what that is). C84_reloaded: after a reload, and everything created then, the old selector answers as before the reload. C84_destroyed: what destroying a manager changes. Counterexamples: a reload (C84_reload_violated: new items missing, removed items still there), managers made later (C84_new_violated: KeyError for everything in them, in every state), a reset of the context (C84_reset_violated)."
  },
  {
   "property": "C85",
   "status": "partial",
   "theorems": [
    "Verif.Props.C85_class_partial",
    "Verif.Props.C85_missing",
    "Verif.Props.C85_function_violated",
    "Verif.Props.C85_section_violated",
    "Verif.Props.C85_root_violated",
    "Verif.Props.C85_in_section_violated"
   ],
   "note": "C85_class_partial: proved for classes and objects of specific classes, in every reachable state. C85_missing: what is not registered has no type. Counterexamples: every function (function, but the item is a functools.partial: C85_function_violated), every section (collection, but the item is the runner: C85_section_violated), managers and collections of specific classes (their views have an object that is no type as their class: C85_root_violated), classes whose section was got before (C85_in_section_violated). Missing: views of attributes; subclasses made by __new__. After a reload the type is that of the old definition for views made before (C84)."
  },
  {
   "property": "C86",
   "status": "partial",
   "theorems": [
    "Verif.Props.C86_item",
    "Verif.Props.C86_item_usable_partial",
    "Verif.Props.C86_function_violated",
    "Verif.Props.C86_class_violated",
    "Verif.Props.C86_section",
    "Verif.Props.C86_usable_partial",
    "Verif.Props.C86_manager",
    "Verif.Props.C86_twice_violated",
    "Verif.Props.C86_unloaded_violated",
    "Verif.Props.C86_unlisted_violated",
    "Verif.Props.C86_selector",
    "Verif.Props.C86_methods_violated",
    "Verif.Props.C86_registrar_names"
   ],
   "note": "C86_section, C86_manager, C86_selector: exactly what is listed, for all definitions. C86_usable_partial: the names listed for a section are those that can be followed to a view, for names that are not attributes of collections or views. Counterexamples: names of specific classes are listed twice (C86_twice_violated), a manager that is not loaded cannot be listed (TypeError, C86_unloaded_violated), methods of collections can be followed without being listed (C86_unlisted_violated), the methods listed for the view of a manager cannot be read through it (C86_methods_violated). Items: C86_item says exactly what is listed for them; what is listed for an object of a specific class can be followed (C86_item_usable_partial), but for every function names are listed that cannot be read (C86_function_violated), and for classes nothing of what can be read is listed (C86_class_violated), since the listing is that of the object that is registered instead of them. Missing: names that start with an underscore, and those of the mixins of pyfileconf."
  },
  {
   "property": "C87",
   "status": "partial",
   "theorems": [
    "Verif.Props.C87_not_loaded",
    "Verif.Props.C87_not_loaded_violated",
    "Verif.Props.C87_raises_partial",
    "Verif.Props.C87_top",
    "Verif.Props.C87_unknown",
    "Verif.Props.C87_broken_violated",
    "Verif.Props.C87_attribute"
   ],
   "note": "C87_raises_partial, C87_top, C87_unknown: the exception and the state after it, exactly, for wrong names in sections, below a manager, and of managers. Counterexample to the second half, stated for all managers, sections and histories: after a wrong name in a section no item of the manager can be used through any view (C87_broken_violated), though get still finds all of them; until the manager is loaded again. C87_attribute: a wrong attribute of an item raises what the object raises and leaves everything usable. C87_not_loaded: with a manager that is not loaded everything unknown is reported as not found; the exception meant for it is never raised (C87_not_loaded_violated, for all states)."
  },
  {
   "property": "C88",
   "status": "partial",
   "theorems": [
    "Verif.Props.C88_comparable_partial",
    "Verif.Props.C88_raises",
    "Verif.Props.C88_unchanged",
    "Verif.Props.C88_update_violated",
    "Verif.Props.C88_refresh_violated",
    "Verif.Props.C88_reset_violated"
   ],
   "note": "C88_comparable_partial: proved for pandas objects and for values whose comparison raises, over all histories, by refinement to the model with comparisons of type Bool. C88_raises: exactly which updates fail; C88_unchanged: they change nothing. Counterexamples, stated for all states: a value such as an array, whose comparison has no truth value, can be replaced by no update that changes nothing before it (C88_update_violated), and makes refreshing and resetting its config impossible (C88_refresh_violated, C88_reset_violated)."
  },
  {
   "property": "C89",
   "status": "partial",
   "theorems": [
    "Verif.Props.C89_new",
    "Verif.Props.C89_same",
    "Verif.Props.C89_frame",
    "Verif.Props.C89_other_violated",
    "Verif.Props.C89_active_violated"
   ],
   "note": "C89_new, C89_same: exact for configs that were not read from a file and for configs saved to their own file. C89_frame: only one file is ever written, and none on failure. Counterexamples, for all files: a config read from one file and saved to another overwrites the first and leaves the other (C89_other_violated); the configs of the config manager cannot be saved (C89_active_violated). Missing: items called DataPipeline."
  },
  {
   "property": "C90",
   "status": "partial",
   "theorems": [
    "Verif.Props.C90_section_violated",
    "Verif.Props.C90_get",
    "Verif.Props.C90_unused_partial",
    "Verif.Props.C90_consistent",
    "Verif.Props.C90_update_violated",
    "Verif.Props.C90_other_violated"
   ],
   "note": "C90_get: getting items gives what it gives in a new session. C90_unused_partial: so do updates, refreshes and resets that leave the item they are about unused. C90_consistent: with reloads at any time, configs fit the files and the other configs, but for items of other managers that read a reloaded item and were not refreshed since, items updated without persistence, and keys not assigned in every case. Counterexamples: the records of dependencies survive, so after an item was removed an update of an item it had read raises KeyError (C90_update_violated); items of other managers keep what they read before (C90_other_violated). section files that use items of their manager get what these were before the reload (C90_section_violated). Missing: configs of sections, apart from that; the local config; a reload that raises is in C94."
  },
  {
   "property": "C91",
   "status": "partial",
   "theorems": [
    "Verif.Props.C91_class_partial",
    "Verif.Props.C91_self_violated",
    "Verif.Props.C91_object_partial",
    "Verif.Props.C91_self_name_violated",
    "Verif.Props.C91_config_exact",
    "Verif.Props.C91_called_partial",
    "Verif.Props.C91_shadow_violated",
    "Verif.Props.C91_selector_name_violated",
    "Verif.Props.C91_renamed_violated",
    "Verif.Props.C91_pipeline_name_violated"
   ],
   "note": "C91_config_exact: the config of a new function, exactly: imports, selector and parameters are executed in this order. C91_called_partial: the function is called with the values of its own defaults, None for parameters without, if no default or annotation uses s, Selector, or the name of a parameter before it, imported names that are used are not imported under another name as well, there are no positional-only parameters and the function is not called DataPipeline. C91_class_partial, C91_object_partial: the same for classes in the definition and for objects of specific classes, which get their name for the key attribute; a class whose __init__ calls the instance s cannot be instantiated at all (C91_self_violated, C91_self_name_violated). Counterexamples: from consts import b; def f(b=1, a=b) gets a=1 (C91_shadow_violated); from consts import s; def f(a=s) gets the selector (C91_selector_name_violated); a name imported twice under different names gives a file that raises NameError (C91_renamed_violated); cleanup_kwargs=None of a function called DataPipeline becomes dict() (C91_pipeline_name_violated). Missing: lines given for specific classes; defaults whose evaluation has effects."
  },
  {
   "property": "C92",
   "status": "partial",
   "theorems": [
    "Verif.Props.C92_applied_partial",
    "Verif.Props.C92_values",
    "Verif.Props.C92_in_place_raises",
    "Verif.Props.C92_in_place",
    "Verif.Props.C92_in_place_total",
    "Verif.Props.C92_apart_partial",
    "Verif.Props.C92_reused_violated",
    "Verif.Props.C92_raised_violated"
   ],
   "note": "C92_applied_partial: with plugins that return and do not write into the dictionaries themselves, the update is exactly the one with their values over the given ones, the plugin registered first counting; the caller's dictionary gets them too, no other does; post plugins see the applied values, only after success, none after one that raises. C92_in_place, C92_in_place_raises, C92_in_place_total: any plugins, also those that change the dictionaries they are called with: each sees what the one before left, what was left is what the update is made with, and if one raises nothing is updated but its changes stay in the caller's dictionary. C92_values: the resulting values of a config. C92_apart_partial: with any plugins, updates do not affect each other through dictionaries if no dictionary is passed twice. Counterexamples: a dictionary passed twice carries values a plugin returned for the first item to the second (C92_reused_violated); an update that raises because of a plugin leaves the values in the dictionary (C92_raised_violated). Any order of calls (tryfirst, trylast, C108_order) is that of some list. Missing: plugins that use the manager, hook wrappers."
  },
  {
   "property": "C93",
   "status": "partial",
   "theorems": [
    "Verif.Props.C93_applied_partial",
    "Verif.Props.C93_anywhere_partial",
    "Verif.Props.C93_plain",
    "Verif.Props.C93_lists",
    "Verif.Props.C93_managers_partial",
    "Verif.Props.C93_raised",
    "Verif.Props.C93_read_violated",
    "Verif.Props.C93_returned_violated",
    "Verif.Props.C93_post_violated",
    "Verif.Props.C93_removed_violated"
   ],
   "note": "C93_applied_partial, C93_managers_partial: what is applied is exactly what the plugins return, the last registered first, followed by the updates that were given, up to the first that raises, if the iterators are different ones and no plugin reads the given one; C93_lists: for lists nothing more is asked; C93_plain: without plugins any iterable will do; C93_raised: an iterator keeps what comes after an update that raises. Counterexamples: a plugin that looks through an iterator makes all updates disappear (C93_read_violated); a plugin that returns the updates makes a list be applied twice (C93_returned_violated); afterwards plugins are given an iterator with nothing left (C93_post_violated); without the default plugin nothing is applied (C93_removed_violated). C93_anywhere_partial: any order of calls (tryfirst, trylast, C108_order). Missing: plugins and iterators that use managers while they are called, hook wrappers."
  },
  {
   "property": "C94",
   "status": "partial",
   "theorems": [
    "Verif.Props.C94_definitions",
    "Verif.Props.C94_works",
    "Verif.Props.C94_again",
    "Verif.Props.C94_first",
    "Verif.Props.C94_unloaded",
    "Verif.Props.C94_reset",
    "Verif.Props.C94_whole",
    "Verif.Props.C94_mixed_violated",
    "Verif.Props.C94_created_violated",
    "Verif.Props.C94_plain",
    "Verif.Props.C94_section_violated"
   ],
   "note": "C94_definitions: with wrong definitions neither the manager nor any file is changed. C94_works: after any load that failed, every operation of the runner gives what it gave before. C94_again: a load gives the same error, files and manager as for a new manager, whatever was loaded before. C94_first, C94_unloaded: a manager that was never loaded says so. C94_reset: what create resets in a manager whose runner has registrars of its own. C94_whole: the runner has the registrars of the manager, after any history in which loads failed only for the definitions. Counterexamples: a load that fails for the file of a section leaves the new registrars with the old runner, so selectors have items that cannot be got (C94_mixed_violated), and items created after that cannot be got until a load succeeds (C94_created_violated). A section file that uses an item of its own manager makes the first load raise (C94_section_violated). C94_plain: section files that use no items are covered by the theorems above. The modules that are forgotten are in C46."
  },
  {
   "property": "C95",
   "status": "partial",
   "theorems": [
    "Verif.Props.C95_again_partial",
    "Verif.Props.C95_after_partial",
    "Verif.Props.C95_skipped",
    "Verif.Props.C95_failed_violated",
    "Verif.Props.C95_stay_violated",
    "Verif.Props.C95_new_violated",
    "Verif.Props.C95_raises_violated"
   ],
   "note": "C95_again_partial: a runner can be used again; after any runs that succeeded, of all or some of its cases, and after cases that failed before any had succeeded, a case gives its items what it names and else the values from when the runner was created. C95_after_partial: after a case, finished or failed, the items that no case is for are as before, and those of the case keep what it gave them. C95_skipped: the case that finished last is not applied when it is run next, whatever happened since. Counterexamples: nothing is restored (C95_stay_violated), a new runner takes the values of the last case as defaults (C95_new_violated), and after a failure the case that had finished before runs with the configuration of the one that failed (C95_failed_violated in general, C95_raises_violated). Missing: as for C32, cases given by d_ or with unknown keys, keys that sections around define, run items that are sections with classes, plugins around updates and runs."
  },
  {
   "property": "C96",
   "status": "partial",
   "theorems": [
    "Verif.Props.C96_isolated",
    "Verif.Props.C96_reset",
    "Verif.Props.C96_seen_violated",
    "Verif.Props.C96_unseen_violated",
    "Verif.Props.C96_unknown",
    "Verif.Props.C96_self_violated",
    "Verif.Props.C96_section_violated",
    "Verif.Props.C96_store_partial",
    "Verif.Props.C96_store_all_partial",
    "Verif.Props.C96_store_start_partial"
   ],
   "note": "C96_isolated: after every history of gets, runs, updates and resets that does not update the item or change its own arguments, the values that its file assigns and no section around it has are those of the file, whatever the functions of other items did to their arguments. C96_reset: after any history, also of changes to the item's own arguments, a reset gives these values back. C96_unknown: an update with names the config lacks puts no object of the caller into it. Counterexamples: what a function changes in place is in the active config of every item that has the same object there, the item itself among them (C96_seen_violated in general; C96_self_violated), a value of a section is changed for all items in it and stays so when they are reset (C96_section_violated), and an update with the object that is there already is never seen as one, so that a change in place can not be announced (C96_unseen_violated). C96_store_partial, C96_store_all_partial, C96_store_start_partial: from a load on, as long as no value is changed in place, this model has the values that the model of the config manager has. Missing: objects in objects, variables of one file with one object, dependencies between configs, local config."
  },
  {
   "property": "C97",
   "status": "partial",
   "theorems": [
    "Verif.Props.C97_registered",
    "Verif.Props.C97_found",
    "Verif.Props.C97_plain_partial",
    "Verif.Props.C97_section_violated",
    "Verif.Props.C97_other_violated",
    "Verif.Props.C97_asked_violated",
    "Verif.Props.C97_unnamed_violated",
    "Verif.Props.C97_computed_violated",
    "Verif.Props.C97_nameless_violated",
    "Verif.Props.C97_output_violated",
    "Verif.Props.C97_section_name"
   ],
   "note": "C97_registered: in every section of functions, classes and pipelines with constant arguments each entry is registered under its own name and has the config file of this name; C97_found: with different names each is found under its own and nothing under any other; C97_plain_partial: functions and classes are run and got with the section under the same name; C97_section_name: which sections are registered under their own name. Counterexamples: when a section is run or got, every pipeline is looked for under the name DataPipeline and not found (C97_section_violated, in general), or taken for the one that is called so (C97_other_violated); a name depends on whether it was asked for before (C97_asked_violated); a section with the class itself or a call without name can not be made (C97_unnamed_violated), nor one with a name that is no string in quotes (C97_computed_violated); an entry without any name is registered but has no config file (C97_nameless_violated); a section with an item called output_name is not registered under its own name (C97_output_violated). Missing: calls with other arguments than strings, in C97_registered."
  },
  {
   "property": "C98",
   "status": "partial",
   "theorems": [
    "Verif.Props.C98_project_partial",
    "Verif.Props.C98_project_violated",
    "Verif.Props.C98_lasts_partial",
    "Verif.Props.C98_given_partial",
    "Verif.Props.C98_seen_partial",
    "Verif.Props.C98_same_violated",
    "Verif.Props.C98_again_violated",
    "Verif.Props.C98_inherited_violated"
   ],
   "note": "C98_given_partial: an update that changes the value of a key of the config gives every key in it its value and puts it on record if it is persistent. C98_lasts_partial: the value stays through every history of calls that leave it alone, of any length, with lookups, updates and refreshes of sections that say nothing about the key resets of sections it is not in, and calls for the local config. C98_seen_partial: as long as it is there, looking the item up gives it. C98_project_partial: with config files that read other items, a persistent update lasts through every history of operations on any items, whether they return or raise and whatever is refreshed by them. Counterexamples: a persistent update with the value that the item has already is not put on record, so that an edit of the file replaces it (C98_same_violated) and so does a refresh when the value came from an update that is not persistent (C98_again_violated); the value of a section replaces the one given to the item (C98_inherited_violated). A value that is not persistent is lost when an item is updated that the file reads, though nobody refreshed the item (C98_project_violated). Missing: configs of sections in projects whose files read other items."
  },
  {
   "property": "C99",
   "status": "proved",
   "theorems": [
    "Verif.Props.C99_own_history",
    "Verif.Props.C99_any_order",
    "Verif.Props.C99_swap"
   ],
   "note": "C99_own_history: noninterference, by a simulation between the full history and the one reduced to the item; C99_any_order and C99_swap follow. Calls for whole sections are not part of the statement (they touch all items in them, see C11, C23 and C77). In the model functions do not use the manager while they run; configs that use other items are those of C27 and C28."
  },
  {
   "property": "C100",
   "status": "proved",
   "theorems": [
    "Verif.Props.C100_twice",
    "Verif.Props.C100_same_result",
    "Verif.Props.C100_returns"
   ],
   "note": "C100_twice: idempotence of every operation on items, whether it returned or raised; no assumption about `==` of values. C100_same_result: the object is the same one by identity. C100_returns: what returned returns again (for refresh if values are equal to themselves: with values that are not, a name reserved by `update` in a section config makes only the second refresh raise). Calls for whole sections and configs that use other items are not part of the statement (C11, C28, C29). In the model functions and constructors do not change anything when called."
  },
  {
   "property": "C101",
   "status": "partial",
   "theorems": [
    "Verif.Props.C101_determined_partial",
    "Verif.Props.C101_project_partial",
    "Verif.Props.C101_project_violated",
    "Verif.Props.C101_swap_partial",
    "Verif.Props.C101_last_word_partial",
    "Verif.Props.C101_same_state_partial",
    "Verif.Props.C101_same_object_partial",
    "Verif.Props.C101_same_class_object_partial",
    "Verif.Props.C101_new_key_violated",
    "Verif.Props.C101_recorded_violated",
    "Verif.Props.C101_object_violated",
    "Verif.Props.C101_refused_violated",
    "Verif.Props.C101_calls_partial",
    "Verif.Props.C101_configs_partial",
    "Verif.Props.C101_own_calls_partial",
    "Verif.Props.C101_section_same_state_partial",
    "Verif.Props.C101_section_partial",
    "Verif.Props.C101_section_recorded_violated",
    "Verif.Props.C101_swaps_partial",
    "Verif.Props.C101_swaps_answers_partial",
    "Verif.Props.C101_lookup_violated"
   ],
   "note": "C101_swap_partial: two updates of different keys can be swapped in every state, whatever their arguments and whether or not they are persistent; values, recorded updates and what is bound in the object are the same (objects of classes have to accept all values; the order of keys may differ). C101_last_word_partial: series of any length of updates of keys the config has, with the same last words, give the same values in the same order and the same result of getting the configuration, if equal values are the same. C101_same_state_partial: nothing at all differs if the updates are not persistent. C101_same_object_partial: the object is the same also with persistent ones; C101_same_class_object_partial: so is the object of a class that does not raise. C101_determined_partial: with config files that read other items, without circles, the values of all items are determined by the files and the updates on record, whatever the history and the order of refreshing. C101_project_partial: two histories with the same last words for all items, in which every update changed something, give the same values and objects. Violated: C101_new_key_violated (an update that only adds keys is dropped unless combined with a change), C101_recorded_violated (a value given again is not recorded, so a later refresh drops it), C101_object_violated (an object that has fallen behind is only repaired by an update that changes something), C101_refused_violated (a class object that refuses the final values keeps those of the first update). C101_project_violated (giving a key the value it has only because of another item is not recorded, so the order of updates of different items counts). Configs of sections: C101_section_same_state_partial (the states are equal if the updates are not persistent), C101_section_partial (also with persistent ones: the values of the section, the configuration of every item and the object that is got for it are the same, and created objects stay as they were), C101_section_recorded_violated (the record differs as for items). Calls for several configs, of items, of sections and the local one, mixed: C101_calls_partial (two series of updates, refreshes and pops with the same calls for each config in the same order: all later calls of the config manager answer the same), C101_own_calls_partial (what a call for a config answers depends only on the earlier calls for the same config), C101_configs_partial (two series of updates of known keys that are not persistent, with the same last words for each config and about the same configs: all later calls answer the same). C101_swaps_partial, C101_swaps_answers_partial: with lookups among them, calls of which neither changes what the other one looks at can be swapped, every one of them answers the same, and so do all later calls; C101_lookup_violated: not so for a lookup of an item and an update of the section around it. Missing: the objects of the runner after such calls for several configs."
  },
  {
   "property": "C102",
   "status": "proved",
   "theorems": [
    "Verif.Props.C102_only_dependents",
    "Verif.Props.C102_get"
   ],
   "note": "C102_only_dependents: for any past, any further series of calls and any item not reached from the items they change by the transitive closure of 'reads in its file, in some branch' and 'used while running'. C102_get: the case of a get. In the model of `Verif/Model/Cascade.lean`, that is, for configs of items without section configs."
  },
  {
   "property": "C103",
   "status": "partial",
   "theorems": [
    "Verif.Props.C103_debugged_partial",
    "Verif.Props.C103_succeeds",
    "Verif.Props.C103_off",
    "Verif.Props.C103_returning",
    "Verif.Props.C103_validated",
    "Verif.Props.C103_argument_violated",
    "Verif.Props.C103_not_callable_violated"
   ],
   "note": "C103_debugged_partial: exact for all runs of strings, views and lists of these. C103_succeeds, C103_off: without restriction. C103_returning: for a debugger that returns it is the run of C55. C103_validated: what is refused. Counterexamples, for all states: an argument that is neither string nor view raises without a debugger (C103_argument_violated); a value such as 1 for auto_pdb is accepted and replaces the exception by a TypeError (C103_not_callable_violated)."
  },
  {
   "property": "C104",
   "status": "partial",
   "theorems": [
    "Verif.Props.C104_values_partial",
    "Verif.Props.C104_raises",
    "Verif.Props.C104_first_violated",
    "Verif.Props.C104_absent_violated",
    "Verif.Props.C104_other_violated",
    "Verif.Props.C104_reload_violated"
   ],
   "note": "C104_values_partial, C104_raises: exact for all programs that read items of managers loaded before, when every active manager has registrars. Counterexamples, for all states: reading an item of the own manager at the first load fails with ItemNotFoundException whatever the item has (C104_first_violated); at a later load it gives the value from before the load (C104_reload_violated); while any other active manager has not been loaded no section file can read anything (C104_other_violated); an item of a manager that is not active is a KeyError (C104_absent_violated). Missing: section files that load managers or read a name that is itself an item."
  },
  {
   "property": "C105",
   "status": "partial",
   "theorems": [
    "Verif.Props.C105_nested_partial",
    "Verif.Props.C105_lookup",
    "Verif.Props.C105_unnamed_violated",
    "Verif.Props.C105_own_name_violated",
    "Verif.Props.C105_reserved_violated"
   ],
   "note": "C105_nested_partial and C105_lookup: exact in both directions for all trees in which the attribute name of every item is the name under which it is registered, for paths without names of attributes of collections. Counterexamples: one item without attribute name, possible for another key_attr, and there is no dictionary at all (C105_unnamed_violated); items called DataPipeline are registered under their own names, but only the last of them is in the dictionary (C105_own_name_violated); names of attributes of collections (C105_reserved_violated). Missing: sections with an item called output_name, which are registered under another name (C97)."
  },
  {
   "property": "C106",
   "status": "partial",
   "theorems": [
    "Verif.Props.C106_case_partial",
    "Verif.Props.C106_other_items_violated",
    "Verif.Props.C106_no_cases_violated",
    "Verif.Props.C106_left_out_violated"
   ],
   "note": "C106_case_partial: for all plugins that give and change cases, where all cases name the same items: every case has its defaults, and gives its items what it names and else the values from when the runner was made, and leaves all others as they were then. Counterexamples: a case that names something the first does not ends the run with a KeyError after the cases before it have run (C106_other_items_violated, for all such cases); what a case does not name keeps the value of the case before (C106_left_out_violated); without cases there is an IndexError (C106_no_cases_violated). Missing: as for C32, and plugins around updates and runs."
  },
  {
   "property": "C107",
   "status": "partial",
   "theorems": [
    "Verif.Props.C107_before_partial",
    "Verif.Props.C107_after_partial",
    "Verif.Props.C107_only_told",
    "Verif.Props.C107_not_created_violated",
    "Verif.Props.C107_failed_violated",
    "Verif.Props.C107_rejected_violated",
    "Verif.Props.C107_path",
    "Verif.Props.C107_update_any",
    "Verif.Props.C107_new_partial",
    "Verif.Props.C107_section_violated",
    "Verif.Props.C107_local"
   ],
   "note": "C107_before_partial: for an update, reset or refresh of an item, plugins are told at most once before anything else is told, with the config as it still is; if the config manager raises nothing they are told exactly if a value changes, and the updates told are those made. C107_after_partial: they are told at most once after a change that succeeds, exactly if they were told before and the item has been created, with the config and state at the end and the updates told before. C107_only_told: calling the hooks changes nothing else, for all changes. C107_path: all that is told is about the path of the change. C107_update_any: also for sections, plugins are told before an update exactly if it would change the config. C107_new_partial: for a config that does not exist yet they are not told before it is made. C107_local: an update without path changes nothing and nothing is told. Counterexamples: items take over values of the sections around them without plugins being told of it (C107_section_violated), an item that has not been created (C107_not_created_violated), an update that fails after it was announced (C107_failed_violated), an object that does not take over the change (C107_rejected_violated). Missing: what plugins do when they are told."
  },
  {
   "property": "C108",
   "status": "partial",
   "theorems": [
    "Verif.Props.C108_start",
    "Verif.Props.C108_order",
    "Verif.Props.C108_removed_partial",
    "Verif.Props.C108_other_hooks_partial",
    "Verif.Props.C108_there_partial",
    "Verif.Props.C108_reset",
    "Verif.Props.C108_twice",
    "Verif.Props.C108_batch_partial",
    "Verif.Props.C108_changed_partial",
    "Verif.Props.C108_cases_partial",
    "Verif.Props.C108_batch_there_partial",
    "Verif.Props.C108_cases_there_partial",
    "Verif.Props.C108_batch_reset",
    "Verif.Props.C108_name_violated",
    "Verif.Props.C108_other_name_violated",
    "Verif.Props.C108_again_violated",
    "Verif.Props.C108_reset_violated"
   ],
   "note": "For all histories: C108_start (what is registered at import), C108_order (closed form of the order of calls, no plugin is called twice), C108_reset (resetting gives exactly what there is at import), C108_twice (registering again is a ValueError). For histories in which the name of default_hooks is used for it only: C108_removed_partial (exactly default_hooks goes, the order of the others stays), C108_other_hooks_partial, C108_there_partial (default_hooks is called exactly if it was not removed since it was last there). What happens without it: C108_batch_partial (a batch update applies nothing), C108_changed_partial (dependent configs are not refreshed), C108_cases_partial (making an iterative runner is an IndexError), and C108_batch_reset after resetting; C108_batch_there_partial: while it is there, the order of calls is that of C93_anywhere_partial. C108_cases_there_partial: while it is there, an iterative runner is that of C31 and C106 with the cases of the other plugins around the product. Counterexamples: another plugin with the name of default_hooks is removed (C108_name_violated), default_hooks with another name is not (C108_other_name_violated), registering default_hooks again changes the order (C108_again_violated), resetting takes away registered plugins (C108_reset_violated). Missing: hook wrappers, blocked plugins."
  },
  {
   "property": "C109",
   "status": "partial",
   "theorems": [
    "Verif.Props.C109_tag_partial",
    "Verif.Props.C109_get_partial",
    "Verif.Props.C109_lasting_partial",
    "Verif.Props.C109_distinct_partial",
    "Verif.Props.C109_view_partial",
    "Verif.Props.C109_functions_partial",
    "Verif.Props.C109_kind_partial",
    "Verif.Props.C109_no_call",
    "Verif.Props.C109_alias_violated",
    "Verif.Props.C109_shared_violated",
    "Verif.Props.C109_again_violated",
    "Verif.Props.C109_slots_violated",
    "Verif.Props.C109_manager_violated"
   ],
   "note": "For all histories in which every item gets an object of its own (names, not objects, in the dictionaries of specific classes, and classes that make new objects) and views are called under the path of the item itself or of a method of its object: C109_tag_partial (every object a manager keeps has the full path), C109_get_partial (so has everything that is got, and it is kept), C109_lasting_partial (it does not change any more), C109_distinct_partial (different items have different paths), C109_view_partial (calling the view of the path an object has finds this object and changes nothing). C109_functions_partial and C109_kind_partial say which of these objects are partials (those view calls leave alone), C109_no_call what view calls that come to no object raise. Counterexamples: calling the view of an attribute that is the object of another item gives that object the path of the attribute (C109_alias_violated); an object that is in a definition twice (C109_shared_violated); a class that gives the same object each time (C109_again_violated); objects whose attributes cannot be set cannot be got at all (C109_slots_violated); managers with the same name (C109_manager_violated). Missing: attributes of bound methods, classes as attributes, the attribute written by other code."
  },
  {
   "property": "C110",
   "status": "partial",
   "theorems": [
    "Verif.Props.C110_arguments_partial",
    "Verif.Props.C110_as_new_partial",
    "Verif.Props.C110_run_violated",
    "Verif.Props.C110_raises_violated",
    "Verif.Props.C110_section_violated"
   ],
   "note": "For all histories of getting, running, updating, refreshing and resetting any items, and edits of the files: C110_arguments_partial (the object was last given exactly the values the current configuration has for its parameters), C110_as_new_partial (as an object made anew from it would be, and calling it gives the same). Needed: the item is got by its own path first, its class does not raise or the calls return, and if the item is run no section sets its parameters. Counterexamples: running the item sets the configuration back to what a section says, the object keeps the update (C110_run_violated); when the class raises in an update the configuration is changed and the object is not, and the same update again does not raise (C110_raises_violated); a class that is got with its section is kept as a partial, which does not take new parameters (C110_section_violated). Missing: plugins and dependent items that are refreshed by the announcement of an update."
  },
  {
   "property": "C111",
   "status": "partial",
   "theorems": [
    "Verif.Props.C111_like_new_partial",
    "Verif.Props.C111_first_partial",
    "Verif.Props.C111_rest_partial",
    "Verif.Props.C111_base",
    "Verif.Props.C111_arguments_partial",
    "Verif.Props.C111_current_partial",
    "Verif.Props.C111_half_violated",
    "Verif.Props.C111_cache_violated",
    "Verif.Props.C111_method_violated",
    "Verif.Props.C111_state_violated",
    "Verif.Props.C111_extra_violated"
   ],
   "note": "For all classes whose __init__ sets attributes from its arguments alone and raises before it sets any (straight_settles: every __init__ that checks its arguments and then assigns attributes is one), without an update method or with that of PyfileconfBase (C111_base): C111_like_new_partial (after any sequence of updates the attributes are those of an object made anew from the last accepted configuration), C111_first_partial (from the first get on, also for specific classes), C111_rest_partial (other attributes, and all if the class refuses, are left alone), C111_arguments_partial (the model of the runner, which keeps only arguments, is right about the attributes), C111_current_partial (with C110, over all histories of calls for items: they are those of an object made anew from the current configuration). Counterexamples: a class that raises after setting some attributes leaves a mixture (C111_half_violated); values kept by other code stay (C111_cache_violated); with an update method of its own __init__ of a specific class never sees the configuration (C111_method_violated); an __init__ that looks at the object (C111_state_violated); what only the update method takes is not passed on (C111_extra_violated). Missing: objects that share state, update methods that come and go."
  },
  {
   "property": "C112",
   "status": "partial",
   "theorems": [
    "Verif.Props.C112_views_partial",
    "Verif.Props.C112_only",
    "Verif.Props.C112_lasting_partial",
    "Verif.Props.C112_manager_violated",
    "Verif.Props.C112_inner_violated",
    "Verif.Props.C112_reset_violated",
    "Verif.Props.C112_reset_nothing"
   ],
   "note": "For uses of views: C112_views_partial (everything the execution of a file comes to use, at any depth, is recorded for the innermost file executed around it, also if the load raises), C112_only (nothing else is), C112_lasting_partial (until the context is reset). Counterexamples, for all contexts: an item the file runs or gets by the manager itself is not recorded for the file, but for the item that happens to be running, if any (C112_manager_violated); what is used in another file executed on the way is recorded for that file only (C112_inner_violated; the first file depends on it through the item of the second, C28). That the recorded path leads back to the file is C72. C112_reset_violated, C112_reset_nothing: a file whose code resets the context loses what was recorded, nothing that it uses afterwards is recorded for it, and its load ends with an IndexError, whatever it does before and after."
  },
  {
   "property": "C113",
   "status": "partial",
   "theorems": [
    "Verif.Props.C113_objects",
    "Verif.Props.C113_refresh_all",
    "Verif.Props.C113_refresh_one",
    "Verif.Props.C113_others",
    "Verif.Props.C113_reserved",
    "Verif.Props.C113_again_violated"
   ],
   "note": "C113_objects (objects have the configuration of their items after any history, whatever raised), C113_refresh_one (an item whose refresh returns is up to date, whatever was done before), C113_refresh_all (so is everything after all loaded items were refreshed in any order, those loaded meanwhile included), C113_others (what does not depend on a changed item stays up to date whatever raises), C113_reserved (an update with a reserved name raises without changing anything). As in C28, keys that a file assigns in some cases only may be missing. Counterexample: doing the operation that raised again returns without refreshing anything, since the value is there already; the dependents that were not reached stay as they were until they are refreshed themselves (C113_again_violated). Except in C113_objects, for items whose file does not read the item itself (see C28_itself_violated)."
  },
  {
   "property": "C114",
   "status": "partial",
   "theorems": [
    "Verif.Props.C114_same_object",
    "Verif.Props.C114_own_object",
    "Verif.Props.C114_local_own",
    "Verif.Props.C114_touch_seen",
    "Verif.Props.C114_update_seen",
    "Verif.Props.C114_reset_new",
    "Verif.Props.C114_reset_section",
    "Verif.Props.C114_create",
    "Verif.Props.C114_create_keeps",
    "Verif.Props.C114_refines",
    "Verif.Props.C114_nothing_there",
    "Verif.Props.C114_other_names",
    "Verif.Props.C114_no_config",
    "Verif.Props.C114_two_paths_violated",
    "Verif.Props.C114_section_paths_violated",
    "Verif.Props.C114_reset_project_violated",
    "Verif.Props.C114_create_violated"
   ],
   "note": "For paths that are not made of attribute names of managers or sections: C114_same_object (the same object after any history without a reset of the item; asking never fails once it succeeded), C114_own_object and C114_local_own (no two have the same object, also over time and with resets), C114_touch_seen (changes to the object by users are seen by all who ask, nothing else changes), C114_update_seen (updates by the manager change the object that everyone holds), C114_reset_new. C114_refines: the model with objects and the model as a tree, on which the theorems about histories of the config manager rest, give the same answers, errors included, for all histories of calls on such paths, whether they lead to something or not. C114_nothing_there, C114_other_names and C114_no_config: which error is raised where nothing can be found. Counterexamples: section.a is another path of the item a, but gives another object once a was used (C114_two_paths_violated); the config of a section is also at sub.config and sub.sub (C114_section_paths_violated); reset('section') loses all configs in a project without a config of its own (C114_reset_project_violated). C114_reset_section, C114_create and C114_create_keeps: resets of sections without config, and resets with creation, of missing and of present items; the latter say they updated but the item keeps its object (C114_create_violated). Missing: C114_refines leaves out resets with creation of sections without config."
  }
 ]
}
{"id": "C01", "title": "Section path text and section list determine each other", "statement": "Turning a section path string into its list of sections and back gives the same string, and building a path from any non-empty list of dot-free names gives a path whose sections are exactly that list, in order.", "quantifier": "every string, and every non-empty list of dot-free names", "why_tests_cant": "Tests use a handful of paths; the round trip must hold for all strings, including ones with empty sections, leading and trailing dots.", "anchors": ["pyfileconf/sectionpath/sectionpath.py: SectionPath.__init__, from_section_str_list, _section_path_str_to_section_strs, _section_strs_to_section_path_str"]}
{"id": "C02", "title": "Joining section paths concatenates sections", "statement": "SectionPath.join(a, b) has exactly the sections of a followed by the sections of b, join is associative, equality of two section paths is the same as equality of their section lists, and equal paths hash equally whatever the hash of strings is.", "quantifier": "every pair and triple of paths", "why_tests_cant": "Associativity and the equality law are universally quantified over strings; path equality is what sets of dependencies rely on.", "anchors": ["pyfileconf/sectionpath/sectionpath.py: SectionPath.join, __eq__, __hash__"]}
{"id": "C03", "title": "Section path to config file path and back is the identity", "statement": "For a base folder and a path whose sections are proper file names, the path computed from the file <base>/<sections>.py is the path one started from, with or without the .py suffix; distinct such paths get distinct files.", "quantifier": "every base folder and every section path with non-empty, separator-free sections", "why_tests_cant": "Only a few file names are ever exercised; the mapping has to be injective or two items would share one configuration file.", "anchors": ["pyfileconf/sectionpath/sectionpath.py: SectionPath.from_filepath, to_filepath, _strip_py, _relative_filepath_to_section_path, _section_path_to_relative_filepath"]}
{"id": "C04", "title": "endswith means 'is a suffix of'", "statement": "sp.endswith(t) is true exactly when the section list of t is a suffix of the section list of sp.", "quantifier": "every pair of section paths", "why_tests_cant": "The failing region (receiver shorter than the argument) is not covered by tests; the claim is about all pairs.", "anchors": ["pyfileconf/sectionpath/sectionpath.py: SectionPath.endswith", "pyfileconf/imports/logic/load/name.py: _should_skip_module"]}
{"id": "C05", "title": "Ambiguous section-path arguments are normalised faithfully", "statement": "A list of strings, paths and item views is converted item by item, in order, with no item lost; a view loses exactly its manager section iff stripping was requested, strings and paths are taken as they are, a base path is prefixed to each, and anything else raises instead of being guessed.", "quantifier": "every list of arguments, both strip settings, every base", "why_tests_cant": "The combination of argument kinds, strip flag and base is open ended; order and length preservation hold for lists of any length.", "anchors": ["pyfileconf/sectionpath/sectionpath.py: from_ambiguous, list_from_ambiguous"]}
{"id": "C06", "title": "A config update changes exactly the named keys", "statement": "After updating a config with a dict and keyword arguments, each named key has the keyword value if given, else the dict value, every other key keeps its value, and keys that already existed keep their order.", "quantifier": "every config, every dict and keyword update", "why_tests_cant": "Last-write-wins and the frame condition concern all keys of all dictionaries.", "anchors": ["pyfileconf/basemodels/config.py: ConfigBase.update"]}
{"id": "C07", "title": "'would update' predicts whether an update is visible", "statement": "would_update(u) is true iff applying u changes the value of some key the config already has; in particular when it is false and u only names existing keys, applying u leaves the config observably unchanged.", "quantifier": "every config and update dictionary", "why_tests_cant": "The prediction is used to gate every update; agreeing on samples does not show it never suppresses or invents a change.", "anchors": ["pyfileconf/basemodels/config.py: ConfigBase.would_update, _values_are_equal"]}
{"id": "C08", "title": "Refresh re-reads the file and keeps persistent updates", "statement": "After a refresh every key in a persistent update has its last persistent value, every other key defined by the file has the file's current value, remaining keys are unchanged; values set by non-persistent updates are gone for keys defined by the file. Refreshing twice in a row is the same as refreshing once.", "quantifier": "every history of persistent and non-persistent updates, every file content at refresh time", "why_tests_cant": "Needs induction over arbitrary update histories.", "anchors": ["pyfileconf/basemodels/config.py: ConfigBase.update, refresh, change_from_refresh"]}
{"id": "C09", "title": "The change announced before a refresh is the change made by it", "statement": "change_from_refresh returns a non-empty dictionary iff refresh would change the value of an existing key, it does not alter the config, and the announced dictionary is the one refresh applies.", "quantifier": "every config, applied-update record and file content", "why_tests_cant": "Plugins rely on the announcement for all configs; tests check one key.", "anchors": ["pyfileconf/basemodels/config.py: change_from_refresh, refresh", "pyfileconf/config/models/manager.py: _determine_and_track_if_config_would_be_refreshed"]}
{"id": "C10", "title": "Config inheritance order", "statement": "The active configuration of an item gives each key the value from the last of these that defines it: the item's own config, the project section config, the enclosing section configs from outermost to innermost, the local config.", "quantifier": "every nesting depth, every assignment of keys to levels", "why_tests_cant": "Depth and key distribution are unbounded; tests have depth one.", "anchors": ["pyfileconf/config/models/manager.py: ConfigManager.get"]}
{"id": "C11", "title": "Reading a configuration does not change it", "statement": "Looking up the active configuration of an item returns the same thing when repeated and leaves the stored configuration of every item as it was.", "quantifier": "every configuration state and every sequence of lookups", "why_tests_cant": "Absence of side effects is a statement about all states and all later operations.", "anchors": ["pyfileconf/config/models/manager.py: ConfigManager.get, _get_func_or_section_configs"]}
{"id": "C12", "title": "Updating one item leaves the others alone", "statement": "update, refresh and reset of one item change neither the stored config nor the already created object of any other item (apart from items that registered a dependency on it), in the same manager or in another one.", "quantifier": "every state, every pair of different items, every operation", "why_tests_cant": "A frame property over all other items; tests look at one neighbour.", "anchors": ["pyfileconf/config/models/manager.py: update, set", "pyfileconf/runner/models/runner.py: update, reset, refresh"]}
{"id": "C13", "title": "Reset returns an item to its file defaults", "statement": "After resetting an item its configuration is exactly what loading its file gives and no earlier update survives a later refresh, whatever updates came before.", "quantifier": "every history of updates before the reset, every file content", "why_tests_cant": "History dependent; the failing histories (key set back to default, extra keys) are not tried by tests.", "anchors": ["pyfileconf/config/models/manager.py: reset, set, _get_default_func_or_section_config", "pyfileconf/runner/models/runner.py: reset"]}
{"id": "C14", "title": "Updating without a section path sets local values for everything", "statement": "An update without a section path is recorded in the local config and overrides every item's values from then on until the local config is reset.", "quantifier": "every history of updates and every item", "why_tests_cant": "Tests never update without a path; the claim concerns all histories.", "anchors": ["pyfileconf/config/models/manager.py: update, get, _get_project_config_or_local_config_by_section_path", "pyfileconf/main.py: PipelineManager.update"]}
{"id": "C15", "title": "A config file is read once until asked to re-read", "statement": "Once an item's configuration is loaded, later edits of its file are not visible to get, update or run; they become visible through refresh, reset or reload.", "quantifier": "every interleaving of file edits and operations", "why_tests_cant": "Quantifies over interleavings of external edits and API calls.", "anchors": ["pyfileconf/config/models/manager.py: _get_func_or_section_configs, refresh, reset"]}
{"id": "C16", "title": "A created function object always carries the current configuration", "statement": "At any time, each keyword bound in an item's created function object equals the item's current configuration value for it, after any sequence of update, refresh and reset on that item.", "quantifier": "every sequence of operations on the item", "why_tests_cant": "An invariant over unbounded histories; object and config are stored in different places.", "anchors": ["pyfileconf/runner/models/runner.py: _get_one_func_with_config, update, reset, refresh", "pyfileconf/config/logic/apply.py: apply_config_to_partial"]}
{"id": "C17", "title": "Updating before or after an item is created gives the same object", "statement": "Creating the item then updating it gives an object bound to the same arguments as updating it first and creating it afterwards.", "quantifier": "every config, every function signature, every update", "why_tests_cant": "An equivalence of two operation orders over all updates.", "anchors": ["pyfileconf/runner/models/runner.py: update, _get_one_func_with_config", "pyfileconf/config/logic/apply.py"]}
{"id": "C18", "title": "Only arguments the function accepts are passed", "statement": "The keyword arguments bound to a registered function or class are a subset of its parameters, with values from its config, and the set of bound names never changes once the object exists.", "quantifier": "every signature, config and sequence of updates", "why_tests_cant": "Invariant over histories and all signatures.", "anchors": ["pyfileconf/pipelines/models/config.py: for_function", "pyfileconf/config/logic/apply.py: apply_config_to_partial, apply_config_to_obj"]}
{"id": "C19", "title": "Every configured parameter reaches the function", "statement": "If the config of an item has a value for a parameter of the function, that value is bound when the item is created.", "quantifier": "every signature (positional, defaults, keyword-only with and without defaults) and config", "why_tests_cant": "The failing signature shape is not in the tests; the claim ranges over all signatures.", "anchors": ["pyfileconf/imports/logic/load/func.py: function_args_as_dict", "pyfileconf/pipelines/models/config.py: for_function"]}
{"id": "C20", "title": "One object per item per load", "statement": "Between loads, an item is created at most once and every lookup or run of it uses that same object.", "quantifier": "every sequence of get, run, update, refresh, reset operations", "why_tests_cant": "At-most-once over arbitrary histories.", "anchors": ["pyfileconf/runner/models/runner.py: _get_one_func_with_config, _get_one_obj_with_config"]}
{"id": "C21", "title": "Running a list returns one result per entry, in order", "statement": "Running a list of paths returns a list whose i-th entry is the result of the i-th path.", "quantifier": "every list of paths", "why_tests_cant": "Length one is special-cased in the code; the law covers every length.", "anchors": ["pyfileconf/main.py: PipelineManager.run", "pyfileconf/logic/combine.py", "pyfileconf/runner/models/runner.py: Runner.run"]}
{"id": "C22", "title": "force_continue isolates failures", "statement": "With force_continue every requested item is attempted exactly once, in order, whatever the earlier ones did; the results are the results of the successful ones in order and every failure is reported with its path.", "quantifier": "every list of items and every pattern of failures", "why_tests_cant": "All 2^n failure patterns for all n.", "anchors": ["pyfileconf/main.py: _run_with_force_continue, _try_except_run_func_except_user_interrupts"]}
{"id": "C23", "title": "Running a section runs everything in it once, in definition order", "statement": "Running a section runs each function and class below it exactly once, in definition order, and the nesting of the results mirrors the nesting of the sections.", "quantifier": "every nested section structure", "why_tests_cant": "Structures are arbitrary trees; needs structural induction.", "anchors": ["pyfileconf/runner/models/runner.py: _run, _run_section"]}
{"id": "C24", "title": "Getting a section returns the nested structure", "statement": "Getting a section returns a dict of its subsections or a list of its created items, recursively; a section mixing both is an error; every item of the section is created.", "quantifier": "every nested section structure", "why_tests_cant": "Arbitrary trees.", "anchors": ["pyfileconf/runner/models/runner.py: get, _get_section"]}
{"id": "C25", "title": "Attribute access on the manager reaches the same item as get", "statement": "Walking pm.a.b.c yields the same object as pm.get('a.b.c') for every registered item, whatever attribute accesses happened before, including failed ones.", "quantifier": "every sequence of earlier attribute accesses", "why_tests_cant": "The accumulated path is hidden state; the claim ranges over all earlier access sequences.", "anchors": ["pyfileconf/runner/models/runner.py: Runner.__getattr__", "pyfileconf/main.py: PipelineManager.__getattr__"]}
{"id": "C26", "title": "The context stack is balanced", "statement": "After any run, config load or nested combination of them, finished normally or by exception at any depth, the stack of the context is what it was before; during it, the currently running item is the innermost one being run.", "quantifier": "every nesting of operations and every point where an exception is raised", "why_tests_cant": "Exceptions at every possible point of every nesting.", "anchors": ["pyfileconf/pmcontext/tracing.py: StackTracker", "pyfileconf/pmcontext/stack.py", "pyfileconf/runner/models/runner.py: _run_one_func"]}
{"id": "C27", "title": "Dependency records are sound", "statement": "No item is ever recorded as depending on itself, every forced dependency is also an ordinary dependency, and recorded dependencies are never lost until the context is reset.", "quantifier": "every history of recorded dependencies", "why_tests_cant": "Invariant over all histories.", "anchors": ["pyfileconf/pmcontext/main.py: add_config_dependency, add_config_dependency_for_currently_running_item_if_exists"]}
{"id": "C28", "title": "Dependent configs are consistent after an update", "statement": "When the dependency graph is acyclic, after an update of one item every item that (transitively) read its attributes has the configuration its file gives under the new values, with its own persistent updates on top.", "quantifier": "every acyclic dependency graph, every refresh order of the dependents, every file semantics", "why_tests_cant": "The refresh order comes from iterating a set, so any order is possible; graphs are unbounded.", "anchors": ["pyfileconf/config/models/manager.py: refresh_dependent_configs, _refresh_configs, refresh", "pyfileconf/runner/models/runner.py: update, refresh", "pyfileconf/plugin/default_hooks.py: pyfileconf_post_config_changed"]}
{"id": "C29", "title": "Dependent refresh terminates", "statement": "Refreshing dependents finishes for every acyclic dependency graph, and the 'cannot resolve config dependencies' guard of the loop can never be the reason it stops.", "quantifier": "every acyclic graph; every content of the dependency record", "why_tests_cant": "Termination and unreachability are not observable by tests.", "anchors": ["pyfileconf/config/models/manager.py: refresh_dependent_configs"]}
{"id": "C30", "title": "Item views used as config values are recorded as dependencies", "statement": "Whenever an update stores an item view as the value of a key of an item, the item is recorded as depending on the viewed item.", "quantifier": "every dict and keyword update, including overlapping keys", "why_tests_cant": "Overlap of dict and keyword updates is not tested.", "anchors": ["pyfileconf/main.py: PipelineManager._update"]}
{"id": "C31", "title": "run_product enumerates the product exactly", "statement": "The cases of a product run are exactly the ways to choose one of the given updates for every distinct section path, each once, in lexicographic order with the last path varying fastest, each case listing the paths in order of first appearance.", "quantifier": "every list of updates", "why_tests_cant": "Number of paths and updates is unbounded; completeness and uniqueness need induction.", "anchors": ["pyfileconf/iterate.py: get_config_product, _get_configs_by_section_path_dict"]}
{"id": "C32", "title": "Each product case runs with defaults plus its own overrides", "statement": "When a case runs, the config of each involved path has the case's values for the keys the case names and the values from before the whole run for all other keys; nothing of an earlier case leaks.", "quantifier": "every list of cases, every earlier case", "why_tests_cant": "Leakage depends on the previous case; all pairs and all sequences matter.", "anchors": ["pyfileconf/iterate.py: get_defaults, _fill_case_with_defaults, _run_case", "pyfileconf/plugin/default_hooks.py: pyfileconf_iter_update_for_case"]}
{"id": "C33", "title": "Skipping unchanged updates between cases is unobservable", "statement": "Applying only the updates that differ from the previous case leaves every config in the same state as applying all of them.", "quantifier": "every sequence of cases", "why_tests_cant": "An optimisation correctness claim over all case sequences.", "anchors": ["pyfileconf/plugin/default_hooks.py: pyfileconf_iter_update_for_case", "pyfileconf/iterate.py: last_case"]}
{"id": "C34", "title": "Lazy, eager and uncollected product runs agree", "statement": "Consuming the generator gives the same (case, result) pairs and side effects as the eager run; not collecting results only drops the results; cases rejected by should_run are neither applied nor run.", "quantifier": "every list of cases, every should_run predicate, every result function", "why_tests_cant": "Universally quantified over predicates and case lists.", "anchors": ["pyfileconf/iterate.py: run, run_gen"]}
{"id": "C35", "title": "A batch update is the sequence of its updates", "statement": "update_batch has the same effect as applying each update in order to the manager named by its path; the first failing one stops the batch with the earlier ones applied.", "quantifier": "every list of updates over every set of managers", "why_tests_cant": "Lists of any length, failures at any position.", "anchors": ["pyfileconf/batch.py: BatchUpdater.update, reset", "pyfileconf/main.py: update_batch"]}
{"id": "C36", "title": "Registered items are found at their path", "statement": "Every item of a nested definition is found at the path made of its dictionary keys and its name, and a path that is not in the definition is not found; with duplicate names the last one is found.", "quantifier": "every nested dict/list definition", "why_tests_cant": "Arbitrary trees.", "anchors": ["pyfileconf/basemodels/collection.py: from_dict, from_list, get, __getattr__", "pyfileconf/pipelines/models/collection.py: _set_name_map"]}
{"id": "C37", "title": "Creating an item adds exactly that item to the definition", "statement": "Adding an item at a path to the nested definition makes it the last entry of that section, creating missing sections, and leaves all other entries as they were; if the path runs into a non-section the call fails and the definition is unchanged.", "quantifier": "every nested definition and path", "why_tests_cant": "Arbitrary trees and paths, including failing ones.", "anchors": ["pyfileconf/dictfiles/modify.py: add_item_into_nested_dict_at_section_path"]}
{"id": "C38", "title": "The written definition reads back as the same definition", "statement": "The text written for a nested definition, read as a Python dict literal of names, is that definition.", "quantifier": "every nested definition with identifier names and quote-free section names", "why_tests_cant": "Arbitrary trees; printing and parsing must agree on all.", "anchors": ["pyfileconf/dictfiles/modify.py: create_dict_assignment_str_from_nested_dict_with_ast_names", "pyfileconf/io/file/load/parsers/collections.py"]}
{"id": "C39", "title": "A newly registered item can be looked up", "statement": "After registering an item at a path, looking up that path finds it, missing sections have been created, and every previously registered path still finds what it found before.", "quantifier": "every collection and every path", "why_tests_cant": "Arbitrary trees and paths.", "anchors": ["pyfileconf/basemodels/registrar.py: Registrar.set, get", "pyfileconf/main.py: create"]}
{"id": "C40", "title": "Specific class names never capture general items", "statement": "If loading succeeds, specific class names are pairwise distinct and none is a top-level name of the general definition, so a path resolves in exactly one registrar.", "quantifier": "every list of specific class names and every general definition", "why_tests_cant": "All name lists; ambiguity would show only for unlucky names.", "anchors": ["pyfileconf/main.py: _validate_registrars", "pyfileconf/runner/models/runner.py: _get_func_or_collection"]}
{"id": "C41", "title": "Scaffolding never changes an existing assignment", "statement": "Writing the config file of an item keeps every assignment already in the file and adds one assignment for each parameter not yet assigned, and nothing else.", "quantifier": "every existing file content and every parameter list", "why_tests_cant": "All combinations of existing and new names.", "anchors": ["pyfileconf/io/file/write/base.py: FileStr._combine, _create_str", "pyfileconf/basemodels/file.py: save, _add_always_imports_and_assigns_to_config", "pyfileconf/pipelines/models/collection.py: _output_config_file"]}
{"id": "C42", "title": "Scaffolding twice writes the same file", "statement": "Loading and writing a config file a second time with the same parameters leaves it unchanged.", "quantifier": "every file content and parameter list", "why_tests_cant": "Idempotence over all contents; a file growing by one line per load passes single-load tests.", "anchors": ["pyfileconf/io/file/write/base.py", "pyfileconf/config/logic/load.py: _split_lines_into_import_and_assignment"]}
{"id": "C43", "title": "The user's lines survive a rewrite", "statement": "Every line of an existing config file that is not an import is kept, verbatim and in order, when the file is rewritten.", "quantifier": "every file content", "why_tests_cant": "Depends on how lines are classified by their text; all texts matter.", "anchors": ["pyfileconf/config/logic/load.py", "pyfileconf/io/file/write/base.py"]}
{"id": "C44", "title": "Required imports are present after a write", "statement": "After an import is added if missing, the container provides every name that import binds; adding it again changes nothing; existing imports are kept in order.", "quantifier": "every container and import, with renames", "why_tests_cant": "All combinations of renames and partially overlapping imports.", "anchors": ["pyfileconf/basemodels/container.py: add_if_missing", "pyfileconf/imports/models/statements/container.py: __contains__"]}
{"id": "C45", "title": "Creating a project never overwrites a file", "statement": "Project creation leaves every existing file untouched, creates every required file, and doing it again changes nothing.", "quantifier": "every file system state and every list of specific classes", "why_tests_cant": "All states of the folder, including partially created projects.", "anchors": ["pyfileconf/main.py: create_project, _need_to_create_project"]}
{"id": "C46", "title": "A failed load leaves no new modules behind", "statement": "If a load fails at any point, every module it imported is removed again and no other module is; a reload removes exactly the modules the previous load imported.", "quantifier": "every set of loaded modules, every import sequence, every failure point", "why_tests_cant": "Failure at every point.", "anchors": ["pyfileconf/main.py: load, reload, _wipe_loaded_modules", "pyfileconf/imports/models/tracker.py"]}
{"id": "C47", "title": "The manager registry names the latest live manager", "statement": "Looking up a manager by name gives the most recently created manager of that name unless it was destroyed; destroying an older manager of the same name, or one whose construction failed, never removes a newer one.", "quantifier": "every history of creating and destroying managers", "why_tests_cant": "Object destruction order is arbitrary.", "anchors": ["pyfileconf/main.py: __init__, __del__, _validate_options, get_manager_by_section_path_str"]}
{"id": "C48", "title": "A file belongs to the manager whose folder contains it", "statement": "Looking up the manager for a file returns a manager whose folder contains the file, fails iff there is none, is not confused by folders sharing a name prefix, and picks the innermost folder when folders nest.", "quantifier": "every set of folders and every file path", "why_tests_cant": "All folder layouts; prefix confusion is a string-level corner case.", "anchors": ["pyfileconf/main.py: get_manager_by_filepath"]}
{"id": "C49", "title": "Option reset restores the defaults", "statement": "After reset every option has its default value; setting an option changes no other option; leaving the context manager restores the options as they were when it was entered.", "quantifier": "every history of option changes and nesting of context managers", "why_tests_cant": "All histories; tests always start from the defaults.", "anchors": ["pyfileconf/opts/__init__.py"]}
{"id": "C50", "title": "At most one log file handler, matching the option", "statement": "There is a file log handler exactly when log_folder is set, it writes to that folder, and resetting never fails.", "quantifier": "every history of option changes", "why_tests_cant": "The failing history sets the folder twice.", "anchors": ["pyfileconf/opts/__init__.py: PyfileconfOption.value", "pyfileconf/logger/logger.py: add_file_handler, remove_file_handler"]}
{"id": "C51", "title": "Standard output is restored after a logged run", "statement": "After a run with stdout logging, sys.stdout is what it was before, also when the run raises.", "quantifier": "every nesting of runs and every exception point", "why_tests_cant": "Exceptions at every point.", "anchors": ["pyfileconf/logger/bind_stdout.py: stdout_also_logged", "pyfileconf/main.py: run"]}
{"id": "C52", "title": "Item views denote paths", "statement": "Two item views are equal iff they have the same section path, equal views hash equally, a view obtained from a path string walks back to the same path string, and a path resolves to a view iff it is registered.", "quantifier": "every registered structure and every path", "why_tests_cant": "Arbitrary structures.", "anchors": ["pyfileconf/selector/models/itemview.py", "pyfileconf/selector/models/selector.py: __contains__"]}
{"id": "C53", "title": "Each item is configured by its own file", "statement": "After loading, the section path of every config file leads to that file: the item's configuration comes from the file at its own path and from no other.", "quantifier": "every folder structure, nesting depth and choice of names", "why_tests_cant": "The failing shapes (an item named like its section, an item named like a method of the section) are not in the tests; the claim ranges over all trees and names.", "anchors": ["pyfileconf/config/models/section.py: from_files, __getattr__", "pyfileconf/logic/get.py: _get_from_nested_obj_by_section_path"]}
{"id": "C54", "title": "Plugins can add to a run", "statement": "Paths that pre-run plugins return are run after the requested ones and their results follow; if a plugin changes the requested list in place, the changed list is run; results that post-run plugins return follow the results of the run.", "quantifier": "every request, every set of plugin results", "why_tests_cant": "Ranges over all plugin behaviours allowed by the hook specification (a path, a list of paths, in-place changes).", "anchors": ["pyfileconf/main.py: PipelineManager.run", "pyfileconf/plugin/hookspecs.py: pyfileconf_pre_run, pyfileconf_post_run", "pyfileconf/runner/models/runner.py: Runner.run"]}
{"id": "C55", "title": "auto_pdb does not change successful runs", "statement": "With auto_pdb a run that succeeds returns what it returns without it and leaves the same state; a run that raises is debugged and returns None; a user interrupt ends the program.", "quantifier": "every item and every way it can end", "why_tests_cant": "All outcomes of user code.", "anchors": ["pyfileconf/main.py: _run_with_auto_pdb, _try_except_run_func_except_user_interrupts"]}
{"id": "C56", "title": "Items used while running another are recorded", "statement": "When one item is running and its code gets, runs or uses (through a view) another item, the running item is recorded as depending on the used one, so that a later change of the used item refreshes it.", "quantifier": "every context, every nesting of runs, every use", "why_tests_cant": "whether a use is recorded depends on the whole history (what was created before) and on the nesting; tests only see fresh managers", "anchors": ["pyfileconf/runner/models/runner.py: _get_one_func_with_config, _get_one_obj_with_config, _run_one_func, _add_to_config_dependencies_if_necessary", "pyfileconf/selector/models/itemview.py: __getattr__, __call__"]}
{"id": "C57", "title": "A config's values can be read as attributes", "statement": "For every config and every key of it that is not the name of a method, reading the key as an attribute gives the value of the key; for other names it raises an attribute error.", "quantifier": "every config and every name", "why_tests_cant": "the tests read values by key; the statement ranges over all configs and names", "anchors": ["pyfileconf/basemodels/config.py: ConfigBase.__getattr__"]}
{"id": "C58", "title": "The import chosen for a name really binds that name", "statement": "Looking a name up among the imports of a file finds an import iff some import binds or mentions the name, and the import found binds the name to the same thing as it is bound to in the file.", "quantifier": "every list of imports, with renames, and every name", "why_tests_cant": "All combinations of renames, duplicates and modules sharing names with objects.", "anchors": ["pyfileconf/imports/models/statements/container.py: get_import_for_module_or_obj_name, obj_name_is_imported", "pyfileconf/imports/models/statements/rename.py"]}
{"id": "C59", "title": "A scaffolded parameter has the function's own default", "statement": "For every function signature the scaffolded dictionary has exactly the parameters a caller may pass by keyword, each with the default of the function, or None if it has none.", "quantifier": "every signature (positional-only, ordinary, keyword-only, with and without defaults)", "why_tests_cant": "All signatures; positional-only and required keyword-only parameters are rarely tested.", "anchors": ["pyfileconf/io/func/load/config.py: function_args_as_arg_and_annotation_dict", "pyfileconf/io/func/load/extractimp.py", "pyfileconf/io/func/load/args.py"]}
{"id": "C60", "title": "A scaffolded file imports every name its defaults and annotations use", "statement": "For every function signature and every list of imports and assignments of its module: taking the imports for a scaffolded file succeeds whenever every name used in a default or annotation is a type of Python itself or imported or assigned in the module, and the imports taken bind exactly those names.", "quantifier": "every signature with arbitrary nested annotations and defaults, every list of imports and assignments of the module, every order list(set()) may give", "why_tests_cant": "Signatures, annotations nested to any depth and lists of imports are unbounded, and the order of a set is not the same between runs.", "anchors": ["pyfileconf/io/func/load/extractimp.py:11-123", "pyfileconf/io/func/load/args.py:18-79", "pyfileconf/imports/models/statements/container.py: get_import_for_module_or_obj_name"]}
{"id": "C61", "title": "Scaffolded parameters come from the definition the name denotes", "statement": "The parameters that scaffolding writes for an item are those of the function, or of the __init__ of the class, that its name denotes when the module is executed, through any chain of imports and renames.", "quantifier": "every module (nested statements, classes, async functions) and every chain of importing modules", "why_tests_cant": "Ranges over all module shapes and import chains; tests have a few fixed modules.", "anchors": ["pyfileconf/io/func/load/args.py: extract_function_args_and_arg_imports_from_import", "pyfileconf/io/file/load/parsers/funcdef.py"]}
{"id": "C62", "title": "The import written by create gives the object that was passed", "statement": "create writes an import of the function or class it was given: executing that import binds the name to the very object that was passed.", "quantifier": "every set of loaded modules, in any order, with any names for the object in them", "why_tests_cant": "Depends on the order and contents of sys.modules, which tests do not vary.", "anchors": ["pyfileconf/imports/logic/load/name.py: get_module_and_name_imported_from", "pyfileconf/main.py: _create_pipeline_dict_entry, create"]}
{"id": "C63", "title": "A registered item is the object its entry denotes", "statement": "An entry of a definition is registered under the name that is written there, and loading it gives the object that the expression denotes under the imports of the file.", "quantifier": "every entry expression and every list of imports", "why_tests_cant": "Tests use plain imported names only.", "anchors": ["pyfileconf/views/object.py: ObjectView", "pyfileconf/io/file/load/parsers/extname.py: extract_external_name_from_assign_value", "pyfileconf/imports/models/statements/container.py: get_import_for_ast_obj"]}
{"id": "C64", "title": "Scaffolding touches exactly the files of the registered items and sections", "statement": "Scaffolding a registrar changes only the files at the paths of its items and sections, gives every item its own file with the text made for it, and never changes a section file that is there; if it fails, each file is as before or complete.", "quantifier": "every tree of collections, every state of the files", "why_tests_cant": "Arbitrary trees and pre-existing files, and failures at any point.", "anchors": ["pyfileconf/pipelines/models/collection.py: _output_config_files, _output_config_file, _output_section_config_file", "pyfileconf/data/models/collection.py: _output_config_files, _output_config_file"]}
{"id": "C65", "title": "A rejected definition writes nothing", "statement": "If loading a manager fails before scaffolding, because a definition cannot be read, resolved or validated, no file is changed.", "quantifier": "every set of definitions and every state of the files", "why_tests_cant": "Ranges over all invalid definitions; needs the order of all effects.", "anchors": ["pyfileconf/main.py: create_registrars, _create_registrars_or_collections_from_dict, _validate_registrars"]}
{"id": "C66", "title": "create is all or nothing", "statement": "If create succeeds, the item is in the definition file, registered and has its config file; if it fails, definition file, registered items and config files are as before.", "quantifier": "every definition, path, function or class and state of the files", "why_tests_cant": "Failure at every step of a sequence of effects on disk and in memory.", "anchors": ["pyfileconf/main.py: create, _create_pipeline_dict_entry, _create_specific_class_dict_entry"]}
{"id": "C67", "title": "Setting an attribute of an item view updates the item", "statement": "Assigning to an attribute of an item view has the effect of the update of the item with that value, and reading the attribute afterwards gives the value.", "quantifier": "every view, attribute and value", "why_tests_cant": "Arbitrary attribute names, including those of views themselves.", "anchors": ["pyfileconf/selector/models/itemview.py: __setattr__, __getattr__", "pyfileconf/selector/models/selector.py: _set_attr_for_item"]}
{"id": "C68", "title": "Calling an item view calls the item", "statement": "Calling an item view calls the configured function, or the method that the collection of the object names for execution, with the arguments given.", "quantifier": "every structure of managers, collections and classes", "why_tests_cant": "Several collections of the same class, and subclasses, are not tested.", "anchors": ["pyfileconf/selector/models/itemview.py: __call__, _specific_class_collection_map"]}
{"id": "C69", "title": "Reading a definition file gives the definition it assigns", "statement": "A file that assigns the definition once, as nested dictionaries and lists, gives exactly this structure whatever else the file contains; a file without the assignment, or no file, gives an empty definition; anything else is rejected with a ValueError.", "quantifier": "every definition file, as parsed", "why_tests_cant": "Arbitrary python files around and inside of the definition; the tests read the few files they wrote.", "anchors": ["pyfileconf/io/file/load/parsers/assign.py: extract_assignments_from_ast, extract_assignment_from_ast_by_name", "pyfileconf/io/file/load/parsers/collections.py: extract_collection_from_ast", "pyfileconf/io/file/load/lazy/pipelineast.py: PipelineAstLoader", "pyfileconf/io/file/load/lazy/pipeline.py: PipelineDictLoader"]}
{"id": "C70", "title": "A loaded config has the values its file assigns", "statement": "Loading a config file succeeds if and only if executing it does, and the config then has exactly the names the file assigns, each with the value assigned to it last.", "quantifier": "every config file and what its expressions evaluate to", "why_tests_cant": "Arbitrary python in config files: imports, definitions, conditional and chained assignments.", "anchors": ["pyfileconf/io/file/load/active/loader.py: ActiveConfigFileLoader.load", "pyfileconf/io/file/load/active/userdef.py: get_user_defined_dict_from_filepath, _get_user_defined_dict_from_module", "pyfileconf/assignments/models/statement.py: from_ast_assign"]}
{"id": "C71", "title": "The file found for a module is the one importing it would load", "statement": "For every module that can be imported from a file this file is found, and what is found is always the file the import would load; if the import fails an exception is raised.", "quantifier": "every dotted name, state of sys.modules and finder", "why_tests_cant": "Arbitrary nesting of packages, loaded and unloaded, and modules in place of packages.", "anchors": ["pyfileconf/imports/logic/load/ext_importlib.py: find_spec, get_filepath_from_module_str"]}
{"id": "C72", "title": "Config files are refreshed under the path recorded for them", "statement": "For every config file of a project, of an item or of a section, the section path recorded for it while it is executed leads back to the config read from it, so that refreshing the recorded dependents of an item refreshes every file that read it.", "quantifier": "every config file, folder and state of the manager", "why_tests_cant": "Every folder structure and every state reached by updates, resets and refreshes before.", "anchors": ["pyfileconf/pmcontext/stack.py: PyfileconfFrame.from_file_path", "pyfileconf/config/models/manager.py: _refresh_configs", "pyfileconf/config/models/section.py: ConfigSection.from_files"]}
{"id": "C73", "title": "A failing update changes nothing", "statement": "If an update of an item raises an exception, all configs and created objects are as they were before the call.", "quantifier": "every state, item and update", "why_tests_cant": "Every point at which an update can fail, in every state.", "anchors": ["pyfileconf/runner/models/runner.py: Runner.update", "pyfileconf/config/models/manager.py: update, track_post_update", "pyfileconf/config/logic/apply.py"]}
{"id": "C74", "title": "Updating a section reaches the items in it", "statement": "After the configuration of a section is updated, every item in the section has the updated values, in its active configuration and in the object that is got or run, except for keys that a section between the two or the local config defines.", "quantifier": "every reachable state, section, item in it and update", "why_tests_cant": "Every nesting of sections, and every history of reads, updates, resets and refreshes before the update.", "anchors": ["pyfileconf/runner/models/runner.py: Runner.update", "pyfileconf/config/models/manager.py: update, get", "pyfileconf/config/models/config.py: would_update"]}
{"id": "C75", "title": "Iterative runs use the values they are given", "statement": "The configs of an iterative run are updated with the values given in its updates, as if they were given to update: an item view stays a view of the item, and the updated item is recorded as depending on the viewed one.", "quantifier": "every list of updates, every value in them and every state of the managers", "why_tests_cant": "Every number of updates, paths and keys, and every value including views of any item.", "anchors": ["pyfileconf/iterate.py: _get_configs_by_section_path_dict", "pyfileconf/selector/models/itemview.py: ItemView.__deepcopy__", "pyfileconf/main.py: PipelineManager._update"]}
{"id": "C76", "title": "Every line a specific class asks for is in every file scaffolded for it", "statement": "A file written for an item of a specific class has the imports given as always_import_strs and the assignments given as always_assign_strs for the class, besides the parameters of the class and what the file had before; without them it has the selector and its import.", "quantifier": "every list of import and assignment strings, every class and every content of the file", "why_tests_cant": "Every combination of strings, parameters and existing contents of the file.", "anchors": ["pyfileconf/data/models/file.py: SpecificClassConfigFile", "pyfileconf/data/models/collection.py: SpecificClassConfigCollection", "pyfileconf/assignments/models/statement.py: AssignmentStatement.from_str", "pyfileconf/basemodels/file.py: ConfigFileBase._add_always_imports_and_assigns_to_config"]}
{"id": "C77", "title": "Resetting a section resets everything in it", "statement": "After the reset of a section all configs at and below its path are as if the files were loaded now, objects created for items in it included, and nothing else has changed.", "quantifier": "every state of the managers, every section and every content of the files", "why_tests_cant": "Every history of updates, resets and file edits before, and every path below the section.", "anchors": ["pyfileconf/config/models/manager.py: ConfigManager.reset, set, _get_default_func_or_section_config, _set_func_or_config_no_create", "pyfileconf/config/models/section.py: ConfigSection.from_files", "pyfileconf/runner/models/runner.py: Runner.reset"]}
{"id": "C78", "title": "Resetting with creation gives an item the values of its file", "statement": "reset with allow_create gives an item that has no config yet the values of its file, creating the sections on the way and changing nothing else, and resets an item that has a config as reset does without it.", "quantifier": "every reachable state, every path and every content of the files", "why_tests_cant": "Every history before, every depth of the missing sections.", "anchors": ["pyfileconf/config/models/manager.py: ConfigManager.reset, set, _set_func_or_config_with_create, _get_default_func_or_section_config", "pyfileconf/config/models/section.py: ConfigSection.append, __getattr__", "pyfileconf/main.py: PipelineManager.reset, create"]}
{"id": "C79", "title": "Every item of the definitions can be used after a load", "statement": "After a load that succeeds, every item of the pipeline definitions has its config file, and getting it gives an object made from the defined callable with the values of that file and of the sections around it.", "quantifier": "every file system, definition, specific classes, scaffold text and content of config files", "why_tests_cant": "Every tree of definitions with every content of the files before.", "anchors": ["pyfileconf/main.py: PipelineManager._load_pipeline_config_and_runner, create_registrars", "pyfileconf/config/models/manager.py: ConfigManager.load, get", "pyfileconf/config/models/section.py: ConfigSection.from_files", "pyfileconf/runner/models/runner.py: Runner.get, _get_one_func, _get_one_obj"]}
{"id": "C80", "title": "An item can be used as soon as it is created", "statement": "When create has returned, the new item has its config file and getting it gives an object made from the new callable with the values of that file and of the sections around it.", "quantifier": "every reachable state of configs and objects, every file system, section path and item", "why_tests_cant": "Every history before, every depth of the missing sections, every content of leftover files.", "anchors": ["pyfileconf/main.py: PipelineManager.create, reset", "pyfileconf/config/models/manager.py: ConfigManager.reset, set", "pyfileconf/pipelines/models/registrar.py: PipelineRegistrar.set, scaffold_config_for", "pyfileconf/runner/models/runner.py: Runner.reset, get"]}
{"id": "C81", "title": "Logging a run does not change what it does", "statement": "A run with its messages about arguments and result returns or raises what it would without them and leaves the same configs and objects.", "quantifier": "every state, every item or section, every configuration and result", "why_tests_cant": "Every value that can be an argument or a result, every set of objects created before.", "anchors": ["pyfileconf/runner/models/runner.py: Runner._run_one_func, _run_one_class, _run_one_specific_class", "pyfileconf/assignments/logic/write.py: _assignment_output_repr", "pyfileconf/config/logic/write.py: dict_as_function_kwarg_str", "pyfileconf/selector/models/selector.py: _is_selector"]}
{"id": "C82", "title": "The logged arguments are those of the call", "statement": "The message before a run shows the arguments the item is called with, and they can be read back from it.", "quantifier": "every state, every item, every string and every set of string arguments", "why_tests_cant": "Every string, with every combination of quotes, backslashes and line breaks, and every history before the run.", "anchors": ["pyfileconf/runner/models/runner.py: Runner._run_one_func, _run_one_class", "pyfileconf/assignments/logic/write.py: _assignment_output_repr_for_builtins", "pyfileconf/config/logic/write.py: dict_as_function_kwarg_str"]}
{"id": "C83", "title": "A name in the dictionary of a specific class becomes an object with that name", "statement": "Every name in the dictionary of a specific class is registered at its path, as an object of the class that was made with that name and with the defaults of all other parameters.", "quantifier": "every class, every signature of its __init__, every nested dictionary of names and every path", "why_tests_cant": "All signatures (defaults, positional-only, keyword-only, **kwargs), all classes and all nestings of dictionaries and lists.", "anchors": ["pyfileconf/data/logic/convert.py: convert_to_empty_obj_if_necessary", "pyfileconf/imports/logic/load/klass.py: class_function_args_as_dict", "pyfileconf/imports/logic/load/func.py: function_args_as_dict", "pyfileconf/data/models/collection.py: SpecificClassCollection._set_name_map, _transform_item"]}
{"id": "C84", "title": "A selector made earlier gives the same answers as one made now", "statement": "Whatever managers are made, loaded, reloaded, extended by create or destroyed in the meantime, a selector made before answers whether a path is registered as a selector made now does.", "quantifier": "every history of making, loading, extending and destroying managers, every point at which the selector was made, and every path", "why_tests_cant": "All interleavings of the operations with the making of selectors, and all definitions.", "anchors": ["pyfileconf/selector/models/selector.py: Selector._load_structure, _attach_to_pipeline_manager, __contains__", "pyfileconf/main.py: PipelineManager.load, reload, create, __del__", "pyfileconf/pmcontext/main.py: PyFileConfContext.reset"]}
{"id": "C85", "title": "An item view has the type of what it stands for", "statement": "The type of an item view, also as seen by isinstance, is the type of the object, function or section it stands for.", "quantifier": "every registered path, every state of the managers reached by their operations", "why_tests_cant": "All registries, kinds of items and histories of calls.", "anchors": ["pyfileconf/selector/models/selector.py: Selector.get_type", "pyfileconf/selector/models/itemview.py: ItemView.type, __class__, is_item_view", "pyfileconf/runner/models/runner.py: Runner.get, __getattr__"]}
{"id": "C86", "title": "What is offered for completion is what there is", "statement": "dir() of a selector lists the active managers, dir() of the view of a manager or section lists the names that are registered there, each once, and every name listed can be followed.", "quantifier": "every definition, every section of it, every name", "why_tests_cant": "All definitions, sections and names, also names that coincide with attributes.", "anchors": ["pyfileconf/selector/models/selector.py: Selector.__dir__, _get_dir_for_section_path", "pyfileconf/selector/models/itemview.py: ItemView.__dir__", "pyfileconf/basemodels/collection.py: Collection.__dir__", "pyfileconf/basemodels/registrar.py: Registrar.__dir__", "pyfileconf/main.py: PipelineManager.__dir__"]}
{"id": "C87", "title": "A misspelled name is reported where it is used, and changes nothing", "statement": "Following a name that does not exist from a selector raises an exception at that name, and everything else can be used afterwards as before.", "quantifier": "every definition, every path with one wrong name, every history of uses afterwards", "why_tests_cant": "All definitions, names, and sequences of uses after the failure.", "anchors": ["pyfileconf/selector/models/itemview.py: ItemView.__getattr__", "pyfileconf/selector/models/selector.py: Selector.__contains__, _get_real_item", "pyfileconf/runner/models/runner.py: Runner.__getattr__", "pyfileconf/main.py: PipelineManager.__getattr__"]}
{"id": "C88", "title": "Any value can be a config value", "statement": "Updating, refreshing and resetting a config work for all values, also for those whose comparison raises or gives something that is neither true nor false (pandas objects, arrays).", "quantifier": "every comparison of values, every state of the config manager, item and update, every history", "why_tests_cant": "All behaviours of == on user-defined values, in all combinations and orders of keys.", "anchors": ["pyfileconf/basemodels/config.py: ConfigBase.would_update, change_from_refresh, _values_are_equal", "pyfileconf/config/models/manager.py: ConfigManager.update, refresh, set, reset"]}
{"id": "C89", "title": "Saving a config writes the file it is saved to", "statement": "config.to_file(path) writes the file at path and no other file, whether or not the config was read from a file.", "quantifier": "every config, path and set of files, every parser", "why_tests_cant": "All contents of both files, and all configs; tests save new configs only.", "anchors": ["pyfileconf/basemodels/config.py: ConfigBase.to_file, from_file", "pyfileconf/basemodels/file.py: ConfigFileBase", "pyfileconf/io/file/interfaces/config.py: ConfigFileInterface.save", "pyfileconf/io/file/interfaces/activeconfig.py: ActiveConfigFileInterface.save"]}
{"id": "C90", "title": "A reloaded manager behaves as a new one", "statement": "After reload, a manager behaves as a manager newly made from the files as they are then: getting, updating, refreshing and resetting items gives what it would give in a new session, and items that read others have values that fit the reloaded files.", "quantifier": "every session of gets, updates, refreshes, resets and reloads of any managers, every change of the files of the reloaded managers, every order of iteration over dependents", "why_tests_cant": "All sessions before the reload and all changes of the files; tests reload one manager without items that depend on one another.", "anchors": ["pyfileconf/main.py: PipelineManager.reload, load, _load_pipeline_config_and_runner", "pyfileconf/pmcontext/main.py: PyFileConfContext.force_update_dependencies", "pyfileconf/config/models/manager.py: ConfigManager.refresh_dependent_configs, _refresh_configs"]}
{"id": "C91", "title": "New functions, classes and objects are called with their own defaults", "statement": "If a function is new in the definition and its scaffolded config file is not changed, then running it calls it with the values of its own defaults: every keyword parameter has the value it would have if the function were called without it, and None if it has no default. A new class is instantiated in the same way, and a new object of a specific class is initialised in the same way, with its name for the key attribute.", "quantifier": "every function and class with its parameters, defaults and annotations, all imports of its module, every order in which names of a set are iterated", "why_tests_cant": "All functions and all imports of their modules; the tests use a few functions and compare generated files as texts.", "anchors": ["pyfileconf/io/func/load/config.py: extract_config, function_args_as_arg_and_annotation_dict", "pyfileconf/pipelines/models/collection.py: PipelineCollection._output_config_file", "pyfileconf/pipelines/models/file.py: FunctionConfigFile", "pyfileconf/io/file/load/active/loader.py: ActiveConfigFileLoader.load", "pyfileconf/runner/models/runner.py: Runner._run_one_func, _get_one_func_with_config", "pyfileconf/data/models/collection.py: SpecificClassCollection._output_config_file", "pyfileconf/runner/models/runner.py: Runner._get_one_obj_with_config"]}
{"id": "C92", "title": "What plugins add to an update is applied to this update only", "statement": "The values that pre_update plugins return are applied in the update they are returned for, over the values the caller gave, and nowhere else: the dictionary the caller passed keeps its contents, so later updates with it are not affected. post_update plugins are called once each, with the values that were applied, and only if the update succeeded.", "quantifier": "every set of plugins in every order of registration, every sequence of updates with any dictionaries and keyword arguments, also updates that raise", "why_tests_cant": "All sequences of updates with shared dictionaries and all combinations of plugins; the tests register one plugin and update once.", "anchors": ["pyfileconf/main.py: PipelineManager.update, _update", "pyfileconf/plugin/hookspecs.py: pyfileconf_pre_update, pyfileconf_post_update"]}
{"id": "C93", "title": "A batch update applies each of its updates once, whatever they come from", "statement": "update_batch and BatchUpdater.update apply the updates they are given and those that pre_update_batch plugins return, each exactly once and in order, whether they are given as a list or as an iterator, and whatever plugins do with the iterable they are passed. The post_update_batch plugins are called with the updates that were applied.", "quantifier": "every list and iterator of updates, every set of plugins and order of registration, updates that raise at any place", "why_tests_cant": "All plugins that read, return or keep the iterable they are passed; the tests pass lists and register at most one plugin.", "anchors": ["pyfileconf/batch.py: BatchUpdater.update", "pyfileconf/main.py: PipelineManager.update_batch", "pyfileconf/plugin/default_hooks.py: pyfileconf_pre_update_batch", "pyfileconf/plugin/hookspecs.py: pyfileconf_pre_update_batch, pyfileconf_post_update_batch"]}
{"id": "C94", "title": "A load that fails leaves the manager as it was, and loading again works", "statement": "If loading a manager raises, at first or again, the manager is afterwards as it was before: items it had can be got, run and updated, items it did not have are not there, and nothing is half loaded. A later load that succeeds gives the same manager as the first load of a new one.", "quantifier": "every project on disk, every error in definitions, scaffolding or section files, every history of loads, calls and created items", "why_tests_cant": "All points at which a load can raise, and all histories before and after; the tests load projects with errors only once, and look at the imported modules only.", "anchors": ["pyfileconf/main.py: PipelineManager.load, reload, _load_pipeline_config_and_runner", "pyfileconf/main.py: PipelineManager.__getattr__, create", "pyfileconf/runner/models/runner.py: Runner.__init__", "pyfileconf/selector/models/selector.py: Selector._load_structure"]}
{"id": "C95", "title": "An iterative run leaves no trace, and can be repeated", "statement": "After an iterative run, finished or failed, every item has the configuration it had before, and running again, with the same runner or with a new one for the same updates, runs each case with the same configuration as the first time.", "quantifier": "every project, every list of config updates, every sequence of runs of all or some cases, every case that raises, every set of items", "why_tests_cant": "All sequences of runs, finished and failed, and all overlaps between the cases; the tests make one run of a runner and look at the results, not at the configs afterwards.", "anchors": ["pyfileconf/iterate.py: IterativeRunner.run, run_gen, _run_case, _fill_case_with_defaults, get_defaults", "pyfileconf/plugin/default_hooks.py: pyfileconf_iter_update_for_case", "pyfileconf/main.py: PipelineManager.run_product"]}
{"id": "C96", "title": "Running an item changes no configuration", "statement": "Whatever the function of an item does with its arguments, also when it changes lists, dictionaries or objects in place, running it changes the active configuration of no item: the next run of it, and of any other item, gets the values that its config file, the section configs and the updates say.", "quantifier": "every project, every item, every function and what it does to its arguments, every history of gets, runs, updates and resets", "why_tests_cant": "Every function that an item may be, and every history between items that have values in common; the functions in the tests change none of their arguments, so a value that is shared without a copy is never seen.", "anchors": ["pyfileconf/config/models/manager.py: ConfigManager.get, update, reset, _get_func_or_section_configs", "pyfileconf/basemodels/config.py: ConfigBase.would_update", "pyfileconf/runner/models/runner.py: Runner._run_one_func"]}
{"id": "C97", "title": "Every entry of a section is an item with a name of its own", "statement": "Each entry of a section is registered, configured, found, got and run under one and the same name: functions and classes under their own, a DataPipeline under the name in its constructor call; entries with different names are different items, whether they are used alone or with their section.", "quantifier": "every section, with any number of functions, classes and pipelines in any order, and any arguments of the constructor calls", "why_tests_cant": "Every list of entries and every order in which their names are asked for; the tests have no section with two pipelines that is run or got as a whole.", "anchors": ["pyfileconf/views/object.py: ObjectView.name, output_name, _set_name", "pyfileconf/logic/get.py: _get_public_name_or_special_name", "pyfileconf/pipelines/models/collection.py: PipelineCollection._set_name_map, _output_config_file", "pyfileconf/runner/models/runner.py: Runner._run_section, _get_section", "pyfileconf/io/file/load/parsers/kwargs.py"]}
{"id": "C98", "title": "An update lasts until it is replaced", "statement": "A value that a persistent update gives to an item is the item's value through refreshes, edits of the config file, lookups, runs, updates of other keys and everything that is done to other items, until the item's value is updated again, removed or the item is reset; a value of an update that is not persistent lasts the same way until the next refresh.", "quantifier": "every loaded project, every item, key and value, every history of calls between the update and the lookup", "why_tests_cant": "Histories of any length over any number of items and keys; the tests look at one update and one refresh with a value that differs from the one before.", "anchors": ["pyfileconf/config/models/manager.py: ConfigManager.update, refresh, get, pop", "pyfileconf/basemodels/config.py: ConfigBase.update, refresh, would_update"]}
{"id": "C99", "title": "What happens to an item depends on its own history only", "statement": "In a project whose config files do not use other items, the results and exceptions of the calls for one item (get, run, update, refresh, reset), its stored configuration and its created object are, after every history, those of the same history without the calls for other items; only calls for the item itself, changes of the local config and edits of the files matter. So calls for different items can be swapped.", "quantifier": "every loaded project, every item, every history of calls for any items, of local config changes and of file edits, in any interleaving", "why_tests_cant": "A statement about two runs of the program, for every interleaving of calls for any number of items; a test compares one run with an expected value.", "anchors": ["pyfileconf/runner/models/runner.py: Runner.get, run, update, refresh, reset", "pyfileconf/config/models/manager.py: ConfigManager.get, update, refresh, reset", "pyfileconf/config/logic/apply.py: apply_config"]}
{"id": "C100", "title": "Doing the same thing twice in a row is the same as doing it once", "statement": "In a project whose config files do not use other items, repeating a call for an item (get, run, update, refresh, reset), a change of the local config or an edit of the files at once leaves every stored configuration, the recorded updates, the created objects with their identities, the registered items and the files as they were after the first, whether the call returned or raised. Getting twice gives the same object and running twice the same result; a call that returned returns again when repeated.", "quantifier": "every loaded project, every history before, every item (function, class, specific class object), every call with any arguments", "why_tests_cant": "Has to hold in every reachable state and for every combination of file contents, section configs, earlier updates and call arguments; tests check the effect of a single call in a few states.", "anchors": ["pyfileconf/runner/models/runner.py: Runner.get, run, update, refresh, reset", "pyfileconf/config/models/manager.py: ConfigManager.get, update, refresh, reset", "pyfileconf/config/models/config.py: ConfigBase.update, refresh", "pyfileconf/config/logic/apply.py: apply_config"]}
{"id": "C101", "title": "Only the last word about each key counts", "statement": "Two series of updates of an item in which the last value given to each key is the same (such as several updates one after the other and one update that combines them, or updates of different keys in another order) leave the item with the same configuration and the same object.", "quantifier": "every loaded project, every history before, every item, all finite series of updates with any arguments", "why_tests_cant": "Ranges over all pairs of series of updates in all reachable states; each update may be dropped when the code finds that it changes nothing, so the series differ in which of their updates are made at all.", "anchors": ["pyfileconf/config/models/manager.py: ConfigManager.update, _determine_and_track_if_config_would_be_updated", "pyfileconf/config/models/config.py: ConfigBase.update, would_update", "pyfileconf/runner/models/runner.py: Runner.update", "pyfileconf/config/logic/apply.py: apply_config"]}
{"id": "C102", "title": "A change reaches only the items that depend on the changed one", "statement": "Updating, refreshing or resetting an item leaves the configuration and the object of every item alone that neither reads it in its config file nor used it while running, directly or through other items; and getting an item leaves everything alone that is there. At most, configs and objects that were not there are loaded from their files. This holds whether the calls return or raise.", "quantifier": "every project (files that read each other in any way, circles included), every history of gets, updates, refreshes, resets and uses, every item, every order in which sets are iterated", "why_tests_cant": "Ranges over all graphs of dependencies, all files that branch on what they read, all histories and all points at which a call may raise; a test checks a bystander in one small project.", "anchors": ["pyfileconf/config/models/manager.py: ConfigManager.refresh_dependent_configs, _refresh_configs", "pyfileconf/runner/models/runner.py: Runner.update, refresh, reset", "pyfileconf/pmcontext/main.py: PyFileConfContext.add_config_dependency", "pyfileconf/selector/models/selector.py: Selector._get_real_item", "pyfileconf/plugin/default_hooks.py: pyfileconf_post_config_changed"]}
{"id": "C103", "title": "A run that raises is debugged once, with the debugger that was asked for", "statement": "If a run of a manager with auto_pdb raises, the exception is logged and then the debugger is called, exactly once and on what the run left: pdb, or the function given as auto_pdb. The run then returns None, or raises what the debugger raises. If the run returns or is interrupted, no debugger is called and nothing else is different from a manager without auto_pdb. auto_pdb and force_continue together are refused.", "quantifier": "every argument, all plugins around runs, every state, every debugger (also ones that use the manager or raise)", "why_tests_cant": "Ranges over all ways a run can end, all lists of items and all debuggers; a test has one function that raises.", "anchors": ["pyfileconf/debug.py: pdb_post_mortem_or_passed_debug_fn, post_mortem", "pyfileconf/main.py: PipelineManager._run_depending_on_settings, _run_with_auto_pdb, _validate_options, _try_except_run_func_except_user_interrupts"]}
{"id": "C104", "title": "The config file of a section can read items", "statement": "The config file of a section may read attributes of items through selectors, as the config files of items may. Loading the manager executes these files outer before inner; each has the values that the items have, and what it read is recorded as its dependency. If a file raises, the load raises the same and the manager keeps the runner it had; only a ValueError is taken for a missing file.", "quantifier": "every set of section files (any program reading any items, depending on what it read), every set of managers and how far each is, every state of the runners", "why_tests_cant": "Ranges over all programs in section files and over which managers have been loaded before; a test has one section file without reads.", "anchors": ["pyfileconf/main.py: PipelineManager._load_pipeline_config_and_runner, __getattr__", "pyfileconf/config/models/section.py: ConfigSection.from_files", "pyfileconf/selector/models/selector.py: Selector._get_real_item, _load_structure", "pyfileconf/selector/models/itemview.py: ItemView.__getattr__", "pyfileconf/selector/logic/exc/typo.py: handle_pipeline_manager_not_loaded_or_typo"]}
{"id": "C105", "title": "The nested dictionary of a collection has what is registered", "statement": "to_nested_dict of a collection or registrar gives dictionaries in dictionaries in which following the names of a path leads to what get finds under this path: the same item, or for a section its own nested dictionary; and nothing else is in it.", "quantifier": "every tree of collections (any nesting, equal names), every path", "why_tests_cant": "Ranges over all trees of sections and all paths, including repeated names; there is no test of to_nested_dict.", "anchors": ["pyfileconf/basemodels/collection.py: to_nested_dict, Collection.get, Collection.__getattr__", "pyfileconf/basemodels/registrar.py: Registrar.to_nested_dict", "pyfileconf/pipelines/models/collection.py: PipelineCollection._set_name_map", "pyfileconf/data/models/collection.py: SpecificClassCollection._set_name_map"]}
{"id": "C106", "title": "Cases from plugins run like those of the product", "statement": "The cases that plugins add to an iterative run, or change, are run like those of the product of the updates: each runs with its own values and, for everything it does not name, with the values from when the runner was made. If no cases are left, nothing is run.", "quantifier": "all plugins (any pyfileconf_iter_get_cases and pyfileconf_iter_modify_cases), updates, states of the managers, and earlier runs of the same runner", "why_tests_cant": "Plugins are arbitrary functions of the updates and of the cases; the tests have one that gives fixed cases and appends one more.", "anchors": ["pyfileconf/iterate.py: IterativeRunner.get_cases, get_defaults, _fill_case_with_defaults, run", "pyfileconf/plugin/hookspecs.py: pyfileconf_iter_get_cases, pyfileconf_iter_modify_cases", "pyfileconf/plugin/default_hooks.py: pyfileconf_iter_get_cases, pyfileconf_iter_update_for_case"]}
{"id": "C107", "title": "Plugins are told about every change of a config", "statement": "Whenever the config of an item changes by an update, a reset or a refresh, plugins are told once just before the change, with the config as it was and the updates that will be made, and once just after it, with the config as it is then and the updates that were made. They are told nothing if the config does not change.", "quantifier": "all configs, items (created or not), updates, resets and refreshes, and contents of the config files", "why_tests_cant": "Whether a config changes depends on all values it has, on its file and on the updates recorded earlier; no test has a plugin with these hooks.", "anchors": ["pyfileconf/plugin/hookspecs.py: pyfileconf_pre_config_changed, pyfileconf_post_config_changed", "pyfileconf/config/models/manager.py: ConfigManager._track_pre_update, track_post_update, _determine_and_track_if_config_would_be_updated, _determine_and_track_if_config_would_be_refreshed, update, refresh, set, reset", "pyfileconf/runner/models/runner.py: Runner.update, reset, refresh"]}
{"id": "C108", "title": "Removing the default plugins takes away only the default behaviour, and it can be brought back", "statement": "remove_default_plugins takes away the implementations in default_hooks and nothing else: all other plugins stay registered and are called in the same order as before, and hooks that default_hooks does not implement are called as before. The default behaviour can be brought back: reset_plugins, or registering default_hooks again, gives the plugins and the order of calls that there were.", "quantifier": "all histories of registering, unregistering, removing the default plugins and resetting (also such that fail), all marks of implementations (tryfirst, trylast), all entry points", "why_tests_cant": "The order of calls depends on the whole history of registrations and on marks of each implementation; the tests only remove the default plugins once and reset after each test.", "anchors": ["pyfileconf/plugin/manager_utils.py: get_plugin_manager, reset_plugins, remove_default_plugins", "pyfileconf/plugin/manager.py: plm", "pyfileconf/plugin/default_hooks.py", "pyfileconf/batch.py: BatchUpdater.update", "pyfileconf/iterate.py: IterativeRunner.get_cases, get_defaults", "pyfileconf/config/models/manager.py: ConfigManager.track_post_update"]}
{"id": "C109", "title": "Every object a manager makes says which item it is", "statement": "The object a manager makes for an item (the partial of a function, the object of a class, the object of a specific class) has as _section_path_str the full path of the item: the name of the manager, a dot and the section path. It keeps it as long as the manager has the object, whatever is got, run, updated, created or called through item views afterwards. The view of that path is the view of that object.", "quantifier": "all histories of loads, registrations, gets and runs of items and sections, calls of item views (also of methods and attributes of items) and changes of attributes, all names and paths, several managers, operations that fail", "why_tests_cant": "Item views write the attribute again each time they are called, with the path they were called under; whether it is still right depends on the whole history and on which objects are reachable from which. The tests check the attribute just after one get or call.", "anchors": ["pyfileconf/runner/models/runner.py: Runner._add_full_section_path_str_to_obj, _get_one_func_with_config, _get_one_obj_with_config", "pyfileconf/selector/models/itemview.py: ItemView.__init__, __call__, from_section_path_str", "pyfileconf/selector/models/selector.py: Selector._get_real_item"]}
{"id": "C110", "title": "An object of a class was last given exactly what the configuration says now", "statement": "The object a manager keeps for an item that is a class or an object of a specific class was last initialised or updated with exactly the values which the current configuration of the item has for its parameters: no value is older, none is missing and none is left over. It is therefore called with what an object made anew from the current configuration would be called with.", "quantifier": "all files, sections, classes and signatures, all histories of getting, running, updating, resetting and refreshing any items and of edits of the files", "why_tests_cant": "The value an object has and the value of the configuration are written by different code at different times (updates, resets, refreshes, lookups that take over values of sections, runs); the tests compare them after one or two calls.", "anchors": ["pyfileconf/runner/models/runner.py: Runner._get_one_obj_with_config, update, reset, refresh", "pyfileconf/config/logic/apply.py: apply_config, apply_config_to_obj", "pyfileconf/config/models/manager.py: ConfigManager.get, update, reset, refresh"]}
{"id": "C111", "title": "An updated object is like one made anew", "statement": "Updating the configuration of an item changes its object in place so that it has the attributes which an object made anew from the current configuration would have. This holds from the first get on, through any sequence of updates, also refused ones, and it is the same whether the class has no update method or that of PyfileconfBase. Attributes the class does not set from its arguments are left alone.", "quantifier": "all classes, signatures, configurations and attribute values, all histories of calls for items and of changes of attributes by other code, classes that raise", "why_tests_cant": "An object that is initialised a second time keeps whatever the first time left; whether this shows depends on the class and on the sequence of configurations. The tests update one attribute of an object once and look at it.", "anchors": ["pyfileconf/config/logic/apply.py: apply_config_to_obj, _get_update_func", "pyfileconf/userbase.py: PyfileconfBase._pyfileconf_update_", "pyfileconf/runner/models/runner.py: Runner._get_one_obj_with_config, update, reset, refresh"]}
{"id": "C112", "title": "What a config file uses is recorded for it", "statement": "When a config file is executed and its code uses an item, the file is recorded as depending on this item, so that a later change of the item refreshes it. This holds wherever in the execution the use is, in items that are run on the way, in objects that are made, in attempts that fail, and whether the load ends normally or raises; nothing that is not used is recorded.", "quantifier": "all contexts, all trees of actions of user code (runs, gets, file loads, view uses, exceptions and handlers at any depth), all later histories without reset", "why_tests_cant": "What is recorded depends on the whole stack at the time of the use. The tests read one attribute of one view at the top level of one file.", "anchors": ["pyfileconf/pmcontext/stack.py: PyfileconfStack.file_is_currently_being_loaded, currently_loading_file_section_path", "pyfileconf/selector/models/selector.py: Selector.__contains__, _get_real_item", "pyfileconf/io/file/load/active/loader.py: ActiveFileLoader.load", "pyfileconf/runner/models/runner.py: Runner._add_to_config_dependencies_if_necessary"]}
{"id": "C113", "title": "What a failed refresh leaves can be made up for", "statement": "An update, refresh or reset can raise half-way, because the config file of some dependent raises. Whatever was done before and whatever of it raised, every object still has the configuration of its item; and when all loaded items are refreshed, in any order, without an exception, every config is again what its file gives under the present configuration of the items it uses, with its own updates on top. Doing the operation that raised again does the same.", "quantifier": "all projects, also circular ones, all histories of gets, updates, refreshes and resets, each of which may return or raise, all orders", "why_tests_cant": "The tests have no config file that raises during a refresh, and any place in any cascade can be the one that does.", "anchors": ["pyfileconf/runner/models/runner.py: PipelineRunner._refresh_dependents_configs, update, refresh, reset", "pyfileconf/config/models/manager.py: ConfigManager.refresh, update", "pyfileconf/config/models/config.py: ActiveFunctionConfig.would_update"]}
{"id": "C114", "title": "Each item has one config object of its own", "statement": "Asking the manager for the config of an item or section gives the same object each time until the item is reset. Whoever holds it sees every later update, refresh and get, and a change they make to the object is seen by everyone who asks; no other config object changes with it. Different items and sections, and the local config, never have the same object, at the same time or one after the other. A reset that changes something gives the item a new object, which has what the file assigns.", "quantifier": "all folder trees, all contents of config files, all histories of updates, refreshes, gets, pops, resets, edits of files and changes that users make to config objects they hold", "why_tests_cant": "The tests compare values of configs, hardly ever which object they are in, and an object in two places shows only when the one place is changed and then the other is asked; there are unboundedly many histories.", "anchors": ["pyfileconf/config/models/manager.py: ConfigManager._get_func_or_section_configs, set, reset, get", "pyfileconf/config/models/section.py: ConfigSection.__getattr__, append", "pyfileconf/logic/get.py: _get_from_nested_obj_by_section_path", "pyfileconf/logic/set.py: _set_in_nested_obj_by_section_path"]}

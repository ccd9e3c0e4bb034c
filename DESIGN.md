# Formal model of pyfileconf: design

The properties are listed in `properties.jsonl` (C01 ...).  This file says what
is modelled, how each property is proved, what is trusted, and where code and
properties disagree.

## Layout

* `lean/Verif/Py/*`     – the few Python notions the code relies on (insertion
  ordered dict, `str.split`/`join`, `posixpath`, exceptions as values).
* `lean/Verif/Model/*`  – the code, function by function.  Every definition cites
  the file and lines it models; each file begins with its simplifications.
* `lean/Verif/Lemmas/*` – helper lemmas.
* `lean/Verif/Props/*`  – one file per area with the property theorems
  (`theorem Cnn_...`), the small specifications they are stated against, and
  `example`s that meet the hypotheses of the theorems on concrete data.
* `MANIFEST.json`       – property -> theorems.
* `seeded/LOG.jsonl`    – log of seeded wrong programs tried against the theorems.

## Trusted base

* The Lean 4.33.0 kernel.  Axioms used: at most `propext`, `Classical.choice`,
  `Quot.sound` (listed per theorem at the end).  No own axioms, no `sorry`, no
  `native_decide`, no `bv_decide`.
* The correspondence between each definition in `Verif/Model` and the Python code
  it cites; it was written by reading the code, which was not run.
* Python semantics as used by the models: insertion ordered dicts, `getattr`
  falling back to `__getattr__`, `with` blocks, `itertools.product`, `str.split`,
  `posixpath`, the method resolution of classes where a file says so.
* That the specifications in `Verif/Props` say what the properties mean.

### What is modelled

| model | code (below `pyfileconf/`) |
|-------|------|
| `SectionPath` | `sectionpath/sectionpath.py` |
| `Config` | `basemodels/config.py` without `to_file` |
| `Store` | `config/models/manager.py`, `config/models/section.py`, `logic/get.py`, `logic/set.py` |
| `Registry` | `basemodels/collection.py`, `basemodels/registrar.py`, `pipelines/models/*`, `data/models/*` (collections, registrars, configs), `imports/logic/load/func.py`, `klass.py` |
| `Runner` | `runner/models/runner.py`, `config/logic/apply.py` |
| `Main` | `main.py`: running, getting, attribute access, hooks around runs, `auto_pdb`, `force_continue`; `logic/combine.py` |
| `Context` | `pmcontext/*.py` and its uses in the runner, the loader, the selector and `main.py` |
| `Cascade` | `refresh_dependent_configs`, `_refresh_configs` and the default hook calling it |
| `Iterate` | `batch.py`, `iterate.py`, the iteration hooks in `plugin/default_hooks.py`, `run_product` and `update_batch` in `main.py` |
| `Definition` | `dictfiles/modify.py`, collections from definitions, `Registrar.set`, `_validate_registrars` |
| `ReadDef` | `io/file/load/parsers/assign.py`, `collections.py`, `io/file/load/lazy/{pipeline,pipelineast,datadict,dataast}.py` |
| `LoadConfig` | `io/file/load/active/*.py` and the registration of the file before |
| `FindSpec` | `imports/logic/load/ext_importlib.py` |
| `Recorded` | `pmcontext/stack.py` (frame of a file), `config/models/manager.py` (`_refresh_configs`) |
| `Copying` | the deep copies of the updates of an iterative run (`iterate.py:199-233`, `selector/models/itemview.py:157-158`) |
| `ProductPaths` | the cases and defaults of an iterative run for section paths of every form (`iterate.py:58-101, 167-233`) |
| `Always` | the import and assignment strings of specific classes (`data/models/file.py:26-53`, `data/models/collection.py:55-104`, `from_str` of statements) |
| `Session` | `main.py` (`_load_pipeline_config_and_runner`, the reset at the end of `create`): definitions, files and configs together |
| `RunLog` | `runner/models/runner.py:127-219` with its messages, `config/logic/write.py`, `assignments/logic/write.py:7-65` (without modules) |
| `EmptyObj` | making objects of specific classes from names (`data/logic/convert.py`, `imports/logic/load/klass.py`, `func.py`, `data/models/collection.py:26-46`) |
| `Stale` | selectors kept over loads, creates and destroyed managers (`selector/models/selector.py:13-16, 94-119, 167-187`, `main.py`, `pmcontext/main.py`) |
| `MethodView` | calls of views of methods and other attributes of objects (`selector/models/itemview.py:96-155`, `selector/models/selector.py:144-155`, `logic/get.py:19-39`) |
| `ViewType` | types of item views (`selector/models/selector.py:121-142`, `itemview.py:183-185, 192-194`) |
| `Listing` | what is offered for completion (`collection.py:74-75`, `registrar.py:32-42`, `main.py:95-123`, `selector.py:67-92`, `itemview.py:88-94`, the attributes of `views/object.py:15-85`) |
| `Compare` | comparison of config values: `_values_are_equal` with pandas objects, raising comparisons and results without truth value, and `would_update`, `change_from_refresh`, `ConfigManager.update/refresh/set/reset` depending on it |
| `SaveAs` | `ConfigBase.to_file` and `from_file` with file objects whose interface has a path of its own |
| `Reload` | what `PipelineManager.reload` leaves of configs, objects and dependency records |
| `NewItem` | from the source of a new function to the arguments it is called with |
| `Plugins` | the plugins around `PipelineManager.update` and the dictionaries of callers |
| `BatchHooks` | the plugins around batch updates, and lists and iterators of updates |
| `Frames` | `PyfileconfFrame.from_file_path`: the manager and the section path of a file that is being loaded |
| `FailedLoad` | loads that fail, in a manager that may have been loaded before: `main.py` (`load`, `_load_pipeline_config_and_runner`) |
| `Shared` | config values that are changed in place: what configs share with each other and with functions (config/models/manager.py, basemodels/config.py, runner/models/runner.py) |
| `Named` | names of registered items and what views keep of them (views/object.py, logic/get.py, parsers/kwargs.py) |
| `Debug` | the option `auto_pdb`: `debug.py`, `_run_with_auto_pdb`, `_validate_options` and the handling of exceptions around runs (main.py) |
| `SectionFiles` | config files of sections, executed during a load: `_load_pipeline_config_and_runner` (main.py), `from_files` (section.py), reading through selectors before there is a runner (selector.py, itemview.py, typo.py) |
| `NestedDict` | `to_nested_dict` and lookups in collections (collection.py, registrar.py) |
| `Notify` | the hooks called before and after a config changes (config/models/manager.py, runner/models/runner.py, plugin/hookspecs.py) |
| `PluginRegistry` | which plugins are registered and the order in which hooks call them (plugin/manager_utils.py, and the functions of pluggy used there) |
| `Tags` | the attribute `_section_path_str` of objects (runner/models/runner.py:299-327, 411-413, selector/models/itemview.py:96-155) |
| `ObjState` | the attributes of objects whose configuration is updated (config/logic/apply.py:14-35, userbase.py:1-20, runner/models/runner.py:315-320, 378-401) |
| `Objects` | `ConfigManager`, `ConfigSection` with the identity of objects (config/models/manager.py, section.py, logic/get.py, logic/set.py) |
| `Imports` | `imports/models/statements/*.py`, `basemodels/container.py` |
| `Files` | `io/file/load/lazy/*`, `config/logic/load.py`, `assignments/models/*`, `io/file/write/*`, `basemodels/file.py`, `_output_config_file` |
| `Args` | `io/func/load/config.py`, `extractimp.py`, end of `args.py` |
| `Locate` | `io/func/load/args.py`, `io/file/load/parsers/funcdef.py`, `extname.py`, `imports/logic/load/name.py`, `views/object.py` |
| `Scaffold` | `_output_config_files`, `scaffold_config`, `scaffold_config_for`, `create_registrars`, `create` |
| `Managers` | `load`, `reload`, the registry of managers, `get_manager_by_filepath`, `imports/models/tracker.py` |
| `Project` | `create_project`, `_need_to_create_project` |
| `Options`, `Stdout` | `opts/*.py`, `logger/*.py` |
| `Selector`, `View` | `selector/models/*.py` |

### How the models fit together

Some parts of the code occur in more than one model, with different things left out.  That these models do the same where both apply is
proved:

* `Objects` (identity of config objects) and `Store`: `C114_refines`.
* `Shared` (values changed in place) and `Store`: `C96_store_partial`, `C96_store_all_partial`, `C96_store_start_partial`.
* `Compare` (odd comparisons) and `Store`: `C88_comparable_partial`.
* `Cascade` (dependent configs) and `Runner`: `C28_runner_partial`, `C28_runner_all_partial`.
* `Notify` (hooks) and `Runner`: `ChangeOp.telling_erases` in `Props/Notify`.
* `RunLog` (messages) and `Runner`: `C81_run_partial`.
* `ObjState` (attributes of objects) is a run of `Runner` beside the attributes: `C111_current_partial`.
* `Copying` (deep copies) and `Iterate`: `C75_same_runner_partial`.
* `ProductPaths` (paths of every form) and `Iterate`: `C31_same_runner`.
* `BatchHooks` (iterators) and batch updates of lists: `C93_plain`.
* `FailedLoad` and `Session`: `C94_plain`.

### What is not modelled

* The `ast`/`typed_ast`, `astor` and `black` libraries: parsing and printing of
  arbitrary Python.  Where a theorem needs something of them it is a hypothesis
  of the theorem (the laws of `Lang` in `Props/Files`, which `Props/FilesToy`
  shows to be consistent by an instance), or the model starts from the parsed
  statements.
* Running the code of users: it is a tree of actions (`Context`, `Stdout`,
  `Managers`) or a parameter.
* `importlib` and `sys.modules` beyond the names in it and the objects modules
  have; pandas equality; the logging library beyond its list of handlers; pluggy
  beyond "the results of the hook implementations that are not `None`, in call
  order".
* The operating system: files are a map from paths to contents, without other
  writers, symbolic links or partial writes.  Where creating something can fail
  for other reasons this is a parameter.
* In all models but `Objects`: paths of a config manager that begin with its
  attributes `section` (another name for the project's section) or `local_config`,
  or that end with `config` (another name for the config of the section before).
* Several threads; recursion limits, except where stated.
* Display only code (`data/logic/merge/*`, `selector/logic/exc/typo.py`,
  `__repr__`), `debug.py` beyond whether it is called, code no other code uses
  (`io/file/load/parsers/fromdict.py`, comments of imports).

## Conventions

* Exceptions are values (`Except Err α`, or a result carrying the state at the
  time of the exception where the state matters).
* Values of configuration keys are an abstract type with decidable equality;
  `==` on values is that equality (so NaN, arrays and objects with odd `__eq__`
  are outside the model).
* Where the code does not satisfy a property, the property theorem is proved for
  the region where it holds under the suffix `_partial`, and the failure itself is
  proved (suffix `_violated`).  The suffix `_partial` is also used where the model
  covers less than the property; the note then says what is missing.

## Per property

The model files are in `lean/Verif/Model`, the theorems in `lean/Verif/Props`.  "Status and disagreements" says
what is missing and where the code does not do what the property asks; every such place is a theorem about a
concrete witness or a class of inputs (`_violated`).

**C01 Section path text and section list determine each other** (proved)
* Model: `SectionPath`.  Theorems: `Props/SectionPath`.
* Proof: induction on the text and on the list of sections over `split`/`join`.

**C02 Joining section paths concatenates sections** (proved)
* Model: `SectionPath`.  Theorems: `Props/SectionPath`.
* Proof: from C01.

**C03 Section path to config file path and back is the identity** (proved)
* Model: `SectionPath`, `Py/Path`.  Theorems: `Props/Outside`, `Props/SectionPath`.
* Proof: split/join over the separator, `relpath` of a path below the base and of any other.
* Status and disagreements: Beside the statement, C03_any_file gives the section path of any file for any folder, and C03_outside_files what becomes of files that are not below the folder.

**C04 endswith means 'is a suffix of'** (partial)
* Model: `SectionPath`.  Theorems: `Props/SectionPath`.
* Proof: exact characterisation of the result for all pairs of paths.
* Status and disagreements: The code violates the property when the argument is longer than the receiver (witness six / six.moves); exact characterisation proved, suffix relation proved otherwise.

**C05 Ambiguous section-path arguments are normalised faithfully** (proved)
* Model: `SectionPath`.  Theorems: `Props/SectionPath`.
* Proof: cases on the argument, induction over lists.

**C06 A config update changes exactly the named keys** (proved)
* Model: `Config`.  Theorems: `Props/Config`.
* Proof: dictionary lemmas, every key and the order of keys.

**C07 'would update' predicts whether an update is visible** (proved)
* Model: `Config`.  Theorems: `Props/Config`.
* Proof: both directions for every update.

**C08 Refresh re-reads the file and keeps persistent updates** (proved)
* Model: `Config`.  Theorems: `Props/Config`.
* Proof: induction over histories of updates and refreshes.

**C09 The change announced before a refresh is the change made by it** (proved)
* Model: `Config`.  Theorems: `Props/Config`.
* Proof: comparison key by key of the announced with the made change.

**C10 Config inheritance order** (partial)
* Model: `Store`.  Theorems: `Props/Store`.
* Proof: induction over the chain of sections: last level that defines a key.
* Status and disagreements: Proved for items whose own config has at least one key; items without any key inherit nothing (witness).

**C11 Reading a configuration does not change it** (partial)
* Model: `Store`.  Theorems: `Props/Store`.
* Proof: idempotence of lookup over the stored tree.
* Status and disagreements: Repeated lookups of items agree and leave items not looked up alone; the first lookup rewrites the item's stored config, and looking up a section rewrites the section (witnesses).

**C12 Updating one item leaves the others alone** (proved)
* Model: `Store`, `Runner`.  Theorems: `Props/Runner`, `Props/Store`.
* Proof: frame lemma for every operation, over tree lookups.
* Status and disagreements: Frame for every operation on one item, for the config manager and for the runner (created objects, configs, local config, files).

**C13 Reset returns an item to its file defaults** (partial)
* Model: `Store`, `Runner`.  Theorems: `Props/Store`.
* Proof: exact value of each key after a reset.
* Status and disagreements: Keys get their file values back; keys the file does not have and recorded updates survive when nothing else differs (witness); files with reserved names and sections with a config cannot be reset (proved).

**C14 Updating without a section path sets local values for everything** (partial)
* Model: `Store`.  Theorems: `Props/Store`.
* Proof: invariant over all reachable states.
* Status and disagreements: The opposite is proved: in every reachable state an update without a path is lost.

**C15 A config file is read once until asked to re-read** (partial)
* Model: `Store`.  Theorems: `Props/Store`.
* Proof: frame of the loaded config under changes of the files.
* Status and disagreements: Edits are invisible to lookups, updates and pops; refresh shows them unless the edit only adds names (witness).

**C16 A created function object always carries the current configuration** (partial)
* Model: `Runner`.  Theorems: `Props/ObjectCurrent`, `Props/Runner`.
* Proof: invariant over histories of updates, refreshes and resets.
* Status and disagreements: Proved over all histories of update/refresh (and reset) of the item, and over histories with runs if no section sets a parameter (C16_bound_is_current_run_partial); running the item where a section does, or resetting with keys missing from the file breaks it (witnesses).

**C17 Updating before or after an item is created gives the same object** (partial)
* Model: `Runner`.  Theorems: `Props/ObjectCurrent`, `Props/Runner`.
* Proof: both orders of operations computed and compared.
* Status and disagreements: C17_update_create_partial (functions): proved for keys the enclosing sections do not define and the config has. C17_class_partial (classes and objects of specific classes): the same for any keys the enclosing sections do not define, if the class does not raise. Counterexamples: inherited keys (C17_inherited_violated, C17_class_inherited_violated), keys new to the config of a function (C17_new_key_violated), classes that raise when updated (C17_class_raises_violated).

**C18 Only arguments the function accepts are passed** (partial)
* Model: `Runner`, `Registry`.  Theorems: `Props/Runner`.
* Proof: invariant: bound names are accepted names.
* Status and disagreements: Only accepted names are ever bound; the set of names is fixed for functions, for classes it changes (witness).

**C19 Every configured parameter reaches the function** (partial)
* Model: `Registry`.  Theorems: `Props/Runner`.
* Proof: exact set of names found in a signature.
* Status and disagreements: Proved for parameters the introspection finds; keyword-only parameters of a function without any keyword-only default are missed (witness).

**C20 One object per item per load** (proved)
* Model: `Runner`.  Theorems: `Props/Runner`.
* Proof: induction over histories: a created object is kept.

**C21 Running a list returns one result per entry, in order** (partial)
* Model: `Main`.  Theorems: `Props/Main`.
* Proof: exact result for every list of paths.
* Status and disagreements: Exact for lists of length other than one; a one-element list is treated like its element (proved for every path).

**C22 force_continue isolates failures** (partial)
* Model: `Main`.  Theorems: `Props/Main`.
* Proof: induction over the list with a specification of the trace.
* Status and disagreements: Exact trace for lists of length other than one (C22_force_continue_partial, C22_interrupt) and for a single path (C22_single); a one-element list returns the bare result (C21). Counterexample: an item of a section that raises ends the run of the section, so later items of the section are not attempted (C22_section_violated).

**C23 Running a section runs everything in it once, in definition order** (partial)
* Model: `Runner`, `Registry`.  Theorems: `Props/Section`.
* Proof: structural induction over the tree of sections.
* Status and disagreements: Proved for sections of functions at any depth; classes inside a section are run under the path of the section (witness).

**C24 Getting a section returns the nested structure** (partial)
* Model: `Runner`, `Registry`.  Theorems: `Props/Section`.
* Proof: structural induction over the tree of sections.
* Status and disagreements: Proved for sections of functions and specific-class objects and for subsections; classes inside a section are wrapped instead of created (witness).

**C25 Attribute access on the manager reaches the same item as get** (partial)
* Model: `Main`.  Theorems: `Props/Attr`, `Props/Reserved`.
* Proof: induction over histories of accesses.
* Status and disagreements: Proved for every history of calls and completed accesses; a failed access or an access that stops at a section breaks the following ones (characterised and witnessed).

**C26 The context stack is balanced** (proved)
* Model: `Context`.  Theorems: `Props/Context`.
* Proof: structural induction over trees of actions with exceptions and handlers.
* Status and disagreements: Every nesting of runs, gets, file loads, view uses, exceptions and handlers. context.reset() is not one of the actions; C26_reset_inside shows what it does when called by code that is being run or loaded (IndexError, also for everything around it).

**C27 Dependency records are sound** (proved)
* Model: `Context`.  Theorems: `Props/Context`.
* Proof: invariant over histories.
* Status and disagreements: Every history of such operations, direct records and resets.

**C28 Dependent configs are consistent after an update** (partial)
* Model: `Cascade`.  Theorems: `Props/Cascade`, `Props/CascadeRunner`.
* Proof: invariant over all items but a set of unsettled ones; a file cannot load its own item, since items that wait for one another are never got.
* Status and disagreements: Proved for configs of items without section configs, over all histories of reads, updates, refreshes and resets, in all projects, circular ones included, for all items whose file does not read the item itself: C28_consistent, C28_objects. C28_circle: items that wait for one another are never got. C28_new_key_violated: a key the file assigns only in some cases is not added by a refresh. C28_itself_violated: a file that reads its own item is not refreshed when this item is updated. Values that compare equal are assumed to be the same. C28_runner_partial, C28_runner_all_partial: for functions, and for classes and objects of specific classes whose constructors and update methods do not raise, whose files read no other items, the operations of this model return, raise and change configs and objects as those of the runner's model do. Missing there: items whose files read others.

**C29 Dependent refresh terminates** (proved)
* Model: `Cascade`.  Theorems: `Props/Cascade`.
* Proof: measure; independence of the bound on the depth.
* Status and disagreements: Termination for acyclic projects, with the result independent of the bound, for updates, refreshes and resets; the guard is unreachable in every state, circles included.

**C30 Item views used as config values are recorded as dependencies** (partial)
* Model: `Context`.  Theorems: `Props/Context`.
* Proof: exact recorded set after an update.
* Status and disagreements: Violated when the dict and the keyword arguments give one key different values (C30_overlap_violated); the partial theorem covers all other updates and those changed by plugins.

**C31 run_product enumerates the product exactly** (partial)
* Model: `Iterate`, `ProductPaths`.  Theorems: `Props/Iterate`, `Props/IterateRun`, `Props/ProductPaths`.
* Proof: mixed-radix specification of the i-th case, induction over the keys.
* Status and disagreements: For paths that are strings the cases are given as a mixed-radix enumeration (length, i-th case) and as a membership criterion (C31_product, C31_members); an update without a path is a KeyError. C31_keys_partial: the same for paths of every form, over the keys the updates are grouped by. C31_section_paths: section paths are like their strings; C31_section_paths_base, C31_section_paths_no_base: the runner then is the same too if there is a base, and there is none otherwise. It fails where a string and a section path are the same path (C31_mixed_violated) and for item views, which are replaced by copies of their items: each update is for a path of its own (C31_views_violated, C31_views_one_case), and the runner is never made (C31_views_never).

**C32 Each product case runs with defaults plus its own overrides** (partial)
* Model: `Iterate`.  Theorems: `Props/IterateRun`, `Props/Product`, `Props/SameUpdate`.
* Proof: invariant over the cases run so far.
* Status and disagreements: For every reachable state and every list of earlier cases of the same runner: each key of each case item has the case's value, or else the value at creation, unless the case names a key that an enclosing section or the local config defines. C32_applied: which updates of a case are applied. Counterexamples for unknown keys, section keys, d_ and a second run. Run items may be items and sections of functions, nested in any way. Run items that are sections with classes, whose runs fail, and plugins around updates and runs, are missing (for plugins that give cases see C106).

**C33 Skipping unchanged updates between cases is unobservable** (partial)
* Model: `Iterate`.  Theorems: `Props/Product`.
* Proof: simulation of the run without skipping.
* Status and disagreements: Active configurations are always the same; the whole state, with created objects, is the same where no section or local config defines anything around the case items. Counterexample: with a section value the created object differs.

**C34 Lazy, eager and uncollected product runs agree** (proved)
* Model: `Iterate`.  Theorems: `Props/Iterate`.
* Proof: induction over the cases, generator as a stepping function.
* Status and disagreements: Lazy, eager and uncollected runs agree for every should_run and every number of next() calls; rejected cases are as if not there. should_run is assumed to change nothing.

**C35 A batch update is the sequence of its updates** (partial)
* Model: `Iterate`.  Theorems: `Props/Iterate`, `Props/IterateRun`.
* Proof: induction over the batch.
* Status and disagreements: A batch is the sequence of its updates up to the first failing one, for any managers. update_batch with a view of an item of another manager updates this manager's item instead (violated witness).

**C36 Registered items are found at their path** (partial)
* Model: `Registry`, `Definition`.  Theorems: `Props/Definition`, `Props/Reserved`.
* Proof: structural induction over the nested definition.
* Status and disagreements: Proved for every definition that loads and every path without names that are attributes of collections (those are shadowed, witness); items directly in a dictionary are silently left out (witness).

**C37 Creating an item adds exactly that item to the definition** (proved)
* Model: `Definition`.  Theorems: `Props/Definition`, `Props/Kinds`.
* Proof: induction over the path, relational specification of the added entry.
* Status and disagreements: Success characterised exactly, failure leaves the definition unchanged, all other entries and orders kept.

**C38 The written definition reads back as the same definition** (partial)
* Model: `Definition`.  Theorems: `Props/Kinds`, `Props/Literal`.
* Proof: printer and an own grammar of literals; structural induction, round trip over token lists.
* Status and disagreements: Proved for dictionaries of lists of names (general) and for arbitrary nested lists/dicts of arbitrary strings (specific classes), for every text with the same tokens up to trailing commas (what black changes); a section inside a list can be loaded but not written (witness). The reader is an own specification of Python's literal grammar.

**C39 A newly registered item can be looked up** (partial)
* Model: `Registry`, `Definition`.  Theorems: `Props/Definition`.
* Proof: induction over the path.
* Status and disagreements: Proved for names that are not attributes of collections; an item with the name of an existing one shadows it, and an item called like an attribute is not found (witnesses).

**C40 Specific class names never capture general items** (proved)
* Model: `Definition`.  Theorems: `Props/Definition`.
* Proof: list lemmas.

**C41 Scaffolding never changes an existing assignment** (partial)
* Model: `Files`.  Theorems: `Props/Files`, `Props/FilesToy`, `Props/Kinds`.
* Proof: specification by lines; laws about the parser are hypotheses.
* Status and disagreements: Exact contents of the written file (selector, old assignments in order, missing parameters in order) for functions and objects, under laws about Python's parser and astor that are hypotheses (shown consistent with a small language), if the import section has imports only. Counterexamples: a first line with the text 'import' in it is dropped together with its assignment. Success is characterised exactly. Functions called DataPipeline are included. always_assign_strs other than the default or none: C76.

**C42 Scaffolding twice writes the same file** (partial)
* Model: `Files`.  Theorems: `Props/Files`, `Props/FilesToy`.
* Proof: fixed point of the written lines.
* Status and disagreements: Second write has the same lines, third the same text, if imports come first and the last line is not blank. Counterexamples: final newline, blank lines at the end, imports after a comment (one more import line per write, for every n), a class without selector whose first parameter is called import_path.

**C43 The user's lines survive a rewrite** (partial)
* Model: `Files`.  Theorems: `Props/Files`, `Props/FilesToy`.
* Proof: the lines from the first non-import line on are a block of the result.
* Status and disagreements: From the first line that is not blank and has no 'import' in it all lines are kept verbatim, in one block (an empty last line may go). Counterexample: comments before it with the text 'import'.

**C44 Required imports are present after a write** (partial)
* Model: `Imports`.  Theorems: `Props/Imports`.
* Proof: list lemmas over containers.
* Status and disagreements: Written imports read back as the same import; adding twice is adding once; existing imports keep their order. Counterexamples: renamed names, several names across imports and relative imports (level is dropped).

**C45 Creating a project never overwrites a file** (partial)
* Model: `Project`.  Theorems: `Props/Project`.
* Proof: monotonicity of the file system, exact set of what is created.
* Status and disagreements: Nothing is overwritten and nothing else is created, on success and on failure anywhere; success gives everything needed, a second run changes nothing, and success is characterised exactly. Counterexamples: another default_config_folder_name is never created (always needed again), the empty folder name is always needed again, a file counts as the folder.

**C46 A failed load leaves no new modules behind** (partial)
* Model: `Managers`.  Theorems: `Props/Modules`.
* Proof: induction over trees of actions and sessions.
* Status and disagreements: Proved for all bodies (failed loads) and all sessions that load one manager at a time without interrupts (reloads). Counterexamples: an interrupt leaves modules and makes every later reload fail, nested loads claim the same modules, a module removed by others makes reloads fail for ever, modules imported after the load are not removed.

**C47 The manager registry names the latest live manager** (partial)
* Model: `Managers`.  Theorems: `Props/Managers`.
* Proof: induction over histories.
* Status and disagreements: Exact for all histories. Counterexamples: a manager whose project could not be created stays registered and replaces a working one; a manager with a dot in its name cannot be found by a path.

**C48 A file belongs to the manager whose folder contains it** (partial)
* Model: `Managers`.  Theorems: `Props/Managers`.
* Proof: first match over the registered managers.
* Status and disagreements: Exact (first manager whose folder contains the file) for folders other than the root. Counterexamples: nested folders (the manager registered first wins, not the innermost), the root folder.

**C49 Option reset restores the defaults** (partial)
* Model: `Options`.  Theorems: `Props/Options`.
* Proof: induction over histories and nested blocks.
* Status and disagreements: Setting changes one option only, resetting gives defaults, leaving the context manager gives the defaults - not the options as they were on entering (counterexample). Counterexamples too: a reset that raises leaves the options after it, and a directly assigned attribute is not followed by its side effects.

**C50 At most one log file handler, matching the option** (partial)
* Model: `Options`.  Theorems: `Props/Options`.
* Proof: invariant over histories.
* Status and disagreements: Proved when log_folder is set once from a state without handler. Counterexamples: setting log_folder twice leaves two handlers, after which a reset fails or leaves one; a folder that cannot be created leaves the option set without handler; direct assignment.

**C51 Standard output is restored after a logged run** (partial)
* Model: `Stdout`.  Theorems: `Props/Stdout`.
* Proof: structural induction over nested runs.
* Status and disagreements: Restored whenever the run returns or its exceptions are caught inside, for all nestings. Counterexample: a run that raises leaves the replacement in place, and n failing runs nest n replacements (for all n).

**C52 Item views denote paths** (partial)
* Model: `Selector`.  Theorems: `Props/Reserved`, `Props/Selector`.
* Proof: structural induction over the registered tree.
* Status and disagreements: Equality, hash and path of a view proved without restriction; registered iff in the selector for paths without names of collection attributes. Counterexamples: methods of collections count as registered, an unknown manager raises KeyError, names such as item and type cannot be viewed, an unloaded manager makes every selector fail.

**C53 Each item is configured by its own file** (partial)
* Model: `Store`.  Theorems: `Props/Reserved`, `Props/Tree`.
* Proof: tree lookup lemmas.
* Status and disagreements: Proved for plain, non-reserved paths; items named like their section or like a section attribute violate it (witnesses). Sections: C53_section_partial, and C53_section_ignored_violated: a section file that raises a ValueError is ignored without an error.

**C54 Plugins can add to a run** (partial)
* Model: `Main`.  Theorems: `Props/Main`.
* Proof: exact results for every list of plugins.
* Status and disagreements: Additional paths and results proved; in-place changes are ignored (proved for all plugins) and returned lists are not taken apart (witness).

**C55 auto_pdb does not change successful runs** (proved)
* Model: `Main`.  Theorems: `Props/Debug`, `Props/Main`.
* Proof: exact result.

**C56 Items used while running another are recorded** (partial)
* Model: `Context`.  Theorems: `Props/Context`, `Props/FileUse`.
* Proof: invariant over trees of actions.
* Status and disagreements: C56_used_items_partial for one use, C56_nested_partial for every use an execution comes to, at any depth and whether it ends normally or raises. Violated for items got before (nothing is recorded) and for items whose run fails.

**C57 A config's values can be read as attributes** (partial)
* Model: `Config`.  Theorems: `Props/Config`.
* Proof: unfolding.
* Status and disagreements: Violated for every key: __getattr__ has no return statement.

**C58 The import chosen for a name really binds that name** (partial)
* Model: `Imports`.  Theorems: `Props/Imports`.
* Proof: specification of name binding by a list of imports; list induction.
* Status and disagreements: Found iff some import mentions the name; proved to bind it where no rename hides it. Counterexamples for renamed originals and for a later import rebinding the name.

**C59 A scaffolded parameter has the function's own default** (partial)
* Model: `Args`.  Theorems: `Props/Args`.
* Proof: lists of parameters aligned from the end.
* Status and disagreements: Proved for all signatures accepted by Python in which no positional-only parameter has a default and no keyword-only parameter lacks one. Counterexamples: such a positional-only default makes it fail (exactly these), a required keyword-only parameter makes it fail, __init__(self, /, a) loses a.

**C60 A scaffolded file imports every name its defaults and annotations use** (partial)
* Model: `Args`.  Theorems: `Props/Args`, `Props/Kinds`.
* Proof: exact characterisation of success; the needed names.
* Status and disagreements: Success characterised exactly, and the imports bind exactly the needed names. Counterexamples: a default assigned in the module (the code means to import it from there but raises), a builtin type as default; annotations a.b.C and x | None are not accepted (part of the characterisation).

**C61 Scaffolded parameters come from the definition the name denotes** (partial)
* Model: `Locate`.  Theorems: `Props/Locate`.
* Proof: specification of denotation as an inductive relation through imports; induction over chains.
* Status and disagreements: Proved for modules without async functions whose names are bound once, that can be read, and in which a name is imported by absolute imports of one module only: through any chain of imports and renames, the parameters found are those of the denoted function or __init__, and (with C59) the config written has exactly its keyword parameters with their defaults. Counterexamples: async functions, functions nested in them, two definitions in branches, rebinding, inherited __init__, relative imports, imports in function bodies, any file with an assignment to several targets or an import of several modules, wherever it stands.

**C62 The import written by create gives the object that was passed** (partial)
* Model: `Locate`.  Theorems: `Props/Entries`.
* Proof: first module in the table that has the object.
* Status and disagreements: Which module is found and when one is found is exact, and so is which modules are passed over (C62_skipped). The import gives the object if every module having the object has it under its __name__. Counterexamples: a module that imports it under another name, a name bound to another object, __main__, attributes that raise.

**C63 A registered item is the object its entry denotes** (partial)
* Model: `Locate`.  Theorems: `Props/Entries`.
* Proof: cases on entries; names bound by imports.
* Status and disagreements: Proved for entries that are names imported from one module and not renamed by another import; the registered name is exact for all entries. Counterexamples: mod.f after import mod, attributes, calls, entries with several names, names imported twice.

**C64 Scaffolding touches exactly the files of the registered items and sections** (partial)
* Model: `Scaffold`.  Theorems: `Props/Scaffold`.
* Proof: structural induction over the tree; set of written files.
* Status and disagreements: For every tree with plain distinct names: exactly which files are written, with which text, when scaffolding succeeds, and that a failure leaves each file as before or complete. Counterexamples: an item named section shares its file with the section file; two items or sections with the same name share a file.

**C65 A rejected definition writes nothing** (partial)
* Model: `Scaffold`.  Theorems: `Props/Create`.
* Proof: frame of the files for each step before the first write.
* Status and disagreements: Exact: a definition that cannot be read, resolved or validated leaves all files as they are, and a load gives the registered tree and files of its entries. Counterexample: scaffolding fails late (a text cannot be made) after other files were written.

**C66 create is all or nothing** (partial)
* Model: `Scaffold`.  Theorems: `Props/Create`.
* Proof: sequence of steps, each with its effect on files and tree.
* Status and disagreements: Proved: rejected calls change nothing; after a successful call, up to the reset at its end (for which see C80), definition file, registered item and config file are complete (for plain names, config folder not above the definition file). C66_failure_partial says how far a failing call got. Counterexamples: before loading, failing scaffolding, and everything else in the definition file is lost.

**C67 Setting an attribute of an item view updates the item** (partial)
* Model: `View`, `Iterate`.  Theorems: `Props/ItemView`, `Props/Reserved`.
* Proof: equality of programs with `update`; lookup lemmas.
* Status and disagreements: Setting is proved to be exactly the update of the item in the manager of the view (C67_set), and the config to have the value afterwards if it had the key (C67_config). Reading back is proved for objects whose class keeps its arguments as attributes (C67_read_partial). It fails for keys the config does not have, functions, inherited values and names of the views themselves (the _violated theorems). Plugins, and views as values, are not modelled.

**C68 Calling an item view calls the item** (partial)
* Model: `View`.  Theorems: `Props/ItemView`, `Props/MethodView`.
* Proof: exact method; class table as a fold over collections.
* Status and disagreements: Proved for functions (C68_function) and, for objects, exactly which method is called (C68_object, C68_run); this is the method of the own collection if all collections of that class name the same (C68_method_partial). It fails for several collections of a class, in one manager or in several, for subclasses, for classes of the general registrar and for sections (the _violated theorems). Views of methods and of other attributes of items are in MethodView: exactly what a call comes to for every path of names below an item (C68_attributes, C68_attribute_object, C68_attribute_failure), and for views of items the models agree (C68_attributes_refine). Static methods, class methods and methods of classes of the general registrar are not called (C68_static_method_violated, C68_general_method_violated).

**C69 Reading a definition file gives the definition it assigns** (partial)
* Model: `ReadDef`.  Theorems: `Props/ReadDef`.
* Proof: relational meaning of nested expressions; induction over expressions and statements.
* Status and disagreements: C69_once_partial: for a file whose assignments are all to single names, of which one is to the definition and gives nested dictionaries and lists, exactly the structure is read; C69_none_or_several: without assignment the definition is empty, with several a ValueError; C69_sound: whatever is read is what the only assignment in the file means. The code does not do so for all files: chained assignments (NotImplementedError), assignments to attributes and elements (AttributeError), annotations with lists, ** in dictionaries, variables of the same name in functions, values made by calls, and specific classes without a file or assignment (AttributeError) are proved as _violated. Parsing of python source into statements is not modelled.

**C70 A loaded config has the values its file assigns** (partial)
* Model: `LoadConfig`.  Theorems: `Props/LoadConfig`.
* Proof: relational semantics of the bindings a file makes; induction over statements.
* Status and disagreements: Exact for every file (C70_loaded, C70_loads, C70_error): each name has the value bound to it last, except names beginning with two underscores and modules. This is the property if imports and definitions bind modules only, or names assigned afterwards (C70_assigned_partial). Counterexamples: imported objects are part of the config, and are passed to functions with a parameter of that name; names with two underscores and modules are left out; a file with a = b = 1 is not loaded. Statements that delete names are not modelled, and expressions are part of the statements.

**C71 The file found for a module is the one importing it would load** (partial)
* Model: `FindSpec`.  Theorems: `Props/FindSpec`, `Props/Kinds`.
* Proof: import as an inductive relation; induction over the parts of the name.
* Status and disagreements: C71_disk: for modules on disk, the file is the one at its place in the folders. C71_missing: what is not found is an AttributeError. C71_found: what the import would load is found, without restriction. C71_sound_partial, C71_error_partial: nothing else is found if the modules around the name are packages. Counterexamples: for a.b where a is a module and no package, a module b at the top level is found; a script that is run has no file. Importing a package is taken not to change where its modules are; relative names are not modelled (the code drops the dots, C44).

**C72 Config files are refreshed under the path recorded for them** (partial)
* Model: `Recorded`, `Frames`, `Store`, `Runner`.  Theorems: `Props/Objects`, `Props/Outside`, `Props/Recorded`.
* Proof: round trip of file paths (C03); walk of the path in an arbitrary state.
* Status and disagreements: C72_item_partial: for items, in every reachable state. For the files of sections the recorded path ends with 'section', which is a KeyError in every state (C72_section_violated), so every later change of an item such a file has read raises; if there is a section called section, its config is refreshed instead (C72_section_folder_violated). For the file of the project's own section that path leads to the config of the project, because managers have an attribute 'section' (C72_project_section, in the model with objects). If the folder of the manager is inside that of a manager made before, the recorded path is one of that manager which leads nowhere, and refreshing it is a KeyError (C72_nested_violated).

**C73 A failing update changes nothing** (partial)
* Model: `Runner`, `Store`, `Cascade`.  Theorems: `Props/Atomic`, `Props/Kinds`.
* Proof: case analysis of the update over the view of the manager; concrete states for the failures.
* Status and disagreements: C73_failed: exactly what a failing update leaves, for every item without dependents. C73_unchanged_partial: nothing has changed for functions, items without object and classes that accept all values. Counterexamples: an object that rejects a value (the config has it from then on, and repeating the update does nothing and raises nothing), a parameter called d (TypeError after the update), a dependent whose file raises (the item is updated, later dependents are not, and repeating the update does nothing).

**C74 Updating a section reaches the items in it** (partial)
* Model: `Runner`, `Store`.  Theorems: `Props/SectionUpdate`.
* Proof: the frame of section updates (C12) and the order of inheritance (C10) in the state after the update.
* Status and disagreements: C74_active_partial, C74_object_partial: proved for the active configuration of every item whose own config is not empty, and for objects created after the update, for keys the section's config has (or any key if some value changes). Counterexamples, stated for all reachable states: created objects are never touched (C74_created_violated), new keys alone are dropped without an error (C74_new_key_violated), a section without a config file raises (C74_no_config_violated).

**C75 Iterative runs use the values they are given** (partial)
* Model: `Copying`, `Iterate`.  Theorems: `Props/Copying`.
* Proof: the grouping of the updates commutes with copying; induction over the updates.
* Status and disagreements: C75_values_partial, C75_same_runner_partial: proved for all updates whose values are not item views: the cases are the products of the updates with every value replaced by its deep copy. Views are replaced by a copy of the item as it is when the runner is made (C75_view_violated, C75_no_views_violated), and no dependency is recorded (C75_not_recorded_violated); stated for all updates and states. What copying makes of a plain value is a parameter.

**C76 Every line a specific class asks for is in every file scaffolded for it** (partial)
* Model: `Always`, `Files`, `Scaffold`.  Theorems: `Props/Always`, `Props/Kinds`.
* Proof: reduction to the writer of C41 with a larger set of parameters; counterexamples in a small language.
* Status and disagreements: C76_file_partial gives the exact contents of the file for all strings that assign one name and for all lists of import strings with one import each, under the laws about the parser of C41; C76_wished what is written if a name is asked for repeatedly; C76_succeeds_iff when strings are refused; C76_twice_partial, C76_lines_partial the counterparts of C42 and C43; C76_selector_partial the default. Counterexamples: names that are parameters, attributes, repeated names, empty tuples, the default given explicitly (written at the end), and, for all classes that ask for imports without Selector but not for assignments, a file that uses Selector without importing it (C76_selector_violated).

**C77 Resetting a section resets everything in it** (partial)
* Model: `Store`, `Runner`.  Theorems: `Props/SectionReset`.
* Proof: where an object stored in the tree is found, by induction over the path.
* Status and disagreements: C77_reset_partial: for every state and every section without a config everything found at or below the path is what a manager that loads the files now finds there; C77_frame: nothing else changes; C77_gone, C77_failed: deleted folders, folders that cannot be loaded. Counterexamples, stated for all states: sections with a config cannot be reset (C77_configured_violated), created objects are not touched (C77_created_violated).

**C78 Resetting with creation gives an item the values of its file** (partial)
* Model: `Store`, `Runner`.  Theorems: `Props/SectionReset`.
* Proof: invariant: own configs are stored under the names of their sections; induction over the existing part of the path.
* Status and disagreements: C78_new_partial: for every reachable state and every missing path, with all sections on the way; C78_refused, C78_below_item: what is refused, without any change. Counterexamples: for every item that has a config the reset has no effect although it reports the values of the file (C78_existing_violated), so that a created object and its config disagree (C78_object_violated); names that sections have as attributes (C78_reserved_violated).

**C79 Every item of the definitions can be used after a load** (partial)
* Model: `Session`.  Theorems: `Props/CreateReserved`, `Props/LoadReserved`, `Props/Session`.
* Proof: composition of C65, C53, C10 and C19; induction over the path in the registry and in the listing of the folder.
* Status and disagreements: C79_usable_partial composes the load of definitions (C65), scaffolding, the load of configs (C53), inheritance (C10) and object creation (C19) into one statement about the files before and the objects after; C79_loads: the load succeeds if the definitions load and the section files can be executed. Missing: names like that of the section around them (C53), items called section, items beside a folder of their name. Counterexample for every section starting with _ or .: its files are made but its configs are never loaded, so get raises KeyError (C79_ignored_violated); for every item with a name of an attribute of sections anywhere in its path, get raises (C79_reserved_violated), as for every item in a section outside others with a name of an attribute of the config manager, as load or reset (C79_manager_violated); items are used with what their files hold at first use, also after edits (C79_edited_partial).

**C80 An item can be used as soon as it is created** (partial)
* Model: `Session`.  Theorems: `Props/CreateReserved`, `Props/LoadReserved`, `Props/Session`.
* Proof: composition of C66, C39, C78, C10 and C19.
* Status and disagreements: C80_usable_partial composes create (C66) with the reset at its end (C78), inheritance (C10) and object creation (C19), for items without a config as well as for leftover config files that were not loaded. Missing: names like that of the section around them. Counterexample: if there is an object of an item of the same path, it stays with the callable it had (C80_stale_violated). C80_reserved_violated: for every item called like an attribute of sections, such as update, create can return, but no config can be got for it and getting it gives no object. C80_manager_violated: in every section outside others that is called like an attribute of the config manager, as load or reset, create always raises.

**C81 Logging a run does not change what it does** (partial)
* Model: `RunLog`.  Theorems: `Props/RunLog`.
* Proof: simulation between the logged run and the run without logging.
* Status and disagreements: C81_run_partial is for all runs if no value is a view and every value has a text; C81_item_partial is for items with views of items that have an object already, and says which messages there are. Counterexamples: looking at a view for the log creates the object of the item it stands for, and the run fails if that fails (C81_view_violated); a value that raises when it is asked for an attribute makes the run fail before the call (C81_argument_violated); a result without a text makes it fail after the call (C81_result_violated).

**C82 The logged arguments are those of the call** (partial)
* Model: `RunLog`.  Theorems: `Props/RunLog`.
* Proof: induction over the characters of the string and over the arguments.
* Status and disagreements: C82_string says for exactly which strings the logged literal reads as the string; C82_arguments_partial that the message determines arguments that are such strings; C82_call_partial that at the first use the logged arguments are those of the object called. C82_specific_partial: the same for objects of specific classes. Missing: values other than strings. Counterexamples: different arguments with the same message (C82_quote_violated); an object used before that keeps an argument which is not in the log (C82_stale_violated); a value called self, which objects of specific classes are not given (C82_self_violated).

**C83 A name in the dictionary of a specific class becomes an object with that name** (partial)
* Model: `EmptyObj`, `Definition`.  Theorems: `Props/EmptyObj`, `Props/Kinds`.
* Proof: induction over the parameters with their defaults, mutual induction over nested definitions, C36.
* Status and disagreements: C83_made: exactly what an object is made with; C83_accepted_iff: for exactly which __init__ Python accepts the call (classes without **kwargs); C83_found_partial: the dictionary loads and every name is found at its path. Missing: names of attributes of collections (C36). Counterexamples: classes that change their name are registered elsewhere (C83_renamed_violated), classes that do not accept None for a required parameter cannot be used at all (C83_none_violated), nor can those with required keyword-only parameters only or with another name for self (C83_init_violated).

**C84 A selector made earlier gives the same answers as one made now** (partial)
* Model: `Stale`, `Selector`, `Definition`.  Theorems: `Props/Stale`.
* Proof: invariants over all histories (which load the collections of a manager are from), congruence of the lookup.
* Status and disagreements: C84_same_partial: proved for every manager that was not loaded again, not replaced by another of its name and whose context was not reset, with any items created in it and any other managers; C84_now: a selector just made answers by the collections the managers have (C52 says what that is). C84_reloaded: after a reload, and everything created then, the old selector answers as before the reload. C84_destroyed: what destroying a manager changes. Counterexamples: a reload (C84_reload_violated: new items missing, removed items still there), managers made later (C84_new_violated: KeyError for everything in them, in every state), a reset of the context (C84_reset_violated).

**C85 An item view has the type of what it stands for** (partial)
* Model: `ViewType`, `View`, `Selector`.  Theorems: `Props/ViewType`.
* Proof: the selector finds what the runner finds, C25, invariant that objects are made from the registered callable.
* Status and disagreements: C85_class_partial: proved for classes and objects of specific classes, in every reachable state. C85_missing: what is not registered has no type. Counterexamples: every function (function, but the item is a functools.partial: C85_function_violated), every section (collection, but the item is the runner: C85_section_violated), managers and collections of specific classes (their views have an object that is no type as their class: C85_root_violated), classes whose section was got before (C85_in_section_violated). Missing: views of attributes; subclasses made by __new__. After a reload the type is that of the old definition for views made before (C84).

**C86 What is offered for completion is what there is** (partial)
* Model: `Listing`, `Selector`, `View`.  Theorems: `Props/ItemListing`, `Props/Listing`, `Props/Reserved`.
* Proof: exact counts in the sorted lists, induction over the path of the section, C52.
* Status and disagreements: C86_section, C86_manager, C86_selector: exactly what is listed, for all definitions. C86_usable_partial: the names listed for a section are those that can be followed to a view, for names that are not attributes of collections or views. Counterexamples: names of specific classes are listed twice (C86_twice_violated), a manager that is not loaded cannot be listed (TypeError, C86_unloaded_violated), methods of collections can be followed without being listed (C86_unlisted_violated), the methods listed for the view of a manager cannot be read through it (C86_methods_violated). Items: C86_item says exactly what is listed for them; what is listed for an object of a specific class can be followed (C86_item_usable_partial), but for every function names are listed that cannot be read (C86_function_violated), and for classes nothing of what can be read is listed (C86_class_violated), since the listing is that of the object that is registered instead of them. Missing: names that start with an underscore, and those of the mixins of pyfileconf.

**C87 A misspelled name is reported where it is used, and changes nothing** (partial)
* Model: `View`, `Selector`, `Main`.  Theorems: `Props/NotLoaded`, `Props/Typo`.
* Proof: the exact state after the failure, and an invariant over all later uses (nothing is found whatever is added to the remembered text).
* Status and disagreements: C87_raises_partial, C87_top, C87_unknown: the exception and the state after it, exactly, for wrong names in sections, below a manager, and of managers. Counterexample to the second half, stated for all managers, sections and histories: after a wrong name in a section no item of the manager can be used through any view (C87_broken_violated), though get still finds all of them; until the manager is loaded again. C87_attribute: a wrong attribute of an item raises what the object raises and leaves everything usable. C87_not_loaded: with a manager that is not loaded everything unknown is reported as not found; the exception meant for it is never raised (C87_not_loaded_violated, for all states).

**C88 Any value can be a config value** (partial)
* Model: `Compare` (own), `Store`.  Theorems: `Props/Compare`.
* Proof: refinement: with comparisons that always have a truth value every operation is the one of `Store`; induction over the loop for the exact failures.
* Status and disagreements: C88_comparable_partial: proved for pandas objects and for values whose comparison raises, over all histories, by refinement to the model with comparisons of type Bool. C88_raises: exactly which updates fail; C88_unchanged: they change nothing. Counterexamples, stated for all states: a value such as an array, whose comparison has no truth value, can be replaced by no update that changes nothing before it (C88_update_violated), and makes refreshing and resetting its config impossible (C88_refresh_violated, C88_reset_violated).

**C89 Saving a config writes the file it is saved to** (partial)
* Model: `SaveAs` (own), `Files`.  Theorems: `Props/SaveAs`.
* Proof: unfolding; the path of the interface is an invariant of the file object.
* Status and disagreements: C89_new, C89_same: exact for configs that were not read from a file and for configs saved to their own file. C89_frame: only one file is ever written, and none on failure. Counterexamples, for all files: a config read from one file and saved to another overwrites the first and leaves the other (C89_other_violated); the configs of the config manager cannot be saved (C89_active_violated). Missing: items called DataPipeline.

**C90 A reloaded manager behaves as a new one** (partial)
* Model: `Reload` (own), `Cascade`.  Theorems: `Props/FailedLoad`, `Props/Reload`.
* Proof: simulation between states that differ in records only; the invariant of C28 over reloads.
* Status and disagreements: C90_get: getting items gives what it gives in a new session. C90_unused_partial: so do updates, refreshes and resets that leave the item they are about unused. C90_consistent: with reloads at any time, configs fit the files and the other configs, but for items of other managers that read a reloaded item and were not refreshed since, items updated without persistence, and keys not assigned in every case. Counterexamples: the records of dependencies survive, so after an item was removed an update of an item it had read raises KeyError (C90_update_violated); items of other managers keep what they read before (C90_other_violated). section files that use items of their manager get what these were before the reload (C90_section_violated). Missing: configs of sections, apart from that; the local config; a reload that raises is in C94.

**C91 New functions, classes and objects are called with their own defaults** (partial)
* Model: `NewItem` (own), `Args`, `Files`, `LoadConfig`.  Theorems: `Props/NewClass`, `Props/NewClassToy`, `Props/NewItem`, `Props/NewItemToy`.
* Proof: what is written, then executed line by line; induction over the parameters.
* Status and disagreements: C91_config_exact: the config of a new function, exactly: imports, selector and parameters are executed in this order. C91_called_partial: the function is called with the values of its own defaults, None for parameters without, if no default or annotation uses s, Selector, or the name of a parameter before it, imported names that are used are not imported under another name as well, there are no positional-only parameters and the function is not called DataPipeline. C91_class_partial, C91_object_partial: the same for classes in the definition and for objects of specific classes, which get their name for the key attribute; a class whose __init__ calls the instance s cannot be instantiated at all (C91_self_violated, C91_self_name_violated). Counterexamples: from consts import b; def f(b=1, a=b) gets a=1 (C91_shadow_violated); from consts import s; def f(a=s) gets the selector (C91_selector_name_violated); a name imported twice under different names gives a file that raises NameError (C91_renamed_violated); cleanup_kwargs=None of a function called DataPipeline becomes dict() (C91_pipeline_name_violated). Missing: lines given for specific classes; defaults whose evaluation has effects.

**C92 What plugins add to an update is applied to this update only** (partial)
* Model: `Plugins` (own), `Context`.  Theorems: `Props/Plugins`.
* Proof: the merged results, lookups; simulation over sessions in which the dictionaries differ.
* Status and disagreements: C92_applied_partial: with plugins that return and do not write into the dictionaries themselves, the update is exactly the one with their values over the given ones, the plugin registered first counting; the caller's dictionary gets them too, no other does; post plugins see the applied values, only after success, none after one that raises. C92_in_place, C92_in_place_raises, C92_in_place_total: any plugins, also those that change the dictionaries they are called with: each sees what the one before left, what was left is what the update is made with, and if one raises nothing is updated but its changes stay in the caller's dictionary. C92_values: the resulting values of a config. C92_apart_partial: with any plugins, updates do not affect each other through dictionaries if no dictionary is passed twice. Counterexamples: a dictionary passed twice carries values a plugin returned for the first item to the second (C92_reused_violated); an update that raises because of a plugin leaves the values in the dictionary (C92_raised_violated). Any order of calls (tryfirst, trylast, C108_order) is that of some list. Missing: plugins that use the manager, hook wrappers.

**C93 A batch update applies each of its updates once, whatever they come from** (partial)
* Model: `BatchHooks` (own), `Iterate`.  Theorems: `Props/BatchHooks`.
* Proof: induction over the chain of iterables, with what each iterator has left in the state.
* Status and disagreements: C93_applied_partial, C93_managers_partial: what is applied is exactly what the plugins return, the last registered first, followed by the updates that were given, up to the first that raises, if the iterators are different ones and no plugin reads the given one; C93_lists: for lists nothing more is asked; C93_plain: without plugins any iterable will do; C93_raised: an iterator keeps what comes after an update that raises. Counterexamples: a plugin that looks through an iterator makes all updates disappear (C93_read_violated); a plugin that returns the updates makes a list be applied twice (C93_returned_violated); afterwards plugins are given an iterator with nothing left (C93_post_violated); without the default plugin nothing is applied (C93_removed_violated). C93_anywhere_partial: any order of calls (tryfirst, trylast, C108_order). Missing: plugins and iterators that use managers while they are called, hook wrappers.

**C94 A load that fails leaves the manager as it was, and loading again works** (partial)
* Model: `FailedLoad` (own), `Session`, `Selector`.  Theorems: `Props/FailedLoad`.
* Proof: cases over the point at which a load raises; induction over histories for what the parts of a manager share.
* Status and disagreements: C94_definitions: with wrong definitions neither the manager nor any file is changed. C94_works: after any load that failed, every operation of the runner gives what it gave before. C94_again: a load gives the same error, files and manager as for a new manager, whatever was loaded before. C94_first, C94_unloaded: a manager that was never loaded says so. C94_reset: what create resets in a manager whose runner has registrars of its own. C94_whole: the runner has the registrars of the manager, after any history in which loads failed only for the definitions. Counterexamples: a load that fails for the file of a section leaves the new registrars with the old runner, so selectors have items that cannot be got (C94_mixed_violated), and items created after that cannot be got until a load succeeds (C94_created_violated). A section file that uses an item of its own manager makes the first load raise (C94_section_violated). C94_plain: section files that use no items are covered by the theorems above. The modules that are forgotten are in C46.

**C95 An iterative run leaves no trace, and can be repeated** (partial)
* Model: `Iterate`.  Theorems: `Props/Repeat`.
* Proof: invariant of a runner (the last case still holds) over all rounds; the skipped updates by reflexivity of `==`.
* Status and disagreements: C95_again_partial: a runner can be used again; after any runs that succeeded, of all or some of its cases, and after cases that failed before any had succeeded, a case gives its items what it names and else the values from when the runner was created. C95_after_partial: after a case, finished or failed, the items that no case is for are as before, and those of the case keep what it gave them. C95_skipped: the case that finished last is not applied when it is run next, whatever happened since. Counterexamples: nothing is restored (C95_stay_violated), a new runner takes the values of the last case as defaults (C95_new_violated), and after a failure the case that had finished before runs with the configuration of the one that failed (C95_failed_violated in general, C95_raises_violated). Missing: as for C32, cases given by d_ or with unknown keys, keys that sections around define, run items that are sections with classes, plugins around updates and runs.

**C96 Running an item changes no configuration** (partial)
* Model: `Shared`.  Theorems: `Props/Shared`, `Props/SharedStore`.
* Proof: each object belongs to the item whose file made it or to a section: invariant over all histories.
* Status and disagreements: C96_isolated: after every history of gets, runs, updates and resets that does not update the item or change its own arguments, the values that its file assigns and no section around it has are those of the file, whatever the functions of other items did to their arguments. C96_reset: after any history, also of changes to the item's own arguments, a reset gives these values back. C96_unknown: an update with names the config lacks puts no object of the caller into it. Counterexamples: what a function changes in place is in the active config of every item that has the same object there, the item itself among them (C96_seen_violated in general; C96_self_violated), a value of a section is changed for all items in it and stays so when they are reset (C96_section_violated), and an update with the object that is there already is never seen as one, so that a change in place can not be announced (C96_unseen_violated). C96_store_partial, C96_store_all_partial, C96_store_start_partial: from a load on, as long as no value is changed in place, this model has the values that the model of the config manager has. Missing: objects in objects, variables of one file with one object, dependencies between configs, local config.

**C97 Every entry of a section is an item with a name of its own** (partial)
* Model: `Named`, `Locate`.  Theorems: `Props/Named`.
* Proof: what a view keeps after it was asked for its name; list induction over the entries.
* Status and disagreements: C97_registered: in every section of functions, classes and pipelines with constant arguments each entry is registered under its own name and has the config file of this name; C97_found: with different names each is found under its own and nothing under any other; C97_plain_partial: functions and classes are run and got with the section under the same name; C97_section_name: which sections are registered under their own name. Counterexamples: when a section is run or got, every pipeline is looked for under the name DataPipeline and not found (C97_section_violated, in general), or taken for the one that is called so (C97_other_violated); a name depends on whether it was asked for before (C97_asked_violated); a section with the class itself or a call without name can not be made (C97_unnamed_violated), nor one with a name that is no string in quotes (C97_computed_violated); an entry without any name is registered but has no config file (C97_nameless_violated); a section with an item called output_name is not registered under its own name (C97_output_violated). Missing: calls with other arguments than strings, in C97_registered.

**C98 An update lasts until it is replaced** (partial)
* Model: `Config`, `Store`.  Theorems: `Props/CascadeLast`, `Props/Lasting`.
* Proof: the value and its record are an invariant of every call that leaves the key alone; induction on the history.
* Status and disagreements: C98_given_partial: an update that changes the value of a key of the config gives every key in it its value and puts it on record if it is persistent. C98_lasts_partial: the value stays through every history of calls that leave it alone, of any length, with lookups, updates and refreshes of sections that say nothing about the key resets of sections it is not in, and calls for the local config. C98_seen_partial: as long as it is there, looking the item up gives it. C98_project_partial: with config files that read other items, a persistent update lasts through every history of operations on any items, whether they return or raise and whatever is refreshed by them. Counterexamples: a persistent update with the value that the item has already is not put on record, so that an edit of the file replaces it (C98_same_violated) and so does a refresh when the value came from an update that is not persistent (C98_again_violated); the value of a section replaces the one given to the item (C98_inherited_violated). A value that is not persistent is lost when an item is updated that the file reads, though nobody refreshed the item (C98_project_violated). Missing: configs of sections in projects whose files read other items.

**C99 What happens to an item depends on its own history only** (proved)
* Model: `Runner`, `Store`.  Theorems: `Props/Apart`.
* Proof: two runs side by side: every call for the item has the same outcome in states that agree on it; calls for other items keep the agreement (frame of C12).
* Status and disagreements: C99_own_history: noninterference, by a simulation between the full history and the one reduced to the item; C99_any_order and C99_swap follow. Calls for whole sections are not part of the statement (they touch all items in them, see C11, C23 and C77). In the model functions do not use the manager while they run; configs that use other items are those of C27 and C28.

**C100 Doing the same thing twice in a row is the same as doing it once** (proved)
* Model: `Runner`, `Store`.  Theorems: `Props/Twice`.
* Proof: closed form of each operation on an item, then the dictionary updates absorb themselves; after a refresh the section levels are part of the recorded updates, so a second refresh finds all values there.
* Status and disagreements: C100_twice: idempotence of every operation on items, whether it returned or raised; no assumption about `==` of values. C100_same_result: the object is the same one by identity. C100_returns: what returned returns again (for refresh if values are equal to themselves: with values that are not, a name reserved by `update` in a section config makes only the second refresh raise). Calls for whole sections and configs that use other items are not part of the statement (C11, C28, C29). In the model functions and constructors do not change anything when called.

**C101 Only the last word about each key counts** (partial)
* Model: `Runner`, `Store`.  Theorems: `Props/CascadeLast`, `Props/Merge`, `Props/OwnCalls`, `Props/SectionMerge`, `Props/Swaps`.
* Proof: closed form of an update as 'made or dropped'; whether it is made depends only on its own keys, so disjoint updates do not influence each other; a dropped update of known keys says what is there, so by induction the values are the last words over the old values, and the keys of dictionaries never change.
* Status and disagreements: C101_swap_partial: two updates of different keys can be swapped in every state, whatever their arguments and whether or not they are persistent; values, recorded updates and what is bound in the object are the same (objects of classes have to accept all values; the order of keys may differ). C101_last_word_partial: series of any length of updates of keys the config has, with the same last words, give the same values in the same order and the same result of getting the configuration, if equal values are the same. C101_same_state_partial: nothing at all differs if the updates are not persistent. C101_same_object_partial: the object is the same also with persistent ones; C101_same_class_object_partial: so is the object of a class that does not raise. C101_determined_partial: with config files that read other items, without circles, the values of all items are determined by the files and the updates on record, whatever the history and the order of refreshing. C101_project_partial: two histories with the same last words for all items, in which every update changed something, give the same values and objects. Violated: C101_new_key_violated (an update that only adds keys is dropped unless combined with a change), C101_recorded_violated (a value given again is not recorded, so a later refresh drops it), C101_object_violated (an object that has fallen behind is only repaired by an update that changes something), C101_refused_violated (a class object that refuses the final values keeps those of the first update). C101_project_violated (giving a key the value it has only because of another item is not recorded, so the order of updates of different items counts). Configs of sections: C101_section_same_state_partial (the states are equal if the updates are not persistent), C101_section_partial (also with persistent ones: the values of the section, the configuration of every item and the object that is got for it are the same, and created objects stay as they were), C101_section_recorded_violated (the record differs as for items). Calls for several configs, of items, of sections and the local one, mixed: C101_calls_partial (two series of updates, refreshes and pops with the same calls for each config in the same order: all later calls of the config manager answer the same), C101_own_calls_partial (what a call for a config answers depends only on the earlier calls for the same config), C101_configs_partial (two series of updates of known keys that are not persistent, with the same last words for each config and about the same configs: all later calls answer the same). C101_swaps_partial, C101_swaps_answers_partial: with lookups among them, calls of which neither changes what the other one looks at can be swapped, every one of them answers the same, and so do all later calls; C101_lookup_violated: not so for a lookup of an item and an update of the section around it. Missing: the objects of the runner after such calls for several configs.

**C102 A change reaches only the items that depend on the changed one** (proved)
* Model: `Cascade`.  Theorems: `Props/Reaches`.
* Proof: records of dependencies only ever hold what files read or runs used (invariant); by induction on the depth of calls, refreshing what depends on the changed item touches only what that reaches in turn.
* Status and disagreements: C102_only_dependents: for any past, any further series of calls and any item not reached from the items they change by the transitive closure of 'reads in its file, in some branch' and 'used while running'. C102_get: the case of a get. In the model of `Verif/Model/Cascade.lean`, that is, for configs of items without section configs.

**C103 A run that raises is debugged once, with the debugger that was asked for** (partial)
* Model: `Debug`.  Theorems: `Props/Debug`.
* Proof: relation between a run without and with a debugger; case analysis on how the run ends.
* Status and disagreements: C103_debugged_partial: exact for all runs of strings, views and lists of these. C103_succeeds, C103_off: without restriction. C103_returning: for a debugger that returns it is the run of C55. C103_validated: what is refused. Counterexamples, for all states: an argument that is neither string nor view raises without a debugger (C103_argument_violated); a value such as 1 for auto_pdb is accepted and replaces the exception by a TypeError (C103_not_callable_violated).

**C104 The config file of a section can read items** (partial)
* Model: `SectionFiles`.  Theorems: `Props/SectionFiles`.
* Proof: relations for executing a file and for coming to a read; induction over both.
* Status and disagreements: C104_values_partial, C104_raises: exact for all programs that read items of managers loaded before, when every active manager has registrars. Counterexamples, for all states: reading an item of the own manager at the first load fails with ItemNotFoundException whatever the item has (C104_first_violated); at a later load it gives the value from before the load (C104_reload_violated); while any other active manager has not been loaded no section file can read anything (C104_other_violated); an item of a manager that is not active is a KeyError (C104_absent_violated). Missing: section files that load managers or read a name that is itself an item.

**C105 The nested dictionary of a collection has what is registered** (partial)
* Model: `NestedDict`.  Theorems: `Props/NestedDict`.
* Proof: mutual recursion for success, then induction over the path with the last entry of a name.
* Status and disagreements: C105_nested_partial and C105_lookup: exact in both directions for all trees in which the attribute name of every item is the name under which it is registered, for paths without names of attributes of collections. Counterexamples: one item without attribute name, possible for another key_attr, and there is no dictionary at all (C105_unnamed_violated); items called DataPipeline are registered under their own names, but only the last of them is in the dictionary (C105_own_name_violated); names of attributes of collections (C105_reserved_violated). Missing: sections with an item called output_name, which are registered under another name (C97).

**C106 Cases from plugins run like those of the product** (partial)
* Model: `Iterate`.  Theorems: `Props/PluginCases`.
* Proof: defaults exist exactly for the paths of the first case (induction over the lookups), then C32.
* Status and disagreements: C106_case_partial: for all plugins that give and change cases, where all cases name the same items: every case has its defaults, and gives its items what it names and else the values from when the runner was made, and leaves all others as they were then. Counterexamples: a case that names something the first does not ends the run with a KeyError after the cases before it have run (C106_other_items_violated, for all such cases); what a case does not name keeps the value of the case before (C106_left_out_violated); without cases there is an IndexError (C106_no_cases_violated). Missing: as for C32, and plugins around updates and runs.

**C107 Plugins are told about every change of a config** (partial)
* Model: `Notify`, `Store`, `Runner`.  Theorems: `Props/Notify`, `Props/NotifyPaths`.
* Proof: closed forms of what is told for each change, from those of the config manager (C07, C09, C13); the rest by erasing the calls.
* Status and disagreements: C107_before_partial: for an update, reset or refresh of an item, plugins are told at most once before anything else is told, with the config as it still is; if the config manager raises nothing they are told exactly if a value changes, and the updates told are those made. C107_after_partial: they are told at most once after a change that succeeds, exactly if they were told before and the item has been created, with the config and state at the end and the updates told before. C107_only_told: calling the hooks changes nothing else, for all changes. C107_path: all that is told is about the path of the change. C107_update_any: also for sections, plugins are told before an update exactly if it would change the config. C107_new_partial: for a config that does not exist yet they are not told before it is made. C107_local: an update without path changes nothing and nothing is told. Counterexamples: items take over values of the sections around them without plugins being told of it (C107_section_violated), an item that has not been created (C107_not_created_violated), an update that fails after it was announced (C107_failed_violated), an object that does not take over the change (C107_rejected_violated). Missing: what plugins do when they are told.

**C108 Removing the default plugins takes away only the default behaviour, and it can be brought back** (partial)
* Model: `PluginRegistry`, `BatchHooks`, `Iterate`.  Theorems: `Props/PluginRegistry`.
* Proof: invariant over all histories: names and plugins are unique and the list of implementations is arranged by marks and order of registration.
* Status and disagreements: For all histories: C108_start (what is registered at import), C108_order (closed form of the order of calls, no plugin is called twice), C108_reset (resetting gives exactly what there is at import), C108_twice (registering again is a ValueError). For histories in which the name of default_hooks is used for it only: C108_removed_partial (exactly default_hooks goes, the order of the others stays), C108_other_hooks_partial, C108_there_partial (default_hooks is called exactly if it was not removed since it was last there). What happens without it: C108_batch_partial (a batch update applies nothing), C108_changed_partial (dependent configs are not refreshed), C108_cases_partial (making an iterative runner is an IndexError), and C108_batch_reset after resetting; C108_batch_there_partial: while it is there, the order of calls is that of C93_anywhere_partial. C108_cases_there_partial: while it is there, an iterative runner is that of C31 and C106 with the cases of the other plugins around the product. Counterexamples: another plugin with the name of default_hooks is removed (C108_name_violated), default_hooks with another name is not (C108_other_name_violated), registering default_hooks again changes the order (C108_again_violated), resetting takes away registered plugins (C108_reset_violated). Missing: hook wrappers, blocked plugins.

**C109 Every object a manager makes says which item it is** (partial)
* Model: `Tags`, `SectionPath`.  Theorems: `Props/Tags`.
* Proof: invariant over all histories: every kept object has the path it is kept under, and no object is kept or registered twice.
* Status and disagreements: For all histories in which every item gets an object of its own (names, not objects, in the dictionaries of specific classes, and classes that make new objects) and views are called under the path of the item itself or of a method of its object: C109_tag_partial (every object a manager keeps has the full path), C109_get_partial (so has everything that is got, and it is kept), C109_lasting_partial (it does not change any more), C109_distinct_partial (different items have different paths), C109_view_partial (calling the view of the path an object has finds this object and changes nothing). C109_functions_partial and C109_kind_partial say which of these objects are partials (those view calls leave alone), C109_no_call what view calls that come to no object raise. Counterexamples: calling the view of an attribute that is the object of another item gives that object the path of the attribute (C109_alias_violated); an object that is in a definition twice (C109_shared_violated); a class that gives the same object each time (C109_again_violated); objects whose attributes cannot be set cannot be got at all (C109_slots_violated); managers with the same name (C109_manager_violated). Missing: attributes of bound methods, classes as attributes, the attribute written by other code.

**C110 An object of a class was last given exactly what the configuration says now** (partial)
* Model: `Runner`.  Theorems: `Props/ObjectCurrent`.
* Proof: invariant over all histories of operations on items, from the lemmas about single items; the active configuration restricted to parameters no section sets is the stored one.
* Status and disagreements: For all histories of getting, running, updating, refreshing and resetting any items, and edits of the files: C110_arguments_partial (the object was last given exactly the values the current configuration has for its parameters), C110_as_new_partial (as an object made anew from it would be, and calling it gives the same). Needed: the item is got by its own path first, its class does not raise or the calls return, and if the item is run no section sets its parameters. Counterexamples: running the item sets the configuration back to what a section says, the object keeps the update (C110_run_violated); when the class raises in an update the configuration is changed and the object is not, and the same update again does not raise (C110_raises_violated); a class that is got with its section is kept as a partial, which does not take new parameters (C110_section_violated). Missing: plugins and dependent items that are refreshed by the announcement of an update.

**C111 An updated object is like one made anew** (partial)
* Model: `ObjState`, `Runner`.  Theorems: `Props/ObjState`.
* Proof: induction over updates; refinement between the arguments the runner keeps and the attributes, then C110.
* Status and disagreements: For all classes whose __init__ sets attributes from its arguments alone and raises before it sets any (straight_settles: every __init__ that checks its arguments and then assigns attributes is one), without an update method or with that of PyfileconfBase (C111_base): C111_like_new_partial (after any sequence of updates the attributes are those of an object made anew from the last accepted configuration), C111_first_partial (from the first get on, also for specific classes), C111_rest_partial (other attributes, and all if the class refuses, are left alone), C111_arguments_partial (the model of the runner, which keeps only arguments, is right about the attributes), C111_current_partial (with C110, over all histories of calls for items: they are those of an object made anew from the current configuration). Counterexamples: a class that raises after setting some attributes leaves a mixture (C111_half_violated); values kept by other code stay (C111_cache_violated); with an update method of its own __init__ of a specific class never sees the configuration (C111_method_violated); an __init__ that looks at the object (C111_state_violated); what only the update method takes is not passed on (C111_extra_violated). Missing: objects that share state, update methods that come and go.

**C112 What a config file uses is recorded for it** (partial)
* Model: `Context`.  Theorems: `Props/FileUse`, `Props/ResetInside`.
* Proof: mutual induction over how an execution comes to a use; records are kept by everything that follows (C27).
* Status and disagreements: For uses of views: C112_views_partial (everything the execution of a file comes to use, at any depth, is recorded for the innermost file executed around it, also if the load raises), C112_only (nothing else is), C112_lasting_partial (until the context is reset). Counterexamples, for all contexts: an item the file runs or gets by the manager itself is not recorded for the file, but for the item that happens to be running, if any (C112_manager_violated); what is used in another file executed on the way is recorded for that file only (C112_inner_violated; the first file depends on it through the item of the second, C28). That the recorded path leads back to the file is C72. C112_reset_violated, C112_reset_nothing: a file whose code resets the context loses what was recorded, nothing that it uses afterwards is recorded for it, and its load ends with an IndexError, whatever it does before and after.

**C113 What a failed refresh leaves can be made up for** (partial)
* Model: `Cascade`.  Theorems: `Props/CascadeRaise`.
* Proof: invariant over all outcomes; the refreshes take one item after the other from the set of those that may be out of date.
* Status and disagreements: C113_objects (objects have the configuration of their items after any history, whatever raised), C113_refresh_one (an item whose refresh returns is up to date, whatever was done before), C113_refresh_all (so is everything after all loaded items were refreshed in any order, those loaded meanwhile included), C113_others (what does not depend on a changed item stays up to date whatever raises), C113_reserved (an update with a reserved name raises without changing anything). As in C28, keys that a file assigns in some cases only may be missing. Counterexample: doing the operation that raised again returns without refreshing anything, since the value is there already; the dependents that were not reached stay as they were until they are refreshed themselves (C113_again_violated). Except in C113_objects, for items whose file does not read the item itself (see C28_itself_violated).

**C114 Each item has one config object of its own** (partial)
* Model: `Objects`.  Theorems: `Props/Objects`.
* Proof: one object per place as an invariant of the heap; every call is described by its effect on the places; simulation of the tree model.
* Status and disagreements: For paths that are not made of attribute names of managers or sections: C114_same_object (the same object after any history without a reset of the item; asking never fails once it succeeded), C114_own_object and C114_local_own (no two have the same object, also over time and with resets), C114_touch_seen (changes to the object by users are seen by all who ask, nothing else changes), C114_update_seen (updates by the manager change the object that everyone holds), C114_reset_new. C114_refines: the model with objects and the model as a tree, on which the theorems about histories of the config manager rest, give the same answers, errors included, for all histories of calls on such paths, whether they lead to something or not. C114_nothing_there, C114_other_names and C114_no_config: which error is raised where nothing can be found. Counterexamples: section.a is another path of the item a, but gives another object once a was used (C114_two_paths_violated); the config of a section is also at sub.config and sub.sub (C114_section_paths_violated); reset('section') loses all configs in a project without a config of its own (C114_reset_project_violated). C114_reset_section, C114_create and C114_create_keeps: resets of sections without config, and resets with creation, of missing and of present items; the latter say they updated but the item keeps its object (C114_create_violated). Missing: C114_refines leaves out resets with creation of sections without config.

## Axioms of the theorems

As printed by `#print axioms` for every theorem named in `MANIFEST.json`.

*Classical.choice, Quot.sound, propext* (488): C01_text_sections_round_trip, C02_join_concatenates, C03_absolute, C03_any_file, C03_folder_itself, C03_outside_files, C03_file_round_trip_py, C03_file_round_trip, C03_files_distinct, C04_endswith_exact, C04_endswith_suffix_partial, C04_endswith_suffix_violated, C05_denotes_unique, C05_from_ambiguous, C05_list_from_ambiguous, C07_would_update_iff_changes, C07_no_update_is_invisible, C09_announced_change_is_made, C10_inheritance_order_partial, C10_unreadable_file, C11_lookup_repeatable_partial, C12_runner_frame, C12_item_frame, C12_section_frame, C13_reset_partial, C13_unreadable_file, C13_reserved_name_violated, C14_local_update_violated, C15_edits_not_visible, C15_refresh_reads_file_partial, C16_bound_is_current_run_partial, C16_bound_is_current_partial, C16_bound_is_current_reset_partial, C16_run_is_current_partial, C17_class_partial, C17_update_create_partial, C18_only_accepted, C18_names_fixed_partial, C20_same_object, C20_created_once, C21_list_partial, C21_list_raises, C21_single, C21_one_entry_violated, C22_force_continue_partial, C22_interrupt, C22_single, C22_section_violated, C23_run_section_partial, C23_each_once_in_order_partial, C23_nesting_partial, C24_items_partial, C24_subsections, C24_mixed_value_error, C24_all_created, C25_access_partial, C25_history_partial, C25_after_failed_access, C25_failed_access_violated, C25_section_access_violated, C25_own_names, C25_own_name_violated, C27_sound, C27_only_uses, C28_consistent, C28_objects, C28_runner_partial, C28_runner_all_partial, C29_terminates, C29_records, C30_update_partial, C30_plugins_partial, C30_parameter_violated, C30_overlap_violated, C31_product, C31_members, C31_keys_partial, C31_section_paths, C31_same_runner, C31_views_never, C31_section_paths_base, C31_section_paths_no_base, C31_views_one_case, C31_views_violated, C31_mixed_violated, C32_results, C32_one_result_per_case, C32_own_manager, C32_defaults, C32_no_config_violated, C32_case_partial, C32_unknown_key_violated, C32_section_violated, C32_dict_violated, C32_second_run_violated, C32_applied, C33_active_partial, C33_state_partial, C33_section_violated, C34_rejected, C34_uncollected, C34_lazy_prefix, C34_lazy, C35_batch, C35_update_batch, C35_foreign_view_violated, C35_plugins, C35_reset, C36_reserved_violated, C37_succeeds_iff, C37_failure, C37_added, C37_others, C37_on_the_way, C37_kind, C38_kind, C38_general, C38_specific, C38_quote_needed, C38_section_in_list_violated, C38_general_succeeds_iff, C38_specific_succeeds_iff, C38_create, C39_found_partial, C39_kept_partial, C39_sections_partial, C39_succeeds_iff_partial, C40_names, C40_resolves, C41_always, C41_function_partial, C41_object_partial, C41_succeeds_iff, C41_import_text_violated, C41_parameter_lost_violated, C42_function_partial, C42_object_partial, C42_newline_violated, C42_blank_lines_violated, C42_grows_violated, C42_alternates_violated, C43_function_partial, C43_object_partial, C43_section, C43_comment_violated, C44_read_back, C44_renamed_violated, C44_two_names_violated, C45_kept, C45_only, C45_created, C45_again, C45_needed_partial, C45_succeeds_iff, C45_custom_violated, C45_empty_violated, C45_file_violated, C46_failed_exact, C46_session, C46_reload_partial, C47_path, C47_missing, C47_failed, C47_unfinished_violated, C47_dot_violated, C48_first, C48_unique_partial, C48_innermost_violated, C48_root_violated, C52_names_violated, C52_view_names_violated, C52_contains_partial, C52_unknown_violated, C52_methods_violated, C52_attributes, C52_same_path, C52_under, C52_registered_partial, C52_shadow_violated, C53_named_like_section_violated, C53_reserved_name_violated, C54_additional_paths, C54_additional_results, C54_in_place_violated, C54_list_violated, C55_any, C55_auto_pdb, C58_renamed_violated, C58_imported_name, C59_required_violated, C59_config_partial, C60_succeeds_iff, C60_binds, C60_assigned_violated, C60_builtin_violated, C61_denoted_partial, C61_one_definition, C61_config_partial, C61_class_partial, C61_nested_violated, C61_rebound_violated, C61_relative_violated, C61_local_violated, C62_found, C62_found_iff, C62_gives_partial, C62_alias_violated, C62_other_object_violated, C62_skipped, C62_main_violated, C62_raising_violated, C64_frame, C64_items, C64_failure, C64_succeeds_iff, C64_again, C64_other_value_error, C64_section_violated, C64_same_name_violated, C65_rejected, C65_incomplete, C65_changed, C65_loaded, C65_frame, C65_late_violated, C66_rejected, C66_created, C66_complete_partial, C66_failure_partial, C66_unloaded_violated, C66_scaffold_violated, C66_body_violated, C67_set, C67_config, C67_read_partial, C67_reading, C67_new_key_violated, C67_function_violated, C67_inherited_violated, C67_own_names_violated, C67_view_names_violated, C67_set_names, C68_failure, C68_function, C68_object, C68_method_partial, C68_same_class_violated, C68_other_manager_violated, C68_subclass_violated, C68_general_class_violated, C68_section_violated, C68_attributes_refine, C68_attributes, C68_attribute_object, C68_attribute_failure, C68_static_method_violated, C68_general_method_violated, C69_none_or_several, C69_sound, C69_attribute_violated, C69_specific_violated, C70_loaded, C70_loads, C70_assigned_partial, C70_error, C70_chained_violated, C70_import_violated, C70_passed_violated, C70_left_out_violated, C71_sound_partial, C71_error_partial, C72_nested_violated, C72_no_name, C72_item_partial, C72_section_violated, C72_section_folder_violated, C73_failed, C73_unchanged_partial, C74_active_partial, C74_object_partial, C74_created_violated, C74_new_key_violated, C75_same_runner_partial, C76_file_partial, C76_succeeds_iff, C76_selector_partial, C76_selector_violated, C76_twice_partial, C76_lines_partial, C76_parameter_violated, C76_attribute_violated, C76_repeated_violated, C76_tuple_violated, C76_end_violated, C76_import_kind, C76_assignment_kind, C77_created_violated, C78_existing_violated, C79_reserved_violated, C79_manager_violated, C79_usable_partial, C79_edited_partial, C79_loads, C79_ignored_violated, C80_reserved_violated, C80_manager_violated, C80_usable_partial, C80_stale_violated, C81_run_partial, C81_item_partial, C81_view_violated, C81_argument_violated, C81_result_violated, C82_string, C82_arguments_partial, C82_quote_violated, C82_call_partial, C82_specific_partial, C82_self_violated, C82_stale_violated, C83_made, C83_accepted_iff, C83_found_partial, C83_none_violated, C83_init_violated, C84_now, C84_same_partial, C84_reloaded, C84_destroyed, C84_reload_violated, C84_new_violated, C84_reset_violated, C85_class_partial, C85_missing, C85_function_violated, C85_section_violated, C85_root_violated, C85_in_section_violated, C86_item, C86_item_usable_partial, C86_function_violated, C86_class_violated, C86_section, C86_usable_partial, C86_manager, C86_twice_violated, C86_unloaded_violated, C86_unlisted_violated, C86_selector, C86_methods_violated, C86_registrar_names, C87_not_loaded, C87_not_loaded_violated, C87_raises_partial, C87_top, C87_unknown, C87_broken_violated, C87_attribute, C88_unchanged, C88_update_violated, C88_refresh_violated, C88_reset_violated, C89_new, C89_same, C89_frame, C89_other_violated, C89_active_violated, C90_section_violated, C90_consistent, C90_other_violated, C91_class_partial, C91_self_violated, C91_object_partial, C91_self_name_violated, C91_config_exact, C91_called_partial, C91_shadow_violated, C91_selector_name_violated, C91_renamed_violated, C91_pipeline_name_violated, C92_applied_partial, C92_in_place_raises, C92_in_place, C92_apart_partial, C92_reused_violated, C92_raised_violated, C93_managers_partial, C94_definitions, C94_works, C94_again, C94_first, C94_unloaded, C94_whole, C94_mixed_violated, C94_created_violated, C94_plain, C94_section_violated, C95_again_partial, C95_after_partial, C95_skipped, C95_failed_violated, C95_stay_violated, C95_new_violated, C95_raises_violated, C96_reset, C96_store_partial, C96_store_all_partial, C97_found, C97_other_violated, C97_output_violated, C98_lasts_partial, C98_given_partial, C98_seen_partial, C99_own_history, C99_any_order, C99_swap, C100_twice, C100_same_result, C100_returns, C101_determined_partial, C101_project_partial, C101_swap_partial, C101_last_word_partial, C101_same_state_partial, C101_same_object_partial, C101_same_class_object_partial, C101_calls_partial, C101_configs_partial, C101_own_calls_partial, C101_section_same_state_partial, C101_section_partial, C101_section_recorded_violated, C101_swaps_partial, C101_swaps_answers_partial, C103_debugged_partial, C103_succeeds, C103_off, C103_returning, C103_argument_violated, C103_not_callable_violated, C104_values_partial, C104_raises, C104_first_violated, C104_absent_violated, C104_other_violated, C104_reload_violated, C106_case_partial, C106_other_items_violated, C106_no_cases_violated, C106_left_out_violated, C107_before_partial, C107_after_partial, C107_local, C108_cases_partial, C108_cases_there_partial, C109_tag_partial, C109_get_partial, C109_lasting_partial, C109_distinct_partial, C109_view_partial, C109_functions_partial, C109_kind_partial, C109_no_call, C109_alias_violated, C109_shared_violated, C109_again_violated, C109_slots_violated, C109_manager_violated, C110_arguments_partial, C110_as_new_partial, C111_current_partial, C112_only, C112_manager_violated, C112_inner_violated, C112_reset_nothing, C113_others, C114_same_object, C114_own_object, C114_local_own, C114_touch_seen, C114_update_seen, C114_reset_new, C114_reset_section, C114_create, C114_create_keeps, C114_refines, C114_nothing_there, C114_no_config

*Quot.sound, propext* (201): C06_update_changes_named_keys, C07_would_update_iff_visible, C08_refresh_after_any_history, C08_refresh_idempotent, C10_empty_config_violated, C11_lookup_stores_inherited_violated, C11_section_lookup_violated, C13_extra_key_survives_violated, C13_section_reset_violated, C15_added_key_violated, C16_run_violated, C16_reset_violated, C17_class_inherited_violated, C17_class_raises_violated, C17_inherited_violated, C17_new_key_violated, C18_class_names_violated, C19_configured_bound_partial, C19_keyword_only_violated, C23_class_in_section_violated, C23_class_first_violated, C24_attribute_value_error, C24_mixed_raises, C24_class_in_section_violated, C26_balanced, C26_innermost, C26_outcome, C27_kept, C28_new_key_violated, C28_itself_violated, C28_circle, C29_guard_unreachable, C31_missing_path, C31_plugins, C31_keys_error, C31_no_path, C36_found_partial, C36_lookup_partial, C36_list_in_list_violated, C36_leaf_violated, C36_names_partial, C39_failure_partial, C41_kind, C44_again, C44_provided_partial, C46_failed, C46_returned, C46_reload, C46_stuck, C46_interrupt_violated, C46_nested_violated, C46_deleted_violated, C47_latest, C49_reset, C49_reset_default, C49_exit_default, C49_restores_iff_violated, C49_reset_stops_violated, C49_assign_violated, C50_set_partial, C50_one_folder_partial, C50_twice_violated, C50_stuck_violated, C50_uncreated_violated, C51_logged, C51_raises_violated, C52_selector, C52_unloaded_error, C52_unloaded_violated, C53_own_file_partial, C53_read_on_use, C53_section_partial, C53_section_ignored_violated, C56_used_items_partial, C56_nested_partial, C57_attribute_partial, C58_found_iff, C58_binds, C58_same_partial, C59_defaults_partial, C59_posonly_violated, C59_self_violated, C59_required_error, C59_annotations, C60_kind, C61_unreadable_violated, C61_modules_violated, C63_name_partial, C68_run, C69_once_partial, C69_chained_violated, C69_annotated_violated, C72_project_section, C73_object_violated, C73_parameter_d_violated, C73_dependents_violated, C73_announced_violated, C74_no_config_violated, C75_values_partial, C75_no_views_violated, C75_not_recorded_violated, C75_view_violated, C76_wished, C77_reset_partial, C77_frame, C77_gone, C77_failed, C77_configured_violated, C78_new_partial, C78_refused, C78_below_item, C78_reserved_violated, C78_object_violated, C83_renamed_violated, C84_unloaded_error, C88_comparable_partial, C88_raises, C90_get, C90_unused_partial, C90_update_violated, C92_values, C93_applied_partial, C93_anywhere_partial, C93_plain, C93_lists, C93_returned_violated, C93_post_violated, C94_reset, C96_isolated, C96_seen_violated, C96_unseen_violated, C96_unknown, C96_self_violated, C96_section_violated, C96_store_start_partial, C97_registered, C97_plain_partial, C97_section_violated, C97_asked_violated, C97_unnamed_violated, C97_computed_violated, C97_nameless_violated, C97_section_name, C98_project_partial, C98_project_violated, C98_same_violated, C98_again_violated, C98_inherited_violated, C101_project_violated, C101_new_key_violated, C101_recorded_violated, C101_object_violated, C101_refused_violated, C101_lookup_violated, C102_only_dependents, C102_get, C105_nested_partial, C105_lookup, C105_own_name_violated, C107_only_told, C107_not_created_violated, C107_failed_violated, C107_rejected_violated, C107_path, C107_update_any, C107_new_partial, C107_section_violated, C108_start, C108_order, C108_removed_partial, C108_other_hooks_partial, C108_there_partial, C108_twice, C108_batch_partial, C108_changed_partial, C108_batch_there_partial, C108_batch_reset, C108_name_violated, C108_other_name_violated, C110_run_violated, C110_raises_violated, C110_section_violated, C111_arguments_partial, C111_half_violated, C111_cache_violated, C111_method_violated, C111_state_violated, C111_extra_violated, C112_views_partial, C112_lasting_partial, C112_reset_violated, C113_objects, C113_refresh_all, C113_refresh_one, C113_reserved, C113_again_violated, C114_other_names, C114_two_paths_violated, C114_section_paths_violated, C114_reset_project_violated, C114_create_violated

*Quot.sound* (2): C26_reset_inside, C51_wrapped_partial

*none* (14): C26_reset_inside_outer, C44_relative_violated, C50_settings_violated, C51_returns, C51_no_exceptions, C51_nests_violated, C92_in_place_total, C93_raised, C93_read_violated, C93_removed_violated, C105_unnamed_violated, C108_reset, C108_again_violated, C108_reset_violated

*propext* (44): C27_reset, C39_shadow_violated, C39_reserved_violated, C44_kept, C46_lazy_violated, C49_names, C49_set_only, C49_set_value, C50_add_handler, C51_written, C51_caught, C52_equal, C53_names_partial, C53_names_violated, C53_load_fails, C56_get_again_violated, C56_failed_run_violated, C57_attribute_violated, C58_first_violated, C61_async_violated, C61_two_violated, C61_inherited_violated, C63_registered_name, C63_module_violated, C63_attribute_violated, C63_call_violated, C63_several_violated, C63_twice_violated, C69_unpacked_violated, C69_nested_violated, C69_call_violated, C71_found, C71_disk, C71_missing, C71_no_package_violated, C71_main_violated, C71_missing_parent, C83_kind, C103_validated, C105_reserved_violated, C111_like_new_partial, C111_first_partial, C111_rest_partial, C111_base

# Formal model of edulint: design

Subject: `GiraffeReversed/edulint` at the pinned commit in `/repo` (Python).  The code was read as text;
it was neither built nor run.

## Method

* The model is written in Lean 4 (4.33.0).  Every Python function that takes part in a property is
  transcribed as a small total function, branch by branch.  Exceptions are values (`Except PyErr α`,
  or an explicit constructor), loops are folds or structural recursion, recursion that may diverge
  carries fuel and the theorem says what happens for every amount of fuel.
* Python strings are `List Char` (`Str`).  Dictionaries are association lists or functions.  Sets whose
  iteration order matters are lists; theorems then quantify over every order.
* Each definition carries a comment with the file and lines of `/repo` it mirrors, and its simplifications.
* Specifications live beside the theorems, not in the model: the statement of a theorem mentions the
  modelled entry point and a small independent specification.
* Every property theorem has an `example` with a concrete, non-trivial instance of its hypotheses.
* If a property is false of the code, the file proves the negation on a concrete witness
  (`…_counterexample`) and a `…_partial` theorem with the hypothesis the code forces.  The disagreement is
  listed in section "Disagreements between code and property".

## Layout

* `Verif/Base/…`    – strings, list and dictionary helpers.
* `Verif/Model/…`   – the transcription of the code.
* `Verif/Lemmas/…`  – auxiliary lemmas.
* `Verif/Props/…`   – the property theorems, one file per area.

The model files and what they transcribe (all paths below `edulint/`):

| model | code |
|---|---|
| `Options` | `options.py`, `option_parses.py`, `linters.py` |
| `Config`, `ConfigParse`, `ConfigMany` | `config/config.py`, `config/arg.py`, `config/utils.py`, `config/option_sets.py`, `config/file_config.py`, `config/language_translations.py` |
| `Paths`, `Linting`, `Problem` | `linting/linting.py`, `linting/problem.py`, `linting/overrides.py`, `edulint.py`, `__main__.py` |
| `Report` | `linting/nonparsing_checkers.py` |
| `Tweakers`, `Regex` | `linting/tweakers.py` and the regular expressions used there |
| `Translate`, `Help` | `config/language_translations.py`, `linting/linting.py`, `edulint.py` |
| `HttpCache`, `Versions`, `Explanations` | `config/file_config.py`, `versions/*.py`, `explanations.py` |
| `Expr` | Python expressions: trees, meaning, text (what `as_string` writes) and grammar |
| `ConstValue`, `PyInt` | `linting/analyses/utils.py` (`get_const_value`, `get_range_params`); Python's integers, strings and ranges |
| `LocalDefects`, `InRange`, `Negation` | `linting/checkers/local_defects.py`, `linting/analyses/utils.py` (`is_negation`) |
| `Repetition` | `linting/checkers/duplication/utils.py`, `linting/checkers/duplication/duplicate_sequence.py`, `linting/checkers/old_duplication_checker.py` (`duplicate_if_branches`) |
| `Cfg` | `linting/analyses/cfg/graph.py` (traversals) |
| `Reaching` | `linting/analyses/data_dependency.py` (`collect_reaching_definitions`) |
| `Antiunify` | `linting/analyses/antiunify.py` |
| `Types` | `linting/analyses/types.py` |
| `Z3` | `linting/analyses/z3_analysis.py` |
| `Z3Block` | `linting/analyses/z3_block_analysis.py`, `linting/checkers/unsuited_loop.py` (infinite loops) |
| `MergeIfs` | `linting/checkers/simplifiable_if.py` (consecutive `if`s) |
| `Loops` | `linting/checkers/unsuited_loop.py` (tighter bounds, `while True`) |
| `Elif` | `linting/checkers/simplifiable_if.py` (redundant conditions in `if`/`elif`) |
| `Flow`, `FlowUse`, `FlowCheck` | `linting/analyses/cfg/visitor.py`, `linting/analyses/cfg/graph.py`, `linting/checkers/python_ta_checkers.py` (one iteration) |
| `FlowRun` | executions of programs, as far as control flow goes (specification) |
| `SimpleIf` | `linting/checkers/simplifiable_if.py` (suggestions for single conditionals) |
| `Traverse`, `TraverseFlow` | `linting/analyses/cfg/utils.py` (traversals of the graph) |
| `Changed` | `linting/analyses/data_dependency.py` (changes between locations) |
| `Inside`, `Modified` | `linting/analyses/cfg/utils.py` (locations in statements), `linting/analyses/data_dependency.py` (`modified_in`) |
| `Uses` | `linting/analyses/data_dependency.py` (variables defined before statements and used after them; the graphs of a file together) |
| `Occurs` | where statements are in a program (specification) |
| `CommonBranches` | `linting/checkers/duplication/duplicate_if.py` (identical branches, `if`s and `elif`s, untwisting) and what `if`s do |
| `BoolOps` | `linting/checkers/simplifiable_if.py` (comparisons joined by `and` and `or`), `linting/analyses/utils.py` (`is_pure_expression`) |
| `BoolParts` | `linting/checkers/simplifiable_if.py` (redundant parts of conditions) |
| `LocalOps` | `linting/checkers/local_defects.py` (arithmetic, augmented assignment, `is`, `extend`, division, multiplied lists) |
| `Statements` | `linting/analyses/utils.py` (`get_statements_count`), `linting/checkers/basic_checker.py` (long code), `linting/checkers/local_defects.py` (returning early) |
| `CallGraph` | `linting/analyses/data_dependency.py` (`has_just_recursive_calls`, `get_uncalled_functions`, `collect_events_in_called`) |
| `Scope` | `linting/analyses/variable_scope.py` |
| `ScopePy` | Python's rules for naming and binding (specification), and the programs for which C75 is proved |
| `ForEach` | `linting/checkers/unsuited_loop.py` (`_check_improve_for_loop`), `linting/analyses/variable_scope.py` (events of a variable) |
| `UseFor` | `linting/checkers/unsuited_loop.py` (`_check_use_for_loop`) |
| `LoopVars` | `linting/checkers/unsuited_loop.py` (`_check_modifying_iterable`, `_check_control_variable_changes`) |
| `LoopMerge` | `linting/checkers/duplication/duplicate_sequence.py` (`get_fixed_by_merging_with_parent_loop`, `similar_to_loop` for it) |
| `Candidates` | `linting/checkers/duplication/checker.py` (`get_similar_to_block_candidates`, `is_any_similar_to_block`, `visit_module`), `is_duplication_candidate` |
| `Events` | `linting/analyses/variable_scope.py` (`VarEventListener` within one scope), `strip_to_name` |
| `Extract` | `linting/checkers/duplication/duplicate_block.py` (`get_fixed_by_function`, `similar_to_function`), `linting/analyses/utils.py` (numbers of tokens and of statements) |
| `CallInstead` | `linting/checkers/duplication/duplicate_block.py` (`similar_to_call`) |
| `Mutability` | `linting/analyses/mutability.py` |
| `GlobalVars` | `linting/checkers/basic_checker.py` (`NoGlobalVars`) |
| `IfContainer` | `linting/checkers/duplication/duplicate_if.py` (`get_fixed_by_container`) |
| `SimilarIf` | `linting/checkers/duplication/duplicate_if.py` (`get_fixed_by_if_to_use`, `get_fixed_by_ternary`, `get_fixed_by_moving_if`, `get_fixed_by_vars`) |
| `IfAttempts` | `linting/checkers/duplication/duplicate_if.py` (`duplicate_in_if`) |
| `ConfigPaths` | `config/file_config.py` (`get_path_relative_to`, `load_toml_file` and what it calls) |
| `Assigned` | `linting/analyses/data_dependency.py` (`get_assigned_expressions`) |
| `Requirements` | `linting/checkers/*.py` (`only_required_for_messages`, `is_message_enabled`, `msgs`) |
| `PythonTa` | `linting/checkers/python_ta_checkers.py` (all but `one-iteration`) |
| `Parts` | `linting/analyses/data_dependency.py` (`get_events_for`, `get_events_in`, `_get_matching_superpart`, `filter_events_for`) |
| `SeqIfs` | `linting/checkers/old_duplication_checker.py` (`duplicate_seq_ifs`) |
| `DupBlocks` | `linting/checkers/old_duplication_checker.py` (`duplicate_blocks`) |
| `DupSequence` | `linting/checkers/old_duplication_checker.py` (`duplicate_sequence`) |
| `DupExprs` | `linting/checkers/old_duplication_checker.py` (`DuplicateExprVisitor`, `duplicate_exprs`) |
| `IterUse` | `linting/checkers/duplication/duplicate_sequence.py` (`iter_use_from_partition`, `to_iter_use`, `from_chars`) |
| `ElifWhole` | `linting/checkers/simplifiable_if.py` (`_check_elif_instead_of_else`, `_test_pureness_and_initialize_variables_for_if`, `_check_for_redundant_condition_part_in_if`) |
| `MadeUp` | `linting/analyses/data_dependency.py` (`make_up_calls`) |
| `MadeUpFile` | `linting/analyses/data_dependency.py` (`collect_reaching_definitions` with made-up calls, for files with statements) |
| `DefsAt` | `linting/analyses/data_dependency.py` (`get_defs_at`) |
| `Json` | `edulint.py` (`to_json`, `print_message_explanations` with `--json`), `linting/problem.py` |
| `CollectBlocks` | `linting/checkers/old_duplication_checker.py` (`CollectBlocksVisitor`, `duplicate_blocks` and `duplicate_sequence` for files), `linting/analyses/utils.py` (`BaseVisitor`, `is_main_block`) |
| `MergeVars` | `linting/analyses/antiunify.py` (`vars_can_be_merged`, `merge_indistinguishable_vars`), `linting/analyses/data_dependency.py` (`scope_is_nested`, `scopes_are_nested`), `linting/analyses/var_events.py` (`Variable`) |
| `Purity` | `linting/analyses/utils.py` (`is_pure_expression`, `is_pure_builtin`, `is_builtin`) for all kinds of expressions |
| `VersionChoice` | `versions/pypi_helper.py` (`_only_last_patch_of_each_minor` and the main block), `versions/utils.py` |
| `EventStore` | `linting/analyses/var_events.py` (`VarEvents`), `linting/analyses/data_dependency.py` (`vars_in`, `name_to_var`) |
| `Streams` | `linting/linting.py` (the streams of `lint_flake8` and `lint_pylint`) |
| `UniqueAvars` | `linting/checkers/duplication/utils.py` (`get_unique_avars`, `to_node`), `linting/checkers/duplication/duplicate_if.py` (`get_fixed_by_vars`) |
| `CommonParent` | `linting/checkers/duplication/utils.py` (`to_parent`, `get_common_parent`), `linting/checkers/duplication/duplicate_if.py` (`core_contains_other_duplication`) |
| `RepeatLoop` | `linting/checkers/duplication/duplicate_sequence.py` (`to_iter_use`, `consolidate_ranges`, `get_nice_iters`, `get_fixed_by_loop`, `similar_to_loop`), `linting/checkers/duplication/checker.py` (`is_similar_to_loop`) |
| `Process` | `linting/process_handler.py`, `linting/linting.py` (`lint_in_subprocess`) |
| `Layout` | `linting/checkers/local_defects.py` (`_check_else_if`, `_check_loop_else`) |
| `ConfigOne` | `config/config.py` (`get_config_one`) |
| `StmtNodes` | `linting/analyses/cfg/utils.py` (`get_stmt_locs`), `linting/checkers/duplication/checker.py` (`get_statement_nodes`) |
| `Analyses` | `linting/analyses/patcher.py` (`run_analyses`), `linting/analyses/variable_scope.py` (what is visited, and in which order), `linting/analyses/utils.py` (`requires_data_dependency_analysis`) |
| `Consistent` | `linting/checkers/duplication/duplicate_if.py` (`is_one_of_parents_ifs`) |
| `LoopExit` | `linting/analyses/utils.py` (`condition_met_in_ast`, `is_exit_call`, `is_in_try_block`), `linting/checkers/unsuited_loop.py` (which loops are looked at) |
| `CommandLine` | `edulint.py` (`setup_argparse`, `main`) and the part of Python's `argparse` that it needs |
| `CompileExpls` | `prepare_explanations` (`combine_sources`, conversion of the data of Pylint and Thonny) |
| `Patch` | `linting/analyses/patcher.py` (`patch_ast_transforms`, `register`), `linting/linting.py` (`lint_pylint` in `lint_many`) |
| `SetParents` | `linting/analyses/antiunify.py` (`set_parents` in `Antiunify`) |
| `Repr` | `linting/problem.py` (`has_value`, `__repr__`) |
| `SatCondition` | `linting/analyses/z3_analysis.py` (`sat_condition`) |
| `IndexLoop` | `linting/checkers/unsuited_loop.py` (`is_for_range_len`, the beginning of `_check_improve_for_loop`), `linting/analyses/var_events.py` (`strip_to_name`) |
| `UpdateCheck` | `edulint.py` (`check_for_updates`, `_update_check`) |
| `RaiseTo` | `linting/analyses/cfg/visitor.py` (`_extract_exceptions`, `_get_raise_exc`, boundaries of `try`) |

`Props/Small.lean` has no property of its own: it pins small definitions of several modules by examples, where a wrong
edit of the definition was not noticed by any theorem. `Props/Semantics.lean` has none either: it compares the models of
what programs do (`SimilarIf`, `FlowRun`, `CommonBranches`, `Loops`, `Expr`, `PyInt`, `Z3Block`) with the Python language reference, by examples
and by one law for each kind of statement.

## Trusted base

* Lean's kernel and the axioms `propext`, `Classical.choice`, `Quot.sound`.  No other axiom is used,
  no `sorry`, no `native_decide`, no `bv_decide`.
* The transcription itself (that a definition mirrors the cited lines).
* Not modelled, taken as parameters: CPython, `shlex`, `tomli`, `json`, the regular expression engine (where a
  regular expression is used its language is transcribed by hand), the file system (an abstract tree), the
  network (an arbitrary oracle), the clock (an arbitrary sequence of times), flake8, pylint, astroid and z3.
* Expressions (`Verif/Model/Expr.lean`): that astroid's trees and `as_string` correspond to `Expr` and `Expr.text`, that
  `Reads` is Python's grammar of expressions.  That a text has at most one reading is proved (`Reads.unique` in
  `Verif/Lemmas/Parse.lean`), so `ReadsAs` determines what a suggestion means.  Calls, attributes and operators are functions of their operands (expressions with side effects are outside of the model) and can
  raise.  `intSem` fixes the meaning of Python's integers, one-character strings and ranges; everything else is an
  arbitrary parameter, so the theorems hold whatever other values do.
* Comparing texts of nodes is modelled as comparing trees.
* The solver (`Verif/Model/Z3.lean`): `Term.eval` is the meaning SMT-LIB gives to the terms that are built (Euclidean
  division, an arbitrary value for division by zero), and the solver answers `unsat` only for terms that are false for
  all integers.  Real variables and divisions `/` have no meaning in the model, so nothing is proved about them.
* Branches (`Verif/Model/Elif.lean`): the solver is any function that says which conditions imply which; a test has a truth
  value (no exception is raised by it), and its translation the same one.  A condition `None` given to the solver is an
  exception, as `z3` checks its arguments.
* Branches in common (`Verif/Model/CommonBranches.lean`): conditions and statements other than `if` are arbitrary; statements are
  compared as trees.  Of C89, that a common core of both branches is found is not modelled.
* Conditionals (`Verif/Model/SimpleIf.lean`): `<negated …>` in a suggestion stands for any way to write the negation, with the
  brackets it needs; the suggested value is compared with the original one by truth value only.
* Conditions joined by `and` and `or` (`Verif/Model/BoolOps.lean`): numbers are rational (neither infinite nor `nan`, and without rounding);
  which functions `astroid` infers to be pure ones of Python is arbitrary; calls have neither keywords nor stars.
* Redundant parts of conditions (`Verif/Model/BoolParts.lean`): the solver is any function that is right if it says that a term is not
  satisfiable. Suggestions are texts as in `Verif/Model/Expr.lean`; `astroid` writes an `and` within an `and` without brackets, the model
  with.
* Local defects (`Verif/Model/LocalOps.lean`): as for constants, what operators do is arbitrary; where theorems speak of numbers, these are
  rational. Guessed types are any function of expressions. Texts of expressions are compared as trees.
* Statements (`Verif/Model/Statements.lean`): statements that are neither `if`s nor jumps may do anything. The grammar's rule that blocks are
  not empty is only used where it is named. That `visit_functiondef` is not called for `async def` (`pylint` calls methods by the name of the
  class) is not modelled.
* Calls (`Verif/Model/CallGraph.lean`): which node calls which is given; the order of sets is arbitrary.
* Control flow (`Verif/Model/FlowRun.lean`): executions are sequences of locations; tests and iterated expressions may have any
  value, which locations raise which exceptions and which clauses catch them is arbitrary.  `with` does not suppress
  exceptions, and a location is executed as a whole.  With `asks`, the target of a `for` stands for asking for the next
  element, so it is executed once more when there is none; without it, it stands for the assignment only.
* Loops over indices (`Verif/Model/ForEach.lean`, `Verif/Props/ForEachRun.lean`): objects, operations and states are arbitrary; that no other object leads to the
  list is a premise. Expressions have neither functions and comprehensions nor assignments in them; of the structures iterated over, only variables
  are modelled.
* While loops that count (`Verif/Model/UseFor.lean`): what an assignment is, is given; constants are integers or texts. Functions and classes in the loop are not
  explored, which could only make the check report less. Whether a use is in the loop is decided by its location.
* Loops and their variables (`Verif/Model/LoopVars.lean`): which events are modifications by methods and which nodes are targets of loops is given.
* Repetitions in loops (`Verif/Model/LoopMerge.lean`): the numbers of tokens and statements and the number of places where the parts differ are given; that parts that differ nowhere are equal is a premise of the theorem, while antiunification also ignores names that are renamed consistently.
* Blocks that are compared (`Verif/Model/Candidates.lean`): which statements are skipped, the lines of statements, and the answers of the checks for loops, `if`s and similarity are given; the list of all statements is given as sorted, with each statement once.
* Events (`Verif/Model/Events.lean`): the order of children of a node is that of `get_children`, for `x := e` with the target first; calls do nothing with variables but what a method does with its object.
* New functions (`Verif/Model/Extract.lean`): `0.8 * n` is compared as a fraction; variables that are defined before or used after and statements that leave a block are given; trees are shapes.
* Calls (`Verif/Model/CallInstead.lean`): what anti-unification gives is given, and so are the definitions that reach a block, the variables defined before and used after, and the numbers of tokens and statements.
* Modification (`Verif/Model/Mutability.lean`): guessed types are given, and so are the variables that statements assign to or modify and the definitions of names that are called. A name without a definition is one of Python's own functions, which change nothing.
* Global variables (`Verif/Model/GlobalVars.lean`): the locations are given in the order in which they are reached, and the events of variables at each, with whether the scope around is the module.
* Ifs and containers (`Verif/Model/IfContainer.lean`): what anti-unification gives is given, and so are the numbers of tokens and statements. Objects are equal to at most one constant, or to an integer and a truth value; they can be hashed.
* Similar branches (`Verif/Model/SimilarIf.lean`): what anti-unification gives is given, and so are the numbers of tokens and statements. Programs have assignments, expressions, `return`, `break`, `continue`, `if`, `while`, `for` and `try` with one handler. Values are not modified, variables are defined. Functions and iterators do anything to the state. Whether a variable changes before a hole is computed on the program, with all paths and exceptions in every expression, and not on the control-flow graph (see C84 for that).
* Order of attempts (`Verif/Model/IfAttempts.lean`): what attempts find is given, see C85–C89 and C121–C125 for that.
* Paths of configuration files (`Verif/Model/ConfigPaths.lean`): `os.path` of POSIX; symbolic links are not followed, as `abspath` does not. What the parser of TOML raises besides `TOMLDecodeError` is not caught.
* Assigned expressions (`Verif/Model/Assigned.lean`): what one definition yields; which definitions reach a use is given. Starred targets get no value in the specification.
* Required messages (`Verif/Model/Requirements.lean`): the messages that each check may add are tables that were read off the code; what checks find is any function. pylint's `is_message_enabled` and walker are modelled from their documentation.
* PythonTA's checkers (`Verif/Model/PythonTa.lean`): the variables of scopes (`frame().locals` of astroid) are given. The docstring of a module is not in its body.
* Parts of variables (`Verif/Model/Parts.lean`): statements are expressions that assign to no variable; the order of variables in a set is ignored. A name that is in the slice of a subscript is not told apart from one that is in its value only if both have the same variables, which is not modelled.
* Sequences of ifs (`Verif/Model/SeqIfs.lean`): a block is a list of chains of branches and of other statements; bodies are compared as a whole.
* Duplicate blocks (`Verif/Model/DupBlocks.lean`): nodes as what is compared of them and children; no class is a subclass of another one; blocks are given in order of lines.
* Sequences of subblocks (`Verif/Model/DupSequence.lean`): nodes as what is compared and not, and children; no class and no type is a subclass of another one (`bool` of `int`); numbers are integers.
* Repeated expressions (`Verif/Model/DupExprs.lean`): nodes as kinds, labels and children; the text is a function of them.
* Ranges for expressions (`Verif/Model/IterUse.lean`): integer constants, names, subscripts and operations; what the code builds as the use is not shown to users and is not modelled.
* Parts of `if` statements (`Verif/Model/ElifWhole.lean`): purity, initialization of variables and `is_negation` are given for each test.
* Functions that nothing calls (`Verif/Model/MadeUp.lean`): which functions these are (C107), scopes of blocks and of variables are given; links by `redefines`, which are only drawn, are not modelled.
* Definitions at a node (`Verif/Model/DefsAt.lean`): whether locations have calls, uses of functions, ends of scopes and which scopes are nested are given; the depth of the recursion is bounded by a number that is a parameter (theorems are for all of them).
* JSON output (`Verif/Model/Json.lean`): how `json.dumps` and the schema of `dataclasses_json` and `marshmallow` write is modelled from their documentation (ASCII only, order of attributes as declared); paths with bytes that are not UTF-8 (lone surrogates) are not modelled.
* Blocks of files (`Verif/Model/CollectBlocks.lean`): that `accept` of `astroid` calls the method for the class of the node, and the classes of statements; asynchronous ones are classes of their own.
* Merged variables (`Verif/Model/MergeVars.lean`): which variables have a value before or are used after a fragment and the variable of a placeholder are parameters; the programs of C143 have assignments of integers, branches and loops, and differ in variables only, not in other expressions.
* Purity (`Verif/Model/Purity.lean`): what `safe_infer` of pylint finds for a function and which names are variables are parameters; that a name that is no variable is inferred as the function of that name is a hypothesis of `C144_silent_partial`.
* Versions (`Verif/Model/VersionChoice.lean`): that `<=` of `packaging.version.Version` is a total order up to equality; that `dataclass` makes an `__eq__` that compares the fields of the class itself, and `lru_cache` hashes arguments.
* Stores of events (`Verif/Model/EventStore.lean`): that a `defaultdict` adds a key at its end when it is asked for; which locations `syntactic_children_locs` yields is C90's, and which nodes are inside of another one is a parameter.
* Streams (`Verif/Model/Streams.lean`): that flake8's formatter prints and pylint's JSON reporter writes to its own stream only; that linters do not replace `sys.stdout` and `sys.stderr` themselves.
* Placeholders (`Verif/Model/UniqueAvars.lean`, `CommonParent.lean`): equality of Python values, of which numbers are given by type and value; that nodes are equal to themselves only; that statements of the core have no parent.
* Loops instead of repetitions (`Verif/Model/RepeatLoop.lean`): that the antiunification gives what the repetitions have in common (C31); numbers of tokens are given; places with one-character strings and with expressions are those of C137; that the repetitions follow each other without statements between them.
* Linters as processes (`Verif/Model/Process.lean`): what `Popen.communicate`, `wait`, `poll`, `terminate` and `kill` do, in time; that a killed process ends at once; the statuses of pylint and flake8 from their documentation. `lint_in_subprocess` is not called by the rest of the program at this commit.
* Layout (`Verif/Model/Layout.lean`): the trees and columns of `astroid` for `if`, `elif`, `else` and loops; that nodes of all other kinds have no messages of these checks.
* Ways out of loops (`Verif/Model/LoopExit.lean`): whether a call raises an exception is not known; only `raise` and `assert` are said to.
* Command line (`Verif/Model/CommandLine.lean`): the parsing of Python 3.11's `argparse` for the options and positional arguments of the commands is part of the model; its results were compared with those of `argparse` for a parser of this form on 3000 random lists of arguments. Arguments in front of the command and `-h` with more letters in the same argument are not modelled.
* Compiled explanations (`Verif/Model/CompileExpls.lean`): JSON and TOML files are taken to keep what is written to them, and ids to differ in each source, as they do in the data.
* Runs of Pylint in a process (`Verif/Model/Patch.lean`): that Pylint calls `register` of a plugin once for each `Run`, and that an analysis replaces all that an earlier one of the same tree has left.
* Parents in a core (`Verif/Model/SetParents.lean`): that the values of attributes are of the kinds that astroid has, where an attribute of a class is always a list or never (`Regular`), and that the constructors of nodes do not fail.
* `repr` (`Verif/Model/Repr.lean`): nothing apart from the types of attributes being those that are declared.
* `sat_condition` (`Verif/Model/SatCondition.lean`): the solver is an arbitrary function; that its answers are right, in integers, is an assumption of theorems.
* Loops over indices (`Verif/Model/IndexLoop.lean`): calls have no keywords; whether a number that is not an integer is equal to 0 or 1 is an arbitrary function; whether there is a variable at a name is one of names.
* The check for updates (`Verif/Model/UpdateCheck.lean`): the thread is not modelled, nor the texts of the message besides the version; no other process changes the file between the two calls.
* Names of exceptions (`Verif/Model/RaiseTo.lean`): expressions are names, attributes, calls, tuples and constants; causes of exceptions are left out. What is raised by other statements than `raise` is not linked to clauses by name.

### Axioms

`#print axioms` of every theorem named in `MANIFEST.json` gives a subset of `propext`, `Classical.choice` and
`Quot.sound`.

## Plan per property
* **C01 Configuration source precedence** – Model `Config`, `_combine`, `to_immutable`; induction over option lists gives the last-wins law; composition over the three layers.
* **C02 Linter arguments accumulate in order** – Same model; induction gives the concatenation law for extending options.
* **C03 Layering is associative with the empty configuration neutral** – Algebraic laws of `combine` up to effective configuration.
* **C04 Enabling a group equals writing its arguments at that place** – Model `_translate`; induction over the option list.
* **C05 Enable/disable resolution preserves pylint's left-to-right meaning** – Model `_resolve_enable_disable_all`; independent left-to-right interpreter of pylint arguments as specification.
* **C06 Pylint arguments reach pylint verbatim** – False (arguments are lower-cased): counterexample, and partial theorem for arguments already in lower case.
* **C07 Effective configuration is total and canonical** – Canonicity of `to_immutable`.
* **C08 Every file is linted exactly once, under its own configuration** – File tree model; induction over trees for the directory collapse.
* **C09 Linting a file does not depend on the other files in the run** – False in two ways (grouping key computed before groups are expanded; translations leak through the language file cache): counterexamples, partial theorem under the forced hypothesis.
* **C10 Configuration file chains always resolve** – Fuel model of `parse_config_file`; acyclic chains resolve; cyclic chains diverge (counterexample: no fuel suffices).
* **C11 Option names round-trip** – Decision over the finite option table lifted to all strings.
* **C12 Command line can switch in-file configuration off** – Non-interference of `get_config_many` in file contents.
* **C13 The nearest implicit configuration file is used** – False (a string is compared with a tuple): theorem that the search never succeeds, plus the partial statement.
* **C14 A configuration reference denotes exactly one source** – Classification function; agreement with documentation only partial.
* **C15 No option argument is silently dropped** – Model of `parse_option`/`parse_args`.
* **C16 Overriding is exact** – Model of `apply_overrides`.
* **C17 Overriding never silences a line completely** – Acyclicity of the override table lifted by a rank function.
* **C18 Output order is canonical** – Model of `sort` as stable sort by key.
* **C19 Sorting never fails** – False for non-normalised path spellings: counterexample and partial.
* **C20 Exit code tells the outcome** – Model of the control flow of `check_code`/`check_and_print`.
* **C21 Each problem is printed once, under its file's header** – Model of the printing loop; needs grouping by path.
* **C22 In-file configuration report is sound and complete** – Line scanner model.
* **C23 Help text wrapping loses nothing** – Model of the word wrap loop.
* **C24 Message translation only changes the text** – Model of `translate`. What is filled in is said by the documentation of format strings (`C24_format_next`, `C24_format_at`).
* **C25 Remote configuration cache serves only complete downloads** – Crash-point state machine of the cache; false at one crash point: counterexample and partial.
* **C26 Remote configuration cache limits requests** – State machine of the cache over timed histories.
* **C27 At most one version query per window** – State machine of the version checker over timed histories.
* **C28 An update is announced only if a newer release exists** – False when nothing is known about the latest version: counterexample and partial.
* **C29 Graph traversal visits exactly the reachable blocks** – The loop as a state machine with an invariant and a measure; the recursive traversals by induction over the depth of the recursion.
* **C30 Reaching definitions are exact** – Worklist fixpoint against path semantics: an invariant of the scan of a block, an invariant of the worklist (bits are sound; complete where nothing is queued) and a measure. False for variables that functions called give a value.
* **C31 Anti-unification is a generalisation** – Term model of astroid trees and of the merging of names; instantiating the placeholders, by induction over the recursion. False for `1`/`True`, attributes not compared, subclasses, merged names.
* **C61 Consistent anti-unification is a renaming** – Invariant of the loop of `get_merge_candidates`: placeholders sharing a name share all names.
* **C32 'Redundant elif' is reported only for real negations** – Expression semantics over ints/bools; false for chained comparisons and the mod-two rule: counterexamples and partial.
* **C33 Constant folding agrees with Python** – Big-step constant evaluation vs model of `get_const_value`; crash on `0 ** -1`: counterexample and partial.
* **C34 Iteration count message is exact** – Integer arithmetic.
* **C35 Suggested replacement of a range membership test is equivalent** – The suggested text is read by Python's grammar and evaluated; false for bounds that need parentheses: counterexample and partial.
* **C36 Suggested character arithmetic keeps the value** – As C35; false for subtraction and for characters that need escaping: counterexamples and partial.
* **C37 Suggested character comparison is equivalent** – As C35; false for characters that need escaping: counterexample and partial.
* **C38 Suggested loop range enumerates the repeated values** – `to_range_args` correct; `consolidate_ranges` false for negative steps: counterexample and partial.
* **C39 Repetition candidates split the block exactly** – List arithmetic.
* **C40 Repeated operation is reported only for equal operands** – False (`x + x + y`): counterexample and partial.
* **C41 Common parts of branches are really common** – Prefix/suffix exact; overlap possible: counterexample and partial.
* **C42 Type guesses cover the run-time type** – The types values have by the language reference (`HasTy`), by induction over expressions; false for several operators: counterexamples and partial. That guesses for variables are right is a hypothesis (`Names.Right`).
* **C43 Sets of types behave as sets** – Bit vectors over Nat against finite sets.
* **C44 Solver translation is faithful** – Expression semantics; false for `//` by negative constants: counterexample and partial. Partial for conditions over integers without it (`InScope`), and consequences for `unsat` and implications.
* **C45 Downloaded explanations are what is shown** – State machine; false (the distributed file is always read): counterexample and partial.
* **C46 Linter failures are never reported as a clean run** – Decision logic over exit codes.
* **C47 Option values are read as documented** – Case analysis over the option table, for all strings.
* **C48 Notations of a configuration file are interchangeable** – Model of reading a configuration file; false for `no-flake8`.
* **C49 Translations of the language file are preferred** – Model of the language file cache over the groups of a run; false for later groups.
* **C50–C54 Filters and rewordings** – Model of the tweakers with hand-written regular expressions; C54 is false for attributes.
* **C55, C56 Cache of remote configurations** – The state machine of C25 and C26.
* **C57 Interrupted update checks recover** – The state machine of C27; false after a truncated file.
* **C58, C59 Explanations** – Model of explaining and of the history of updates.
* **C60 What is reported is what the linters found** – Every reported problem traced back to a raw report through the run.
* **C62 Translating an admitted condition raises no exception** – Simultaneous induction over admission and translation; false for `abs` of something that is not translated.
* **C63 Reports about single branches of an if statement are right** – An inductive relation between the original and the remaining branches (kept, dropped, made `else`), established by the loop and read off by the messages.
* **C64 A suggested order of branches executes the same branch** – The branch that is executed is an invariant of every move and simplification, by induction over the mutual recursion.
* **C65 Checking the branches of an if statement raises no exception** – Without moving: the shape of the list of branches is an invariant. With it: false; that the search ends is proved by a bound on its depth.
* **C66 A value suggested in place of a conditional has the same truth value** – The text that is built is computed for every case, read by Python's grammar (operands of `and` and `or` are flattened) and evaluated; false for conditional expressions as operands and for augmented assignments: counterexamples and partial.
* **C67 Checking a conditional raises no exception and ends** – False for annotations without a value (the loop never ends, by induction over the number of steps) and for `del`; proved for all other statements.
* **C68 Merged conditions execute the body as before** – As C66; false for conditional expressions.
* **C69 Only numbers are handed to the solver** – An invariant of the set of variables, by induction over the condition.
* **C70 Executions are paths of the control flow graph** – Adding statements to a graph maps blocks to blocks (a block may be merged into another one) and keeps walks; each kind of statement is shown to add the walks of its runs, by induction over statements.
* **C71 Paths of the control flow graph are executions** – In the same induction: each walk of any extension that leaves the blocks of the statement alone is a run of the statement, possibly followed by a walk from where it ends.
* **C72 Each location is in one block** – The list of the locations of all blocks is a permutation of the locations visited.
* **C73 A loop reported for one iteration has no second one** – A second iteration is a path (C70); by C72 it visits the block of the header twice, so an edge from a block that begins in the loop leads there.
* **C74 Building a control flow graph raises no exception** – By induction over statements: the current block has not been removed, visiting removes no other block that existed, and the first statement visited in an empty block is at its beginning, or at the beginning of the block it was merged into.
* **C75 Each name stands for the variable that Python's scoping rules give it** – An invariant of the stack of dictionaries: each has exactly the names bound so far in its scope, with the scopes that Python gives them; after the first pass over a body, it has all of them. By induction over expressions and statements.
* **C76 A condition that is implied after a block of statements is true there** – A run of the block extends the assignment of the solver's variables to the new ones such that all equations and assertions hold, by induction over statements; for an `if`, new variables of branches that are not run get the values the equations demand.
* **C77 A loop reported as infinite does not end** – The condition is an invariant of the loop, by C76 or because its variables are unchanged. That the condition may be true at all is C164, so what is reported can happen (`C77_exists_partial`).
* **C78 Merging `if`s that are reported as mergeable changes nothing** – Where branches of at most one `if` are run, the merged `if` runs the same branch. If branches of two were run, the run gives the solver's variables values (as in C76, along the whole sequence of `if`s) for which the formula it found unsatisfiable is true.
* **C79 The message tells whether variables of conditions are modified** – From the second part of the loop over the `if`s: which strategy a report comes from, and what it checked.
* **C80 Ranges reported as too wide can be tightened** – The reported iteration changes nothing but the control variable, so it can be left out: the first or the last value of the list the range stands for. Where the last is reported, the comparison is true only of the last value, because the step divides the distance.
* **C81 A `while True` loop can be written with the suggested condition** – By induction over the runs of both loops: an iteration of the one is an iteration of the other while the condition is false.
* **C82 A traversal yields what it can get to** – An invariant of the stack and the intervals visited in each block: what has been yielded or skipped is what lies in the intervals, and whatever follows is in an interval or on the stack; a measure that falls shows that the search ends. Traversals along predecessors are those of the mirrored graph.
* **C83 Traversals yield what executions get to** – Executions are paths and, without `try`, paths are executions (C70, C71); a path from one location to another is a sequence of locations each of which follows the one before, as only blocks with locations have successors. What traversals yield is known from C82.
* **C84 Whether a variable is changed between locations** – By C83: each location that is executed in between is yielded.
* **C85 Code moved after an if changes nothing** – The branches that are compared are all branches of the `if`; each is what is left of it followed by the common code, so a run of the `if` is a run of the shorter `if` followed by one of the common code.
* **C86 Code moved before an if, or left of it, changes nothing** – By induction over the `elif`s, if each condition has the same value, and no effect, before and after the code that is moved.
* **C87 elifs reported as identical can be joined** – By induction over the joined `elif`s: `or` evaluates the second condition exactly if the first is false, as the `elif` does.
* **C88 ifs reported as identical can be joined** – As C87, but the next `if` is evaluated also after a body; so bodies have to be left by other means than going on.
* **C89 Untwisting ifs changes nothing** – All values of the three conditions, including exceptions.
* **C90 The locations in statements are found** – From how the graph is built: in each block, the locations of the statements are in a row; where the traversal ends a part of a block is where it is left, or at the last location of a block. Executions enter the statements at the location they begin with, and from there each location executed lies on a path (C70) on which the traversal does not stop (C82).
* **C91 Whether variables are modified in statements** – By C90.
* **C92 The definitions of uses are those that executions give** – The graphs of all functions and of the module are put together into one for C30, which says that definitions are found along paths; C70 and C71 say that paths are executions. A use in a function that is called counts as a use at the call (`C92_called_partial`).
* **C93 Variables whose values come from before statements** – By C90 and C92.
* **C94 Variables whose values are used outside of statements** – By C90 and C92.
* **C95 Suggested comparisons with numbers are equivalent** – The two bounds that the loop keeps amount to all comparisons so far, for every number; the texts put together are read back by the grammar of expressions.
* **C96 Suggested max and min are equivalent and join the most comparisons** – What is collected for an expression and a comparison is given by the operands; a number is greater than the maximum exactly if it is greater than all. The choice is one with the most.
* **C97 Suggested comparisons of remainders are equivalent** – The sets hold exactly the pairs of remainders for which some conjunction is true, and nothing but pairs within the modulus; a set of pairs that has as many elements as there are is full.
* **C98 Redundant parts of conditions are redundant** – Invariant of the three loops: the operands that are left amount to all of them. The last loop leaves no operand that follows from the others, as removing operands only makes less follow. What the solver's answers say of the condition is **C44**.
* **C99 Redundant arithmetic is redundant** – Case by case, over rational numbers; constants are those of **C33**. Conversely, which operations with a constant are trivial is found by inserting two or three numbers. Strings that are multiplied give themselves or the empty string.
* **C100 Suggested augmented assignments are equivalent** – Values of types that cannot change have no operation in place, so that both statements assign the same value; for the operand on the right, the operator commutes for the types that remain.
* **C101 Suggestions for is with truth values are equivalent** – The grammar of expressions reads the suggested text as the negation or the expression; recursion over the chain.
* **C102 Suggested calls of append are equivalent** – The grammar reads the text as a call; lists are sequences of values.
* **C103 Suggested integral division is equivalent** – Truncation is rounding down for numbers that are not negative.
* **C104 Multiplied lists of new containers are found** – By cases.
* **C105 Returning early changes nothing** – Statements that end a block never end normally (induction); then both programs are compared for each result of the condition.
* **C106 Code reported as long has that many lines** – The lines of the code are specified separately, as a list, and marked with what they belong to; the count is compared with their number by induction over the statements.
* **C107 Functions that are only called recursively are recognised** – The loop with the stack ends (the keys that are not visited yet decrease) and visits what the transitive closure of calls contains; the sets are compared.
* **C108 Events of all functions that a call runs are collected** – Induction over the traversal, which ends for the same reason; what was visited is closed under calls.
* **C109 Reported loops over indices can be loops over elements** – A simulation: expressions and statements of both loops have the same results as long as the list does not change; the events make sure that it does not, that neither variable is assigned to, and where the index is. Iterations are bounded by any number, so that loops that do not end correspond, too.
* **C110 Reported while loops count** – The traversal from the start of the body stops at the events; if an execution got from the start of the body to the test without an event, the test would be entered (C82, C70), and so would what is outside of the loop. The locations of events are those of C90. Uses are those of C92. The arithmetic of the test and of `range` is by cases of the operator.
* **C111 Modifying what is iterated over** – The locations of events are those of C90. If an iteration ends normally without `continue`, then no block that ends with `break` or `return` was entered outside of loops within, by induction on executions.
* **C112 Changed control variables** – The locations of events are those of C90, the uses those of C92. Events and their definitions are of the same variable by an invariant of the analysis (`Verif/Lemmas/SameVar.lean`).
* **C113 Merging repetitions with the loop around them** – One iteration over `k` equal parts is `k` iterations over one, by induction on the iterations; environments agree but for the variable of the loop, which does not occur in the body. The suggested text is read by the grammar of `Verif/Model/Expr.lean`, in which its reading is unique.
* **C114 Which blocks are compared** – What is remembered is right by an invariant: the list of a statement begins with it, so that without it it is the list of the next. The lengths are tried from the longest on.
* **C115 Which blocks are reported together** – An invariant of the dictionary: the numbers are smaller than its size, so that a new number is new, and what has the same number is related by any equivalence that relates the pairs.
* **C116 What is recorded about variables is what is done with them** – Python's order of evaluation is given as a relation between statements and lists of what they do with variables, independently of the visitor. What is recorded is shown to contain this by induction on executions; that it may be done by giving an execution. Order is a relation that leaves out just readings.
* **C117 A new function is suggested where it makes the code shorter** – Trees of statements with places where blocks differ; the new code is built as a tree and counted, and its size is shown to be a sum that does not depend on its form. That blocks have as many statements as what they have in common is shown by induction on trees.
* **C118 A call of a function is suggested where it can be called and gives what is used** – What is reported is shown to be equivalent to a statement about functions, blocks and uses. Candidates have increasing numbers, so that a list with one of them means that there is no other.
* **C119 Variables that are said not to be modified are not** – The names that were checked are shown to be closed under calls, with nothing found in their bodies; executing statements never leaves them. In the other direction the number of names bounds how deep calls are nested.
* **C120 Global variables that functions modify are reported** – The dictionary is shown to hold the last assignment of each variable, the search is shown to find the first change; a variable is removed when it is reported.
* **C121 A list or dictionary suggested instead of ifs chooses the same branch** – Conditions are shown to be disjunctions of conjunctions of comparisons. If no key has two values, at most one condition is true, and both ways execute its branch. A sorted list that is equal to a range is a permutation of it.
* **C122 Conditional expressions suggested instead of an if do the same**, **C124**, **C125** – One invariant for all statements, by induction: as long as a hole may be reached, the variables of the conditions are as at the start. Then conditions choose the same branch where the holes are.
* **C123 Helper variables suggested for what differs in branches do the same** – The same invariant for the helper variables and the variables of what differs, and an induction that variables which are not used do not matter.
* **C126 What is reported for an if is the first that fits** – A lemma on the loop for any list of attempts, then one case for each of the nine attempts.
* **C127 A relative reference in a file is relative to its directory** – The functions of `os.path` on texts; components that are empty do not matter for `normpath`.
* **C128 Expressions that are said to be assigned to a variable are its values** – By cases on the way of definition; values are those of an interpretation of expressions which are not tuples.
* **C129 A message that is enabled is reported whichever others are** – The visits as tables; a check of the tables by evaluation, lifted to all states.
* **C130 Targets of loops, variables of comprehensions and code at the top level are reported as described** – By recursion on targets and the scopes.
* **C131 Events of a part of a statement or of a variable concern that part** – That the condition is always true; induction on the steps of a structure.
* **C132 Renamed code is recognized where names have to be consistent** – Induction on what fragments have in common; invariant of the loop of `get_merge_candidates`: who owns a name has a group.
* **C133 Conditions of consecutive ifs with the same bodies can be joined** – Semantics of chains of branches; the greedy loop by induction on the rest of the sequence, with branches ordered by chain and place.
* **C134 Blocks that are reported as duplicate do the same but for at most three replacements** – A relation of trees by a set of replacements; the loop returns some set iff there is one with at most three of them (the set it returns is the smallest one). The loops over blocks by induction on the rest.
* **C135 Sequences that are reported are repetitions that can be written as a loop** – Relations `SameAll` and `EndsAll` that hold iff `get_single_diff_list` returns nothing or a pair; the loop over subblocks makes a chain of them; a template from two subblocks that differ; the greedy loop by induction.
* **C136 Complex expressions that are used repeatedly are reported with all uses** – Complexity does not grow in parts, so nodes that are collected are all the complex ones. Nodes are collected before what is in them, so keys of parents come first; what is not reported is in a repeated expression, by induction on sizes in one that is reported.
* **C137 A range suggested for expressions that differ enumerates the repetitions** – Antiunification with one constant that differs evaluates, with its values, to the expressions (induction on the first one). The groups are the sequence, the neutral values are right for `+`, `*` and the right of `-`, `/`, `//`, and the numbers are not all equal, so the range is the sequence of them.
* **C138 Reports about an if with elifs are right for the whole statement** – What is translated is, by induction on the branches before, the part after the last test with a problem; claims about the part (C63) are claims about the whole, as a branch that is reached there is reached in the part. A negation that follows its test makes branches after both unreachable.
* **C139 Uses in functions that nothing calls have the definitions of calls after the module** – Values at the end of the module: `computed_kills` by the invariants of the fixpoint (C30) are exactly those of runs through the graph. A value found in a call was given in the same call (C30), in an earlier one (then in some block, once), or by the module. For executions of statements (`C139_executions_partial`), paths of C70 are taken for the module and for each call.
* **C140 The definitions of a name at a node are found** – `block_kills` has exactly the values at ends of blocks (fixpoint invariants as in C30 and C139); a value at a node is given in the block before it or at the end of a predecessor on the way. For values from outside, an invariant of the recursion: what is found at each node that has been visited is in the result. Values that functions that nothing calls leave are told by the same (`C140_uncalled_partial`).
* **C141 What is printed with --json can be read back** – a reader for JSON (RFC 8259, whole numbers) is defined in the statement; by induction over values, reading what is written for a value, followed by anything, gives the value and what follows; escapes by cases of characters, with surrogates. The text with two notations put together by hand is read step by step.
* **C142 Which blocks of a file are compared for duplication** – the blocks that are collected are, in order, those of a list of all nested statements, by induction over statements; sorting is a permutation. With this, C134 and C135 are stated for files. That no reported block is in the other one is by sizes of trees, which are the same for blocks that are alike.
* **C143 Merging variables makes no difference** – a program is a term over placeholders; fragment `i` and the merged program are its images under two maps. Where both maps identify the same placeholders, runs correspond step by step, by induction on fuel. That they do is by C61: placeholders sharing a name in one fragment share all of them, so they are in one group and merged or not together.
* **C144 Evaluating a pure expression changes nothing** – evaluation is in a state monad with exceptions over any operations; that a computation leaves the state is kept by its bind, so the proof is an induction over expressions. What is pure is by induction too: no node is of a kind that is listed.
* **C145 Versions chosen for tests are the newest ones** – invariant of grouping by minor version; sorting is a permutation and sorted; minor versions of groups are all different, so the order is strict.
* **C146 Events of variables are found as they were added, and asking for them changes no answers** – invariant of additions and questions on the association list; `vars_in` by induction on all events.
* **C147 The output of linters is caught, and the streams are given back** – what each action adds to each stream, by induction on actions; new streams differ from all older ones; runs by induction.
* **C148 Placeholders are taken for one only if they stand for the same** – invariant of what was seen; equality of tuples is an equivalence.
* **C149 The nearest node around all differences is found, and repetitions in it are** – nodes are paths, and those around a node its suffixes; C39 for the pieces of a body.
* **C150 A loop suggested for repetitions does the same as they do** – executions of a repetition and of the body of the loop are related by an invariant (the same variables but for that of the loop, which has the value for this repetition), by induction on statements with holes; then by induction on the repetitions. What is suggested is characterised by arithmetic as for C38. The splits are sorted by the length of the prefix.
* **C151 A linter that is run as a process ends in time or is killed** – time is a number of milliseconds, a process is given by when and how it ends and when its output is closed; case distinction on whether this is before the timeout.
* **C152 An if alone in an else is reported, an elif is not** – programs with `elif`, `else` and columns and their trees are mutually inductive types, the proofs are mutual inductions. An `elif` is never reported as bodies are to the right of their headers.
* **C153 The configuration returned for a path is the one under which it is linted** – a single file has at most one group; the rest is C09.
* **C154 The search for duplicate code looks at each statement once** – by induction over statements, what `get_stmt_locs` gives for the locations that are reached are the statements that begin there; with C83, those locations are the ones that may be executed.
* **C155 Where locals() or globals() is called, no check relies on what is known about variables** – `VarEventListener` as a visitor that stops at the first such call; by induction over the tree, it stops just if there is one below the nodes that it visits. That the first block is empty just without statements is from the proofs for C139.
* **C156 Ifs are left as they are where each branch around them has one** – branches are given as an inductive relation over the syntax tree and compared with `get_bodies` after `extract_from_elif` by recursion over the `elif`s; what is reported is what the attempts of C126 report.
* **C157 A variable with a counterpart is not replaced by something else where names have to be consistent** – the invariant of C61 (names that were seen have an owner), and that a placeholder for more than a name is given up on if one of its names has one.
* **C158 Loops that may be left are not reported as infinite, others are looked at** – the search with a stack by induction over the number of nodes that are left; what leaves a loop is an inductive relation that knows of loops, functions and `else`.
* **C159 Every path and option on the command line is used** – both directions between the arguments and an inductive relation of spellings: accepted lists of arguments are run with what they say, and what is run is said by such a list. By induction over the arguments, with the phase of reading paths.
* **C160 Compiled explanations say what their sources say** – lookup in the compiled table by induction over the sources, then membership, as keys differ; the texts by cases.
* **C161 What was linted before in the process makes no difference to how a file is analysed** – closed forms of the replaced `get_ast` and of a run after others, by induction over the number of replacements and the runs before.
* **C162 Comparing pieces of code does not raise an exception** – where an error comes from, by induction over the levels of recursion left; setting the parents changes nothing else, so that what is proved of anti-unification elsewhere carries over (`C162_agree`, `C162_plain`).
* **C163 Different problems are shown differently** – a reader that splits at commas outside of quotation marks gives the attributes back.
* **C164 Whether a condition may be true is answered rightly** – the values of the solver give an environment, in which all operands have values by induction on conditions; then C44.
* **C165 Loops taken for loops over indices go over indices** – unfolding, with the evaluation of `range` of C34.
* **C166 The version that is named as an update is a newer one that was reported** – C28 for the second call; a version that is returned is in the file afterwards.
* **C167 A raise in the body of a try is linked to the clause that handles it** – a jump leads to the first clause that has the name or no names; for clauses of names this is the clause that the language reference selects, unless one of them is a proper base.

## Disagreements between code and property

Each has a theorem `…_counterexample…` and a `…_partial` theorem for the remaining cases.

* **C06** Arguments for pylint are lower-cased, and an argument that only starts with `--enable`/`--disable` can be dropped.
* **C09** Files are grouped by a key computed before option groups are expanded and without telling unset options from
  options set to their default; translations leak between files through the cache of language files.
* **C10** Configuration files that refer to each other exhaust the recursion limit.
* **C13** The search for an implicit configuration file compares a name with a tuple of names and never succeeds.
* **C14** The documentation's own example of a local path does not follow the documented rule.
* **C15** An import from `ib111` sets an option nobody wrote; an unbalanced quote raises an uncaught error.
* **C18** A file whose name contains `command line` is ranked before all others.
* **C19** Ordering fails with an assertion for paths with `..`, symbolic links, and relative paths in the root directory.
* **C20** An unforeseen exception is logged and the exit status is 0.
* **C22** A `noqa` comment on a line importing from `ib111`, and `pylint: skip-file`, are not reported.
* **C24** A translation with too many places raises; templates with `%%` never match.
* **C25** A process that dies while it writes the content leaves a part that is served later.
* **C26** An empty answer is never served from the cache.
* **C27** Two checks at the same time both query.
* **C28** An update is announced if the latest version is unknown, and if the running version is newer than the latest.
* **C30** The first assignment of a global variable by a function called in a block hides the values the variable had before
  the block, even if the function assigns it only under a condition.
* **C31** `1` and `True` have a core without placeholders, so do `f"{x!r}"` and `f"{x!s}"`, and `for` and `async for`; and a
  core has the names of the first fragment where names were merged. Without consistent names required, names are merged
  that are not consistent (C61).
* **C32** `a >= b >= c` counts as the negation of `a < b < c`, `a % 2 == 2` as that of `a % 2 == 0`, and `a != b` as that of
  `(not not a) == b`.
* **C33** Folding `0 ** -1` raises an exception that is not caught.
* **C35** `x in range(a or b, n)` becomes `a or b <= x and x < n`.
* **C36** `ord(c) - 96` becomes `ord(c) - ord('a') - 1`; the apostrophe and the backslash are not escaped.
* **C37** The apostrophe and the backslash are not escaped.
* **C38** For 2, 1 + 1, 2 the loop `range(2, 1, 0)` is suggested, which raises; for 0, 1, 2 and 7, 6, 5 the loop
  `range(5)` instead of three rounds.
* **C40** `x + x + y` is reported as repeated.
* **C41** For branches `a a b` and `a a a b` the common beginning and the common end overlap.
* **C42** The analysis takes `True + True`, `-True` and `1 or 2` for truth values, `2 * "a"`, `1.5 // 1`, `7.5 % 2`, `2 ** -1`,
  `abs(1.5)` and `f"{1}"` for integers, and `"a".partition("b")` for a list.  The methods of lists, dictionaries, tuples
  and sets are never looked up, because their tables have the wrong keys.
* **C44** `x // -2 == -4` is false for the solver if `x` is 7, and true in Python: the solver's division is Euclidean.
* **C45** The distributed explanations are shown whatever was downloaded.
* **C46** Exit codes of pylint other than 32 are ignored.
* **C48** `no-flake8` cannot be set in a configuration file.
* **C49** A later group of files with the same language file sees the translations of the first one.
* **C54** `self.x * self.x * self.x` is not reported: only the part before the first dot is examined.
* **C57** After a truncated `versions.json` no check ever queries again.
* **C62** `abs(x % 1) == 0` is admitted, but its remainder is translated to nothing, and `z3.Abs(None)` raises.
* **C65** `if x != 0 and x < 5: … elif abs(x - 7) < 3 and abs(x - 6) < 4: … elif x >= 10: … elif x == 0: …`: the last branch is
  moved first, a recursive call turns the second one into `else`, but the number of branches with a condition is not
  updated in the caller, which then gives the condition `None` of `else` to the solver.
* **C66** `if a: return True else: return b if c else d` becomes `return a or b if c else d`, which Python reads as
  `(a or b) if c else d`.  `if a: x += True else: x += False` becomes `x = a`.
* **C67** `if c: x: bool = True else: x: bool`: the loop of `_get_refactored` never ends, as the missing value is neither a
  word nor a node.  `if c: del x else: del x`: `del` counts as an assignment, but has no `value`.
* **C68** `if a: if (b if c else d): …` becomes `if a and b if c else d: …`.
* **C70** `x = 1; for x in []: pass; print(x)`: each path to `print(x)` assigns `x` in the loop.  What is in `finally` is never
  visited.  `try: a; b` `except E: c`: there is no edge from between `a` and `b` to `c`.  `try: raise K` `except E: …`: there is
  no edge if `E` is a base class of `K`.  `else` and `except` of a `try` that begin with `while` are not connected, since the
  block made for them is merged into the header before edges lead to it.  In classes, the start block is not connected.
* **C71** `try: a` `except E: raise E`: an edge leads from the clause to itself.
* **C72** What is in `finally` is in no block.
* **C73** Each loop in the body of a class is reported.  `while True: try: n = int(input()); break` `except ValueError: …` is
  reported: after `break`, the end of the body of `try` is an empty block without predecessors, so no edge leads to the clause.
* **C75** A variable of a function that is read, in the order of the text, before it is assigned to is taken for the one of the
  same name around it, also in a loop.  Methods see the variables of their class.  Functions and classes defined in `if`, `for`,
  `try` … are not recorded.  `[x for x in x]` and `def f(x=x)`: the last `x` is taken for the inner one.  `nonlocal` always means
  the next scope.  After `del` in one branch the name is unknown.  A global variable that only functions assign to is unknown in
  other functions.  A lambda does not see what is bound later.  `import a.b` binds a variable `a.b`.  Decorators, base classes,
  keyword-only defaults and defaults of lambdas are not visited.  `:=` in a comprehension binds a variable of the comprehension.
* **C76** `x += a and b` and `x = (a and b) if c else 1`: the solver takes `a and b` for `0` or `1`.  `x, y = t` raises an
  `IndexError`, as the node `t` has no children.  (Not modelled: for a value that is not a tuple in the text, the children of
  its node are taken for its elements, so `x, y = f(1)` assigns `f` and `1`; if `y` is also used in a remainder, `y = z / 2`
  makes `z` even for the solver.)
* **C77** `while x > 0: x += a and b` is reported, and can end.
* **C78** What is known after a later `if` is used for the conditions of earlier ones.  So `if x > 0: y = 1`, `if z > 0:` with
  `if x > 0: return` in its body, and a third `if` are mergeable: who gets to the third `if` did not have both conditions true.
  But those for whom both are true return, and do not when the `if`s are merged.
* **C79** Of the last `if` that is merged no condition is looked at, so for `if x > 5: y = 9`, `if y < 3: z = 1` the message is
  the one that says that no variables of conditions are modified.
* **C80** `for i in range(2): if i == 0: break` is reported for its first iteration, but no iteration happens; without the first
  value one does.  `for i in range(0, 3, 2): if i == 1: continue` is reported for its last iteration, although `i` is never 1.
  (Also false, and excluded by hypotheses: `range(i + 1, 10)` with `if i == i + 1`, bounds that change in the loop, and loops
  with `else`.)
* **C81** `while True: if c: if c: continue; break` never ends; with the condition `not c` it does.
* **C82** From the first and the third location of a block, stopping at the second: the third is never yielded, because the block
  counts as visited.  (No caller passes several locations and a condition, besides `get_locs_in_and_after`, which is not used.)
* **C83** As C70 and C71: `finally` is in no block; an exception raised in the middle of the body of `try` leads to a clause at once,
  but in the graph only from its end.
* **C84** `if c: f(); print(1)`, where `f` assigns to a variable of `c`: only what happens at locations themselves is looked at.
* **C86** `if x > 0: x = 0; f()`, `else: x = 0; g()`: no one looks whether the condition changes (the function
  `test_variables_change` is not used here).  A condition that has an effect, or raises, no longer does when only a branch is left.
* **C88** `if x > 1: x -= 1`, `if x > 0: x -= 1`: both bodies may be executed.  `if a: return 1`, `if b: return 1 else: f()`,
  `if c: return 1` is reported as three, although the `else` comes between the second and the third: `extract_from_siblings` tests
  the truth value of a pair, which is always true, where it was meant to stop at an `else`.
* **C89** The outer condition is evaluated twice in what is suggested.
* **C90** `with a: (if b: c); d` and then `e`: `d` and `e` are in the same block, and the whole block counts as not in the `with`, because
  its last location is not.  If `e` is also one of the statements, and more follow, only `e` is found in the block.
* **C91** `del x` is no modifying event; and where C90 is false.
* **C92** As C30 (functions that are called), C70 and C71; in particular a value that is read in `finally` has no use there (`C92_finally_counterexample`).
* **C112** – where C92 is false: `for i in range(10): (try: i = 0`, `finally: print(i))` is reported although the value is printed (`C112_finally_counterexample`).
* **C93**, **C94** Where C90 is false: with `with a: (if b: c); x = 1`, `x` is not among the variables used after, although it is read by the
  next statement; likewise if `x` is read there, it is not among those defined before.
* **C95** Brackets around the compared expression are lost: `(x < 3) < 5 and (x < 3) < 7` becomes `x < 3 < 5`.  An expression whose text
  starts with `abs(` counts as a call of `abs`: `abs(x) - 10 < 4 and abs(x) - 10 > -4` becomes `abs(x) - 10 < 4`.
* **C96** Brackets, as in C95.  A text that starts with `max(` counts as a call of `max`: `x > max(a, b) + min(a, b) and x > b` becomes
  `x > max(a, b) + min(a, b, b)`.  A call of `max` with one argument, a list, becomes one with several.
* **C97** is about integers: for `x = y = 0.5`, `x % 2 == 0 and y % 2 == 0 or x % 2 == 1 and y % 2 == 1` is false, the suggestion
  `x % 2 == y % 2` true.
* **C98** Operands that guard others: `y != 0 and x // y > 1 and y > 0` becomes `x // y > 1 and y > 0`, which raises `ZeroDivisionError`
  for `y = 0`. As in C44, division by negative numbers, and real numbers, are not what they are for the solver.
* **C99** – `s * 0` is reported, but gives an empty string for strings, which is neither operand nor number; `s % s` is reported, but formats the string (`C99_times_counterexample`). For numbers, and strings that are added, the property holds (`C99_partial`, `C99_aug_partial`).
* **C100** `x = y = x + 1` is reported with `x += 1`, which does not assign to `y`. For `x = 2 * x` the type is guessed to be a number, so
  `x *= 2` is suggested; if `x` is a list, this changes the list that other variables hold.
* **C101** `(a or b) is False` becomes `not a or b`.
* **C102** `xs.extend([*ys])` becomes `xs.append(*ys)`; `(a or b).extend([1])` becomes `a or b.append(1)`.
* **C103** `int(-7 / 2)` is -3, `-7 // 2` is -4.
* **C104** `[1] * [2]` ends the check with an `AssertionError`.
* **C106** A `match` counts as one statement however long it is; of a `try`, only one of its further clauses is counted as a line.
* **C107** A recursive function that also calls a helper is only called by itself, but `has_just_recursive_calls` is false for it, so it is not among the uncalled functions. (The docstring of `has_just_recursive_calls` says the contrary of what the function does.)
* **C109** For `xs.clear(); print(xs[i]); break`, which changes the list in a block that ends with `break`, use-foreach is reported, although the loop over elements prints an element. It is also reported for `if xs[i]: del xs[i]; break`, as `del` is only a read event, and if the list is changed by another name. Whether the index is used after the loop is not looked at.
* **C110** `x = 1 - x` is taken for a change by −1, so `while x > 0: x = 1 - x` is reported. With `continue`, a variable may be changed twice in one iteration: `if a: (x += 1; if b: continue)`, `x += 1`. If the loop has an `else` that returns and is followed by another statement, or if a `break` of a loop within it has to be passed to get back to the test, use-for-loop is reported although the variable need not be changed. `x -= "a"` makes the check raise a TypeError.
* **C111** Only the last statement of the block counts: `if a: xs.append(1)` before a `break` is reported, although no iteration follows. In `for x in xs: for y in ys: (xs.append(y); break)`, the `break` is one of the other loop, but nothing is reported; neither is it for `xs.append(1); if a: continue; break`. The events are looked at in the order of the traversal, in which an `else` comes after what follows the `if`: `(if a: pass else: xs.append(1)); xs = []` is not reported, although the structure is modified before it is assigned to.
* **C113** The variable of the loop is looked for as a pair among objects of another class, so that it is never found: `for i in range(2): print(i); print(i); print(i)` is reported. The product is made from text: for `range(n + 1)` the suggestion is `n + 1 * 3`. Parts with `continue` are reported, although `continue` skips the parts after it. An assignment whose value is not used is left out before the parts are compared, so that `print(7); y = print(8); print(7); print(7)` is reported, which no loop with a part as its body does. The value of the variable after the loop is not the same.
* **C115** Blocks of a group are compared with the first of them, not with one another: with `f(1); f(2)` in one function and `f(3); f(4); f(5)` in another, the three blocks `f(1); f(2)`, `f(3); f(4)` and `f(4); f(5)` are reported together, of which the last two overlap. A block has only one number, which is overwritten: if two functions have three statements in common and a third one only the first two of these, then the block in the third is found to be like the one in the first, but it is reported only with the one in the second.
* **C116** `del x[i]`, `[x[i], y] = …`, `*x[i], y = …` and `for x[i] in …` modify `x`, which is not recorded; so do `d.setdefault(k)` and `s.discard(k)`. `del x[i].a` reads `i`, which is not recorded. `x: int` is recorded as an assignment although it assigns nothing, and `f(x.append)` as a modification. The target of `x := x + 1` is visited before the value, so that reading `x` gets its definition from the statement itself; in `x.append(x[0])`, the modification comes first. `c and (x := 1) or x` is seen as if `x := 1` was always executed.
* **C117** Statements of the new function are not counted, as definitions are left out: two blocks of three statements with `if …: return` in them are to be replaced by ten statements instead of six. A variable that is defined before counts once for each function in which the blocks are, so that the new function gets two parameters with the same name; variables that are used after are added up for all blocks. Both make messages rarer.
* **C118** Only some of the other blocks has to see the function (`any` in `similar_to_call`), while the message is for the first of them: with `g` within `f` and blocks in `f` and in `h`, it says to call `g` in `h`. A method is suggested by its name in another method of the class, and a function in a block that is before its definition, as no other definition reaches it. With `x = 4 + 1; y = x * 2; y = 100; print(x + y)` and a function that returns `x + y`, the use of `x` is taken for what is returned, although `y` has changed.
* **C119** `vars_from_node_may_be_modified_in` promises that variables are not modified “for sure” if it returns `False`. Functions that were checked are remembered by name, so of two definitions of a name (in branches of an `if`) only the first is looked at. Methods and functions passed to others are not looked at. A variable that is the target of `for`, `with`, `:=` or within a tuple is taken for something that cannot be modified, whatever it is; so is `x` in `x += (1,)`, where the type of the value is guessed, and a tuple that contains lists.
* **C120** no-global-vars is “emitted when the code uses global variables”, but a variable that only functions assign to, with `global x`, is not reported, as no statement of the module assigns to it. A variable that is modified in a comprehension of the module itself is reported, although no function uses it.
* **C121** A dictionary is suggested also where constants repeat: `if x == 1 …`, `if x == 1 …`, `if x == 2 …` (two branches are executed), or `if x == 1 …`, `elif x == 1 or x == 2 …`, `elif x == 3 …` (the dictionary keeps the second). An `if` with an `else` and another one after it are taken for one, as the result of `extract_from_elif` is a pair and always true.
* **C122** `if f(): a = 1; …; b = 3 else: a = 2; …; b = 4`: conditional expressions evaluate `f()` twice. Only assignments at locations themselves are looked at, so a function that is called in between may change a variable of the condition (see C84). A condition that raises an exception does so later.
* **C123** `if c: y = 3; …; print(y) else: y = 4; …; print(z)`: with helper variables, the value of `y` from before is printed. It is not looked at whether variables of what differs are changed.
* **C124** The same as for C122: the condition may be evaluated in each iteration of a loop, or never. If what differs cannot be reached, the condition may be evaluated where its variables have changed.
* **C125** `if c: print(True) else: print(False)` prints another thing than `print(c)` if `c` is not a truth value. If `True` is in the `else`, the negation is to be used; the message does not say so.
* **C126** A list and conditional expressions may both be suggested for one `if`, as an attempt with a list is never successful. A message that is not enabled may prevent others: with `identical-if-branches-part` not enabled, nothing is reported for an `if` it fits, though `similar-if-to-expr` is enabled and fits.
* **C127** A relative path in a configuration from the network is not relative to its address: `b.toml` in `https://e.org/a.toml` is the local file `https:/e.org/b.toml` in the current directory.
* **C128** In `a, b = 1, 2`, the expressions `1` and `2` are never yielded: the loop begins with the whole target, whose parent is not a tuple, so that destructuring is always required. The whole tuple is yielded if it is allowed, which makes `visit_name` guess that `a` is a tuple.
* **C128** For `x += e`, `e` is yielded as if it were the new value.
* **C128** `type(def_event.node in include_nodes)` is a type and so true: imports, functions and classes are always yielded.
* **C128** For `with f() as (a, b)`, `case [*a]` and `case {**a}`, going up leads to a loop around if there is one, and what that iterates over is yielded; if there is none, `AttributeError` is raised.
* **C129** `unreachable-else` is missing in `only_required_for_messages` of `visit_if`: if it is enabled and none of `use-elif`, `redundant-elif` and `use-early-return` is, it is never reported.
* **C129** `magical-constant-in-ord-compare` in `only_required_for_messages` of `visit_compare` is no message (`use-literal-letter` is meant). As pylint takes unknown messages as enabled, the visit is always executed, so that nothing is lost.
* **C130** shadowing-in-comprehension is never reported for tuples: the elements are tested for `nodes.Name`, but are `nodes.AssignName`. Nor is it for lists, for variables of other comprehensions around and, in functions, for those of the module.
* **C130** In `for a[b[0]] in xs:`, `b[0]` is reported as a target, too.
* **C130** `x: int = 5` and `x += 1` are assignments, but are reported as forbidden code at the top level.
* **C131** `check_ancestors` is inverted: for a part of a statement, all the events of the statement are found. (For statements, the condition is true of all.)
* **C131** Slices are matched if the variables in them are the same, so `a[0]` is taken for `a[1]` and `a[i]` for `a[i + 1]`: in `for k in range(len(a[0]))`, `a[1].append(0)` counts as a modification of `a[0]`.
* **C131** As all reads in the statements are compared, `a[i]` in `a[i].append(i)` is not recognized as the `a[i]` of `for k in range(len(a[i]))`, and its modification is not noticed.
* **C132** Values of constants are recorded together with names of variables: for `print("x", x)` and `print("y", y)` there is no core, as the string `"x"` owns the name `x` but has no group; for `print(x, "x")` and `print(y, "y")` there is one.
* **C133** Ifs after each other are reported although their bodies may be executed more than once: `if n < 1: n += 1` and `if n < 2: n += 1`.
* **C133** The comment says that no join of an elif and a sibling is suggested, but it is if the sequence starts with an if, as the parent of that one is an ancestor of all.
* **C133** Nothing is reported for the elifs of an if with an else, whose conditions could be joined.
* **C134** Names that are assigned to are not compared (children of the assignment of a class with no case): `x = 1` and `y = 1` are the same, with no replacement.
* **C134** Operators of augmented assignments are not compared: `x += 1` and `x -= 1` are the same.
* **C134** Children are compared in order with no look at which ones they are: statements of an `if` may be in its `else` in the other block, and `x[1:]` and `x[:1]` are the same.
* **C135** A value that is followed by anything that stays the same is taken to be no difference that can be reported (`result[0] != subresult[0]` also if the latter is `(None, None)`): `f(1, x); f(2, x); …` is never reported, `f(x, 1); f(x, 2); …` is. So what differs is always the last leaf of the subblock.
* **C135** Only the path to the last place that differs is compared: `f(1); g(1); f(2); g(2); f(2); g(3); f(2); g(4)` is reported as four repetitions with a range.
* **C135** Operators of augmented assignments are not compared: `x += 1; x -= 1; x *= 1; x //= 1` is reported as four repetitions.
* **C136** If an expression is used first in a repeated one, no message is made for it, also if it is used outside of it too: for `x = f + E; y = f + E; z = E` the last line is in no message.
* **C136** Subscripts and attributes that are values of assignments are invalid (`is_any_assign(node.parent)`, meant for what is assigned to): `x = f[a + b + c]; y = f[a + b + c]` is not reported.
* **C136** The texts are sorted by the length of their first character (`len(pair[0][0])`), so not by their lengths; just the order of messages depends on it.
* **C137** For an operation for which no neutral value is known, no number is used for the expression itself: for `x, 1 - x, 2 - x, 3 - x` the range is `range(1, 4)`, with three numbers for four repetitions.
* **C137** `1` is taken as neutral for `%`: for `x, x % 2, x % 3` the range is `range(1, 4)`, but `x % 1` is `0`.
* **C137** A constant is taken as the operation for `0` without a check: for `7, x, x * 2, x * 3` the range is `range(4)`.
* **C137** What differs need not be the other operand: for `x, x + (y - 1), x + (y - 2)` the range is `range(3)`, but `x + (y - 0)` is not `x`.
* **C139** is false in three ways. (1) `make_up_calls` takes the first value that a block gives to a variable (`kill_events[0]`), not the last: with `def f(): global x; x = 1; x = 2` and `def g(): print(x)` the use in `g` is linked to `x = 1` and not to `x = 2` (`C139_twice_counterexample`). (2) Blocks of a function are recognised by the scope of their first node, which for a definition of a function or class is the function or class itself: from a block on that begins with a nested definition (e.g. after an `if`) nothing is linked (`C139_nested_counterexample`). (3) For the same reason, if a file begins with the definition of the function that is processed last, the first block of the module is taken for one of the function, so `x = 0` in `def f(): print(x)`, `x = 0`, `x = 1` becomes a definition of the use (`C139_begin_counterexample`). Proved is what is linked if scopes tell blocks apart, and that all definitions are linked if besides no block gives the variable two values (variables that called functions give values are excluded, as in C30).
* **C140** is false in three ways. (1) For any call in the block before the node, be it `print()`, all functions of the file are explored (a call is never a `nodes.Name`, and `def_` is an event and not a `FunctionDef`), and if all of them give the name a value, what was there before is not looked for: with `x = 1`, `def g(): global x; x = 2` and `print()`, just `x = 2` is found although `g` is not called (`C140_call_counterexample`). (2) Values that predecessors of the block may give are taken for ones that they always give: in `def g(): global x` with `if c: x = 2`, `if d: pass` and a node, just `x = 2` is found and not the value from before the call (`C140_outer_counterexample`). (3) At a call, the location of the call is included: with `x = 1` and `x = g()`, just the latter is found in `g` (`C140_own_counterexample`).
* **C142** – definitions and the main block are taken out of the statements of the file before sequences are looked for, so a sequence can be reported that has definitions between its statements (`C142_consecutive_counterexample`); for other blocks, the statements are the body of one statement (`C142_consecutive_partial`). Bodies of classes (`C142_class_counterexample`), cases of `match` and bodies of asynchronous statements (`C142_match_counterexample`) are not looked at at all; the statement names those that are.
* **C143** – names need to be consistent only for similar functions and blocks (`duplicate_block.py:229`). Elsewhere, `x = 1; y = x + x; print(x - y)` and `x = 1; x = x + x; print(x - x)` are merged to one program without any placeholder, although they print different numbers (`C143_inconsistent_counterexample`). Where they are consistent, merging makes no difference (`C143_same_partial`).
* **C144** – a function that is an attribute is never taken for a variable, so a method is pure if it is called like one of Python's functions, whatever it does (`a.sum()`, `C144_method_counterexample`). What is before the dot is not looked at (`Decimal(input()).sqrt()`, `C144_receiver_counterexample`). Operators are taken to change nothing, but `x in it` takes from an iterator (`C144_iterator_counterexample`). Where all functions are names, and operators, attributes, subscripts and displays change nothing, pure expressions do not either (`C144_silent_partial`).
* **C145** – `versions_str[-n:]` is everything if `n` is 0 (`C145_zero_counterexample`). `Version` is a `dataclass` without fields, so the generated `__eq__` makes all versions equal (`C145_equal_counterexample`); `is_not_full_release` is true just for full releases (`C145_full_release_counterexample`); `get_available_versions` is in an `lru_cache`, so it raises a `TypeError` for every list (`C145_available_counterexample`). For a positive number, the versions are the right ones (`C145_chosen_partial`).
* **C146** – asking for a variable at a location where it has no events leaves an empty list there (`VarEvents` has a `defaultdict`): afterwards the variable is `in` the events (`C146_contains_counterexample`), and `name_to_var` raises an `IndexError` (`C146_name_to_var_counterexample`). `name_to_var` looks at the scope of the first event of a variable only, so it does not find `x` in `f(lambda: x, x)` (`C146_first_counterexample`). All other answers are right, and those of `name_to_var` are as long as no variable was asked for (`C146_name_to_var_partial`).
* **C147** – if a linter raises an exception other than `SystemExit`, `sys.stdout` and `sys.stderr` are not set back, so the traceback is written to a stream that nobody reads: edulint ends without any message (`C147_exception_counterexample`). What pylint prints is not caught, so it is mixed with edulint's output, as for `pylint=--list-msgs` (`C147_print_counterexample`). Otherwise, output is caught and streams are given back (`C147_flake8_partial`, `C147_pylint_partial`, `C147_runs_partial`).
* **C148** – values are compared with `==`, by which `True` is 1: for `f(1, True)` and `f(0, False)` there is one helper variable only (`C148_bool_counterexample`). A placeholder in a name has texts as values, so `f(x, "x")` and `f(y, "y")` have one helper variable, too (`C148_name_counterexample`). Without such values, helper variables are right (`C148_assigned_partial`).
* **C149** – repetitions are looked for at the start of a body only (`C149_start_counterexample`).
* **C150** – loops are also suggested for repetitions with `break` and `continue` of a loop around them, which would end the suggested loop instead (`C150_break_counterexample`); for `print(True); print(2); print(3)`, `range(1, 4)` is suggested (`C150_bool_counterexample`); lists of names are suggested although the repetitions assign to some of them (`C150_names_counterexample`) or some may not be bound yet (`C150_unbound_counterexample`); for several places where the numbers decrease see C38. Otherwise, the loop does the same (`C150_range_partial`, `C150_list_partial`).
* **C151** – the statuses 9 and 15 are taken for a timeout, but a pylint that reports a fatal message and one about refactoring ends with 1 + 8 (`C151_status_counterexample`; `C151_pylint` says which statuses of pylint are concerned; those of flake8 never are); if a process that the linter started keeps its output open, then `run` waits for it after the timeout, and takes the linter for one that did not end (`C151_longer_counterexample`). Otherwise, the property holds (`C151_lint_partial`, `C151_time_partial`); that the process is not running afterwards holds in any case (`C151_nothing_left`, `C151_exit`).
* **C152** – an `if` alone in an `else` is not reported if the `else` is indented differently than the body before it (`C152_indent_counterexample`), or if that body is in the line of its `if` (`C152_inline_counterexample`); `async for` with `else` is not reported (`C152_async_counterexample`). All others are (`C152_all_partial`, `C152_loops_partial`), and nothing else is (`C152_only`).
* **C153** – for a directory whose files have several configurations, `get_config_one` returns the first of them (`C153_directory_counterexample`); in runs with other files, what is false of C09 is false here. For files, see `C153_file` and `C153_run_partial`.
* **C154** – a `try` that begins with an `if`, a loop, a `with` or another `try` is not looked at (`C154_try_counterexample`); a name given to an exception is, although it is no statement (`C154_name_counterexample`); statements in `finally` and in `match` are not (`C154_finally_counterexample`). All others are (`C154_all_partial`, `C154_executed_partial`, `C154_executed_function_partial`), and nothing else is (`C154_only`), in order and once (`C154_once`).
* **C155** – calls in decorators, in bases and keywords of classes, in annotations of what is returned, in defaults of keyword-only parameters and of parameters of `lambda`, and in `del e.a` are not noticed (`C155_hidden_counterexample`), nor are calls by another name (`C155_other_name_counterexample`). The analysis fails at calls of functions of the module that are named `locals` or `globals`, since `is_builtin` asks for an event that is only added afterwards (`C155_own_counterexample`). Checks that ask `is_builtin` without needing the analysis take functions of the module for those of Python if the analysis failed before it got to them (`C155_unguarded_counterexample`). All else holds (`C155_succeeds_partial`, `C155_everywhere_partial`, `C155_warning`, `C155_silent`, `C155_guarded`, `C155_visited`).
* **C156** – the branches of the outermost `if` are asked for, not those around the `if`: an `if` is reported although each branch around it has one (`C156_outermost_counterexample`), and another is left although the other branch has none (`C156_inner_counterexample`). If the first branch is just an `if`, then so many of the last `elif`s are not asked for as there are `if`s inside each other (`C156_cut_counterexample`, `C156_cut_deeper_counterexample`). Without an `if` further out the first half holds, and without such a first branch the second too (`C156_kept_partial`, `C156_only_partial`, `C156_alone`, `C156_messages`, `C156_similar`, `C156_others`).
* **C157** – only places further on are compared: `print(x, x)` and `print(1, y)` have a core with consistent names (`C157_before_counterexample`), `print(x, x)` and `print(y, 1)` have none. For places further on it holds (`C157_later_partial`).
* **C158** – loops with `continue` are not looked at, as this is one of the nodes that end something (`C158_continue_counterexample`), nor are those with `break` in a loop in them or `return` in a function in them (`C158_inner_counterexample`), with `return` in their `else` (`C158_else_counterexample`), or in a function in a `try` (`C158_try_counterexample`). Calls that end the program by other names are not noticed (`C158_names_counterexample`). All else holds (`C158_search`, `C158_left`, `C158_try`, `C158_message`, `C158_others_partial`).
* **C159** – options among the paths are rejected, as argparse takes only paths next to each other for `nargs="+"`; the exit status is then 2, as if a linter had failed (`C159_among_counterexample`). So are values of `-o` that begin with a dash and are an argument of their own (`C159_dash_counterexample`). All else holds (`C159_accepts_partial`, `C159_used`, `C159_unknown`, `C159_main_partial`).
* **C160** – pages that only ask to contribute are linked, too: the text that their details are compared with begins with a quotation mark, which they do not have (`C160_link_counterexample`; 69 messages of the exported data). A block of code ends at the first line of the code that is three backquotes (`C160_fence_counterexample`). All else holds (`C160_sources`, `C160_messages`, `C160_why`, `C160_examples`, `C160_friendly`, `C160_code`, `C160_placeholder`, `C160_link_partial`, `C160_block_partial`).
* **C161** – each run of Pylint in a process replaces `PyLinter.get_ast` once more, so that a file is analysed as often as there were runs (`C161_times`): its warnings are logged that often (`C161_warnings_counterexample`), also for configurations that do not load the plugin (`C161_unasked_counterexample`), and after as many runs as calls can be nested (about a thousand) every file ends in a `RecursionError` (`C161_limit_counterexample`, `C161_exhausted`). Trees and what is found about variables are the same in all runs (`C161_trees_partial`, `C161_outcome`); all holds for the first run (`C161_first_partial`).
* **C162** – `set_parents` has an assertion that the attributes of a node are nodes, lists, or constants of some kinds, and complex numbers are not among them: for `x = 1j` and `y = 1j` anti-unification ends in an `AssertionError` (`C162_complex_counterexample`), which nothing catches. It is the only way: for trees whose nodes have their attributes and that are not nested too deep, any other exception is excluded, and this one is raised only if the same such constant occurs in all of the pieces (`C162_partial`).
* **C163** – `repr` does not escape strings, so that the text `a", symbol="b` looks like the text `a` with the symbol `b` (`C163_quote_counterexample`); negative numbers and empty strings are not shown (`C163_negative_counterexample`, `C163_empty_counterexample`). It holds for all other problems (`C163_partial`).
* **C164** – solvers have some value for a division by zero, so that `x // 0 == 5` is said to be satisfiable (`C164_zero_counterexample`); for negative divisors, quotients are rounded differently, so that both answers may be wrong (`C164_negative_counterexample`); `abs(x % 1) == 0` raises a `TypeError` (`C164_exception_counterexample`). It holds for all other conditions over integers, if the solver is right (`C164_true_partial`, up to divisions by zero, `C164_false_partial`, `C164_no_exception_partial`). What is missing is conditions with floats, and those that are true for real numbers only.
* **C165** – `range` is known by its name, so that a loop over what a function `range` of the program gives is taken for one over indices (`C165_counterexample`). It holds where `range` is the builtin function (`C165_partial`, `C165_all`, `C165_variable`).
* **C166** – without a connection an update to `None` is announced (`C166_none_counterexample`), and as the latest version is asked for twice, the version that is running may be announced if the window ends in between (`C166_running_counterexample`). A version that is named was always reported (`C166_reported`), and it is the one that was compared if there is no second query (`C166_partial`).
* **C167** – clauses are found by names: a raise is not linked to the clause of a base class (`C167_base_counterexample`) nor, if a variable is raised, to that of its class (`C167_variable_counterexample`); `raise m.B` is linked to `except m.A` (`C167_attribute_counterexample`), and everything to `except ():` (`C167_empty_counterexample`). `C167_partial` for classes that are raised and handled by their names.

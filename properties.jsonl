{"id": "C01", "title": "Configuration source precedence", "statement": "For every option of the replacing kind, the value in force for a linted file is the last one given on the command line; if the command line gives none, the last one given in the file's own edulint comments; if there is none either, the last one given by the configuration file (closest file of the base chain wins); otherwise the documented default.", "quantifier": "for all configuration files, in-file comments, command lines and option groups, of any length", "why_tests_cant": "The value depends on unboundedly many interleavings of repeated options, groups and layers; a test only samples a few.", "anchors": ["edulint/config/config.py: Config.combine, Config._combine, Config.get_last_value, Config.to_immutable, get_config_many"]}
{"id": "C02", "title": "Linter arguments accumulate in order", "statement": "For the options that extend (pylint, flake8), the argument list in force is the concatenation of all given lists in the order config file, in-file, command line, with no argument lost, duplicated or reordered.", "quantifier": "for all sequences of options in all three sources", "why_tests_cant": "Order and multiplicity must be preserved for every interleaving with replacing options and groups.", "anchors": ["edulint/config/config.py: Config._combine, Config.combine, Config.to_immutable"]}
{"id": "C03", "title": "Layering is associative with the empty configuration neutral", "statement": "Combining configurations layer by layer gives the same effective configuration however the layers are bracketed, and combining with an empty configuration changes nothing.", "quantifier": "for all triples of configurations", "why_tests_cant": "Associativity is an algebraic law over all triples.", "anchors": ["edulint/config/config.py: Config.combine, get_config_many, parse_config_file"]}
{"id": "C04", "title": "Enabling a group equals writing its arguments at that place", "statement": "Using an option group (option set) has the same effective configuration as writing the group's arguments immediately after the option that enables it.", "quantifier": "for all option sequences, all groups and all group contents", "why_tests_cant": "Expansion interacts with repetition and with later options in unboundedly many ways.", "anchors": ["edulint/config/config.py: Config._translate", "edulint/config/option_sets.py"]}
{"id": "C05", "title": "Enable/disable resolution preserves pylint's left-to-right meaning", "statement": "The list of pylint arguments actually passed enables exactly the same messages as the list the user wrote, where an argument later in the list overrides earlier ones and 'all' addresses every message.", "quantifier": "for all argument lists and all message names", "why_tests_cant": "Equivalence of two interpretations of arbitrary argument lists.", "anchors": ["edulint/config/config.py: _resolve_enable_disable_all"]}
{"id": "C06", "title": "Pylint arguments reach pylint verbatim", "statement": "An argument for pylint which is not an --enable/--disable is passed to pylint exactly as the user wrote it.", "quantifier": "for all argument lists", "why_tests_cant": "Needs all strings; the tests only use lower-case arguments.", "anchors": ["edulint/config/config.py: _resolve_enable_disable_all"]}
{"id": "C07", "title": "Effective configuration is total and canonical", "statement": "The effective configuration gives every known option exactly one value, in a fixed order, and two option sequences that give every option the same value produce equal effective configurations.", "quantifier": "for all option sequences", "why_tests_cant": "Canonicity is a statement about all pairs of sequences.", "anchors": ["edulint/config/config.py: Config.to_immutable, ImmutableConfig"]}
{"id": "C08", "title": "Every file is linted exactly once, under its own configuration", "statement": "Grouping files by configuration assigns each Python file found under the given paths to exactly one group, and the group's paths cover no other Python file.", "quantifier": "for all file trees, all given paths and all in-file configurations", "why_tests_cant": "Directory collapsing is recursive over arbitrary trees.", "anchors": ["edulint/config/config.py: _parse_infile_configs, get_config_many"]}
{"id": "C09", "title": "Linting a file does not depend on the other files in the run", "statement": "The configuration used for a file is the same whether the file is linted alone or together with others.", "quantifier": "for all sets of files linted together", "why_tests_cant": "Non-interference over all sets of other files.", "anchors": ["edulint/config/config.py: _parse_infile_configs, get_config_many"]}
{"id": "C10", "title": "Configuration file chains always resolve", "statement": "Reading a configuration file with its chain of base configuration files terminates, and every file of the chain contributes exactly once, the base before the file extending it.", "quantifier": "for all maps from configuration paths to contents", "why_tests_cant": "Termination over arbitrary (also cyclic) reference graphs.", "anchors": ["edulint/config/config.py: parse_config_file"]}
{"id": "C11", "title": "Option names round-trip", "statement": "Every option can be addressed by its printed name in any letter case, the documented alias addresses the configuration file option, and no string addresses two options.", "quantifier": "for all strings", "why_tests_cant": "Injectivity over all strings.", "anchors": ["edulint/options.py: Option.to_name, Option.safe_from_name"]}
{"id": "C12", "title": "Command line can switch in-file configuration off", "statement": "When the command line asks to ignore in-file configuration, the resulting configuration does not depend on the contents of the linted files.", "quantifier": "for all file contents", "why_tests_cant": "Non-interference over all file contents.", "anchors": ["edulint/config/config.py: get_config_many, _ignore_infile, resolve_ignore_infile_config"]}
{"id": "C13", "title": "The nearest implicit configuration file is used", "statement": "If no configuration file is given and some directory between the linted file and the file-system root holds a file with the documented implicit name, the configuration from the closest such directory is used.", "quantifier": "for all file trees", "why_tests_cant": "Quantifies over all directory trees and depths.", "anchors": ["edulint/config/config.py: search_for_config_in_parents, parse_infile_config", "docs/source/configuration.rst"]}
{"id": "C14", "title": "A configuration reference denotes exactly one source", "statement": "Every string given as configuration file is classified as exactly one of remote, packaged or local, http(s) addresses always being remote, and the classification is the documented one.", "quantifier": "for all strings", "why_tests_cant": "All strings.", "anchors": ["edulint/config/file_config.py: get_config_type", "docs/source/configuration.rst"]}
{"id": "C15", "title": "No option argument is silently dropped", "statement": "Every whitespace separated argument of an edulint comment or of -o yields exactly one configuration option, or is reported back as unparsable; nothing is dropped or invented.", "quantifier": "for all argument strings", "why_tests_cant": "All strings.", "anchors": ["edulint/config/config.py: extract_args, parse_option, parse_args, get_cmd_args"]}
{"id": "C16", "title": "Overriding is exact", "statement": "A reported problem is suppressed if and only if a problem of an overriding kind was found at the same path and line; the remaining problems keep their order, and filtering twice changes nothing.", "quantifier": "for all lists of problems", "why_tests_cant": "Lists of arbitrary length and order.", "anchors": ["edulint/linting/overrides.py", "edulint/linting/linting.py: apply_overrides"]}
{"id": "C17", "title": "Overriding never silences a line completely", "statement": "If any problem was found on a line of a file, at least one problem on that line survives overriding.", "quantifier": "for all lists of problems", "why_tests_cant": "Depends on acyclicity of the override table and arbitrary co-occurrence.", "anchors": ["edulint/linting/overrides.py: OVERRIDERS", "edulint/linting/linting.py: apply_overrides"]}
{"id": "C18", "title": "Output order is canonical", "statement": "The reported problems are a permutation of the found ones, ordered by the position of their file on the command line, then path, line and column, and problems with the same position keep the order in which they were found.", "quantifier": "for all lists of problems and all path lists", "why_tests_cant": "Lists of arbitrary length.", "anchors": ["edulint/linting/linting.py: sort"]}
{"id": "C19", "title": "Sorting never fails", "statement": "Ordering the found problems never ends with an exception for files named on the command line.", "quantifier": "for all spellings of the given paths", "why_tests_cant": "All path spellings.", "anchors": ["edulint/linting/linting.py: sort", "edulint/linting/problem.py"]}
{"id": "C20", "title": "Exit code tells the outcome", "statement": "The check command ends with 0 exactly if no problem was found and no linter failed, 1 if problems were found and no linter failed, and 2 if some linter failed.", "quantifier": "for all outcomes of all linters over all configurations", "why_tests_cant": "All combinations of arbitrarily many runs.", "anchors": ["edulint/edulint.py: check_code, check_and_print"]}
{"id": "C21", "title": "Each problem is printed once, under its file's header", "statement": "Plain text output prints every problem exactly once and prints the header of a file exactly once, before the first problem of that file.", "quantifier": "for all sorted problem lists", "why_tests_cant": "Grouping of arbitrary lists.", "anchors": ["edulint/edulint.py: check_and_print"]}
{"id": "C22", "title": "In-file configuration report is sound and complete", "statement": "With in-file configuration ignored for a linter, a line is reported exactly if it contains a configuration comment for that linter, at the column where the comment starts.", "quantifier": "for all file contents and ignore sets", "why_tests_cant": "All texts.", "anchors": ["edulint/linting/nonparsing_checkers.py"]}
{"id": "C23", "title": "Help text wrapping loses nothing", "statement": "The options help prints, for each option, every word of the description in order, and no line is longer than the limit unless it is a single long word.", "quantifier": "for all descriptions", "why_tests_cant": "All texts.", "anchors": ["edulint/edulint.py: format_options_help"]}
{"id": "C24", "title": "Message translation only changes the text", "statement": "Translating a problem replaces its text by the template registered for its code (or, failing that, symbol) with the captured parts filled in; problems without translation are untouched, and nothing but the text changes.", "quantifier": "for all problems, templates and translation tables", "why_tests_cant": "All texts and tables.", "anchors": ["edulint/config/language_translations.py", "edulint/linting/linting.py"]}
{"id": "C25", "title": "Remote configuration cache serves only complete downloads", "statement": "The content returned for a remote configuration is always a complete response body of some successful download of that address.", "quantifier": "for all histories of requests, failures and crash points", "why_tests_cant": "Crash points and histories.", "anchors": ["edulint/config/file_config.py: CachedHTTPGet"]}
{"id": "C26", "title": "Remote configuration cache limits requests", "statement": "Within the freshness window after a successful download, no further network request for the same address is made and the same content is returned.", "quantifier": "for all sequences of requests over time", "why_tests_cant": "Histories of arbitrary length.", "anchors": ["edulint/config/file_config.py: CachedHTTPGet"]}
{"id": "C27", "title": "At most one version query per window", "statement": "The update check queries the package index at most once per window of time, however often it runs and whether or not queries succeed.", "quantifier": "for all sequences of runs with arbitrary times and network outcomes", "why_tests_cant": "Histories of arbitrary length.", "anchors": ["edulint/versions/version_checker.py"]}
{"id": "C28", "title": "An update is announced only if a newer release exists", "statement": "An available update is announced only when the package index reported a version greater than the running one.", "quantifier": "for all responses, cached states and failures", "why_tests_cant": "All states.", "anchors": ["edulint/versions/version_checker.py: is_update_waiting"]}
{"id": "C29", "title": "Graph traversal visits exactly the reachable blocks", "statement": "Enumerating the blocks of a control flow graph yields each block reachable from the start exactly once and no other block, for any graph including cyclic ones.", "quantifier": "for all graphs", "why_tests_cant": "All finite graphs.", "anchors": ["edulint/linting/analyses/cfg/graph.py: get_blocks, get_blocks_postorder, update_block_reachability"]}
{"id": "C30", "title": "Reaching definitions are exact", "statement": "The analysis associates with each use of a variable exactly the definitions that reach it along some path without an intervening redefinition.", "quantifier": "for all graphs and definition sites", "why_tests_cant": "Paths of unbounded length.", "anchors": ["edulint/linting/analyses/data_dependency.py"]}
{"id": "C31", "title": "Anti-unification is a generalisation", "statement": "The common core computed for several code fragments reproduces every fragment when its placeholders are replaced by the values recorded for that fragment.", "quantifier": "for all tuples of syntax trees", "why_tests_cant": "All trees.", "anchors": ["edulint/linting/analyses/antiunify.py"]}
{"id": "C32", "title": "'Redundant elif' is reported only for real negations", "statement": "Whenever an elif is reported as redundant (or the else as unreachable), its condition has the opposite truth value of the if condition in every environment.", "quantifier": "for all pairs of conditions and all environments", "why_tests_cant": "Semantic equivalence over all environments.", "anchors": ["edulint/linting/analyses/utils.py: is_negation", "edulint/linting/checkers/local_defects.py: _check_redundant_elif"]}
{"id": "C33", "title": "Constant folding agrees with Python", "statement": "Whenever a constant value is computed for an expression, evaluating the expression in Python gives that value; when no value is computed, the tool goes on without an exception.", "quantifier": "for all constant expressions", "why_tests_cant": "All expressions.", "anchors": ["edulint/linting/analyses/utils.py: get_const_value"]}
{"id": "C34", "title": "Iteration count message is exact", "statement": "'no iterations' / 'only one iteration' is reported for a for loop over a constant range exactly when the range is empty / has exactly one element.", "quantifier": "for all integers start, stop, step", "why_tests_cant": "All integers.", "anchors": ["edulint/linting/checkers/local_defects.py: _check_iteration_count"]}
{"id": "C35", "title": "Suggested replacement of a range membership test is equivalent", "statement": "The comparison suggested instead of '(not) in range(...)' has the same truth value for every integer value of the tested variable and of the range's bounds.", "quantifier": "for all integers and all steps", "why_tests_cant": "All integers.", "anchors": ["edulint/linting/checkers/local_defects.py: _check_in_range_instead_of_compare"]}
{"id": "C36", "title": "Suggested character arithmetic keeps the value", "statement": "Replacing a number by the suggested expression with 'ord' does not change the value of the arithmetic expression it occurs in.", "quantifier": "for all constants and positions", "why_tests_cant": "All constants.", "anchors": ["edulint/linting/checkers/local_defects.py: _check_use_ord_letter"]}
{"id": "C37", "title": "Suggested character comparison is equivalent", "statement": "Replacing a comparison of ord(c) with a number by the suggested comparison of c with a letter does not change its outcome.", "quantifier": "for all characters, numbers and operators", "why_tests_cant": "All characters.", "anchors": ["edulint/linting/checkers/local_defects.py: _check_magical_constant_in_ord_compare"]}
{"id": "C38", "title": "Suggested loop range enumerates the repeated values", "statement": "The range suggested to replace repeated statements enumerates exactly the values in which the statements differ, in order.", "quantifier": "for all sequences of integers", "why_tests_cant": "Sequences of arbitrary length.", "anchors": ["edulint/linting/checkers/duplication/duplicate_sequence.py: to_range_args, consolidate_ranges"]}
{"id": "C39", "title": "Repetition candidates split the block exactly", "statement": "Each way of splitting a block into repeated parts consists of at least two parts of the same length whose concatenation is a prefix of the block, and every such split is considered.", "quantifier": "for all blocks", "why_tests_cant": "Blocks of arbitrary length.", "anchors": ["edulint/linting/checkers/duplication/utils.py: get_loop_repetitions"]}
{"id": "C40", "title": "Repeated operation is reported only for equal operands", "statement": "A chain of + or * is reported as a repeated operation only if all its operands are the same expression.", "quantifier": "for all operator trees", "why_tests_cant": "All trees.", "anchors": ["edulint/linting/checkers/local_defects.py: _check_repeated_operation_rec"]}
{"id": "C41", "title": "Common parts of branches are really common", "statement": "The number of statements reported as movable before (after) the if is the length of the longest common prefix (suffix) of all branches, and the two parts do not overlap.", "quantifier": "for all lists of branches", "why_tests_cant": "Lists of arbitrary length.", "anchors": ["edulint/linting/checkers/old_duplication_checker.py: duplicate_if_branches"]}
{"id": "C42", "title": "Type guesses cover the run-time type", "statement": "Whenever the type analysis gives a guess for an expression, the type of the value the expression evaluates to is among the guessed types.", "quantifier": "for all expressions and environments", "why_tests_cant": "All expressions.", "anchors": ["edulint/linting/analyses/types.py: TypeVisitor, guess_type"]}
{"id": "C43", "title": "Sets of types behave as sets", "statement": "The type sets used by the analysis satisfy membership, union, intersection, size and listing laws of finite sets.", "quantifier": "for all type sets", "why_tests_cant": "Algebraic laws over all values.", "anchors": ["edulint/linting/analyses/types.py: Types"]}
{"id": "C44", "title": "Solver translation is faithful", "statement": "A condition handed to the solver has, for all integer values of its variables, the same truth value as the Python condition.", "quantifier": "for all conditions and environments", "why_tests_cant": "All environments.", "anchors": ["edulint/linting/analyses/z3_analysis.py"]}
{"id": "C45", "title": "Downloaded explanations are what is shown", "statement": "After a successful update of the explanations the updated explanations are shown; without one the distributed explanations are shown.", "quantifier": "for all histories of runs", "why_tests_cant": "Histories.", "anchors": ["edulint/explanations.py"]}
{"id": "C46", "title": "Linter failures are never reported as a clean run", "statement": "If flake8 or pylint ends abnormally, the result is an error and never an empty list of problems.", "quantifier": "for all exit codes and outputs", "why_tests_cant": "All exit codes.", "anchors": ["edulint/linting/linting.py: process_results, lint_flake8, lint_pylint", "edulint/linting/process_handler.py"]}
{"id": "C47", "title": "Option values are read as documented", "statement": "Every written option value is read as the kind of value the option documents (a flag, a text, one argument, a comma separated list), every option has its documented default, and exactly no-flake8 takes no value.", "quantifier": "for all options and all strings", "why_tests_cant": "All strings as values.", "anchors": ["edulint/option_parses.py: Type, OPTIONS", "edulint/config/config.py: _convert, parse_option"]}
{"id": "C48", "title": "Notations of a configuration file are interchangeable", "statement": "In a configuration file a TOML list means the comma separated string, a table for a linter means its --key=value arguments in order, and every option can be set from a configuration file.", "quantifier": "for all entries and values", "why_tests_cant": "All keys, lists and values.", "anchors": ["edulint/config/config.py: parse_config_file", "edulint/config/utils.py: config_file_val_to_str", "docs/source/configuration.rst"]}
{"id": "C49", "title": "Translations of the language file are preferred, the others are kept", "statement": "A message is translated by the language file's entry for it if there is one, else by the configuration file's entry; where neither has one it stays as it is.", "quantifier": "for all language files, configuration files, messages and groups of files in a run", "why_tests_cant": "All tables of translations and all orders of groups.", "anchors": ["edulint/config/config.py: get_config_many", "edulint/config/language_translations.py: parse_lang_translations, parse_lang_file", "edulint/linting/linting.py: translate"]}
{"id": "C50", "title": "Filtering messages keeps order and touches only the known kinds", "statement": "Filtering and rewording of the linters' messages keeps their order, removes only disallowed-name, no-repeated-op, superfluous-parens, redefined-builtin and unused import problems, rewords only disallowed-name and comparison-to-bool problems, changes nothing but the text, and decides about each problem on its own.", "quantifier": "for all configurations and lists of problems", "why_tests_cant": "All lists of problems.", "anchors": ["edulint/linting/linting.py: apply_tweaks", "edulint/linting/tweakers.py: TWEAKERS"]}
{"id": "C51", "title": "One-character names are allowed exactly if listed", "statement": "A problem about a disallowed name disappears exactly if the name is a single character listed in allowed-onechar-names; otherwise a single-character name is reported with a text asking for a more descriptive name, and a longer name with the original text.", "quantifier": "for all names and option values", "why_tests_cant": "All names and all values of the option.", "anchors": ["edulint/linting/tweakers.py: disallowed_name_keep, disallowed_name_reword"]}
{"id": "C52", "title": "Redefined built-ins are reported exactly if disallowed", "statement": "A problem about a redefined built-in is reported exactly if disallowed-builtin-names is empty or lists the name.", "quantifier": "for all names and option values", "why_tests_cant": "All names and all lists.", "anchors": ["edulint/linting/tweakers.py: redefined_builtin_keep"]}
{"id": "C53", "title": "Remaining filters and rewordings do what they document", "statement": "An unused import is left out exactly if the imported name starts with ib111; superfluous parentheses are left out exactly after the keyword not; a comparison to True or False loses the suggestion to use is and keeps the rest of the text.", "quantifier": "for all imported names, keywords and conditions", "why_tests_cant": "All texts.", "anchors": ["edulint/linting/tweakers.py: unused_import_keep, superfluous_parens_keep, singleton_bool_comparison_reword"]}
{"id": "C54", "title": "Repeated operations are reported by the number of multiplications", "statement": "Without enabled groups a repeated operation is reported exactly if its expression contains more than one multiplication sign; with an enabled group it is always reported.", "quantifier": "for all expressions and enabled groups", "why_tests_cant": "All expressions.", "anchors": ["edulint/linting/tweakers.py: no_repeated_op_keep"]}
{"id": "C55", "title": "Offline, the last downloaded configuration is used", "statement": "While the server cannot be reached or answers with an error, the last stored content of an address is returned for the extended time after its download.", "quantifier": "for all histories of requests to all addresses", "why_tests_cant": "Histories of arbitrary length.", "anchors": ["edulint/config/file_config.py: CachedHTTPGet"]}
{"id": "C56", "title": "Content returned without a request is recent", "statement": "Whenever a remote configuration is returned without asking the server, a download of that address was stored less than five minutes before and the content is from that download or a later one.", "quantifier": "for all histories of requests, failures and crash points", "why_tests_cant": "Crash points and histories.", "anchors": ["edulint/config/file_config.py: CachedHTTPGet"]}
{"id": "C57", "title": "Interrupted update checks recover", "statement": "However earlier checks for a new version failed or were interrupted, a later check outside the window queries the index again and, if the index answers, returns the newest installable release.", "quantifier": "for all histories of checks, with failures and interruptions at any point", "why_tests_cant": "Interruptions at every point of histories of any length.", "anchors": ["edulint/versions/version_checker.py"]}
{"id": "C58", "title": "Exactly the requested explanations", "statement": "Explaining a list of message ids returns exactly the ids among them that have an explanation, each once, in the order of first request, with its own explanation; 'all', in any case, stands for all messages. Printed, several messages appear in this order, each below a header with its id and with its non-blank parts stripped.", "quantifier": "for all tables of explanations and lists of ids", "why_tests_cant": "Arbitrary tables and lists, with repetitions and unknown ids.", "anchors": ["edulint/edulint.py: get_message_explanations, print_message_explanations"]}
{"id": "C59", "title": "Explanations are downloaded at most every ten minutes", "statement": "In any history of updates of the explanations, whatever the server answers, two requests are at least ten minutes apart; and after ten minutes the next update does request.", "quantifier": "for all histories of runs that do not overlap", "why_tests_cant": "Histories of any length.", "anchors": ["edulint/explanations.py"]}
{"id": "C60", "title": "What is reported is what the linters found", "statement": "Every reported problem was found by flake8, pylint or edulint in files of one group of the run, with the arguments of that group's configuration, and has the position, code, symbol and enabler of that finding; only its text may differ. Conversely every finding is reported, unless a problem of the same line suppresses it or it is of a kind that is filtered.", "quantifier": "for all runs, configurations and results of the linters", "why_tests_cant": "All combinations of linter results.", "anchors": ["edulint/linting/linting.py: flake8_to_problem, pylint_to_problem, lint, lint_many", "edulint/edulint.py: _check_code"]}
{"id": "C61", "title": "Consistent anti-unification is a renaming", "statement": "If anti-unification with consistent names required succeeds and leaves placeholders only for names of variables, then each fragment is each other fragment with its variables renamed: a variable has one and the same counterpart wherever it occurs.", "quantifier": "for all tuples of syntax trees in which constants equal for Python are identical, no class is a proper subclass of another, and all attributes are compared", "why_tests_cant": "All trees.", "anchors": ["edulint/linting/analyses/antiunify.py: get_merge_candidates, antiunify", "edulint/linting/checkers/duplication/duplicate_block.py"]}
{"id": "C62", "title": "Translating an admitted condition raises no exception", "statement": "If a condition passes the check that precedes its translation for the solver, then translating it, with the variables found by that check and perhaps others, raises no exception.", "quantifier": "for all conditions and sets of variables", "why_tests_cant": "All conditions.", "anchors": ["edulint/linting/analyses/z3_analysis.py: initialize_variables, convert_condition_to_z3_expression"]}
{"id": "C63", "title": "Reports about single branches of an if statement are right", "statement": "A test reported as always true (always false) is true (false) whenever all the tests before it are false; a shorter test suggested for a branch has, whenever that branch is reached, the same truth value as the original one; a branch reported as unreachable is never reached.", "quantifier": "for all if statements whose tests are translated faithfully, all values of their variables, and all solvers that claim only implications that hold", "why_tests_cant": "All statements, all values of variables and all answers of the solver.", "anchors": ["edulint/linting/checkers/simplifiable_if.py: _immediate_simplifications_for_if, _give_suggestion_for_same_order_in_if, _check_for_redundant_condition_part_in_if"]}
{"id": "C64", "title": "A suggested order of branches executes the same branch", "statement": "If an if statement is rewritten with the branches in the suggested order, with the suggested tests, and with else where it is suggested, then the same branch is executed as before, or none if none was.", "quantifier": "for all if statements whose tests are translated faithfully, all values of their variables, and all solvers that claim only implications that hold", "why_tests_cant": "All statements and values; the branches are moved by a recursive search.", "anchors": ["edulint/linting/checkers/simplifiable_if.py: _simplify_if_by_moving_conditions_up, _give_suggestion_for_changed_order_in_if, _check_for_redundant_condition_part_in_if"]}
{"id": "C65", "title": "Checking the branches of an if statement raises no exception", "statement": "Looking for redundant conditions in an if statement whose tests have been translated raises no exception, and ends.", "quantifier": "for all if statements and all answers of the solver", "why_tests_cant": "All statements and all answers of the solver.", "anchors": ["edulint/linting/checkers/simplifiable_if.py: _simplify_if_by_moving_conditions_up, _first_movable_block_for_simplification, _check_for_redundant_condition_part_in_if"]}
{"id": "C66", "title": "A value suggested in place of a conditional has the same truth value", "statement": "If a conditional with two returns or two assignments, or a conditional expression, is replaced by the single return, assignment or expression that is suggested, then a value with the same truth value is returned or assigned to the same target, or the same exception is raised.", "quantifier": "for all tests, values and environments", "why_tests_cant": "All expressions as tests and values; where brackets are needed depends on the precedence of every operator.", "anchors": ["edulint/linting/checkers/simplifiable_if.py: _get_refactored, _refactored_cond_from_then_orelse, _mergeable, _basic_checks, visit_ifexp"]}
{"id": "C67", "title": "Checking a conditional raises no exception and ends", "statement": "Looking for a simpler way to write a single conditional statement raises no exception, and ends.", "quantifier": "for all conditional statements", "why_tests_cant": "All statements as branches; that a loop never ends cannot be observed.", "anchors": ["edulint/linting/checkers/simplifiable_if.py: _get_refactored, _mergeable, _basic_checks"]}
{"id": "C68", "title": "Merged conditions execute the body as before", "statement": "If two nested conditionals, two consecutive conditionals that return the same value, or a conditional whose first branch is pass are replaced by one conditional with the suggested test, then the same body is executed in the same cases, or the same exception is raised.", "quantifier": "for all tests and environments", "why_tests_cant": "All expressions as tests; where brackets are needed depends on the precedence of every operator.", "anchors": ["edulint/linting/checkers/simplifiable_if.py: _get_refactored, _merge_nested, _merge_sequential, _basic_checks"]}
{"id": "C69", "title": "Only numbers are handed to the solver", "statement": "If a condition passes the check that precedes its translation for the solver, then the guessed type of every part of it that becomes a variable consists of integers, floats and truth values only, and of integers only if the part is an operand of a remainder or a floor division.", "quantifier": "for all conditions and all guesses of types", "why_tests_cant": "All conditions and all types.", "anchors": ["edulint/linting/analyses/z3_analysis.py: initialize_variables"]}
{"id": "C70", "title": "Executions are paths of the control flow graph", "statement": "For every execution of a module or of the body of a function, there is a path from the start block of its control flow graph such that the locations executed are, in this order, the locations of the blocks on the path, up to where the execution is observed; if the execution ends, the path ends in the end block.", "quantifier": "for all programs and all their executions", "why_tests_cant": "Programs nest without bound, and executions are of any length.", "anchors": ["edulint/linting/analyses/cfg/visitor.py: CFGVisitor", "edulint/linting/analyses/cfg/graph.py: link_or_merge, multiple_link_or_merge"]}
{"id": "C71", "title": "Paths of the control flow graph are executions", "statement": "For every path from the start block of a control flow graph, the locations of its blocks are executed in this order for some outcome of the tests and some elements of the iterated expressions; in particular, a location lies on a path if and only if control flow permits that it is executed.", "quantifier": "for all programs and all paths", "why_tests_cant": "Programs nest without bound, and paths are of any length.", "anchors": ["edulint/linting/analyses/cfg/visitor.py: CFGVisitor", "edulint/linting/analyses/cfg/graph.py: link_or_merge, multiple_link_or_merge"]}
{"id": "C72", "title": "Each location is in one block", "statement": "In the control flow graph of a module, a function or a class, each simple statement, test, iterated expression, target of a for and item of a with is in exactly one block, once.", "quantifier": "for all programs", "why_tests_cant": "Programs nest without bound.", "anchors": ["edulint/linting/analyses/cfg/visitor.py: CFGVisitor", "edulint/linting/analyses/cfg/graph.py: add_statement"]}
{"id": "C73", "title": "A loop reported for one iteration has no second one", "statement": "If a loop is reported to run for only one iteration, then no execution evaluates its test, or asks for its next element, again after executing nothing but its body; and the check itself raises no exception.", "quantifier": "for all programs, all loops in them and all executions", "why_tests_cant": "Loop bodies nest without bound, and executions are of any length.", "anchors": ["edulint/linting/checkers/python_ta_checkers.py: OneIterationChecker, _check_one_iteration"]}
{"id": "C74", "title": "Building a control flow graph raises no exception", "statement": "Visiting a module, a function or a class to build its control flow graph raises no exception and ends: no block is removed from unreachable_blocks twice, none is merged into itself, and the assertions of add_CF_statement hold.", "quantifier": "for all programs", "why_tests_cant": "Statements nest without bound; the assertions depend on which blocks have been merged.", "anchors": ["edulint/linting/analyses/cfg/visitor.py: CFGVisitor", "edulint/linting/analyses/cfg/graph.py: link_or_merge, multiple_link_or_merge, add_CF_statement, _CF_statement_to_pos"]}
{"id": "C75", "title": "Each name stands for the variable that Python's scoping rules give it", "statement": "VarEventsAnalysis.collect records an event for exactly those occurrences of names that stand for a variable of the program, and the variable recorded has the name and the scope that Python's rules for naming and binding give it (nearest enclosing scope that binds the name, classes left out, global and nonlocal taken into account, defaults and what a comprehension first iterates over evaluated in the scope around).", "quantifier": "for all programs of nested functions, classes, lambdas, comprehensions and statements", "why_tests_cant": "Scopes nest without bound, and whether a name is found depends on the order in which statements and definitions are visited.", "anchors": ["edulint/linting/analyses/variable_scope.py: VarEventsAnalysis.collect, VarEventListener, _get_var_node_scope, _init_var_in_scope, _del_var_from_scope, statements_before_definitions"]}
{"id": "C76", "title": "A condition that is implied after a block of statements is true there", "statement": "If condition_implies_another_with_block_in_between(c1, block, c2) is True, then whenever c1 is true, the block is executed to its end, and c2 is evaluated, c2 is true; and the check raises no exception.", "quantifier": "for all conditions, all blocks of assignments, assertions, if statements and statements that leave the block, nested in any way, and all values of the variables", "why_tests_cant": "Blocks nest without bound, and the formula given to the solver depends on the number of assignments before each place.", "anchors": ["edulint/linting/analyses/z3_block_analysis.py: condition_implies_another_with_block_in_between, convert_conditions_with_blocks_after_each_to_Z3, _changed_vars_after_block, _changed_vars_after_if, validate_and_initialize_variables_for_Z3_block_analysis"]}
{"id": "C77", "title": "A loop reported as infinite does not end", "statement": "If a while loop is reported as explicit-infinite-loop or implicit-infinite-loop and its condition is true when it is reached, then it never ends other than by an exception.", "quantifier": "for all while loops, all values of the variables and any number of iterations", "why_tests_cant": "No test can run a loop for ever.", "anchors": ["edulint/linting/checkers/unsuited_loop.py: _check_infinite_loop"]}
{"id": "C78", "title": "Merging if statements that are reported as mergeable changes nothing", "statement": "If an if statement is reported with use-if-elif-else or use-if-elif-else-modifying, then merging it with the reported number of following if statements into one if-elif statement changes nothing about what the program computes: the same branches are run, and variables have the same values afterwards.", "quantifier": "for all sequences of if statements and all values of the variables", "why_tests_cant": "Whether two conditions are ever true one after the other depends on the values of variables and on everything that is assigned in between; a test compares single runs.", "anchors": ["edulint/linting/checkers/simplifiable_if.py: _check_for_use_if_elif_else"]}
{"id": "C79", "title": "The message about mergeable ifs tells whether variables of conditions are modified", "statement": "If use-if-elif-else is reported, then no variable from the test conditions of the if statements to be merged is modified by them; if use-if-elif-else-modifying is reported, then some may be.", "quantifier": "for all sequences of if statements", "why_tests_cant": "The message depends on which of two strategies merges more, at any position in a sequence of any length; tests have a few short ones.", "anchors": ["edulint/linting/checkers/simplifiable_if.py: _report_all_mergeable_consecutive_ifs", "edulint/linting/checkers/simplifiable_if.py: _test_conditions_might_be_modified"]}
{"id": "C80", "title": "Ranges reported as too wide can be tightened", "statement": "If use-tighter-boundaries is reported for the first (last) iteration of a for loop over a range, then the loop over the range without its first (last) value does the same, apart from the value the control variable has after the loop.", "quantifier": "for all for loops over ranges and all values of the variables", "why_tests_cant": "The bounds and the step may be any expressions, and the rest of the body any statements; a test looks at single programs.", "anchors": ["edulint/linting/checkers/unsuited_loop.py: _check_use_tighter_bounds"]}
{"id": "C81", "title": "A while True loop can be written with the suggested condition", "statement": "If no-while-true is reported with a condition, then the loop is equivalent to a while loop with the negated condition, with what is before the break moved after the loop.", "quantifier": "for all while loops and all values of the variables", "why_tests_cant": "The loops may run for any number of iterations, or not end at all.", "anchors": ["edulint/linting/checkers/unsuited_loop.py: _check_no_while_true"]}
{"id": "C82", "title": "A traversal yields what it can get to", "statement": "A traversal of a control flow graph from given locations yields each location at most once, and exactly those locations that can be reached along the successors (predecessors) from a given one without passing a location at which the traversal is to stop; where it stops is yielded only if include_end is set, and the given locations, unless reached again, only if include_start is set. It ends and raises no exception.", "quantifier": "for all control flow graphs, all given locations and all conditions for stopping", "why_tests_cant": "Graphs may have any number of cycles, and the traversal begins and stops in the middle of blocks, which may be entered again from their beginning.", "anchors": ["edulint/linting/analyses/cfg/utils.py: essor_blocks_from_locs", "edulint/linting/analyses/cfg/utils.py: essor_locs_from_locs"]}
{"id": "C83", "title": "Traversals yield what executions get to", "statement": "From a location of a program, the traversal along successors (predecessors) of the control flow graph yields another location exactly if some execution gets from the first to the second (from the second to the first) without passing a location at which the traversal is to stop.", "quantifier": "for all programs, all executions, all locations and all conditions for stopping", "why_tests_cant": "Loops give infinitely many executions; the claim connects three parts (building the graph, traversing it, and what Python does) that tests look at separately.", "anchors": ["edulint/linting/analyses/cfg/utils.py: successors_from_loc", "edulint/linting/analyses/cfg/utils.py: predecessors_from_loc", "edulint/linting/analyses/cfg/visitor.py: CFGVisitor"]}
{"id": "C84", "title": "Whether a variable is changed between locations", "statement": "If is_changed_between says that a variable is not changed between a location and other ones, then no execution changes it from the last time it is at the first location until it has executed one of the others.", "quantifier": "for all programs, all executions, all variables and all locations", "why_tests_cant": "There may be infinitely many executions between two locations in a loop.", "anchors": ["edulint/linting/analyses/data_dependency.py: is_changed_between"]}
{"id": "C85", "title": "Code moved after an if changes nothing", "statement": "If identical-if-branches-part reports code that all branches of an if end with, moving it after the if changes nothing. What is reported is the greatest number of statements that all branches have in common at their beginnings or ends; checking raises no exception.", "quantifier": "for all if statements with any elifs, whatever conditions and statements do", "why_tests_cant": "Any number of branches of any length, nested ifs as last branches, and any effects and exceptions of conditions and statements.", "anchors": ["edulint/linting/checkers/duplication/duplicate_if.py: identical_before_after_branch", "edulint/linting/checkers/duplication/duplicate_if.py: extract_from_elif", "edulint/linting/checkers/duplication/duplicate_if.py: get_bodies"]}
{"id": "C86", "title": "Code moved before an if, or left of it, changes nothing", "statement": "If identical-if-branches reports that all branches of an if are identical, replacing the if by a branch changes nothing; if identical-if-branches-part reports code that all branches begin with, moving it before the if changes nothing.", "quantifier": "for all if statements with any elifs, whatever conditions and statements do", "why_tests_cant": "Whether the conditions are affected by the code that is moved, or have effects themselves, depends on programs that tests do not contain.", "anchors": ["edulint/linting/checkers/duplication/duplicate_if.py: identical_before_after_branch"]}
{"id": "C87", "title": "elifs reported as identical can be joined", "statement": "If identical-seq-elifs reports consecutive branches of an if as identical, joining their conditions with or changes nothing.", "quantifier": "for all if statements with any elifs and an else, whatever conditions and statements do", "why_tests_cant": "Any number of elifs and groups of them, any effects and exceptions of conditions and statements.", "anchors": ["edulint/linting/checkers/duplication/duplicate_if.py: identical_seq_ifs"]}
{"id": "C88", "title": "ifs reported as identical can be joined", "statement": "If identical-seq-ifs reports consecutive ifs (and their elifs) as identical, joining their conditions with or changes nothing. A sequence of ifs is looked at from the first of them only.", "quantifier": "for all sequences of if statements with any elifs, whatever conditions and statements do", "why_tests_cant": "Whether more than one of the bodies is executed depends on what the conditions and bodies do; sequences can have elses at any place.", "anchors": ["edulint/linting/checkers/duplication/duplicate_if.py: identical_seq_ifs", "edulint/linting/checkers/duplication/duplicate_if.py: extract_from_siblings"]}
{"id": "C89", "title": "Untwisting ifs changes nothing", "statement": "If similar-if-to-untwisted reports an if both of whose branches are an if, with the same branches or swapped ones, replacing it by a single if with the suggested condition changes nothing.", "quantifier": "for all such if statements, whatever conditions and statements do", "why_tests_cant": "Effects and exceptions of the three conditions in any combination.", "anchors": ["edulint/linting/checkers/duplication/duplicate_if.py: get_fixed_by_restructuring_twisted"]}
{"id": "C90", "title": "The locations in statements are found", "statement": "syntactic_children_locs of statements in a row yields each location in them that is executed in some execution, each once, and nothing that is not in them.", "quantifier": "for all programs, all statements in a row in them, and all executions", "why_tests_cant": "Which locations share a block depends on all of the program around the statements; programs nest arbitrarily.", "anchors": ["edulint/linting/analyses/cfg/utils.py: syntactic_children_locs", "edulint/linting/analyses/cfg/utils.py: syntactic_children_locs_from", "edulint/linting/analyses/cfg/utils.py: get_locs_in_and_after_from"]}
{"id": "C91", "title": "Whether variables are modified in statements", "statement": "If modified_in is false for variables and statements in a row, no execution changes one of the variables at a location in the statements.", "quantifier": "for all programs, all statements in a row in them, all sets of variables and all executions", "why_tests_cant": "The modification can be anywhere in nested statements, in any of infinitely many programs.", "anchors": ["edulint/linting/analyses/data_dependency.py: modified_in", "edulint/linting/analyses/data_dependency.py: get_events_for"]}
{"id": "C92", "title": "The definitions of uses are those that executions give", "statement": "collect_reaching_definitions makes an event a definition of a use of a variable whenever in some execution of the module or of a function the use reads or modifies the value that the event gives to the variable; and only then.", "quantifier": "for all files, all variables and all executions", "why_tests_cant": "It is about all programs and all their executions; each program can have infinitely many.", "anchors": ["edulint/linting/analyses/data_dependency.py: collect_reaching_definitions", "edulint/linting/analyses/cfg/visitor.py: CFGVisitor"]}
{"id": "C93", "title": "Variables whose values come from before statements", "statement": "get_vars_defined_before of statements in a row has a variable with a node if in some execution that node, outside of the statements, gives the variable a value that is read or modified in the statements; and only if.", "quantifier": "for all files, all statements in a row in them, and all executions", "why_tests_cant": "The value can come from anywhere in the program, by arbitrarily many iterations of loops.", "anchors": ["edulint/linting/analyses/data_dependency.py: get_vars_defined_before"]}
{"id": "C94", "title": "Variables whose values are used outside of statements", "statement": "get_vars_used_after of statements in a row has a variable with a node if in some execution a value that the variable gets in the statements is read or modified at that node, outside of them; and only if.", "quantifier": "for all files, all statements in a row in them, and all executions", "why_tests_cant": "The use can be anywhere in the program, after arbitrarily many iterations of loops; a missed use makes an extracted function wrong.", "anchors": ["edulint/linting/analyses/data_dependency.py: get_vars_used_after"]}
{"id": "C95", "title": "Suggested comparisons with numbers are equivalent", "statement": "If redundant-compare-in-condition, using-compare-instead-of-equal or simplifiable-with-abs is reported for operands of and/or, replacing these operands by the suggestion keeps the truth value of the condition, whenever the compared expression is a number.", "quantifier": "for all conditions joined by and/or, and all values of variables", "why_tests_cant": "Suggestions depend on the order, direction, strictness and signs of arbitrarily many comparisons; a test checks one combination.", "anchors": ["edulint/linting/checkers/simplifiable_if.py: SimplifiableIf._suggestion_for_group_of_boolops"]}
{"id": "C96", "title": "Suggested max and min are equivalent and join the most comparisons", "statement": "If redundant-compare-avoidable-with-max-min is reported for operands of and/or, replacing these operands by the suggestion keeps the truth value of the condition, whenever what is compared are numbers; no other expression is compared in one direction with more others; and it is reported whenever two operands of pure ones can be joined.", "quantifier": "for all conditions joined by and/or, and all values of variables", "why_tests_cant": "The suggestion depends on which expressions are repeated on which sides of arbitrarily many comparisons, and on their texts.", "anchors": ["edulint/linting/checkers/simplifiable_if.py: SimplifiableIf._make_suggestion_for_using_max_min_if_possible"]}
{"id": "C97", "title": "Suggested comparisons of remainders are equivalent", "statement": "If simplifiable-test-by-equals is reported for operands of or, replacing these operands by the suggestion keeps the truth value of the condition, whenever the expressions whose remainders are compared are integers.", "quantifier": "for all conditions joined by or, all moduli, and all integers", "why_tests_cant": "It depends on counting sets of possible remainders for an arbitrary modulus.", "anchors": ["edulint/linting/checkers/simplifiable_if.py: SimplifiableIf._make_suggestion_for_simplifiable_test_by_equals"]}
{"id": "C98", "title": "Redundant parts of conditions are redundant", "statement": "If redundant-condition-part is reported, the suggestion consists of some of the operands and the condition is equivalent to it, having the same value unless only the truth value is used; no further operand can be left out, and of equivalent ones the shorter stays. If condition-always-true-or-false is reported, the condition always has the reported truth value.", "quantifier": "for all conditions joined by and/or, all comparisons, and all values of variables", "why_tests_cant": "Which operands are removed depends on which of arbitrarily many imply which others, alone and together, in the order in which they are tried.", "anchors": ["edulint/linting/checkers/simplifiable_if.py: SimplifiableIf._redundant_condition_parts", "edulint/linting/checkers/simplifiable_if.py: SimplifiableIf._make_suggestion_for_redundant_condition_part", "edulint/linting/checkers/simplifiable_if.py: SimplifiableIf.visit_compare"]}
{"id": "C99", "title": "Redundant arithmetic is redundant", "statement": "If redundant-arithmetic is reported, the operation gives, for all numbers and strings, one of its operands (perhaps with the other sign), 0 or 1, or it is a division by 0; and arithmetic with a constant that makes it trivial for all numbers is reported.", "quantifier": "for all expressions and augmented assignments, and all values of variables", "why_tests_cant": "Constants are folded from expressions of any size, and the operation has to be trivial for every number.", "anchors": ["edulint/linting/checkers/local_defects.py: Local._check_redundant_arithmetic"]}
{"id": "C100", "title": "Suggested augmented assignments are equivalent", "statement": "If use-augmented-assign is reported, the suggested statement leaves every variable with the same value as the original one, and changes no value that another variable holds; it is reported for every operation with the target as left operand of which no guessed type can change.", "quantifier": "for all assignments, guessed types, and values of variables", "why_tests_cant": "Whether the statements differ depends on guessed types, on the order of the operands and on which variables share a value.", "anchors": ["edulint/linting/checkers/local_defects.py: Local._check_augmentable"]}
{"id": "C101", "title": "Suggestions for is with truth values are equivalent", "statement": "If no-is-bool is reported, the suggestion reads as an expression that has, where the compared expression is a truth value, the truth value of the comparison; there is one message for each is or is not with a truth value on its right.", "quantifier": "for all comparisons with any number of operators, and all values of variables", "why_tests_cant": "The suggestion is a text put before that of an arbitrary expression, at any place in a chain of comparisons.", "anchors": ["edulint/linting/checkers/local_defects.py: Local._check_no_is"]}
{"id": "C102", "title": "Suggested calls of append are equivalent", "statement": "If use-append is reported, the suggestion reads as a call of append after which the list is the one that the original statement leaves; every extend by a display of one element, and every += of one, is reported.", "quantifier": "for all expressions for the list and the element", "why_tests_cant": "The suggestion is put together from texts of arbitrary expressions.", "anchors": ["edulint/linting/checkers/local_defects.py: Local._check_extend", "edulint/linting/checkers/local_defects.py: Local._check_augassign_extend"]}
{"id": "C103", "title": "Suggested integral division is equivalent", "statement": "If use-integral-division is reported, the integral division gives the number that the original expression gives, wherever it gives one.", "quantifier": "for all operands and numbers", "why_tests_cant": "It has to hold for all pairs of numbers.", "anchors": ["edulint/linting/checkers/local_defects.py: Local._check_div"]}
{"id": "C104", "title": "Multiplied lists of new containers are found", "statement": "do-not-multiply-mutable is reported for a product exactly if one of its operands is a display of a list of which an element is a new list, set or dictionary, and no product ends the check with an exception.", "quantifier": "for all products", "why_tests_cant": "Displays have any number of elements, and products any operands.", "anchors": ["edulint/linting/checkers/local_defects.py: Local._check_multiplied_list"]}
{"id": "C105", "title": "Returning early changes nothing", "statement": "If use-early-return is reported, negating the condition, putting what ends the block first and the long branch after it without indentation gives a program that does the same; it is reported exactly for ifs that are no elif, do not follow a large terminated chain of ifs, have at least four statements, and whose else, or what follows, ends the block with at most two.", "quantifier": "for all ifs with any nested statements, and all executions", "why_tests_cant": "Branches nest arbitrarily, and executions may end in any statement.", "anchors": ["edulint/linting/checkers/local_defects.py: Local._check_use_early_return"]}
{"id": "C106", "title": "Code reported as long has that many lines", "statement": "If long-function or long-script is reported, the code has, outside of imports, of functions and classes in it and of what only runs if it is the main program, at least as many lines with one statement or head of a clause each as the message says; all code with more than 20 is reported, with their number.", "quantifier": "for all functions and scripts with any nested statements", "why_tests_cant": "The count is a recursion over all kinds of nested statements.", "anchors": ["edulint/linting/checkers/basic_checker.py: LongCodeChecker", "edulint/linting/analyses/utils.py: get_statements_count"]}
{"id": "C107", "title": "Functions that are only called recursively are recognised", "statement": "has_just_recursive_calls is true exactly if every function that calls the given one, directly or indirectly, is itself called by it, directly or indirectly; get_uncalled_functions returns the functions all callers of which are of this kind.", "quantifier": "for all call graphs and all nodes of them", "why_tests_cant": "The condition is about all paths in graphs with cycles of any shape.", "anchors": ["edulint/linting/analyses/data_dependency.py: has_just_recursive_calls", "edulint/linting/analyses/data_dependency.py: get_uncalled_functions"]}
{"id": "C108", "title": "Events of all functions that a call runs are collected", "statement": "For a call, the events of variables of outer scopes are collected from the called function and from all functions that it calls, directly or indirectly; each of these functions contributes its events once and in their order, also if functions call each other.", "quantifier": "for all call graphs, all called functions and all events", "why_tests_cant": "There are infinitely many graphs; the traversal has to end for cyclic ones too.", "anchors": ["edulint/linting/analyses/data_dependency.py: collect_events_in_called"]}
{"id": "C109", "title": "Reported loops over indices can be loops over elements", "statement": "If use-foreach is reported for a loop over the indices of a list, the loop over its elements in which the new variable stands for the list indexed does the same, apart from the variables of the loops; if use-enumerate is reported, the loop over enumerate does. All bodies that use the element only are reported if they are written with indices. What is reported indexes the list with its variable only, and nothing else with it.", "quantifier": "for all bodies with nested loops, branches, jumps and calls, all objects and operations, and all states", "why_tests_cant": "Executions depend on arbitrary objects and on nested control flow; a test runs a handful of them.", "anchors": ["edulint/linting/checkers/unsuited_loop.py: UnsuitedLoop._check_improve_for_loop", "edulint/linting/analyses/variable_scope.py: VarEventListener"]}
{"id": "C110", "title": "Reported while loops count", "statement": "If use-for-loop is reported for a while, then one side of its test is a variable, all assignments to variables of the test that are executed in the body change that variable by the same step of one towards the limit, each at most once in an iteration, and in each iteration that gets back to the test there is one of them. If an iteration may leave the loop by break or return before that, no value from the body is used after the loop. As long as the variable is changed once in each iteration, the values for which the test is true are those of the range.", "quantifier": "for all modules and functions with a while in them, all executions, all variables and constants", "why_tests_cant": "Executions of nested control flow are unboundedly many; a test checks a few loops.", "anchors": ["edulint/linting/checkers/unsuited_loop.py: UnsuitedLoop._check_use_for_loop"]}
{"id": "C111", "title": "Modifying what is iterated over", "statement": "modifying-iterated-structure is reported for a call of a method on a variable within a loop over that variable if the call is executed in an iteration after which another may follow. What is reported is a modification of that variable by a method in the body of the loop, in a block that does not end with break or return.", "quantifier": "for all loops, all executions, all modifications in them", "why_tests_cant": "Executions of nested control flow are unboundedly many; a test checks a few loops.", "anchors": ["edulint/linting/checkers/unsuited_loop.py: UnsuitedLoop._check_modifying_iterable", "edulint/linting/checkers/unsuited_loop.py: UnsuitedLoop._get_last_block_line"]}
{"id": "C112", "title": "Changed control variables", "statement": "In a loop over a range with a variable whose name does not start with an underscore, changing-control-variable is reported for a change of the variable in the body exactly if no execution reads the value that the change gives to the variable, and loop-shadows-control-variable for each loop in the body that has the same variable.", "quantifier": "for all loops, all executions, all changes in them", "why_tests_cant": "Whether a value is read depends on all executions; a test checks a few programs.", "anchors": ["edulint/linting/checkers/unsuited_loop.py: UnsuitedLoop._check_control_variable_changes"]}
{"id": "C113", "title": "Merging repetitions with the loop around them", "statement": "If similar-block-to-loop-merge is reported for the parts of the body of a loop over range(n), then the loop with only the first of the parts as its body and the suggested number of iterations does the same; the suggested number is n times the number of parts. It is reported for each loop over a range from 0 by 1 that consists of at least three equal statements or of at least two equal parts of at least three statements and whose variable is not used.", "quantifier": "for all loops over ranges, all bodies, all starting states", "why_tests_cant": "The two loops are compared on all bodies and in all states; a test checks a few messages and runs neither loop.", "anchors": ["edulint/linting/checkers/duplication/duplicate_sequence.py: get_fixed_by_merging_with_parent_loop", "edulint/linting/checkers/duplication/duplicate_sequence.py: similar_to_loop"]}
{"id": "C114", "title": "Which blocks are compared", "statement": "For a statement, get_similar_to_block_candidates yields exactly the longest pairs of blocks that begin with it and with a statement that begins after it ends such that both have the same number of statements (without those that are skipped), these and, as far as both have as many, all statements in them but for those within the last are of the same types, the first block ends before the second begins, and they are not two single simple statements. What was remembered about the siblings of statements does not matter, in whichever order they are asked for.", "quantifier": "for all programs, all statements, all orders of questions", "why_tests_cant": "Pairs of blocks grow with the square of the program and the memo with the order of questions; a test checks a few programs.", "anchors": ["edulint/linting/checkers/duplication/checker.py: get_similar_to_block_candidates", "edulint/linting/checkers/duplication/checker.py: get_memoized_siblings", "edulint/linting/checkers/duplication/checker.py: get_siblings", "edulint/linting/checkers/duplication/checker.py: overlap"]}
{"id": "C115", "title": "Which blocks are reported together", "statement": "Blocks for which similar-block-to-function or similar-block-to-call is reported are at least two, have the same number of statements of the same types, do not overlap, are listed in the order of the text, are not all within one statement, and contain all blocks that were found to be alike; the first statement of them was not reported before. Nothing raises.", "quantifier": "for all programs, all answers of the checks that come before", "why_tests_cant": "Groups depend on all pairs of blocks of a program and their order; a test checks a few programs.", "anchors": ["edulint/linting/checkers/duplication/checker.py: is_any_similar_to_block", "edulint/linting/checkers/duplication/checker.py: NoDuplicateCode.visit_module"]}
{"id": "C116", "title": "What is recorded about variables is what is done with them", "statement": "If executing a statement assigns to, reads, deletes or modifies (sets or deletes attributes or items, or calls a method that modifies) a variable that is known, then an event of this type is recorded; events are recorded for just what some execution does; the events of a variable are in the order in which this is done, so that what is first done with a variable gets the definitions from before the statement. The first assignment in a scope is recorded as ASSIGN, the others as REASSIGN.", "quantifier": "for all statements and expressions without scopes of their own, all executions, all variables", "why_tests_cant": "Statements nest expressions and targets arbitrarily; a test checks a few of them and cannot see all executions.", "anchors": ["edulint/linting/analyses/variable_scope.py: VarEventListener", "edulint/linting/analyses/var_events.py: strip_to_name", "edulint/linting/analyses/data_dependency.py: collect_gens_kill"]}
{"id": "C117", "title": "A new function is suggested where it makes the code shorter", "statement": "similar-block-to-function is reported for blocks just if what differs has the same type in all of them and the code with a new function and its calls instead of the blocks has less than four fifths of the tokens and at most one statement more. The new function has one parameter for each difference that is not everywhere the same as another one and for each name that is defined before, and returns each variable that is used after a block. The message says how many blocks there are, how many statements they have and where they begin.", "quantifier": "for all blocks, all differences, all answers of the analysis of variables", "why_tests_cant": "The counts depend on all of the code and on the differences; a test checks a few blocks and cannot see that part of the new code is not counted.", "anchors": ["edulint/linting/checkers/duplication/duplicate_block.py: get_fixed_by_function", "edulint/linting/checkers/duplication/duplicate_block.py: similar_to_function", "edulint/linting/analyses/utils.py: TokenCountingVisitor"]}
{"id": "C118", "title": "A call of a function is suggested where it can be called and gives what is used", "statement": "similar-block-to-call is reported for a block just if one of the blocks, and only one, is the body of a function but for a return; the block sees this function and its name means nothing else; what differs is a parameter or defined in the block; every variable that is used after another block is just modified or returned by the function with the value it has; and calls for their effects make the code shorter. The message has the name of the function and is for another block than its own.", "quantifier": "for all blocks, functions, differences, and answers of the analysis of variables", "why_tests_cant": "Which functions can be called depends on scopes and all definitions of a name; what is returned is compared with all uses. A test checks a few of these.", "anchors": ["edulint/linting/checkers/duplication/duplicate_block.py: similar_to_call", "edulint/linting/checkers/duplication/duplicate_block.py: get_possible_callees", "edulint/linting/checkers/duplication/duplicate_block.py: returns_used_value", "edulint/linting/analyses/data_dependency.py: scope_is_nested"]}
{"id": "C119", "title": "Variables that are said not to be modified are not", "statement": "If it is said that the variables of an expression are not modified by statements, then executing these, with the functions that they call, changes none of them and calls no code that is not known. If it is said that they may be, then a type that can be modified is guessed for one of them, or some is changed, directly or by functions that are called, or something is called whose code is not known.", "quantifier": "for all expressions, statements, functions that call each other and themselves, and guessed types", "why_tests_cant": "Functions call each other in cycles and have several definitions. A test has a few functions.", "anchors": ["edulint/linting/analyses/mutability.py: vars_from_node_may_be_modified_in", "edulint/linting/analyses/mutability.py: _may_contain_global_variable_modified_in_function", "edulint/linting/analyses/mutability.py: may_contain_mutable_var", "edulint/linting/analyses/data_dependency.py: modified_in"]}
{"id": "C120", "title": "Global variables that functions modify are reported", "statement": "no-global-vars is reported just for the variables of the module that one of its reached statements, other than an import, assigns to, and that a reached function, class, lambda or comprehension assigns to, modifies or deletes. Each is reported once, for the last such statement, with its name and the line of the first change. A variable that functions only read is never reported.", "quantifier": "for all modules, as the events of variables at their locations in the order in which these are reached", "why_tests_cant": "There are many ways to modify a variable and orders of statements and functions. A test has a few variables.", "anchors": ["edulint/linting/checkers/basic_checker.py: NoGlobalVars", "edulint/linting/analyses/var_events.py: VarEvents"]}
{"id": "C121", "title": "A list or dictionary suggested instead of ifs chooses the same branch", "statement": "similar-if-to-list or similar-if-to-dict is reported for the first ifs in a row, at least three and up to the end or from the beginning, whose conditions are made of comparisons of the same variables with constants by and and or, if their bodies differ in at most two places, the variables do not change, and the code gets shorter. A list is suggested just if one variable is compared with the numbers from 0, each once. Looking up the values of the variables gives the branch that the ifs execute, for all values.", "quantifier": "for all ifs, conditions, and values of variables", "why_tests_cant": "Conditions are nested combinations of comparisons, and variables have any values. A test has a few conditions and values.", "anchors": ["edulint/linting/checkers/duplication/duplicate_if.py: get_fixed_by_container", "edulint/linting/checkers/duplication/duplicate_if.py: vals_from_simple_test", "edulint/linting/checkers/duplication/duplicate_if.py: get_node_fixed_by_container"]}
{"id": "C122", "title": "Conditional expressions suggested instead of an if do the same", "statement": "similar-if-to-expr is reported only if no variable of a condition is changed before what differs, there is no and or or in one of several conditions, what differs is one thing or constants, it is not in a binary operation, in a call with more arguments or in two calls, and the code gets shorter by a fifth. The program with conditional expressions instead of what differs does the same: it ends in the same way, in the same state.", "quantifier": "for all ifs, branches and states, whatever operators and functions do", "why_tests_cant": "What differs may be nested in loops and exception handlers, and is evaluated at any time after the condition was.", "anchors": ["edulint/linting/checkers/duplication/duplicate_if.py: get_fixed_by_ternary", "edulint/linting/checkers/duplication/duplicate_if.py: is_part_of_complex_expression", "edulint/linting/checkers/duplication/duplicate_if.py: test_variables_change"]}
{"id": "C123", "title": "Helper variables suggested for what differs in branches do the same", "statement": "similar-if-to-extracted is reported if the code gets shorter by a fifth when what differs is assigned to helper variables first. The program with helper variables does the same, up to the values of helper variables.", "quantifier": "for all ifs, branches and states, whatever operators and functions do", "why_tests_cant": "What differs may be nested in loops and exception handlers, and may be evaluated later than it would be assigned.", "anchors": ["edulint/linting/checkers/duplication/duplicate_if.py: get_fixed_by_vars"]}
{"id": "C124", "title": "An if that is moved into a block, as is suggested, does the same", "statement": "similar-if-into-block is reported only if no variable of a condition is changed before what differs, the first statement of the branches is a compound one where what differs is in exactly one of the blocks and not in the header, and the code gets shorter. The program where the if is moved to the innermost place that it can be moved to does the same.", "quantifier": "for all ifs, branches and states, whatever operators and functions do", "why_tests_cant": "The if is moved into any number of nested loops, ifs and exception handlers, and its condition is evaluated any number of times.", "anchors": ["edulint/linting/checkers/duplication/duplicate_if.py: get_fixed_by_moving_if", "edulint/linting/checkers/duplication/duplicate_if.py: get_fixed_by_moving_if_rec", "edulint/linting/checkers/duplication/duplicate_if.py: if_can_be_moved"]}
{"id": "C125", "title": "A condition that is used instead of True and False does the same", "statement": "similar-if-to-use is reported only if there is one condition, whose variables are not changed before what differs; only a truth value differs, which is neither what is returned nor what is assigned; and the code gets shorter. The program with the condition in place of the truth value does the same.", "quantifier": "for all ifs, branches and states, whatever operators and functions do", "why_tests_cant": "The value of the condition may be anything, and it is evaluated at any time later.", "anchors": ["edulint/linting/checkers/duplication/duplicate_if.py: get_fixed_by_if_to_use"]}
{"id": "C126", "title": "What is reported for an if is the first that fits", "statement": "Of the messages on duplication in an if, one is reported just if it is enabled, it fits, and none that comes earlier fits and is enabled (whether the first ones are enabled does not matter, a list or dictionary prevents nothing). The messages for similar branches fit only an if with else whose branches are similar without other duplication and which is not one of the ifs that all branches of an outer one have; and, but for helper variables, only if the variables of conditions do not change. Nothing is reported for an elif. Besides a list or dictionary, everything reported is found in one way.", "quantifier": "for all ifs and all sets of enabled messages", "why_tests_cant": "There are eleven messages, each of which may be enabled, and each may fit.", "anchors": ["edulint/linting/checkers/duplication/duplicate_if.py: duplicate_in_if"]}
{"id": "C127", "title": "A relative reference in a file is relative to its directory", "statement": "A relative path of a configuration or language file that is written in a file refers to a file relative to the directory of that file: its absolute path is that of the file with the relative path in place of the name. It does not depend on the current directory if the path of the file is absolute, and it refers to the same file wherever it is written then. Names of packaged configurations, addresses and absolute paths are not changed. A packaged configuration is read from a file of its name in one directory, whatever the name is. A file that cannot be loaded raises no exception.", "quantifier": "for all paths, all current directories and all files", "why_tests_cant": "Paths have any number of components, slashes, and . and .., in either of the two paths.", "anchors": ["edulint/config/file_config.py: get_path_relative_to", "edulint/config/file_config.py: _load_file_from_uri", "edulint/config/file_config.py: _load_packaged_config_file", "edulint/config/file_config.py: load_toml_file"]}
{"id": "C128", "title": "Expressions that are said to be assigned to a variable are its values", "statement": "Unless expressions that are destructured are included, each expression that is yielded for a definition of a variable evaluates to what the definition assigns to the variable. x = e, x: int = e and (x := e) yield e always, and x: int nothing; what a loop iterates over is yielded just if destructured ones are included. Other nodes are yielded just if they are to be included. No exception is raised.", "quantifier": "for all definitions, targets of any shape and all expressions", "why_tests_cant": "Targets and tuples nest to any depth; there are many ways to assign to a name.", "anchors": ["edulint/linting/analyses/data_dependency.py: get_assigned_expressions"]}
{"id": "C129", "title": "A message that is enabled is reported whichever others are", "statement": "For each visit of the checkers besides the new duplication checker, a message is reported at a node just if a check of the visit finds it and it is enabled. So whether it is reported does not depend on which other messages are enabled. A visit is executed just if one of its messages is enabled. All messages that may be added are registered, with distinct codes and names, and the codes of each checker begin alike.", "quantifier": "for all sets of enabled messages, all visits and whatever the checks find", "why_tests_cant": "There are more sets of enabled messages than can be tried; the tests enable a few sets.", "anchors": ["edulint/linting/checkers/local_defects.py: visit_if", "edulint/linting/checkers/local_defects.py: visit_compare", "edulint/linting/checkers/simplifiable_if.py: visit_if", "edulint/linting/checkers/simplifiable_if.py: visit_boolop", "edulint/linting/checkers/unsuited_loop.py: visit_while"]}
{"id": "C130", "title": "Targets of loops, variables of comprehensions and code at the top level are reported as described", "statement": "invalid-for-target is reported for the subscripts and attributes that a loop or comprehension assigns to, wherever they are in its target, and for nothing else. shadowing-in-comprehension is reported for a variable of the target of a comprehension just if it is a variable of a scope around, and not _. forbidden-top-level-code is reported for all statements of a module but imports, definitions, assignments and the main block.", "quantifier": "for all targets of any depth, all scopes and all modules", "why_tests_cant": "Targets nest to any depth, and so do scopes.", "anchors": ["edulint/linting/checkers/python_ta_checkers.py: InvalidForTargetChecker", "edulint/linting/checkers/python_ta_checkers.py: ShadowingInComprehensionChecker", "edulint/linting/checkers/python_ta_checkers.py: TopLevelCodeChecker"]}
{"id": "C131", "title": "Events of a part of a statement or of a variable concern that part", "statement": "get_events_for and get_events_in yield exactly the events whose nodes are in one of the given nodes. get_events_by_var gives, for each of the variables, its events. filter_events_for keeps an event of a variable just if it concerns the same part as the given structure, as self.rows or a[i]: the same attributes, and slices that have the same values.", "quantifier": "for all expressions, all structures of any depth, all places of events and all values of variables", "why_tests_cant": "Structures and the expressions of slices nest to any depth; tests have few of them.", "anchors": ["edulint/linting/analyses/data_dependency.py: get_events_for", "edulint/linting/analyses/data_dependency.py: get_events_in", "edulint/linting/analyses/data_dependency.py: _get_matching_superpart", "edulint/linting/analyses/data_dependency.py: filter_events_for", "edulint/linting/analyses/data_dependency.py: get_events_by_var"]}
{"id": "C132", "title": "Renamed code is recognized where names have to be consistent", "statement": "If fragments differ only in the names of their variables, one for one, and in constants, then anti-unification with consistent names required has a core for them. So a block is found to be the same as the body of a function with other names.", "quantifier": "for all fragments of any depth and number, all one-to-one renamings and all constants", "why_tests_cant": "Fragments nest to any depth; what is compared of placeholders depends on their order, so tests with one order miss failures for another one.", "anchors": ["edulint/linting/analyses/antiunify.py: get_merge_candidates", "edulint/linting/analyses/antiunify.py: antiunify", "edulint/linting/checkers/duplication/duplicate_block.py"]}
{"id": "C133", "title": "Conditions of consecutive ifs with the same bodies can be joined", "statement": "duplicate-seq-ifs is reported just for consecutive ifs and elifs with identical bodies, for all of them with one message, and joining their conditions using 'or', as the message says, does not change what the code does.", "quantifier": "for all sequences of ifs with any number of elifs, all conditions (also with effects), all bodies and all states", "why_tests_cant": "What joined conditions do depends on all states; tests look at the messages only, for few sequences.", "anchors": ["edulint/linting/checkers/old_duplication_checker.py: NoDuplicateCode.duplicate_seq_ifs"]}
{"id": "C134", "title": "Blocks that are reported as duplicate do the same but for at most three replacements", "statement": "duplicate-blocks is reported for two blocks just if one is made from the other by at most three replacements of names, constants, attributes and operators; without replacements the blocks do the same. Each block of at least three lines is reported if there is such a one after it, unless it ends before a block that is reported.", "quantifier": "for all blocks, all nestings and all sets of replacements", "why_tests_cant": "There are unboundedly many pairs of blocks; tests compare few of them, and those differ in what is compared.", "anchors": ["edulint/linting/checkers/old_duplication_checker.py: NoDuplicateCode.duplicate_blocks"]}
{"id": "C135", "title": "Sequences that are reported are repetitions that can be written as a loop", "statement": "duplicate-sequence is reported just for at least four subblocks of the same length after each other that are made from one template with a value that may differ; if there are just four, the values are those of a range. Whenever there are four such subblocks with a range, or five, they are in a sequence that is reported; sequences do not overlap.", "quantifier": "for all blocks, all lengths and numbers of subblocks, all nestings and all values", "why_tests_cant": "There are unboundedly many templates and values; tests have a few, in most of which the value is at the end.", "anchors": ["edulint/linting/checkers/old_duplication_checker.py: NoDuplicateCode.duplicate_sequence"]}
{"id": "C136", "title": "Complex expressions that are used repeatedly are reported with all uses", "statement": "duplicate-exprs is reported for each complex expression (of complexity 8 at least, with calls of expression functions only) that is used twice at least outside of assertions, once for each text and with all uses of it; a repeated expression in a repeated one need not be reported.", "quantifier": "for all modules, all expressions and all nestings", "why_tests_cant": "The visitor stops at simple expressions and at invalid ones it goes on; that nothing is missed depends on complexities of all expressions. Tests have few of them.", "anchors": ["edulint/linting/checkers/old_duplication_checker.py: DuplicateExprVisitor", "edulint/linting/checkers/old_duplication_checker.py: NoDuplicateCode.duplicate_exprs"]}
{"id": "C137", "title": "A range suggested for expressions that differ enumerates the repetitions", "statement": "If similar-to-loop suggests a range for repetitions that differ in expressions such as `x`, `x + 1`, `x + 2`, the range has as many numbers as there are repetitions, and the expression with the variable of the loop in place of what differs is for each of the numbers the expression of the repetition; for characters, `chr(ord(m) + i)` is.", "quantifier": "for all sequences of expressions (constants, names, subscripts, operations), all meanings of operators and all values", "why_tests_cant": "The shapes of sequences, operators, sides and nested operations have many combinations, and whether the loop is right depends on values of variables. Tests check some ranges that are printed.", "anchors": ["edulint/linting/checkers/duplication/duplicate_sequence.py: iter_use_from_partition", "edulint/linting/checkers/duplication/duplicate_sequence.py: to_iter_use", "edulint/linting/checkers/duplication/duplicate_sequence.py: from_chars", "edulint/linting/checkers/duplication/duplicate_sequence.py: partition_by_type"]}
{"id": "C138", "title": "Reports about an if with elifs are right for the whole statement", "statement": "What is reported about branches of an if with elifs (always true, always false, redundant parts, unreachable, reordering) is right for executions of the whole statement, also if some of the tests have effects or cannot be translated: just the branches after the last such test are looked at, and then branches are not reordered; a test that is the negation of the pure one before it is reported as always true and the branches after it as unreachable. The solver and is_negation (see C32) are assumed to be right.", "quantifier": "for all if statements with any number of elifs, all combinations of pure, impure and untranslatable tests and all truth values", "why_tests_cant": "The branches that are looked at depend on which of the tests are impure, at any place; whether a report is right depends on all values of variables.", "anchors": ["edulint/linting/checkers/simplifiable_if.py: SimplifiableIf._check_for_redundant_condition_part_in_if", "edulint/linting/checkers/simplifiable_if.py: SimplifiableIf._check_elif_instead_of_else", "edulint/linting/checkers/simplifiable_if.py: SimplifiableIf._test_pureness_and_initialize_variables_for_if"]}
{"id": "C139", "title": "Uses in functions that nothing calls have the definitions of calls after the module", "statement": "A use of a variable of an outer scope in a function that nothing calls gets as definitions all events that gave the variable the value that the use finds if the module is run to its end and then such functions are called in any order any number of times; apart from definitions found otherwise, just values at the end of the module and values given by such functions are linked.", "quantifier": "for all files, all variables, all runs of the module and all sequences of calls", "why_tests_cant": "There are infinitely many runs and sequences of calls; what is found depends on the scope of the first statement of each block.", "anchors": ["edulint/linting/analyses/data_dependency.py: collect_reaching_definitions", "edulint/linting/analyses/data_dependency.py: get_uncalled_functions", "edulint/linting/analyses/data_dependency.py: scope_is_nested"]}
{"id": "C140", "title": "The definitions of a name at a node are found", "statement": "get_defs_at(node, name) has every event that gave the name the value that it has when the node is executed, whichever way there is to the node: in the graph of the node, or where the function that the node is in is called; in code of the module without calls, it has nothing else.", "quantifier": "all graphs of files (blocks, edges, locations, events), all nodes and names", "why_tests_cant": "There are infinitely many graphs and ways through them; tests show just single definitions that are found, not that none is missing on some way.", "anchors": ["edulint/linting/analyses/data_dependency.py: get_defs_at", "edulint/linting/analyses/data_dependency.py: _get_defs_at_rec", "edulint/linting/analyses/data_dependency.py: collect_reaching_definitions (block_kills)"]}
{"id": "C141", "title": "What is printed with --json can be read back", "statement": "Whatever problems are found, edulint check --json prints one JSON object with the values of all options for each group of files and all attributes of all problems, in the order in which they are printed otherwise; two different lists of problems are never printed in the same way. edulint explain --json prints a JSON object with the explanations that are asked for. Only printable ASCII characters and line breaks are printed. A run that fails prints nothing.", "quantifier": "all problems (texts with any characters), all configurations, all explanations and message ids", "why_tests_cant": "Texts of messages and paths contain any characters of the checked files; tests try few of them.", "anchors": ["edulint/edulint.py: to_json", "edulint/edulint.py: check_and_print", "edulint/edulint.py: print_message_explanations", "edulint/linting/problem.py: Problem"]}
{"id": "C142", "title": "Which blocks of a file are compared for duplication", "statement": "duplicate-blocks and duplicate-sequence look at every body of an if, a loop, a with, a try, a handler of an exception and a function, at any depth, and at the statements of the file that are not in others and no definitions, each once. If two of them with three lines at least, of statements of the same kind, are the same but for three replacements, a block is reported that covers one of them; two blocks that are reported are never one in the other. Wherever there are enough subblocks one after another for a sequence, one is reported. The statements of a reported sequence follow one another in the file.", "quantifier": "all files", "why_tests_cant": "Statements nest to any depth and in any combination; a body that is left out by the visitor means that nothing is reported in it.", "anchors": ["edulint/linting/checkers/old_duplication_checker.py: CollectBlocksVisitor", "edulint/linting/checkers/old_duplication_checker.py: duplicate_blocks", "edulint/linting/checkers/old_duplication_checker.py: duplicate_sequence", "edulint/linting/analyses/utils.py: BaseVisitor", "edulint/linting/analyses/utils.py: is_main_block"]}
{"id": "C143", "title": "Merging variables makes no difference", "statement": "If the variables in which fragments differ are replaced by those of the first fragment (which is what a similar function or block is reported for), then running the result with the values of another fragment prints what that fragment prints and leaves the same values in all variables; only variables of other names that have no value before may differ. Variables merged under different names are not used after any fragment, and, where one has a value before, none of them is in the scope of another one.", "quantifier": "all programs with assignments, branches and loops that differ in names of variables, all values of variables before, all results of operators", "why_tests_cant": "Names can be shared between fragments in any way; whether replacing one by another mixes up two variables depends on all their uses.", "anchors": ["edulint/linting/analyses/antiunify.py: vars_can_be_merged", "edulint/linting/analyses/antiunify.py: merge_indistinguishable_vars", "edulint/linting/analyses/antiunify.py: get_merge_candidates", "edulint/linting/analyses/data_dependency.py: scopes_are_nested"]}
{"id": "C144", "title": "Evaluating a pure expression changes nothing", "statement": "If is_pure_expression is true for an expression, evaluating it changes no variable and no object, prints and reads nothing, also if it raises an exception; so expressions that are pure can be evaluated in any order and any number of times. An expression is pure exactly if it has nothing but names, constants, operators, comparisons, attributes, subscripts, displays and calls, without keywords and stars, of certain functions of Python.", "quantifier": "all expressions, all states, whatever functions do", "why_tests_cant": "Expressions nest to any depth; an effect can be in any part of one.", "anchors": ["edulint/linting/analyses/utils.py: is_pure_expression", "edulint/linting/analyses/utils.py: _is_pure_node", "edulint/linting/analyses/utils.py: is_pure_builtin", "edulint/linting/analyses/utils.py: is_builtin", "edulint/linting/analyses/utils.py: PURE_FUNCTIONS"]}
{"id": "C145", "title": "Versions chosen for tests are the newest ones", "statement": "For a number of versions, pypi_helper prints at most so many versions, in increasing order, each of them the newest one of its minor version; all other minor versions are older, and there are others only if enough are printed. Two versions are equal only if they are the same, is_not_full_release is true for versions that are no full releases, and get_available_versions returns the versions of a list of texts.", "quantifier": "all lists of versions, all numbers", "why_tests_cant": "Any number of minor versions and patches in any order.", "anchors": ["edulint/versions/pypi_helper.py: _only_last_patch_of_each_minor", "edulint/versions/utils.py: Version", "edulint/versions/utils.py: get_available_versions"]}
{"id": "C146", "title": "Events of variables are found as they were added, and asking for them changes no answers", "statement": "For a location, the events of a variable are those that were added for it, in order, whatever else was added or asked for; by name and by node, those events are found that have it. Asking for the events of a variable changes no other answer. vars_in has just the variables that have events of the given types inside of the node, with the nodes of these events in order; name_to_var finds a variable of the name that is used in the scope of the node, if there is one, and raises no exception.", "quantifier": "all sequences of added events and questions, all locations, nodes and types of events", "why_tests_cant": "Any order of additions and questions.", "anchors": ["edulint/linting/analyses/var_events.py: VarEvents", "edulint/linting/analyses/data_dependency.py: vars_in", "edulint/linting/analyses/data_dependency.py: name_to_var"]}
{"id": "C147", "title": "The output of linters is caught, and the streams are given back", "statement": "Whatever flake8 and pylint print or write to standard error is not shown to the user, but is what each run is judged by, and no run has the output of another one. After linting, standard output and standard error are those from before, even if a linter fails; if an exception is not handled, its traceback is shown.", "quantifier": "all sequences of runs of linters, everything that they write, all ways in which they end", "why_tests_cant": "Any number of runs with any outputs and ends.", "anchors": ["edulint/linting/linting.py: lint_flake8", "edulint/linting/linting.py: lint_pylint", "edulint/linting/linting.py: lint_many"]}
{"id": "C148", "title": "Placeholders are taken for one only if they stand for the same", "statement": "Of placeholders with equal values, get_unique_avars keeps the first one; every placeholder is kept or one with equal values is, in the same order. The helper variable of similar-if-to-extracted for a placeholder is assigned, in each branch and once, just what the placeholder stands for there.", "quantifier": "all lists of placeholders, all branches", "why_tests_cant": "Any number of placeholders and branches, values of all types.", "anchors": ["edulint/linting/checkers/duplication/utils.py: get_unique_avars", "edulint/linting/checkers/duplication/duplicate_if.py: get_fixed_by_vars"]}
{"id": "C149", "title": "The nearest node around all differences is found, and repetitions in it are", "statement": "get_common_parent finds the nearest node that is around all placeholders, and nothing just if there is none; for one placeholder, the nearest that is neither a constant nor a name. core_contains_other_duplication is true just if the first branch (where there is no such node) or the elements of the node (where it is a list, a tuple, a dictionary or a set) are at least three and have pieces of the same length in a row that can be made one.", "quantifier": "all placeholders in all trees, all bodies", "why_tests_cant": "Any depth of nesting.", "anchors": ["edulint/linting/checkers/duplication/utils.py: get_common_parent", "edulint/linting/checkers/duplication/utils.py: to_parent", "edulint/linting/checkers/duplication/duplicate_if.py: core_contains_other_duplication", "edulint/linting/checkers/duplication/duplicate_if.py: body_contains_other_duplication"]}
{"id": "C150", "title": "A loop suggested for repetitions does the same as they do", "statement": "If similar-block-to-loop-range or similar-block-to-loop-collection is reported, then a loop over what is suggested, with its variable where the repetitions differ, does the same as the repetitions, for any meaning of the statements. It has less than four fifths of their tokens. At most one message is reported for a block, and it is about the longest prefix for which there is one.", "quantifier": "all blocks, all repetitions that differ in constants and names, all programs around them", "why_tests_cant": "Any number of repetitions of any statements, in any states.", "anchors": ["edulint/linting/checkers/duplication/duplicate_sequence.py: similar_to_loop", "edulint/linting/checkers/duplication/duplicate_sequence.py: get_fixed_by_loop", "edulint/linting/checkers/duplication/duplicate_sequence.py: get_nice_iters", "edulint/linting/checkers/duplication/duplicate_sequence.py: to_iter_use", "edulint/linting/checkers/duplication/checker.py: is_similar_to_loop"]}
{"id": "C151", "title": "A linter that is run as a process ends in time or is killed", "statement": "A linter that is run as a process is started with its arguments, those from the configuration, and the files. If it ends within the timeout, then its status and all its output are returned; otherwise and only then, it is killed, 9 is returned as the status, and TimeoutError is raised. Running it takes no longer than the timeout, and afterwards the process is not running; neither is it after the end of edulint.", "quantifier": "all processes, all timeouts, all arguments", "why_tests_cant": "Processes end at any moment and with any status, refuse to end, and start other processes.", "anchors": ["edulint/linting/process_handler.py: ProcessHandler.__kill_children", "edulint/linting/process_handler.py: ProcessHandler.__start_process", "edulint/linting/process_handler.py: ProcessHandler.run", "edulint/linting/process_handler.py: ProcessHandler.is_status_code_by_timeout", "edulint/linting/linting.py: lint_in_subprocess"]}
{"id": "C152", "title": "An if alone in an else is reported, an elif is not", "statement": "use-elif is reported for exactly those ifs that are the only statement in an else of an if, and never for an elif. Written as elif, the program has the same syntax tree but for columns, and nothing is reported any longer. no-loop-else is reported for exactly the loops that have an else.", "quantifier": "all programs, however they are indented", "why_tests_cant": "The two are told apart by columns, which depend on the indentation.", "anchors": ["edulint/linting/checkers/local_defects.py: _check_else_if", "edulint/linting/checkers/local_defects.py: _check_loop_else"]}
{"id": "C153", "title": "The configuration returned for a path is the one under which it is linted", "statement": "get_config_one returns the configuration and the translations under which the given path is linted, alone or in a run with other paths, and None exactly if it is not linted.", "quantifier": "all paths, all arguments, all configuration files", "why_tests_cant": "Configurations come from any files and comments.", "anchors": ["edulint/config/config.py: get_config_one", "edulint/config/config.py: get_config_many"]}
{"id": "C154", "title": "The search for duplicate code looks at each statement once", "statement": "The search for duplicate code looks at exactly the statements that the program may get to, at each once and in the order of the text, except for assertions, definitions, comments, pass, imports of the module and assignments to what is never used.", "quantifier": "all modules and functions, all control flow graphs of them", "why_tests_cant": "Statements are found by the locations of the control flow graph, in programs of any shape.", "anchors": ["edulint/linting/analyses/cfg/utils.py: get_stmt_locs", "edulint/linting/checkers/duplication/checker.py: get_statement_nodes", "edulint/linting/checkers/duplication/checker.py: include_in_stmts", "edulint/linting/checkers/duplication/checker.py: skip_stmt", "edulint/linting/checkers/duplication/checker.py: break_on_stmt"]}
{"id": "C155", "title": "Where locals() or globals() is called, no check relies on what is known about variables", "statement": "The analysis of variables succeeds exactly for modules with statements in which Python's locals and globals are not called. If it fails because of such a call, one warning is logged that names the function, the line and the file; the line is that of the first such call, where functions and classes come after other statements. Checks that need the analysis report nothing if it failed, and otherwise all that they find. No other check reports something else because the analysis failed.", "quantifier": "all modules, all places of calls", "why_tests_cant": "A call may be in any place of a module, in any kind of node.", "anchors": ["edulint/linting/analyses/patcher.py: run_analyses", "edulint/linting/analyses/utils.py: requires_data_dependency_analysis", "edulint/linting/analyses/utils.py: is_builtin", "edulint/linting/analyses/variable_scope.py: visit_call", "edulint/linting/analyses/variable_scope.py: statements_before_definitions"]}
{"id": "C156", "title": "Ifs are left as they are where each branch around them has one", "statement": "For an if in a branch of an if with its elifs and else, no message that suggests to replace it (similar-if-to-untwisted, similar-if-to-use, similar-if-into-block, similar-if-to-list, similar-if-to-dict, similar-if-to-expr and similar-if-to-extracted) is reported if each of these branches has an if; otherwise, what is reported does not depend on the branches around it.", "quantifier": "all programs, all nestings of ifs", "why_tests_cant": "Ifs are nested in any way, with any number of elifs.", "anchors": ["edulint/linting/checkers/duplication/duplicate_if.py: is_one_of_parents_ifs", "edulint/linting/checkers/duplication/duplicate_if.py: extract_from_elif", "edulint/linting/checkers/duplication/duplicate_if.py: get_bodies"]}
{"id": "C157", "title": "A variable with a counterpart is not replaced by something else where names have to be consistent", "statement": "If anti-unification with consistent names required succeeds, then a variable that has a variable as its counterpart in another fragment is not in another place of its fragment where the fragments differ in more than a name.", "quantifier": "for all fragments of any number and depth, all places", "why_tests_cant": "Places are compared in their order, so tests with one order miss failures for another one.", "anchors": ["edulint/linting/analyses/antiunify.py: get_merge_candidates", "edulint/linting/analyses/antiunify.py: antiunify"]}
{"id": "C158", "title": "Loops that may be left are not reported as infinite, others are looked at", "statement": "No infinite-loop message is reported for a loop from whose body break (unless of a loop in it), return, raise, assert, yield, yield from or a call that ends the program leave it, nor for a loop in a try; every other loop is looked at. The search in the syntax tree ends and finds a node exactly if there is one.", "quantifier": "all loops, syntax trees of any size", "why_tests_cant": "What leaves a loop may be at any depth in it.", "anchors": ["edulint/linting/checkers/unsuited_loop.py: _check_infinite_loop", "edulint/linting/analyses/utils.py: is_in_try_block", "edulint/linting/analyses/utils.py: condition_met_in_ast", "edulint/linting/analyses/utils.py: is_exit_call", "edulint/linting/analyses/utils.py: contains_node_of_type_or_exit"]}
{"id": "C159", "title": "Every path and option on the command line is used", "statement": "The check command checks exactly the paths on its command line, in their order, with exactly the values given with -o, in theirs, wherever options and paths stand and however options are spelled; an argument that is neither makes it stop.", "quantifier": "all lists of arguments", "why_tests_cant": "Arguments can be in any order, options can be abbreviated, and values can be written in several ways.", "anchors": ["edulint/edulint.py: setup_argparse", "edulint/edulint.py: main"]}
{"id": "C160", "title": "Compiled explanations say what their sources say", "statement": "For every message, the distributed explanations have the text written by hand, else that of Thonny, else that made of the data of Pylint, and never an empty one; no message is there twice or without a text. Made of the data of Pylint, the examples show the code that there is, in blocks, no placeholders, and link to the documentation exactly if it has details.", "quantifier": "all data of Pylint and Thonny, all explanations written by hand", "why_tests_cant": "Each of the sources may have or lack each text of each message, and codes and descriptions can be any text.", "anchors": ["edulint/prepare_explanations/__init__.py: combine_sources", "edulint/prepare_explanations/pylint_data/extract_from_pylint.py: md_code_block_with_headline", "edulint/prepare_explanations/pylint_data/extract_from_pylint.py: produce_doc_link_if_available", "edulint/prepare_explanations/pylint_data/extract_from_pylint.py: convert_pylint_toml_to_edulint_toml", "edulint/prepare_explanations/pylint_data/thonny_process_slim.py: make_explanation_more_friedly", "edulint/prepare_explanations/thonny_data/extract_from_edulint.py: convert_to_edulint"]}
{"id": "C161", "title": "What was linted before in the process makes no difference to how a file is analysed", "statement": "However often Pylint was run before in the process, as it is for each configuration of a check and for each call of check_code: a file gets the tree that Pylint has for it, it is analysed once if the configuration asks for it and else not at all, its warnings are logged once, and the checks find the same about its variables.", "quantifier": "all sequences of runs with any configurations and files", "why_tests_cant": "What is left by a run is only seen in later ones, of any number, in one process.", "anchors": ["edulint/linting/analyses/patcher.py: patch_ast_transforms", "edulint/linting/analyses/patcher.py: register", "edulint/linting/linting.py: lint_pylint", "edulint/linting/linting.py: lint_many"]}
{"id": "C162", "title": "Comparing pieces of code does not raise an exception", "statement": "Whatever the statements and expressions are that anti-unification is given, of any number and with any constants, it gives a common core with placeholders or raises DisallowedAntiunification, which its callers expect, and no other exception.", "quantifier": "all tuples of trees and all conditions to stop on", "why_tests_cant": "Depends on all combinations of constants, lists and classes of nodes at corresponding places of the pieces.", "anchors": ["edulint/linting/analyses/antiunify.py: set_parents", "edulint/linting/analyses/antiunify.py: Antiunify"]}
{"id": "C163", "title": "Different problems are shown differently", "statement": "repr of a Problem shows each attribute that is set with its value, strings in quotation marks, and two problems with the same representation are equal.", "quantifier": "all pairs of problems", "why_tests_cant": "Speaks of all pairs of problems with any texts.", "anchors": ["edulint/linting/problem.py: Problem.__repr__", "edulint/linting/problem.py: Problem.has_value"]}
{"id": "C164", "title": "Whether a condition may be true is answered rightly", "statement": "sat_condition(c) is True only if c is true for some values of its variables, and False only if there are no such values; it raises no exception.", "quantifier": "all conditions", "why_tests_cant": "Speaks of all conditions and all values of their variables.", "anchors": ["edulint/linting/analyses/z3_analysis.py: sat_condition", "edulint/linting/analyses/z3_analysis.py: sat_check_condition"]}
{"id": "C165", "title": "Loops taken for loops over indices go over indices", "statement": "A for loop that is searched for use-foreach and use-enumerate goes through the indices 0, 1, \u2026 of a variable, or of an attribute or an item of one, up to its length; every loop over range(len(x)), range(0, len(x)) or range(0, len(x), 1) for such an x is searched.", "quantifier": "all for loops and all values of the variables", "why_tests_cant": "Speaks of all expressions that are iterated over and all values of the variables in them.", "anchors": ["edulint/linting/checkers/unsuited_loop.py: _check_improve_for_loop", "edulint/linting/analyses/utils.py: get_range_params", "edulint/linting/analyses/var_events.py: strip_to_name"]}
{"id": "C166", "title": "The version that is named as an update is a newer one that was reported", "statement": "When an update is announced, the version that is named was reported by the package index and is not the one that is running; nothing is announced or asked if the check is disabled.", "quantifier": "for all running versions, earlier checks, answers of the index, times and failures", "why_tests_cant": "Speaks of all histories of checks and of the time that passes between the two questions for the latest version in one check.", "anchors": ["edulint/edulint.py: check_for_updates", "edulint/edulint.py: _update_check", "edulint/versions/version_checker.py: is_update_waiting"]}
{"id": "C167", "title": "A raise in the body of a try is linked to the clause that handles it", "statement": "In the control flow graph, a raise statement in the body of a try statement is linked to the first clause that matches the class of the exception, or to what follows the try statement if there is none.", "quantifier": "for all clauses, raised expressions, surrounding statements and meanings of names", "why_tests_cant": "Speaks of all class hierarchies and of all expressions that can be raised or handled.", "anchors": ["edulint/linting/analyses/cfg/visitor.py: _extract_exceptions", "edulint/linting/analyses/cfg/visitor.py: _get_raise_exc", "edulint/linting/analyses/cfg/visitor.py: _visit_jump", "edulint/linting/analyses/cfg/visitor.py: visit_try"]}

{
 "claims": [
  {
   "property": "C01",
   "status": "proved",
   "theorems": [
    "Verif.C01_source_precedence",
    "Verif.C01_end_to_end"
   ],
   "note": "C01_source_precedence: layers given as option lists; C01_end_to_end: from command line, file text and configuration file chain. Option groups addressing the linter named edulint are excluded by hypothesis (SetsOk): the code fails with an assertion on them. Implicit configuration files: see C13"
  },
  {
   "property": "C02",
   "status": "proved",
   "theorems": [
    "Verif.C02_linter_args_accumulate",
    "Verif.C02_linter_args_kept_with_groups"
   ],
   "note": ""
  },
  {
   "property": "C03",
   "status": "proved",
   "theorems": [
    "Verif.C03_layering_assoc",
    "Verif.C03_empty_neutral"
   ],
   "note": ""
  },
  {
   "property": "C04",
   "status": "proved",
   "theorems": [
    "Verif.C04_group_is_macro",
    "Verif.C04_groups_are_macros"
   ],
   "note": ""
  },
  {
   "property": "C05",
   "status": "proved",
   "theorems": [
    "Verif.C05_resolution_preserves_meaning",
    "Verif.C05_at_most_one_all"
   ],
   "note": ""
  },
  {
   "property": "C06",
   "status": "partial",
   "theorems": [
    "Verif.C06_verbatim_partial",
    "Verif.C06_up_to_case_partial",
    "Verif.C06_counterexample_case",
    "Verif.C06_counterexample_dropped"
   ],
   "note": "the property is false of the code: arguments are lower-cased, and arguments starting with --enable/--disable may be dropped"
  },
  {
   "property": "C07",
   "status": "proved",
   "theorems": [
    "Verif.C07_total",
    "Verif.C07_canonical",
    "Verif.C07_extensional"
   ],
   "note": ""
  },
  {
   "property": "C08",
   "status": "proved",
   "theorems": [
    "Verif.C08_each_file_once",
    "Verif.C08_exclusive",
    "Verif.C08_one_group",
    "Verif.C08_run"
   ],
   "note": "C08_run also states which files are left out of the run: exactly those whose configuration file cannot be read"
  },
  {
   "property": "C09",
   "status": "partial",
   "theorems": [
    "Verif.C09_independent_partial",
    "Verif.C09_counterexample_order",
    "Verif.C09_counterexample_default",
    "Verif.C09_counterexample_translations"
   ],
   "note": "the property is false of the code in three ways, each with a counterexample; proved for the remaining runs"
  },
  {
   "property": "C10",
   "status": "partial",
   "theorems": [
    "Verif.C10_chain_partial",
    "Verif.C10_only_chains",
    "Verif.C10_each_once",
    "Verif.C10_layers",
    "Verif.C10_contributions",
    "Verif.C10_inherited",
    "Verif.C10_cycle_diverges",
    "Verif.C10_counterexample"
   ],
   "note": "the property is false of the code: cyclic references exhaust the recursion limit; proved for references that end"
  },
  {
   "property": "C11",
   "status": "proved",
   "theorems": [
    "Verif.C11_names",
    "Verif.C11_round_trip"
   ],
   "note": ""
  },
  {
   "property": "C12",
   "status": "proved",
   "theorems": [
    "Verif.C12_infile_switched_off"
   ],
   "note": ""
  },
  {
   "property": "C13",
   "status": "partial",
   "theorems": [
    "Verif.C13_absent_partial",
    "Verif.C13_never_found",
    "Verif.C13_counterexample"
   ],
   "note": "the property is false of the code: a name is compared with a tuple of names, so the search never succeeds"
  },
  {
   "property": "C14",
   "status": "partial",
   "theorems": [
    "Verif.C14_classes",
    "Verif.C14_packaged_stays_inside",
    "Verif.C14_documented_partial",
    "Verif.C14_counterexample"
   ],
   "note": "the classes are exclusive and exhaustive; the documented rule is followed exactly on the strings named in C14_documented_partial"
  },
  {
   "property": "C15",
   "status": "partial",
   "theorems": [
    "Verif.C15_nothing_dropped",
    "Verif.C15_comment",
    "Verif.C15_lines_partial",
    "Verif.C15_counterexample_invented",
    "Verif.C15_counterexample_reported"
   ],
   "note": "complete for the argument parser; false for whole files: an ib111 import adds an option and unbalanced quotes raise an uncaught error"
  },
  {
   "property": "C16",
   "status": "proved",
   "theorems": [
    "Verif.C16_overriding_exact"
   ],
   "note": ""
  },
  {
   "property": "C17",
   "status": "proved",
   "theorems": [
    "Verif.C17_line_survives",
    "Verif.C17_overrider_reported"
   ],
   "note": "C17_overrider_reported follows the problem to the printed output, through filtering and rewording of messages"
  },
  {
   "property": "C18",
   "status": "partial",
   "theorems": [
    "Verif.C18_order_partial",
    "Verif.C18_counterexample"
   ],
   "note": "the order is total and canonical; false for files whose name contains the marker 'command line', which are ranked before all others"
  },
  {
   "property": "C19",
   "status": "partial",
   "theorems": [
    "Verif.C19_sort_partial",
    "Verif.C19_counterexample_dotdot",
    "Verif.C19_counterexample_parent",
    "Verif.C19_counterexample_symlink",
    "Verif.C19_counterexample_root"
   ],
   "note": "sorting fails with an assertion for paths with .., symbolic links and relative paths from the root; proved for the remaining ones"
  },
  {
   "property": "C20",
   "status": "partial",
   "theorems": [
    "Verif.C20_exit_status_partial",
    "Verif.C20_counterexample"
   ],
   "note": "false for runs ended by an unforeseen exception: it is logged and the status is 0"
  },
  {
   "property": "C21",
   "status": "proved",
   "theorems": [
    "Verif.C21_printing"
   ],
   "note": ""
  },
  {
   "property": "C22",
   "status": "partial",
   "theorems": [
    "Verif.C22_report_partial",
    "Verif.C22_counterexample_import",
    "Verif.C22_counterexample_skip_file"
   ],
   "note": "false for noqa comments on lines importing from ib111 and for the comment pylint: skip-file; the report is characterised exactly otherwise"
  },
  {
   "property": "C23",
   "status": "proved",
   "theorems": [
    "Verif.C23_help"
   ],
   "note": ""
  },
  {
   "property": "C24",
   "status": "partial",
   "theorems": [
    "Verif.C24_translation_partial",
    "Verif.C24_untouched",
    "Verif.C24_arguments",
    "Verif.C24_format_next",
    "Verif.C24_format_at",
    "Verif.C24_counterexample_places",
    "Verif.C24_counterexample_percent"
   ],
   "note": "false for translations with more places than the message has (an uncaught error) and for templates with an escaped percent sign, which never match"
  },
  {
   "property": "C25",
   "status": "partial",
   "theorems": [
    "Verif.C25_complete_partial",
    "Verif.C25_prefix",
    "Verif.C25_counterexample"
   ],
   "note": "false if a process is cut off while writing a content file; in every history the content is a beginning of a complete answer"
  },
  {
   "property": "C26",
   "status": "partial",
   "theorems": [
    "Verif.C26_window_partial",
    "Verif.C26_counterexample"
   ],
   "note": "false for an empty answer, which is never taken from the cache"
  },
  {
   "property": "C27",
   "status": "partial",
   "theorems": [
    "Verif.C27_one_query_partial",
    "Verif.C27_counterexample"
   ],
   "note": "Proved for checks which do not overlap; checks at the same time can both query (counterexample)."
  },
  {
   "property": "C28",
   "status": "partial",
   "theorems": [
    "Verif.C28_latest_was_reported",
    "Verif.C28_announced_partial",
    "Verif.C28_not_announced",
    "Verif.C28_counterexample_offline",
    "Verif.C28_counterexample_newer"
   ],
   "note": "False of the code: an update is announced if the latest version is not known, and if the running version is newer than the latest. Proved: the latest version used is always the newest installable release of an earlier answer of the index, and an older running version is announced."
  },
  {
   "property": "C29",
   "status": "proved",
   "theorems": [
    "Verif.Cfg.C29_blocks",
    "Verif.Cfg.C29_terminates",
    "Verif.Cfg.C29_postorder",
    "Verif.Cfg.C29_postorder_terminates",
    "Verif.Cfg.C29_edges",
    "Verif.Cfg.C29_edges_terminates",
    "Verif.Cfg.C29_reachable",
    "Verif.Flow.C29_module",
    "Verif.Flow.C29_function",
    "Verif.Flow.C29_class"
   ],
   "note": "For all graphs; the recursive traversals unless Python's recursion limit is exceeded, which needs more blocks than the limit."
  },
  {
   "property": "C30",
   "status": "partial",
   "theorems": [
    "Verif.Cfg.C30_definitions_partial",
    "Verif.Cfg.C30_redefines_partial",
    "Verif.Cfg.C30_terminates",
    "Verif.Cfg.C30_call_counterexample"
   ],
   "note": "For all graphs and all variables that functions called there at most read; false for variables that a function called may give a value. Links that are made up for functions that are never called are C139."
  },
  {
   "property": "C31",
   "status": "partial",
   "theorems": [
    "Verif.Aunify.C31_like",
    "Verif.Aunify.C31_exact_partial",
    "Verif.Aunify.C31_placeholders",
    "Verif.Aunify.C31_core_partial",
    "Verif.Aunify.C31_constant_counterexample",
    "Verif.Aunify.C31_attribute_counterexample",
    "Verif.Aunify.C31_subclass_counterexample",
    "Verif.Aunify.C31_merged_counterexample"
   ],
   "note": "False for constants that are equal but not identical, attributes that are not compared, subclasses and merged names. C31_like holds for all fragments; the exact statement for the remaining ones."
  },
  {
   "property": "C32",
   "status": "partial",
   "theorems": [
    "Verif.Py.C32_partial",
    "Verif.Py.C32_integers_partial",
    "Verif.Py.C32_else",
    "Verif.Py.C32_no_elif",
    "Verif.Py.C32_counterexample"
   ],
   "note": "False for chained comparisons, a % 2 == 2, and comparisons of negated operands; proved for the others."
  },
  {
   "property": "C33",
   "status": "partial",
   "theorems": [
    "Verif.Py.C33_value",
    "Verif.Py.C33_no_exception_partial",
    "Verif.Py.C33_integers",
    "Verif.Py.C33_counterexample"
   ],
   "note": "The value is right for all expressions and whatever Python's operations do; false that there is never an exception: 0 ** -1 raises one that is not caught."
  },
  {
   "property": "C34",
   "status": "proved",
   "theorems": [
    "Verif.Py.C34_sound",
    "Verif.Py.C34_exact"
   ],
   "note": "C34_sound for all parameters that are folded to integers; C34_exact (both directions) for parameters written with integers and arithmetic operators. range is not rebound."
  },
  {
   "property": "C35",
   "status": "partial",
   "theorems": [
    "Verif.Py.C35_partial",
    "Verif.Py.C35_count",
    "Verif.Py.C35_counterexample"
   ],
   "note": "False for bounds that need parentheses in a comparison (a or b, conditional expressions, comparisons); proved for all others. The type and purity analyses are parameters."
  },
  {
   "property": "C36",
   "status": "partial",
   "theorems": [
    "Verif.Py.C36_left_partial",
    "Verif.Py.C36_contains_ord",
    "Verif.Py.C36_right_partial",
    "Verif.Py.C36_counterexample",
    "Verif.Py.C36_quote_counterexample"
   ],
   "note": "False for subtracting 96 and the like (the suggestion lacks parentheses), and for the apostrophe and the backslash; proved for all others."
  },
  {
   "property": "C37",
   "status": "partial",
   "theorems": [
    "Verif.Py.C37_left_partial",
    "Verif.Py.C37_right_partial",
    "Verif.Py.C37_chain_partial",
    "Verif.Py.C37_counterexample"
   ],
   "note": "False for the apostrophe and the backslash, which are not escaped; proved for all other characters and the six comparisons."
  },
  {
   "property": "C38",
   "status": "partial",
   "theorems": [
    "Verif.Py.C38_partial",
    "Verif.Py.C38_zero_counterexample",
    "Verif.Py.C38_decreasing_counterexample"
   ],
   "note": "False for values that do not increase; proved for increasing integers. Characters are in C137, collections in C150."
  },
  {
   "property": "C39",
   "status": "proved",
   "theorems": [
    "Verif.Py.C39_splits"
   ],
   "note": ""
  },
  {
   "property": "C40",
   "status": "partial",
   "theorems": [
    "Verif.Py.C40_repeated_partial",
    "Verif.Py.C40_counterexample"
   ],
   "note": "False for x + x + y; proved if no left operand is itself an operation."
  },
  {
   "property": "C41",
   "status": "partial",
   "theorems": [
    "Verif.Py.C41_prefix",
    "Verif.Py.C41_suffix",
    "Verif.Py.C41_before",
    "Verif.Py.C41_after",
    "Verif.Py.C41_no_else",
    "Verif.Py.C41_complete",
    "Verif.Py.C41_complete_after",
    "Verif.Py.C41_disjoint_partial",
    "Verif.Py.C41_overlap_counterexample"
   ],
   "note": "The lengths are exact; false that the two parts never overlap."
  },
  {
   "property": "C42",
   "status": "partial",
   "theorems": [
    "Verif.Py.C42_partial",
    "Verif.Py.C42_add_counterexample",
    "Verif.Py.C42_or_counterexample",
    "Verif.Py.C42_mul_counterexample",
    "Verif.Py.C42_floordiv_counterexample",
    "Verif.Py.C42_mod_counterexample",
    "Verif.Py.C42_pow_counterexample",
    "Verif.Py.C42_neg_counterexample",
    "Verif.Py.C42_abs_counterexample",
    "Verif.Py.C42_partition_counterexample",
    "Verif.Py.C42_fstring_counterexample"
   ],
   "note": "False for several operations; proved for the expressions of Safe, if guesses for variables are right."
  },
  {
   "property": "C43",
   "status": "proved",
   "theorems": [
    "Verif.Py.C43",
    "Verif.Py.C43_ext"
   ],
   "note": "For all sets built from single types by union and intersection, the only ways the program builds them."
  },
  {
   "property": "C44",
   "status": "partial",
   "theorems": [
    "Verif.Py.C44_partial",
    "Verif.Py.C44_unsat_partial",
    "Verif.Py.C44_implies_partial",
    "Verif.Py.C44_counterexample"
   ],
   "note": "False for floor division by a negative constant, which the solver takes to be Euclidean; proved for conditions over integers without it."
  },
  {
   "property": "C45",
   "status": "partial",
   "theorems": [
    "Verif.C45_always_distributed",
    "Verif.C45_distributed_partial",
    "Verif.C45_stored",
    "Verif.C45_counterexample"
   ],
   "note": "False of the code: the distributed explanations are shown whatever was downloaded."
  },
  {
   "property": "C46",
   "status": "partial",
   "theorems": [
    "Verif.C46_failure_partial",
    "Verif.C46_counterexample"
   ],
   "note": "false for return codes of pylint other than 32, which are ignored"
  },
  {
   "property": "C47",
   "status": "proved",
   "theorems": [
    "Verif.C47_values",
    "Verif.C47_defaults",
    "Verif.C47_takes_value"
   ],
   "note": ""
  },
  {
   "property": "C48",
   "status": "partial",
   "theorems": [
    "Verif.C48_list_notation",
    "Verif.C48_table_notation",
    "Verif.C48_settable_partial",
    "Verif.C48_counterexample"
   ],
   "note": "the notations are interchangeable; false that every option can be set: no-flake8 is refused in configuration files"
  },
  {
   "property": "C49",
   "status": "partial",
   "theorems": [
    "Verif.C49_translations_partial",
    "Verif.C49_counterexample",
    "Verif.C49_table"
   ],
   "note": "false for a second group of files using the same language file, which sees the translations of the first one; proved for the first use"
  },
  {
   "property": "C50",
   "status": "proved",
   "theorems": [
    "Verif.C50_filtering",
    "Verif.C50_each_alone"
   ],
   "note": ""
  },
  {
   "property": "C51",
   "status": "proved",
   "theorems": [
    "Verif.C51_names"
   ],
   "note": "messages in the form pylint writes them; the name contains no newline"
  },
  {
   "property": "C52",
   "status": "proved",
   "theorems": [
    "Verif.C52_builtins"
   ],
   "note": "messages in the form pylint writes them; the name contains no quotes or newline"
  },
  {
   "property": "C53",
   "status": "proved",
   "theorems": [
    "Verif.C53_unused_import",
    "Verif.C53_parens",
    "Verif.C53_bool_comparison"
   ],
   "note": "messages in the form the linters write them"
  },
  {
   "property": "C54",
   "status": "partial",
   "theorems": [
    "Verif.C54_repeated_op_partial",
    "Verif.C54_counterexample"
   ],
   "note": "false for expressions with a dot: only the part before it is examined"
  },
  {
   "property": "C55",
   "status": "proved",
   "theorems": [
    "Verif.C55_offline"
   ],
   "note": "for a non-empty content that was completely stored"
  },
  {
   "property": "C56",
   "status": "proved",
   "theorems": [
    "Verif.C56_recent"
   ],
   "note": "by the timestamps the clock gives"
  },
  {
   "property": "C57",
   "status": "partial",
   "theorems": [
    "Verif.C57_recovers_partial",
    "Verif.C57_counterexample"
   ],
   "note": "Proved for interruptions which do not leave a truncated file; after a truncated file no check ever queries again (counterexample)."
  },
  {
   "property": "C58",
   "status": "proved",
   "theorems": [
    "Verif.C58_requested",
    "Verif.C58_all",
    "Verif.C58_printed"
   ],
   "note": "JSON output is C141."
  },
  {
   "property": "C59",
   "status": "proved",
   "theorems": [
    "Verif.C59_one_request",
    "Verif.C59_asks_again"
   ],
   "note": "For updates which do not overlap; the clock must not go back within a run."
  },
  {
   "property": "C60",
   "status": "proved",
   "theorems": [
    "Verif.C60_reported"
   ],
   "note": ""
  },
  {
   "property": "C61",
   "status": "partial",
   "theorems": [
    "Verif.Aunify.C61_renaming_partial",
    "Verif.Aunify.C61_inconsistent_counterexample"
   ],
   "note": "For fragments for which C31 holds; without the requirement it is false."
  },
  {
   "property": "C62",
   "status": "partial",
   "theorems": [
    "Verif.Py.C62_partial",
    "Verif.Py.C62_sorted",
    "Verif.Py.C62_counterexample"
   ],
   "note": "False for abs of an expression that is not translated; proved for all other conditions."
  },
  {
   "property": "C63",
   "status": "proved",
   "theorems": [
    "Verif.Elif.C63"
   ],
   "note": "Given that the solver is right and the translation of tests faithful (C44), and that evaluating the tests raises no exception."
  },
  {
   "property": "C64",
   "status": "proved",
   "theorems": [
    "Verif.Elif.C64"
   ],
   "note": "Given that the solver is right and the translation of tests faithful (C44), and that evaluating the tests raises no exception."
  },
  {
   "property": "C65",
   "status": "partial",
   "theorems": [
    "Verif.Elif.C65_partial",
    "Verif.Elif.checkIf_fuel",
    "Verif.Elif.C65_counterexample"
   ],
   "note": "False if branches are moved; proved if they are not. The search always ends."
  },
  {
   "property": "C66",
   "status": "partial",
   "theorems": [
    "Verif.Py.SimpleIf.C66_partial",
    "Verif.Py.SimpleIf.C66_expr_partial",
    "Verif.Py.SimpleIf.C66_counterexample",
    "Verif.Py.SimpleIf.C66_augmented_counterexample"
   ],
   "note": "False if an operand is a conditional expression and for augmented assignments; proved otherwise."
  },
  {
   "property": "C67",
   "status": "partial",
   "theorems": [
    "Verif.Py.SimpleIf.C67_partial",
    "Verif.Py.SimpleIf.C67_counterexample"
   ],
   "note": "False for annotations without a value and for del; proved for all other statements."
  },
  {
   "property": "C68",
   "status": "partial",
   "theorems": [
    "Verif.Py.SimpleIf.C68_partial",
    "Verif.Py.SimpleIf.C68_counterexample"
   ],
   "note": "False if a test is a conditional expression; proved otherwise."
  },
  {
   "property": "C69",
   "status": "proved",
   "theorems": [
    "Verif.Py.C69",
    "Verif.Py.C69_more"
   ],
   "note": ""
  },
  {
   "property": "C70",
   "status": "partial",
   "theorems": [
    "Verif.Flow.C70_module_partial",
    "Verif.Flow.C70_function_partial",
    "Verif.Flow.C70_noTry_partial",
    "Verif.Flow.C70_for_counterexample",
    "Verif.Flow.C70_finally_counterexample",
    "Verif.Flow.C70_raises_counterexample",
    "Verif.Flow.C70_base_class_counterexample",
    "Verif.Flow.C70_else_counterexample",
    "Verif.Flow.C70_clause_counterexample",
    "Verif.Flow.C70_class_counterexample"
   ],
   "note": "False for finally, for exceptions raised in a try, for an else or except that begins with while, and for a for that ends without assigning its target; proved for all other programs, the target standing for asking for an element."
  },
  {
   "property": "C71",
   "status": "partial",
   "theorems": [
    "Verif.Flow.C71_module_partial",
    "Verif.Flow.C71_function_partial",
    "Verif.Flow.C71_locations_partial",
    "Verif.Flow.C71_try_counterexample"
   ],
   "note": "False with try; proved for all programs without it."
  },
  {
   "property": "C72",
   "status": "partial",
   "theorems": [
    "Verif.Flow.C72_module_partial",
    "Verif.Flow.C72_function_partial",
    "Verif.Flow.C72_class_partial",
    "Verif.Flow.C72_unique",
    "Verif.Flow.C72_finally_counterexample"
   ],
   "note": "False for what is in finally; proved for all programs without it."
  },
  {
   "property": "C73",
   "status": "partial",
   "theorems": [
    "Verif.Flow.C73_total",
    "Verif.Flow.C73_while_partial",
    "Verif.Flow.C73_for_partial",
    "Verif.Flow.C73_function_while_partial",
    "Verif.Flow.C73_function_for_partial",
    "Verif.Flow.C73_class_counterexample",
    "Verif.Flow.C73_try_counterexample"
   ],
   "note": "False in classes and for loops that try until there is no exception; proved for the programs of C70. That the check raises no exception is proved for all programs."
  },
  {
   "property": "C74",
   "status": "proved",
   "theorems": [
    "Verif.Flow.C74_module",
    "Verif.Flow.C74_function",
    "Verif.Flow.C74_class"
   ],
   "note": "For all programs in which each except has a body, as the grammar requires. Edges are not kept in two lists, so removing an edge from one of them is not a step that could raise."
  },
  {
   "property": "C75",
   "status": "partial",
   "theorems": [
    "Verif.Scope.C75_scopes_partial",
    "Verif.Scope.C75_occurrence_partial",
    "Verif.Scope.C75_early_counterexample",
    "Verif.Scope.C75_early_loop_counterexample",
    "Verif.Scope.C75_class_counterexample",
    "Verif.Scope.C75_inner_definition_counterexample",
    "Verif.Scope.C75_comprehension_counterexample",
    "Verif.Scope.C75_default_counterexample",
    "Verif.Scope.C75_nonlocal_counterexample",
    "Verif.Scope.C75_del_counterexample",
    "Verif.Scope.C75_global_counterexample",
    "Verif.Scope.C75_lambda_counterexample",
    "Verif.Scope.C75_import_counterexample",
    "Verif.Scope.C75_skipped_counterexample",
    "Verif.Scope.C75_walrus_counterexample"
   ],
   "note": "False in thirteen cases; proved for all programs where each name is bound, in the order of the text, before it is used in its scope, and that avoid the others."
  },
  {
   "property": "C76",
   "status": "partial",
   "theorems": [
    "Verif.Py.Blocks.C76_partial",
    "Verif.Py.Blocks.C76_no_exception_partial",
    "Verif.Py.Blocks.C76_counterexample",
    "Verif.Py.Blocks.C76_ifExp_counterexample",
    "Verif.Py.Blocks.C76_index_counterexample"
   ],
   "note": "False if a value that is added, or a branch of a conditional expression, is and or or, and an exception is raised if what is unpacked is not a tuple in the text; proved for all other blocks over integers without floor division by a negative constant (C44), if the solver is right."
  },
  {
   "property": "C77",
   "status": "partial",
   "theorems": [
    "Verif.Py.Blocks.C77_partial",
    "Verif.Py.C77_exists_partial",
    "Verif.Py.Blocks.C77_counterexample"
   ],
   "note": "False as C76 is; proved for what C76 is proved for, if the analysis of which variables are modified is right. What is reported can happen: there are integers for which the loop does not end."
  },
  {
   "property": "C78",
   "status": "partial",
   "theorems": [
    "Verif.Py.Blocks.C78_partial",
    "Verif.Py.Blocks.C78_group_partial",
    "Verif.Py.Blocks.C78_more",
    "Verif.Py.Blocks.C78_counterexample"
   ],
   "note": "False if an if contains return and the like in a body; proved for runs that get to the end of all ifs, and without return and assert for all runs that raise no exception, for conditions over integers, if the solver and the analysis of which variables are modified are right."
  },
  {
   "property": "C79",
   "status": "partial",
   "theorems": [
    "Verif.Py.Blocks.C79_partial",
    "Verif.Py.Blocks.C79_counterexample"
   ],
   "note": "False, as the last condition is not looked at; proved of the other conditions and what comes after them."
  },
  {
   "property": "C80",
   "status": "partial",
   "theorems": [
    "Verif.Py.Loops.C80_first_partial",
    "Verif.Py.Loops.C80_first_exact_partial",
    "Verif.Py.Loops.C80_last_partial",
    "Verif.Py.Loops.C80_counterexample",
    "Verif.Py.Loops.C80_counterexample_step"
   ],
   "note": "False for the first iteration with break, and for steps that do not divide the distance of the bounds; proved for continue, and for the last iteration of the other ranges, if the bounds do not change in the loop and there is no else."
  },
  {
   "property": "C81",
   "status": "partial",
   "theorems": [
    "Verif.Py.Loops.C81_partial",
    "Verif.Py.Loops.C81_iterations_partial",
    "Verif.Py.Loops.C81_counterexample"
   ],
   "note": "False if there is a continue before the break; proved for loops with neither continue nor another break before it."
  },
  {
   "property": "C82",
   "status": "partial",
   "theorems": [
    "Verif.Traverse.C82_sound",
    "Verif.Traverse.C82_partial",
    "Verif.Traverse.C82_functions_partial",
    "Verif.Traverse.C82_terminates",
    "Verif.Traverse.C82_no_exception",
    "Verif.Traverse.C82_counterexample"
   ],
   "note": "False if there are several locations to start from and a condition for stopping; proved for one location, and for several without a condition. Everything yielded can be reached in all cases."
  },
  {
   "property": "C83",
   "status": "partial",
   "theorems": [
    "Verif.Traverse.C83_after_partial",
    "Verif.Traverse.C83_after_function_partial",
    "Verif.Traverse.C83_before_partial",
    "Verif.Traverse.C83_before_function_partial",
    "Verif.Traverse.C83_possible_after_partial",
    "Verif.Traverse.C83_possible_before_partial",
    "Verif.Traverse.C83_possible_after_function_partial",
    "Verif.Traverse.C83_possible_before_function_partial",
    "Verif.Traverse.C83_finally_counterexample",
    "Verif.Traverse.C83_raises_counterexample"
   ],
   "note": "False for finally and for exceptions raised in try; proved for the programs for which C70 is, and in the other direction for programs without try."
  },
  {
   "property": "C84",
   "status": "partial",
   "theorems": [
    "Verif.Traverse.C84_partial",
    "Verif.Traverse.C84_function_partial",
    "Verif.Traverse.C84_possible_partial",
    "Verif.Traverse.C84_possible_function_partial",
    "Verif.Traverse.C84_call_counterexample"
   ],
   "note": "False if a function that is called changes the variable; proved of the changes made at the locations themselves, for the programs for which C70 is."
  },
  {
   "property": "C85",
   "status": "proved",
   "theorems": [
    "Verif.Py.Branches.C85_after",
    "Verif.Py.Branches.C85_exact",
    "Verif.Py.Branches.C85_branches",
    "Verif.Py.Branches.C85_no_exception",
    "Verif.Py.Branches.C85_all_branches"
   ],
   "note": "For if statements all of whose branches have a statement, as the grammar requires."
  },
  {
   "property": "C86",
   "status": "partial",
   "theorems": [
    "Verif.Py.Branches.C86_identical_partial",
    "Verif.Py.Branches.C86_before_partial",
    "Verif.Py.Branches.C86_before_counterexample",
    "Verif.Py.Branches.C86_effect_counterexample",
    "Verif.Py.Branches.C86_raise_counterexample"
   ],
   "note": "False if the code that is moved changes a condition, and for conditions that have effects or raise; proved for all others."
  },
  {
   "property": "C87",
   "status": "proved",
   "theorems": [
    "Verif.Py.Branches.C87_elifs"
   ],
   "note": ""
  },
  {
   "property": "C88",
   "status": "partial",
   "theorems": [
    "Verif.Py.Branches.C88_once",
    "Verif.Py.Branches.C88_first",
    "Verif.Py.Branches.C88_elifs_partial",
    "Verif.Py.Branches.C88_ifs_partial",
    "Verif.Py.Branches.C88_counterexample",
    "Verif.Py.Branches.C88_else_counterexample"
   ],
   "note": "False if several bodies are executed and if there is an else in between; proved for elifs, and for bodies that do not go on."
  },
  {
   "property": "C89",
   "status": "partial",
   "theorems": [
    "Verif.Py.Branches.C89_partial",
    "Verif.Py.Branches.C89_counterexample"
   ],
   "note": "False if the outer condition has effects; proved if it has none, and evaluating the inner one does not change it."
  },
  {
   "property": "C90",
   "status": "partial",
   "theorems": [
    "Verif.Inside.C90_sound_partial",
    "Verif.Inside.C90_sound_function_partial",
    "Verif.Inside.C90_partial",
    "Verif.Inside.C90_function_partial",
    "Verif.Inside.C90_total_partial",
    "Verif.Inside.C90_total_function_partial",
    "Verif.Inside.C90_with_counterexample",
    "Verif.Inside.C90_with_more_counterexample"
   ],
   "note": "False for a with that is followed by statements of the same suite; proved for all other statements in modules and functions for which C70 is proved."
  },
  {
   "property": "C91",
   "status": "partial",
   "theorems": [
    "Verif.Inside.C91_partial",
    "Verif.Inside.C91_function_partial",
    "Verif.Inside.C91_true_partial",
    "Verif.Inside.C91_true_function_partial",
    "Verif.Inside.C91_delete_counterexample",
    "Verif.Inside.C91_with_counterexample"
   ],
   "note": "False for del, and where C90 is; proved otherwise, for what happens at the locations themselves."
  },
  {
   "property": "C92",
   "status": "partial",
   "theorems": [
    "Verif.Uses.C92_total",
    "Verif.Uses.C92_partial",
    "Verif.Uses.C92_function_partial",
    "Verif.Uses.C92_called_partial",
    "Verif.Uses.C92_called_function_partial",
    "Verif.Uses.C92_possible_partial",
    "Verif.Uses.C92_finally_counterexample"
   ],
   "note": "Proved for variables that no called function changes, including uses in called functions, for the programs for which C70 is proved, and in the other direction for programs without try. That the rest is false is C30_call_counterexample and the counterexamples of C70 and C71."
  },
  {
   "property": "C93",
   "status": "partial",
   "theorems": [
    "Verif.Uses.C93_partial",
    "Verif.Uses.C93_function_partial",
    "Verif.Uses.C93_possible_partial",
    "Verif.Uses.C93_possible_function_partial",
    "Verif.Uses.C93_with_counterexample"
   ],
   "note": "False where C90 is; proved for the programs and statements for which C90 and C92 are; that an execution exists only for variables that called functions do nothing to."
  },
  {
   "property": "C94",
   "status": "partial",
   "theorems": [
    "Verif.Uses.C94_partial",
    "Verif.Uses.C94_function_partial",
    "Verif.Uses.C94_possible_partial",
    "Verif.Uses.C94_possible_function_partial",
    "Verif.Uses.C94_with_counterexample"
   ],
   "note": "False where C90 is; proved for the programs and statements for which C90 and C92 are; that an execution exists only for variables that called functions do nothing to."
  },
  {
   "property": "C95",
   "status": "partial",
   "theorems": [
    "Verif.Py.BoolOps.C95_partial",
    "Verif.Py.BoolOps.C95_abs_counterexample",
    "Verif.Py.BoolOps.C95_brackets_counterexample"
   ],
   "note": "False for expressions that bind weaker than comparisons, and for those that only start with a call of abs; proved for all others."
  },
  {
   "property": "C96",
   "status": "partial",
   "theorems": [
    "Verif.Py.BoolOps.C96_partial",
    "Verif.Py.BoolOps.C96_reported",
    "Verif.Py.BoolOps.C96_call_counterexample",
    "Verif.Py.BoolOps.C96_list_counterexample",
    "Verif.Py.BoolOps.C96_brackets_counterexample"
   ],
   "note": "False for expressions that bind weaker than comparisons, and for those that start with a call of max or min without being one of several arguments; proved for all others."
  },
  {
   "property": "C97",
   "status": "proved",
   "theorems": [
    "Verif.Py.BoolOps.C97_equivalent"
   ],
   "note": ""
  },
  {
   "property": "C98",
   "status": "partial",
   "theorems": [
    "Verif.Py.BoolParts.C98_partial",
    "Verif.Py.BoolParts.C98_compare_partial",
    "Verif.Py.BoolParts.C98_needed_partial",
    "Verif.Py.BoolParts.C98_two",
    "Verif.Py.BoolParts.C98_guard_counterexample"
   ],
   "note": "False if an operand guards another from raising an exception, and where C44 is; proved if all operands have truth values and the variables are integers. That nothing more can be left out is proved of the condition as it is translated for the solver."
  },
  {
   "property": "C99",
   "status": "partial",
   "theorems": [
    "Verif.Py.LocalOps.C99_partial",
    "Verif.Py.LocalOps.C99_aug_partial",
    "Verif.Py.LocalOps.C99_right",
    "Verif.Py.LocalOps.C99_left",
    "Verif.Py.LocalOps.C99_others",
    "Verif.Py.LocalOps.C99_times",
    "Verif.Py.LocalOps.C99_times_counterexample"
   ],
   "note": "Proved for numbers, taken as exact, and strings that are added; strings that are multiplied give themselves or the empty string (`s * 0`, neither operand nor number), and `s % s` formats: the counterexample. Nothing is claimed of other values (a list times 0 is a new list)."
  },
  {
   "property": "C100",
   "status": "partial",
   "theorems": [
    "Verif.Py.LocalOps.C100_partial",
    "Verif.Py.LocalOps.C100_reported",
    "Verif.Py.LocalOps.C100_mutable",
    "Verif.Py.LocalOps.C100_targets_counterexample",
    "Verif.Py.LocalOps.C100_product_counterexample"
   ],
   "note": "False for several targets, and for products whose left factor is a number; proved for one variable if the types of both operands are known."
  },
  {
   "property": "C101",
   "status": "partial",
   "theorems": [
    "Verif.Py.LocalOps.C101_partial",
    "Verif.Py.LocalOps.C101_all",
    "Verif.Py.LocalOps.C101_neighbour",
    "Verif.Py.LocalOps.C101_counterexample"
   ],
   "note": "False for what binds weaker than not; proved for all others."
  },
  {
   "property": "C102",
   "status": "partial",
   "theorems": [
    "Verif.Py.LocalOps.C102_partial",
    "Verif.Py.LocalOps.C102_aug_partial",
    "Verif.Py.LocalOps.C102_reported",
    "Verif.Py.LocalOps.C102_star_counterexample",
    "Verif.Py.LocalOps.C102_text_counterexample"
   ],
   "note": "False for an element with a star, and for lists given by operators; proved for all others."
  },
  {
   "property": "C103",
   "status": "partial",
   "theorems": [
    "Verif.Py.LocalOps.C103_partial",
    "Verif.Py.LocalOps.C103_value_partial",
    "Verif.Py.LocalOps.C103_reported",
    "Verif.Py.LocalOps.C103_counterexample"
   ],
   "note": "False for negative quotients; proved for those that are not, and for whole numbers, with exact numbers."
  },
  {
   "property": "C104",
   "status": "partial",
   "theorems": [
    "Verif.Py.LocalOps.C104_partial",
    "Verif.Py.LocalOps.C104_counterexample"
   ],
   "note": "False for a product of two displays of lists, which raises an AssertionError; proved for all others."
  },
  {
   "property": "C105",
   "status": "proved",
   "theorems": [
    "Verif.Py.Code.C105_else",
    "Verif.Py.Code.C105_after",
    "Verif.Py.Code.C105_iff"
   ],
   "note": ""
  },
  {
   "property": "C106",
   "status": "partial",
   "theorems": [
    "Verif.Py.Code.C106_sound",
    "Verif.Py.Code.C106_partial",
    "Verif.Py.Code.C106_match_counterexample",
    "Verif.Py.Code.C106_try_counterexample"
   ],
   "note": "False, as too little is counted for match and try; proved for code without match in which each try has one except or one finally. What is reported has as many lines in all cases."
  },
  {
   "property": "C107",
   "status": "partial",
   "theorems": [
    "Verif.CallGraph.C107_exact",
    "Verif.CallGraph.C107_partial",
    "Verif.CallGraph.C107_uncalled",
    "Verif.CallGraph.C107_counterexample"
   ],
   "note": "False for a recursive function that calls another one; proved what is returned instead, and that a true result is right."
  },
  {
   "property": "C108",
   "status": "proved",
   "theorems": [
    "Verif.CallGraph.C108_exact"
   ],
   "note": ""
  },
  {
   "property": "C109",
   "status": "partial",
   "theorems": [
    "Verif.ForEach.C109_foreach_partial",
    "Verif.ForEach.C109_enumerate_partial",
    "Verif.ForEach.C109_reported",
    "Verif.ForEach.C109_only",
    "Verif.ForEach.C109_leaving_counterexample",
    "Verif.ForEach.C109_del_counterexample",
    "Verif.ForEach.C109_alias_counterexample"
   ],
   "note": "False for lists changed in a block that ends with break or return, for deleted items and for lists with another name; proved for all other bodies."
  },
  {
   "property": "C110",
   "status": "partial",
   "theorems": [
    "Verif.UseFor.C110_partial",
    "Verif.UseFor.C110_function_partial",
    "Verif.UseFor.C110_once_partial",
    "Verif.UseFor.C110_once_function_partial",
    "Verif.UseFor.C110_left_partial",
    "Verif.UseFor.C110_left_function_partial",
    "Verif.UseFor.C110_twice_partial",
    "Verif.UseFor.C110_twice_function_partial",
    "Verif.UseFor.C110_change_partial",
    "Verif.UseFor.C110_range",
    "Verif.UseFor.C110_reversed_counterexample",
    "Verif.UseFor.C110_flip_counterexample",
    "Verif.UseFor.C110_continue_counterexample",
    "Verif.UseFor.C110_else_counterexample",
    "Verif.UseFor.C110_break_counterexample"
   ],
   "note": "False for x = c - x, for loops with continue, for an else that returns, and for changes after the break of a loop within; proved for iterations without these."
  },
  {
   "property": "C111",
   "status": "partial",
   "theorems": [
    "Verif.LoopVars.C111_partial",
    "Verif.LoopVars.C111_reported_partial",
    "Verif.LoopVars.C111_break_counterexample",
    "Verif.LoopVars.C111_inner_counterexample",
    "Verif.LoopVars.C111_continue_counterexample",
    "Verif.LoopVars.C111_order_counterexample"
   ],
   "note": "False if the loop is left after the block, if the break is one of a loop within, with continue, and if an assignment follows; proved for modules without try, bodies without continue and modifications outside of loops within."
  },
  {
   "property": "C112",
   "status": "partial",
   "theorems": [
    "Verif.LoopVars.C112_partial",
    "Verif.LoopVars.C112_function_partial",
    "Verif.LoopVars.C112_possible_partial",
    "Verif.LoopVars.C112_possible_function_partial",
    "Verif.LoopVars.C112_shadows_partial",
    "Verif.LoopVars.C112_shadows_function_partial",
    "Verif.LoopVars.C112_finally_counterexample"
   ],
   "note": "False of finally. Proved for variables that are not changed by functions that are called, and without try where it is claimed that an execution exists."
  },
  {
   "property": "C113",
   "status": "partial",
   "theorems": [
    "Verif.LoopMerge.C113_partial",
    "Verif.LoopMerge.C113_times_partial",
    "Verif.LoopMerge.C113_reported",
    "Verif.LoopMerge.C113_variable_counterexample",
    "Verif.LoopMerge.C113_continue_counterexample",
    "Verif.LoopMerge.C113_product_counterexample",
    "Verif.LoopMerge.C113_after_counterexample",
    "Verif.LoopMerge.C113_skipped_counterexample"
   ],
   "note": "False if the variable is used in the loop or after it, with continue, for numbers that need parentheses and if something between the parts is left out; proved otherwise, and what is reported is proved."
  },
  {
   "property": "C114",
   "status": "proved",
   "theorems": [
    "Verif.Candidates.C114_pairs",
    "Verif.Candidates.C114_apart",
    "Verif.Candidates.C114_siblings",
    "Verif.Candidates.C114_memoized"
   ],
   "note": ""
  },
  {
   "property": "C115",
   "status": "partial",
   "theorems": [
    "Verif.Candidates.C115_blocks",
    "Verif.Candidates.C115_types",
    "Verif.Candidates.C115_within",
    "Verif.Candidates.C115_new",
    "Verif.Candidates.C115_found",
    "Verif.Candidates.C115_no_exception",
    "Verif.Candidates.C115_overlap_counterexample",
    "Verif.Candidates.C115_lost_counterexample"
   ],
   "note": "Blocks may overlap and may be reported without one that is alike; the rest is proved, equal types if types are not derived from one another."
  },
  {
   "property": "C116",
   "status": "partial",
   "theorems": [
    "Verif.Events.C116_stores_partial",
    "Verif.Events.C116_reads_partial",
    "Verif.Events.C116_modifies_partial",
    "Verif.Events.C116_deletes",
    "Verif.Events.C116_only_partial",
    "Verif.Events.C116_order_partial",
    "Verif.Events.C116_before_partial",
    "Verif.Events.C116_first",
    "Verif.Events.C116_methods_partial",
    "Verif.Events.C116_methods_counterexample",
    "Verif.Events.C116_del_counterexample",
    "Verif.Events.C116_target_counterexample",
    "Verif.Events.C116_del_attr_counterexample",
    "Verif.Events.C116_annotation_counterexample",
    "Verif.Events.C116_argument_counterexample",
    "Verif.Events.C116_order_counterexample",
    "Verif.Events.C116_short_counterexample"
   ],
   "note": "Items that are set in lists, below *, or in for and with, or deleted, are not recorded as modifications, neither are two methods; annotations without a value are recorded as assignments; the order is wrong for := and methods. Proved for the other statements."
  },
  {
   "property": "C117",
   "status": "partial",
   "theorems": [
    "Verif.Extract.C117_reported",
    "Verif.Extract.C117_tokens",
    "Verif.Extract.C117_message",
    "Verif.Extract.C117_shorter",
    "Verif.Extract.C117_once",
    "Verif.Extract.C117_statements_partial",
    "Verif.Extract.C117_leaving",
    "Verif.Extract.C117_long",
    "Verif.Extract.C117_long_two",
    "Verif.Extract.C117_many",
    "Verif.Extract.C117_statements_counterexample",
    "Verif.Extract.C117_names_counterexample",
    "Verif.Extract.C117_returned_counterexample"
   ],
   "note": "The number of statements is right if no statement leaves the blocks; otherwise the statements of the function are missing. Names defined before count once per scope and variables used after once per block."
  },
  {
   "property": "C118",
   "status": "partial",
   "theorems": [
    "Verif.CallInstead.C118_reported",
    "Verif.CallInstead.C118_other",
    "Verif.CallInstead.C118_provides",
    "Verif.CallInstead.C118_sees_partial",
    "Verif.CallInstead.C118_sees_counterexample",
    "Verif.CallInstead.C118_method_counterexample",
    "Verif.CallInstead.C118_early_counterexample",
    "Verif.CallInstead.C118_changed_counterexample"
   ],
   "note": "The function need not be seen from the block that the message is for: with more than two blocks, for methods and before its definition. Other variables in an expression that is returned may have changed before it is used."
  },
  {
   "property": "C119",
   "status": "partial",
   "theorems": [
    "Verif.Mutability.C119_not_modified_partial",
    "Verif.Mutability.C119_modified",
    "Verif.Mutability.C119_definitions_counterexample",
    "Verif.Mutability.C119_indirect_counterexample",
    "Verif.Mutability.C119_target_counterexample",
    "Verif.Mutability.C119_aug_counterexample",
    "Verif.Mutability.C119_tuple_counterexample"
   ],
   "note": "Names with several definitions, calls of something else than a name, and objects whose type is guessed wrong or not at all (targets, augmented assignments, tuples of lists) are excluded."
  },
  {
   "property": "C120",
   "status": "partial",
   "theorems": [
    "Verif.GlobalVars.C120_reported",
    "Verif.GlobalVars.C120_once",
    "Verif.GlobalVars.C120_constant",
    "Verif.GlobalVars.C120_global_counterexample",
    "Verif.GlobalVars.C120_comprehension_counterexample"
   ],
   "note": "What is reported is characterised fully. It is not what the description of the message says: variables that only functions assign to are missed, and comprehensions of the module count as functions."
  },
  {
   "property": "C121",
   "status": "partial",
   "theorems": [
    "Verif.IfContainer.C121_condition",
    "Verif.IfContainer.C121_reported",
    "Verif.IfContainer.C121_same_partial",
    "Verif.IfContainer.C121_list",
    "Verif.IfContainer.C121_both_counterexample",
    "Verif.IfContainer.C121_twice_counterexample",
    "Verif.IfContainer.C121_else_counterexample"
   ],
   "note": "Constants may repeat where a dictionary is suggested, and an if with an else may be followed by another one."
  },
  {
   "property": "C122",
   "status": "partial",
   "theorems": [
    "Verif.SimilarIf.C122_reported",
    "Verif.SimilarIf.C122_expressions",
    "Verif.SimilarIf.C122_same_partial",
    "Verif.SimilarIf.C122_same_counterexample",
    "Verif.SimilarIf.C122_calls_counterexample",
    "Verif.SimilarIf.C122_raises_counterexample"
   ],
   "note": "False if conditions have side effects, raise exceptions, or functions assign to their variables."
  },
  {
   "property": "C123",
   "status": "partial",
   "theorems": [
    "Verif.SimilarIf.C123_reported",
    "Verif.SimilarIf.C123_same_partial",
    "Verif.SimilarIf.C123_same_counterexample"
   ],
   "note": "False if variables of what differs are changed before, which is not looked at."
  },
  {
   "property": "C124",
   "status": "partial",
   "theorems": [
    "Verif.SimilarIf.C124_reported",
    "Verif.SimilarIf.C124_same_partial",
    "Verif.SimilarIf.C124_same_counterexample",
    "Verif.SimilarIf.C124_calls_counterexample",
    "Verif.SimilarIf.C124_raises_counterexample",
    "Verif.SimilarIf.C124_unreachable_counterexample"
   ],
   "note": "False if conditions have side effects, raise exceptions, or functions assign to their variables."
  },
  {
   "property": "C125",
   "status": "partial",
   "theorems": [
    "Verif.SimilarIf.C125_reported",
    "Verif.SimilarIf.C125_same_partial",
    "Verif.SimilarIf.C125_same_counterexample",
    "Verif.SimilarIf.C125_negated_counterexample"
   ],
   "note": "False if the value of the condition is not a truth value, besides what holds for C122."
  },
  {
   "property": "C126",
   "status": "proved",
   "theorems": [
    "Verif.IfAttempts.C126_reported",
    "Verif.IfAttempts.C126_one",
    "Verif.IfAttempts.C126_duplication",
    "Verif.IfAttempts.C126_first",
    "Verif.IfAttempts.C126_two_counterexample",
    "Verif.IfAttempts.C126_container_counterexample",
    "Verif.IfAttempts.C126_disabled_counterexample"
   ],
   "note": "With a list or dictionary, two things may be reported; messages that are not enabled may prevent others."
  },
  {
   "property": "C127",
   "status": "partial",
   "theorems": [
    "Verif.C127_relative",
    "Verif.C127_cwd",
    "Verif.C127_other",
    "Verif.C127_stable",
    "Verif.C127_packaged",
    "Verif.C127_unreadable",
    "Verif.C127_remote_counterexample"
   ],
   "note": "False for references in configurations from the network."
  },
  {
   "property": "C128",
   "status": "partial",
   "theorems": [
    "Verif.Assigned.C128_value_partial",
    "Verif.Assigned.C128_name",
    "Verif.Assigned.C128_target",
    "Verif.Assigned.C128_nodes",
    "Verif.Assigned.C128_raises",
    "Verif.Assigned.C128_tuple_counterexample",
    "Verif.Assigned.C128_augmented_counterexample",
    "Verif.Assigned.C128_included_counterexample",
    "Verif.Assigned.C128_with_counterexample",
    "Verif.Assigned.C128_loop_counterexample"
   ],
   "note": "False for augmented assignments; an exception is raised for with statements and patterns that destructure; some nodes are always yielded."
  },
  {
   "property": "C129",
   "status": "partial",
   "theorems": [
    "Verif.Requirements.C129_reported_partial",
    "Verif.Requirements.C129_independent_partial",
    "Verif.Requirements.C129_unreachable",
    "Verif.Requirements.C129_registered",
    "Verif.Requirements.C129_codes",
    "Verif.Requirements.C129_unreachable_counterexample",
    "Verif.Requirements.C129_executed_counterexample"
   ],
   "note": "False for unreachable-else; visit_compare is always executed."
  },
  {
   "property": "C130",
   "status": "partial",
   "theorems": [
    "Verif.PythonTa.C130_stores",
    "Verif.PythonTa.C130_targets",
    "Verif.PythonTa.C130_shadowing",
    "Verif.PythonTa.C130_shadows_partial",
    "Verif.PythonTa.C130_top_level",
    "Verif.PythonTa.C130_read_counterexample",
    "Verif.PythonTa.C130_tuple_counterexample",
    "Verif.PythonTa.C130_scopes_counterexample",
    "Verif.PythonTa.C130_assignment_counterexample"
   ],
   "note": "False for tuples and for variables of scopes further out; parts of targets that are read are reported, too."
  },
  {
   "property": "C131",
   "status": "partial",
   "theorems": [
    "Verif.Parts.C131_found",
    "Verif.Parts.C131_events",
    "Verif.Parts.C131_by_var",
    "Verif.Parts.C131_same_partial",
    "Verif.Parts.C131_matched_partial",
    "Verif.Parts.C131_steps",
    "Verif.Parts.C131_filter",
    "Verif.Parts.C131_events_counterexample",
    "Verif.Parts.C131_slices_counterexample",
    "Verif.Parts.C131_missed_counterexample"
   ],
   "note": "False for parts of statements, for slices with constants or operators, and for variables that are read more often."
  },
  {
   "property": "C132",
   "status": "partial",
   "theorems": [
    "Verif.Aunify.C132_recognized_partial",
    "Verif.Aunify.C132_strings_counterexample"
   ],
   "note": "False where strings differ."
  },
  {
   "property": "C133",
   "status": "partial",
   "theorems": [
    "Verif.SeqIfs.C133_joined_partial",
    "Verif.SeqIfs.C133_exits_partial",
    "Verif.SeqIfs.C133_reported",
    "Verif.SeqIfs.C133_found",
    "Verif.SeqIfs.C133_siblings_counterexample",
    "Verif.SeqIfs.C133_elif_counterexample",
    "Verif.SeqIfs.C133_else_counterexample"
   ],
   "note": "False for ifs after each other whose bodies do not leave the block, and with an else."
  },
  {
   "property": "C134",
   "status": "partial",
   "theorems": [
    "Verif.DupBlocks.C134_duplicate",
    "Verif.DupBlocks.C134_identical_partial",
    "Verif.DupBlocks.C134_reported",
    "Verif.DupBlocks.C134_found",
    "Verif.DupBlocks.C134_targets_counterexample",
    "Verif.DupBlocks.C134_augmented_counterexample",
    "Verif.DupBlocks.C134_else_counterexample",
    "Verif.DupBlocks.C134_slices_counterexample"
   ],
   "note": "False for blocks that differ in what is not compared: names that are assigned to, operators of augmented assignments, and places of children."
  },
  {
   "property": "C135",
   "status": "partial",
   "theorems": [
    "Verif.DupSequence.C135_same",
    "Verif.DupSequence.C135_differ",
    "Verif.DupSequence.C135_last",
    "Verif.DupSequence.C135_reported",
    "Verif.DupSequence.C135_template_partial",
    "Verif.DupSequence.C135_disjoint",
    "Verif.DupSequence.C135_found",
    "Verif.DupSequence.C135_places_counterexample",
    "Verif.DupSequence.C135_not_last_counterexample",
    "Verif.DupSequence.C135_augmented_counterexample"
   ],
   "note": "False if what differs is not always in the same places, or not at the end, or is not compared."
  },
  {
   "property": "C136",
   "status": "partial",
   "theorems": [
    "Verif.DupExprs.C136_complexity",
    "Verif.DupExprs.C136_recorded",
    "Verif.DupExprs.C136_reported",
    "Verif.DupExprs.C136_covered",
    "Verif.DupExprs.C136_outside_counterexample",
    "Verif.DupExprs.C136_assigned_counterexample"
   ],
   "note": "False for uses outside of a repeated expression in which the expression is used first, and for subscripts and attributes that are assigned."
  },
  {
   "property": "C137",
   "status": "partial",
   "theorems": [
    "Verif.IterUse.C137_operations",
    "Verif.IterUse.C137_related",
    "Verif.IterUse.C137_range_partial",
    "Verif.IterUse.C137_found",
    "Verif.IterUse.C137_chars",
    "Verif.IterUse.C137_count_counterexample",
    "Verif.IterUse.C137_mod_counterexample",
    "Verif.IterUse.C137_constant_counterexample",
    "Verif.IterUse.C137_inner_counterexample"
   ],
   "note": "False for operators without a neutral value, for %, for constants other than the operation with zero, and for constants that differ deeper in operations; nested operations are modelled but left out of the theorem."
  },
  {
   "property": "C138",
   "status": "proved",
   "theorems": [
    "Verif.Elif.C138_right",
    "Verif.Elif.C138_translated",
    "Verif.Elif.C138_all",
    "Verif.Elif.C138_negation",
    "Verif.Elif.C138_no_exception"
   ],
   "note": "Given that the solver and is_negation are right (C32, C63)."
  },
  {
   "property": "C139",
   "status": "partial",
   "theorems": [
    "Verif.Uses.C139_executions_partial",
    "Verif.Cfg.C139_definitions_partial",
    "Verif.Cfg.C139_links_partial",
    "Verif.Cfg.C139_twice_counterexample",
    "Verif.Cfg.C139_nested_counterexample",
    "Verif.Cfg.C139_begin_counterexample"
   ],
   "note": "False in three ways (see counterexamples); proved if blocks are told apart by scopes and no block of such a function gives the variable two values, for variables that called functions at most read."
  },
  {
   "property": "C140",
   "status": "partial",
   "theorems": [
    "Verif.Cfg.C140_inside_partial",
    "Verif.Cfg.C140_outside_partial",
    "Verif.Cfg.C140_uncalled_partial",
    "Verif.Cfg.C140_exact_partial",
    "Verif.Cfg.C140_call_counterexample",
    "Verif.Cfg.C140_outer_counterexample",
    "Verif.Cfg.C140_own_counterexample"
   ],
   "note": "False in three ways (see counterexamples); proved for values given in the graph of the node unless a call is taken to give one always, and for values from where the function is called, or from functions that nothing calls, if it gives none itself, for variables that called functions at most read."
  },
  {
   "property": "C141",
   "status": "proved",
   "theorems": [
    "Verif.C141_check",
    "Verif.C141_run",
    "Verif.C141_lossless",
    "Verif.C141_ascii",
    "Verif.C141_explain"
   ],
   "note": "The reader is part of the statement; json.dumps and Problem.schema().dumps are modelled as documented."
  },
  {
   "property": "C142",
   "status": "partial",
   "theorems": [
    "Verif.CollectBlocks.C142_sequence_blocks",
    "Verif.CollectBlocks.C142_compared_blocks",
    "Verif.CollectBlocks.C142_sequences",
    "Verif.CollectBlocks.C142_sequence_found",
    "Verif.CollectBlocks.C142_duplicates_found",
    "Verif.CollectBlocks.C142_duplicates",
    "Verif.CollectBlocks.C142_main",
    "Verif.CollectBlocks.C142_definitions",
    "Verif.CollectBlocks.C142_consecutive_partial",
    "Verif.CollectBlocks.C142_consecutive_counterexample",
    "Verif.CollectBlocks.C142_class_counterexample",
    "Verif.CollectBlocks.C142_match_counterexample"
   ],
   "note": "That the statements of a reported sequence follow one another is false for the block of the whole file (definitions are left out); the rest is proved."
  },
  {
   "property": "C143",
   "status": "partial",
   "theorems": [
    "Verif.Aunify.C143_same_partial",
    "Verif.Aunify.C143_condition",
    "Verif.Aunify.C143_one_scope",
    "Verif.Aunify.C143_inconsistent_counterexample"
   ],
   "note": "False where names need not be consistent, proved for consistent ones (similar functions and blocks) and programs with assignments, branches and loops."
  },
  {
   "property": "C144",
   "status": "partial",
   "theorems": [
    "Verif.Purity.C144_silent_partial",
    "Verif.Purity.C144_order_partial",
    "Verif.Purity.C144_pure",
    "Verif.Purity.C144_models",
    "Verif.Purity.C144_method_counterexample",
    "Verif.Purity.C144_receiver_counterexample",
    "Verif.Purity.C144_iterator_counterexample"
   ],
   "note": "False for methods named like one of the functions and for operators with effects; proved for calls of names and operators without effects. What is pure is characterised."
  },
  {
   "property": "C145",
   "status": "partial",
   "theorems": [
    "Verif.VersionChoice.C145_patches",
    "Verif.VersionChoice.C145_chosen_partial",
    "Verif.VersionChoice.C145_available_partial",
    "Verif.VersionChoice.C145_zero_counterexample",
    "Verif.VersionChoice.C145_equal_counterexample",
    "Verif.VersionChoice.C145_full_release_counterexample",
    "Verif.VersionChoice.C145_available_counterexample"
   ],
   "note": "False for the number 0, equality, is_not_full_release and lists of texts; the choice is proved for positive numbers."
  },
  {
   "property": "C146",
   "status": "partial",
   "theorems": [
    "Verif.EventStore.C146_var",
    "Verif.EventStore.C146_all",
    "Verif.EventStore.C146_name_node",
    "Verif.EventStore.C146_asking",
    "Verif.EventStore.C146_vars_in",
    "Verif.EventStore.C146_name_to_var_partial",
    "Verif.EventStore.C146_contains_counterexample",
    "Verif.EventStore.C146_name_to_var_counterexample",
    "Verif.EventStore.C146_first_counterexample"
   ],
   "note": "False for the operator in and for name_to_var after a question, and where the first event is in another scope; all else is proved."
  },
  {
   "property": "C147",
   "status": "partial",
   "theorems": [
    "Verif.Streams.C147_flake8_partial",
    "Verif.Streams.C147_pylint_partial",
    "Verif.Streams.C147_runs_partial",
    "Verif.Streams.C147_exception_counterexample",
    "Verif.Streams.C147_print_counterexample"
   ],
   "note": "False if a linter raises an exception other than SystemExit, and for what pylint prints; all else is proved."
  },
  {
   "property": "C148",
   "status": "partial",
   "theorems": [
    "Verif.UniqueAvars.C148_sublist",
    "Verif.UniqueAvars.C148_first",
    "Verif.UniqueAvars.C148_cover",
    "Verif.UniqueAvars.C148_different",
    "Verif.UniqueAvars.C148_assigned_partial",
    "Verif.UniqueAvars.C148_once",
    "Verif.UniqueAvars.C148_bool_counterexample",
    "Verif.UniqueAvars.C148_name_counterexample"
   ],
   "note": "False for values that are equal without being the same (True and 1, names and texts); all else is proved."
  },
  {
   "property": "C149",
   "status": "partial",
   "theorems": [
    "Verif.CommonParent.C149_nearest",
    "Verif.CommonParent.C149_one",
    "Verif.CommonParent.C149_body",
    "Verif.CommonParent.C149_core",
    "Verif.CommonParent.C149_start_counterexample"
   ],
   "note": "False for pieces that are not at the start of a body; all else is proved."
  },
  {
   "property": "C150",
   "status": "partial",
   "theorems": [
    "Verif.RepeatLoop.C150_range_partial",
    "Verif.RepeatLoop.C150_one_type",
    "Verif.RepeatLoop.C150_list_partial",
    "Verif.RepeatLoop.C150_saves",
    "Verif.RepeatLoop.C150_longest",
    "Verif.RepeatLoop.C150_reported",
    "Verif.RepeatLoop.C150_break_counterexample",
    "Verif.RepeatLoop.C150_bool_counterexample",
    "Verif.RepeatLoop.C150_names_counterexample",
    "Verif.RepeatLoop.C150_unbound_counterexample"
   ],
   "note": "False of break and continue, of True and False, of names that are assigned to or not bound, and of decreasing numbers at several places; all else is proved."
  },
  {
   "property": "C151",
   "status": "partial",
   "theorems": [
    "Verif.Process.C151_lint_partial",
    "Verif.Process.C151_in_time",
    "Verif.Process.C151_too_late",
    "Verif.Process.C151_nothing_left",
    "Verif.Process.C151_time_partial",
    "Verif.Process.C151_exit",
    "Verif.Process.C151_graceful",
    "Verif.Process.C151_command",
    "Verif.Process.C151_flake8",
    "Verif.Process.C151_pylint",
    "Verif.Process.C151_status_counterexample",
    "Verif.Process.C151_longer_counterexample"
   ],
   "note": "False of linters that end with the status 9 or 15, and of processes that leave others behind; all else is proved."
  },
  {
   "property": "C152",
   "status": "partial",
   "theorems": [
    "Verif.Layout.C152_only",
    "Verif.Layout.C152_all_partial",
    "Verif.Layout.C152_same",
    "Verif.Layout.C152_done",
    "Verif.Layout.C152_loops_partial",
    "Verif.Layout.C152_indent_counterexample",
    "Verif.Layout.C152_inline_counterexample",
    "Verif.Layout.C152_async_counterexample"
   ],
   "note": "False of elses that are indented differently and of async for; all else is proved."
  },
  {
   "property": "C153",
   "status": "partial",
   "theorems": [
    "Verif.C153_file",
    "Verif.C153_fails",
    "Verif.C153_run_partial",
    "Verif.C153_not_python",
    "Verif.C153_directory_counterexample"
   ],
   "note": "False of directories with several configurations, and in runs of which C09 is false; proved for files alone, and in other runs."
  },
  {
   "property": "C154",
   "status": "partial",
   "theorems": [
    "Verif.StmtNodes.C154_only",
    "Verif.StmtNodes.C154_all_partial",
    "Verif.StmtNodes.C154_kinds",
    "Verif.StmtNodes.C154_once",
    "Verif.StmtNodes.C154_same",
    "Verif.StmtNodes.C154_executed_partial",
    "Verif.StmtNodes.C154_executed_function_partial",
    "Verif.StmtNodes.C154_try_counterexample",
    "Verif.StmtNodes.C154_name_counterexample",
    "Verif.StmtNodes.C154_finally_counterexample"
   ],
   "note": "False of try statements that begin with a compound statement, of names given to exceptions, and of statements in finally and match; proved of all others. That the reached locations are those that may be executed is proved of modules and functions without try."
  },
  {
   "property": "C155",
   "status": "partial",
   "theorems": [
    "Verif.Analyses.C155_empty",
    "Verif.Analyses.C155_succeeds_partial",
    "Verif.Analyses.C155_everywhere_partial",
    "Verif.Analyses.C155_warning",
    "Verif.Analyses.C155_silent",
    "Verif.Analyses.C155_guarded",
    "Verif.Analyses.C155_visited",
    "Verif.Analyses.C155_hidden_counterexample",
    "Verif.Analyses.C155_other_name_counterexample",
    "Verif.Analyses.C155_own_counterexample",
    "Verif.Analyses.C155_unguarded_counterexample"
   ],
   "note": "False of calls in decorators, bases and some defaults, of other names, of functions of the module with these names, and of checks that use the events without needing the analysis; all else is proved."
  },
  {
   "property": "C156",
   "status": "partial",
   "theorems": [
    "Verif.Consistent.C156_kept_partial",
    "Verif.Consistent.C156_only_partial",
    "Verif.Consistent.C156_alone",
    "Verif.Consistent.C156_messages",
    "Verif.Consistent.C156_similar",
    "Verif.Consistent.C156_others",
    "Verif.Consistent.C156_outermost_counterexample",
    "Verif.Consistent.C156_inner_counterexample",
    "Verif.Consistent.C156_cut_counterexample",
    "Verif.Consistent.C156_cut_deeper_counterexample"
   ],
   "note": "False where there is an if further out, and where the first branch is just an if; all else is proved."
  },
  {
   "property": "C157",
   "status": "partial",
   "theorems": [
    "Verif.Aunify.C157_later_partial",
    "Verif.Aunify.C157_before_counterexample"
   ],
   "note": "False of places before the one where the variable has a counterpart; proved of those after it."
  },
  {
   "property": "C158",
   "status": "partial",
   "theorems": [
    "Verif.LoopExit.C158_search",
    "Verif.LoopExit.C158_left",
    "Verif.LoopExit.C158_try",
    "Verif.LoopExit.C158_message",
    "Verif.LoopExit.C158_others_partial",
    "Verif.LoopExit.C158_continue_counterexample",
    "Verif.LoopExit.C158_inner_counterexample",
    "Verif.LoopExit.C158_else_counterexample",
    "Verif.LoopExit.C158_try_counterexample",
    "Verif.LoopExit.C158_names_counterexample"
   ],
   "note": "False of loops with continue, of what is left in loops, functions and else, of functions in try, and of other names for calls that end the program; all else is proved."
  },
  {
   "property": "C159",
   "status": "partial",
   "theorems": [
    "Verif.CommandLine.C159_accepts_partial",
    "Verif.CommandLine.C159_used",
    "Verif.CommandLine.C159_unknown",
    "Verif.CommandLine.C159_main_partial",
    "Verif.CommandLine.C159_among_counterexample",
    "Verif.CommandLine.C159_dash_counterexample"
   ],
   "note": "False of options among the paths and of values that begin with a dash in an argument of their own; all else is proved."
  },
  {
   "property": "C160",
   "status": "partial",
   "theorems": [
    "Verif.CompileExpls.C160_sources",
    "Verif.CompileExpls.C160_messages",
    "Verif.CompileExpls.C160_why",
    "Verif.CompileExpls.C160_examples",
    "Verif.CompileExpls.C160_friendly",
    "Verif.CompileExpls.C160_code",
    "Verif.CompileExpls.C160_placeholder",
    "Verif.CompileExpls.C160_link_partial",
    "Verif.CompileExpls.C160_block_partial",
    "Verif.CompileExpls.C160_link_counterexample",
    "Verif.CompileExpls.C160_fence_counterexample"
   ],
   "note": "False of pages that only ask to contribute, which are linked, and of code with lines that end its block; all else is proved."
  },
  {
   "property": "C161",
   "status": "partial",
   "theorems": [
    "Verif.Patch.C161_first_partial",
    "Verif.Patch.C161_trees_partial",
    "Verif.Patch.C161_outcome",
    "Verif.Patch.C161_times",
    "Verif.Patch.C161_exhausted",
    "Verif.Patch.C161_warnings_counterexample",
    "Verif.Patch.C161_limit_counterexample",
    "Verif.Patch.C161_unasked_counterexample"
   ],
   "note": "False: a file is analysed, and its warnings are logged, as often as there were runs in the process, and after some number of runs none can be done. Proved: the first run, and for all runs which trees and outcomes there are and how often."
  },
  {
   "property": "C162",
   "status": "partial",
   "theorems": [
    "Verif.Aunify.C162_partial",
    "Verif.Aunify.C162_plain",
    "Verif.Aunify.C162_agree",
    "Verif.Aunify.C162_complex_counterexample"
   ],
   "note": "False for pieces that have a complex number in common (AssertionError). Proved: there is no other exception, and none if some piece has no complex number, for trees whose nodes have their attributes and that are not nested too deep for Python's recursion."
  },
  {
   "property": "C163",
   "status": "partial",
   "theorems": [
    "Verif.Repr.C163_partial",
    "Verif.Repr.C163_shown",
    "Verif.Repr.C163_quote_counterexample",
    "Verif.Repr.C163_negative_counterexample",
    "Verif.Repr.C163_empty_counterexample"
   ],
   "note": "False for strings with quotation marks, empty strings and negative numbers. Proved for all other problems, and that attributes are shown."
  },
  {
   "property": "C164",
   "status": "partial",
   "theorems": [
    "Verif.Py.C164_true_partial",
    "Verif.Py.C164_false_partial",
    "Verif.Py.C164_no_exception_partial",
    "Verif.Py.C164_zero_counterexample",
    "Verif.Py.C164_negative_counterexample",
    "Verif.Py.C164_exception_counterexample"
   ],
   "note": "False for division by zero or by a negative constant, and an exception is raised for abs(x % 1). Proved for all other conditions over integers, if the solver is right."
  },
  {
   "property": "C165",
   "status": "partial",
   "theorems": [
    "Verif.Py.C165_partial",
    "Verif.Py.C165_all",
    "Verif.Py.C165_variable",
    "Verif.Py.C165_counterexample"
   ],
   "note": "False if range is a function of the program. Proved otherwise, and that all such loops are searched."
  },
  {
   "property": "C166",
   "status": "partial",
   "theorems": [
    "Verif.C166_reported",
    "Verif.C166_silent",
    "Verif.C166_partial",
    "Verif.C166_none_counterexample",
    "Verif.C166_running_counterexample"
   ],
   "note": "False without a connection (None is named) and if the window ends between the two calls. What is named was always reported; otherwise it is the version that differs from the running one."
  },
  {
   "property": "C167",
   "status": "partial",
   "theorems": [
    "Verif.C167_partial",
    "Verif.C167_bare",
    "Verif.C167_inside",
    "Verif.C167_boundaries",
    "Verif.C167_base_counterexample",
    "Verif.C167_attribute_counterexample",
    "Verif.C167_variable_counterexample",
    "Verif.C167_empty_counterexample"
   ],
   "note": "False for base classes, attributes, variables and empty tuples. Holds if classes are raised and handled by their names and no class in a clause is a proper base of the raised one."
  }
 ]
}
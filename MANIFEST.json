{
 "claims": [
  {
   "property": "C01",
   "status": "proved",
   "theorems": [
    "Verif.C01_solve_extends_binding"
   ],
   "note": "every module list, world and depth"
  },
  {
   "property": "C02",
   "status": "proved",
   "theorems": [
    "Verif.C02_solve_binds_variables"
   ],
   "note": "every module list, world and depth"
  },
  {
   "property": "C03",
   "status": "proved",
   "theorems": [
    "Verif.C03_conjunction_composes",
    "Verif.C03_empty_conjunction"
   ],
   "note": "for modules that leave the world alone"
  },
  {
   "property": "C04",
   "status": "partial",
   "theorems": [
    "Verif.C04_no_duplicates_partial",
    "Verif.C04_single_atom_duplicates"
   ],
   "note": "proved for two or more atoms; false for a single atom, with a witness"
  },
  {
   "property": "C05",
   "status": "proved",
   "theorems": [
    "Verif.C05_tables_exact"
   ],
   "note": "for tables, constants and bindings of proper values (not None, no Variable objects)"
  },
  {
   "property": "C06",
   "status": "proved",
   "theorems": [
    "Verif.C06_order_irrelevant",
    "Verif.C06_order_irrelevant_rules"
   ],
   "note": "also for rules, whenever both orders return"
  },
  {
   "property": "C07",
   "status": "proved",
   "theorems": [
    "Verif.C07_printed_form_determines_row",
    "Verif.C07_dedup_exact",
    "Verif.C07_text_printed"
   ],
   "note": "for rows whose variables have legal names"
  },
  {
   "property": "C08",
   "status": "proved",
   "theorems": [
    "Verif.C08_inference_sound",
    "Verif.C08_arity_not_checked"
   ],
   "note": "for predicates used with one number of arguments; C08_arity_not_checked shows the code answers wrongly without this"
  },
  {
   "property": "C09",
   "status": "proved",
   "theorems": [
    "Verif.C09_inference_complete",
    "Verif.C09_no_duplicates"
   ],
   "note": ""
  },
  {
   "property": "C10",
   "status": "proved",
   "theorems": [
    "Verif.C10_nonrecursive_terminates",
    "Verif.C10_no_exception",
    "Verif.C10_recursion_may_not_return"
   ],
   "note": ""
  },
  {
   "property": "C11",
   "status": "proved",
   "theorems": [
    "Verif.C11_rules_persist",
    "Verif.C11_insert_succeeds",
    "Verif.C11_learn_rule"
   ],
   "note": ""
  },
  {
   "property": "C12",
   "status": "proved",
   "theorems": [
    "Verif.C12_disjunction_first_success"
   ],
   "note": ""
  },
  {
   "property": "C13",
   "status": "proved",
   "theorems": [
    "Verif.C13_not",
    "Verif.C13_none",
    "Verif.C13_scoped",
    "Verif.C13_not_not"
   ],
   "note": ""
  },
  {
   "property": "C14",
   "status": "partial",
   "theorems": [
    "Verif.C14_count",
    "Verif.C14_count_constant",
    "Verif.C14_det_equals",
    "Verif.C14_det_greater_than",
    "Verif.C14_det_less_than",
    "Verif.C14_count_bound_not_checked"
   ],
   "note": "the three determiners and count into a fresh variable or constant are proved; a variable that is already bound is not compared, with a witness"
  },
  {
   "property": "C15",
   "status": "proved",
   "theorems": [
    "Verif.C15_sum",
    "Verif.C15_avg",
    "Verif.C15_percentage",
    "Verif.C15_no_answers",
    "Verif.C15_unbound",
    "Verif.C15_percentage_no_answers",
    "Verif.C15_arg_min",
    "Verif.C15_arg_max",
    "Verif.C15_reified"
   ],
   "note": ""
  },
  {
   "property": "C16",
   "status": "proved",
   "theorems": [
    "Verif.C16_find_all",
    "Verif.C16_find_all_list",
    "Verif.C16_find_one",
    "Verif.C16_no_name",
    "Verif.C16_unhashable"
   ],
   "note": ""
  },
  {
   "property": "C17",
   "status": "proved",
   "theorems": [
    "Verif.C17_all"
   ],
   "note": ""
  },
  {
   "property": "C18",
   "status": "proved",
   "theorems": [
    "Verif.C18_store",
    "Verif.C18_read_back",
    "Verif.C18_order"
   ],
   "note": "For stores of plain values (no None, no unbound variables) as many as the relation has columns, into memory modules on a SimpleDataSource."
  },
  {
   "property": "C19",
   "status": "proved",
   "theorems": [
    "Verif.C19_unknown_predicate_raises",
    "Verif.C19_unknown_predicate_write_raises",
    "Verif.C19_unknown_predicate_no_answer"
   ],
   "note": ""
  },
  {
   "property": "C20",
   "status": "proved",
   "theorems": [
    "Verif.C20_leaves",
    "Verif.C20_structure",
    "Verif.C20_variables",
    "Verif.C20_remaining_variables",
    "Verif.C20_unbound",
    "Verif.C20_idempotent"
   ],
   "note": ""
  },
  {
   "property": "C21",
   "status": "partial",
   "theorems": [
    "Verif.C21_destructure_match_partial",
    "Verif.C21_destructure_mismatch"
   ],
   "note": "the matching case is proved; in the other case the code succeeds with the pattern variables bound to None instead of failing"
  },
  {
   "property": "C22",
   "status": "proved",
   "theorems": [
    "Verif.C22_outcome_independent_of_depth",
    "Verif.C22_library_modules"
   ],
   "note": ""
  },
  {
   "property": "C23",
   "status": "proved",
   "theorems": [
    "Verif.C23_select_log",
    "Verif.C23_found_iff",
    "Verif.C23_none_raises"
   ],
   "note": "C23_none_raises is the limit: a stored None is dropped and a later select of that column raises."
  },
  {
   "property": "C24",
   "status": "proved",
   "theorems": [
    "Verif.C24_select_text",
    "Verif.C24_select_params",
    "Verif.C24_select_placeholders",
    "Verif.C24_insert",
    "Verif.C24_delete"
   ],
   "note": ""
  },
  {
   "property": "C25",
   "status": "partial",
   "theorems": [
    "Verif.C25_start",
    "Verif.C25_end",
    "Verif.C25_with_context",
    "Verif.C25_nested_partial",
    "Verif.C25_nested_same_name",
    "Verif.C25_outer_lost",
    "Verif.C25_raising_body",
    "Verif.C25_history"
   ],
   "note": "False in full: a context nested in itself, an outer context of the same name and a raising body are witnesses. Proved for all nestings of distinct contexts that end normally."
  },
  {
   "property": "C26",
   "status": "proved",
   "theorems": [
    "Verif.C26_cache_text_injective",
    "Verif.C26_repeat",
    "Verif.C26_no_cache",
    "Verif.C26_transparent",
    "Verif.C26_at_most_once"
   ],
   "note": "For an injective hash and table names without '['. The key contains neither the url nor the language, so it is about one source per cache directory."
  },
  {
   "property": "C27",
   "status": "proved",
   "theorems": [
    "Verif.C27_rows",
    "Verif.C27_query_variables",
    "Verif.C27_question",
    "Verif.C27_refused"
   ],
   "note": ""
  },
  {
   "property": "C28",
   "status": "proved",
   "theorems": [
    "Verif.C28_csv_import",
    "Verif.C28_cells"
   ],
   "note": ""
  },
  {
   "property": "C29",
   "status": "proved",
   "theorems": [
    "Verif.C29_derivation",
    "Verif.C29_root",
    "Verif.C29_leaves"
   ],
   "note": "Includes what is attached to leaves. For rules that use no reserved names (delta, gamma, terminal), and texts whose lower-case form has the same length."
  },
  {
   "property": "C30",
   "status": "proved",
   "theorems": [
    "Verif.C30_complete"
   ],
   "note": "Same conditions as C29; derivations are compared up to rules with the same syntax, as in the statement."
  },
  {
   "property": "C31",
   "status": "proved",
   "theorems": [
    "Verif.C31_terminates",
    "Verif.C31_no_exception",
    "Verif.C31_empty_rule",
    "Verif.C31_long_lower"
   ],
   "note": "The last two are witnesses that the conditions (no empty rules, lower() keeps the length) are needed."
  },
  {
   "property": "C32",
   "status": "proved",
   "theorems": [
    "Verif.C32_no_exception"
   ],
   "note": "For the whole parse."
  },
  {
   "property": "C33",
   "status": "proved",
   "theorems": [
    "Verif.C33_no_memory",
    "Verif.C33_no_memory_block"
   ],
   "note": ""
  },
  {
   "property": "C34",
   "status": "proved",
   "theorems": [
    "Verif.C34_error",
    "Verif.C34_names"
   ],
   "note": "\"Consumed\" is specified by leftmost derivations; needs consistent names, C34_names is a witness that this is needed."
  },
  {
   "property": "C35",
   "status": "proved",
   "theorems": [
    "Verif.C35_words",
    "Verif.C35_same_words",
    "Verif.C35_parsed",
    "Verif.C35_idempotent",
    "Verif.C35_no_adjacent",
    "Verif.C35_white_space"
   ],
   "note": ""
  },
  {
   "property": "C36",
   "status": "partial",
   "theorems": [
    "Verif.C36_no_optional",
    "Verif.C36_mandatory",
    "Verif.C36_variants_partial",
    "Verif.C36_separators_partial",
    "Verif.C36_leading_optionals",
    "Verif.C36_optional_separator",
    "Verif.C36_empty_variant"
   ],
   "note": "False in full: several leading optional constituents give leading and doubled separators, an optional separator next to an optional constituent is not independent (both witnessed). Proved exactly for rules with at most the first constituent optional before a mandatory one and any later ones."
  },
  {
   "property": "C37",
   "status": "proved",
   "theorems": [
    "Verif.C37_lookup",
    "Verif.C37_lookup_after"
   ],
   "note": ""
  },
  {
   "property": "C38",
   "status": "proved",
   "theorems": [
    "Verif.C38_permutation",
    "Verif.C38_order",
    "Verif.C38_stable"
   ],
   "note": ""
  },
  {
   "property": "C39",
   "status": "partial",
   "theorems": [
    "Verif.C39_false",
    "Verif.C39_partial",
    "Verif.C39_prefix_closed"
   ],
   "note": "False in full (C39_false). Proved: a leaf is a non-empty initial part of a match; and the claim itself for expressions that match all initial parts of their matches."
  },
  {
   "property": "C40",
   "status": "partial",
   "theorems": [
    "Verif.C40_round_trip_partial",
    "Verif.C40_injective",
    "Verif.C40_backslash"
   ],
   "note": "Missing: words and regular expressions that end in a backslash, or are empty, are not read back (C40_backslash)."
  },
  {
   "property": "C41",
   "status": "partial",
   "theorems": [
    "Verif.C41_round_trip_partial",
    "Verif.C41_zero",
    "Verif.C41_negative",
    "Verif.C41_end",
    "Verif.C41_single_alternative",
    "Verif.C41_comments",
    "Verif.C41_comment_at_end"
   ],
   "note": "Missing: zero, negative numbers, empty texts and texts that end in a backslash, predicates that start with a digit, disjunctions with one alternative; the code does not read these back."
  },
  {
   "property": "C42",
   "status": "proved",
   "theorems": [
    "Verif.C42_distinct",
    "Verif.C42_fresh"
   ],
   "note": ""
  },
  {
   "property": "C43",
   "status": "partial",
   "theorems": [
    "Verif.C43_identified_iff_linked",
    "Verif.C43_top_level_generated",
    "Verif.C43_all_generated_partial",
    "Verif.C43_child_unchanged",
    "Verif.C43_capture"
   ],
   "note": "Proved for the formal variables of all nodes and for the top level of the meaning. False for variables that an attachment uses only inside a nested list: they are not renamed and can be captured (C43_capture); for attachments without such variables all variables at all depths are generated."
  },
  {
   "property": "C44",
   "status": "proved",
   "theorems": [
    "Verif.C44_apply",
    "Verif.C44_fewer_values",
    "Verif.C44_more_values",
    "Verif.C44_values_with_slots"
   ],
   "note": "Slots nested in a template inside the template are not part of the model's notion of \"occurs\", as the code does not enter them."
  },
  {
   "property": "C45",
   "status": "proved",
   "theorems": [
    "Verif.C45_front",
    "Verif.C45_returns",
    "Verif.C45_idempotent"
   ],
   "note": "The lists the pass goes through: the composition, lists in it, and lists that are arguments of atoms other than name resolvers."
  },
  {
   "property": "C46",
   "status": "proved",
   "theorems": [
    "Verif.C46_greedy",
    "Verif.C46_permutation",
    "Verif.C46_terminates",
    "Verif.C46_raises",
    "Verif.C46_cost_unique"
   ],
   "note": "Costs are exact rationals, the code computes floats."
  },
  {
   "property": "C47",
   "status": "proved",
   "theorems": [
    "Verif.C47_isolate",
    "Verif.C47_isolate_rules",
    "Verif.C47_first_atom_must_bind"
   ],
   "note": "Over fact tables both forms return; over rules (recursive ones included) the answers agree whenever both return. Constants in the query have no variables inside, and no module other than the core module defines `scoped`. The last theorem is a witness that the first atom must bind its variables."
  },
  {
   "property": "C48",
   "status": "proved",
   "theorems": [
    "Verif.C48_optimize",
    "Verif.C48_optimize_rules",
    "Verif.C48_optimize_ranked"
   ],
   "note": "Over fact tables and over rules whose calls go down (C92; without recursion they do) both forms return; over other rules the answers agree whenever both return. Constants are no lists and have no variables inside; relations tell either no size or a non-zero size for every argument (otherwise the code raises, see C46)."
  },
  {
   "property": "C49",
   "status": "proved",
   "theorems": [
    "Verif.C49_find_one",
    "Verif.C49_success_iff",
    "Verif.C49_processor_error",
    "Verif.C49_current",
    "Verif.C49_last_error"
   ],
   "note": "C49_last_error: the reported error is that of the last product tried (the docstring says the first); a processor with zero products and no error succeeds."
  },
  {
   "property": "C50",
   "status": "proved",
   "theorems": [
    "Verif.C50_find_all"
   ],
   "note": ""
  },
  {
   "property": "C51",
   "status": "proved",
   "theorems": [
    "Verif.C51_try_first",
    "Verif.C51_no_products"
   ],
   "note": ""
  },
  {
   "property": "C52",
   "status": "proved",
   "theorems": [
    "Verif.C52_first_language",
    "Verif.C52_missing_parser",
    "Verif.C52_none_accepts"
   ],
   "note": "For parsers that only read the text of the request and a single follow-up block."
  },
  {
   "property": "C53",
   "status": "partial",
   "theorems": [
    "Verif.C53_error_stored_partial",
    "Verif.C53_unregistered_raises",
    "Verif.C53_not_understood"
   ],
   "note": "False in full: not_understood and no_sentence store relations that no module of the repository registers, so the error report itself raises."
  },
  {
   "property": "C54",
   "status": "proved",
   "theorems": [
    "Verif.C54_order",
    "Verif.C54_exception",
    "Verif.C54_last_iteration"
   ],
   "note": ""
  },
  {
   "property": "C55",
   "status": "partial",
   "theorems": [
    "Verif.C55_first_unused_partial",
    "Verif.C55_chosen",
    "Verif.C55_all_used",
    "Verif.C55_no_rule",
    "Verif.C55_used_kept",
    "Verif.C55_start_binding",
    "Verif.C55_used_rule_taken"
   ],
   "note": "Proved when the failing rules come before the used ones that apply. False as stated: a rule that applies but has been used, followed by one that does not apply, is taken again, with the binding of the latter (C55_used_rule_taken). C55_chosen says which rule is taken in all cases."
  },
  {
   "property": "C56",
   "status": "proved",
   "theorems": [
    "Verif.C56_output",
    "Verif.C56_concatenation",
    "Verif.C56_nothing_left"
   ],
   "note": "When generation raises the buffer keeps its content (C56_kept_on_exception)."
  },
  {
   "property": "C57",
   "status": "proved",
   "theorems": [
    "Verif.C57_ordered_set",
    "Verif.C57_index",
    "Verif.C57_new"
   ],
   "note": ""
  },
  {
   "property": "C58",
   "status": "proved",
   "theorems": [
    "Verif.C58_items",
    "Verif.C58_len",
    "Verif.C58_second_loop"
   ],
   "note": "C58_second_loop is the limit: a second loop over the same iterator yields nothing."
  },
  {
   "property": "C59",
   "status": "partial",
   "theorems": [
    "Verif.C59_never_learns",
    "Verif.C59_add_rule_partial"
   ],
   "note": "False as stated: learn_grammar_rule calls parse_simple_rule with an argument missing and always raises a TypeError (C59_never_learns). C59_add_rule_partial is what holds of the two calls it consists of."
  },
  {
   "property": "C60",
   "status": "proved",
   "theorems": [
    "Verif.C60_equals_bound",
    "Verif.C60_equals_binds_left",
    "Verif.C60_equals_binds_right",
    "Verif.C60_equals_unbound",
    "Verif.C60_compare_numbers",
    "Verif.C60_compare_unbound",
    "Verif.C60_let",
    "Verif.C60_multiply",
    "Verif.C60_missing_argument"
   ],
   "note": ""
  },
  {
   "property": "C61",
   "status": "proved",
   "theorems": [
    "Verif.C61_returns",
    "Verif.C61_cycle_never_returns"
   ],
   "note": ""
  },
  {
   "property": "C62",
   "status": "partial",
   "theorems": [
    "Verif.C62_question_determines_values_partial",
    "Verif.C62_injection",
    "Verif.C62_number_or_text"
   ],
   "note": "False as stated: quotes in texts are not escaped (C62_injection), and in constant columns numbers and texts are written alike (C62_number_or_text). The partial theorem covers open positions, texts without the character that ends them, and numbers in other columns."
  },
  {
   "property": "C63",
   "status": "partial",
   "theorems": [
    "Verif.C63_exact_partial",
    "Verif.C63_same_syntax_lost"
   ],
   "note": "False as stated: of two rules with the same syntax only the first is used (C63_same_syntax_lost). The partial theorem covers grammars in which no two rules have the same syntax."
  },
  {
   "property": "C64",
   "status": "proved",
   "theorems": [
    "Verif.C64_distinct",
    "Verif.C64_distinct_ranked"
   ],
   "note": ""
  },
  {
   "property": "C65",
   "status": "proved",
   "theorems": [
    "Verif.C65_more_knowledge"
   ],
   "note": "For runs that return; the variables of rule heads occur in the bodies of the larger rule base."
  },
  {
   "property": "C66",
   "status": "proved",
   "theorems": [
    "Verif.C66_order_of_knowledge"
   ],
   "note": "For runs that return; the variables of rule heads occur in the bodies."
  },
  {
   "property": "C67",
   "status": "proved",
   "theorems": [
    "Verif.C67_bound_variables"
   ],
   "note": "For runs that return; the variables of rule heads occur in the bodies."
  },
  {
   "property": "C68",
   "status": "proved",
   "theorems": [
    "Verif.C68_query_renamed",
    "Verif.C68_rules_renamed"
   ],
   "note": "For runs that return; the variables of rule heads occur in the bodies."
  },
  {
   "property": "C69",
   "status": "proved",
   "theorems": [
    "Verif.C69_composed_iff_means",
    "Verif.C69_answers"
   ],
   "note": "For rules that conjoin their parts, over facts and rules; rules with quantifiers, negation or nested queries are not covered."
  },
  {
   "property": "C70",
   "status": "proved",
   "theorems": [
    "Verif.C70_text_to_answers"
   ],
   "note": "For grammars whose rules conjoin their parts and have no `exec` or `dialog`; runs that return without an exception."
  },
  {
   "property": "C71",
   "status": "proved",
   "theorems": [
    "Verif.C71_first_order",
    "Verif.C71_returns"
   ],
   "note": "For runs that return without an exception; the other modules do not redefine the core relations used; alternatives bind the same variables, quantified variables are new."
  },
  {
   "property": "C72",
   "status": "partial",
   "theorems": [
    "Verif.C72_message",
    "Verif.C72_unknown_word_partial",
    "Verif.C72_not_understood_raises"
   ],
   "note": "False when all of the text can be read but it is no sentence (or is empty): the turn raises, because output_not_understood and output_no_sentence are not relations of the buffer. The message follows only if the output is read after the exception."
  },
  {
   "property": "C73",
   "status": "proved",
   "theorems": [
    "Verif.C73_buffer_empty",
    "Verif.C73_passes",
    "Verif.C73_fails",
    "Verif.C73_unreadable_dialog",
    "Verif.C73_stale_buffer"
   ],
   "note": "After a turn that raised the buffer is not empty: `C73_stale_buffer` shows that the next message is then about the earlier text."
  },
  {
   "property": "C74",
   "status": "partial",
   "theorems": [
    "Verif.C74_collected",
    "Verif.C74_names_partial",
    "Verif.C74_capture"
   ],
   "note": "Which atoms and in which order is proved in full. That variables are named as in the meaning of the node is false for a variable that occurs neither in the rule's constituents nor as an argument in its meaning: `C74_capture`."
  },
  {
   "property": "C75",
   "status": "proved",
   "theorems": [
    "Verif.C75_reported",
    "Verif.C75_blame"
   ],
   "note": "Attached functions are pure functions of the meanings of the children."
  },
  {
   "property": "C76",
   "status": "proved",
   "theorems": [
    "Verif.C76_composed_iff_true",
    "Verif.C76_answers",
    "Verif.C76_yes_no",
    "Verif.C76_counts_pairs"
   ],
   "note": "Parts must fit together (`fitsRule`): among others, the body of a numeral may leave no other variable with several values. `C76_counts_pairs` shows that this is needed: in the grammar of the repository's own test a numeral around `every` counts pairs."
  },
  {
   "property": "C77",
   "status": "proved",
   "theorems": [
    "Verif.C77_text_to_answers"
   ],
   "note": "Without the query optimiser. The rules may not attach exec or dialog atoms. Example: the sentence of tests/unit/Quantifier_test.py."
  },
  {
   "property": "C78",
   "status": "proved",
   "theorems": [
    "Verif.C78_rules",
    "Verif.C78_returns",
    "Verif.C78_stratified",
    "Verif.C78_agree",
    "Verif.C78_horn",
    "Verif.C78_alternatives_depend_on_call",
    "Verif.C78_negation_depends_on_call"
   ],
   "note": "How a predicate may be asked (which arguments are known) is a parameter; rules have to be proper for each way. `C78_alternatives_depend_on_call` and `C78_negation_depends_on_call` show why. Alternatives have to bind the same variables."
  },
  {
   "property": "C79",
   "status": "proved",
   "theorems": [
    "Verif.C79_enter",
    "Verif.C79_silent",
    "Verif.C79_run"
   ],
   "note": "The statistics of the solver are not modelled. Logging a `ResultIterator` uses it up in the code (its items are not modelled)."
  },
  {
   "property": "C80",
   "status": "proved",
   "theorems": [
    "Verif.C80_transcript",
    "Verif.C80_none",
    "Verif.C80_last",
    "Verif.C80_repeated",
    "Verif.C80_wrong",
    "Verif.C80_result",
    "Verif.C80_locale",
    "Verif.C80_iterations",
    "Verif.C80_answers",
    "Verif.C80_settings",
    "Verif.C80_text",
    "Verif.C80_fresh",
    "Verif.C80_shown",
    "Verif.C80_separator",
    "Verif.C80_narrow"
   ],
   "note": "Findings: with \"only the last test\" earlier tests that are equal to it are logged too (`C80_repeated`); a locale is logged letter by letter (`C80_locale`); a separator is longer than the line in a very narrow terminal (`C80_narrow`)."
  },
  {
   "property": "C81",
   "status": "proved",
   "theorems": [
    "Verif.C81_lines",
    "Verif.C81_determines",
    "Verif.C81_logged"
   ],
   "note": "`inline_str` is not modelled."
  },
  {
   "property": "C82",
   "status": "partial",
   "theorems": [
    "Verif.C82_determines_partial",
    "Verif.C82_list_of_numbers",
    "Verif.C82_apostrophe"
   ],
   "note": "False in general: elements of lists are printed without separator and apostrophes are not escaped. Proved for texts without apostrophes, legal variable names and lists of tuples, lists and texts."
  },
  {
   "property": "C83",
   "status": "proved",
   "theorems": [
    "Verif.C83_inference_rule",
    "Verif.C83_grammar_rule",
    "Verif.C83_reread",
    "Verif.C83_not_read_back",
    "Verif.C83_text_atom"
   ],
   "note": "Words and regular expressions that need no escapes. Finding: a printed grammar rule with more than one consequent is not read back as the same rule (`C83_not_read_back`)."
  },
  {
   "property": "C84",
   "status": "proved",
   "theorems": [
    "Verif.C84_optimize_meaning",
    "Verif.C84_optimize_answers",
    "Verif.C84_optimize_returns",
    "Verif.C84_alternatives_first",
    "Verif.C84_negation_first"
   ],
   "note": "The condition on the order is `Ordered`, at every depth `FormsTidy` (in Verif/QueryOrder.lean). Arguments are variables, numbers and texts; no names are resolved (moving those to the front is C45). Answers are compared for runs that return, as over recursive rules they need not. Findings: `C84_alternatives_first` (alternatives cost nothing, are moved to the front and lose answers), `C84_negation_first`."
  },
  {
   "property": "C85",
   "status": "proved",
   "theorems": [
    "Verif.Sql.C85_select",
    "Verif.Sql.C85_insert",
    "Verif.Sql.C85_delete",
    "Verif.Sql.C85_delete_none",
    "Verif.Sql.C85_no_columns",
    "Verif.Sql.C85_unknown_table",
    "Verif.Sql.C85_insert_raises",
    "Verif.Sql.C85_like_memory",
    "Verif.Sql.C85_memory_effects",
    "Verif.Sql.C85_missing_value"
   ],
   "note": "The engine is a small specification of SQL (Verif/Sql.lean): tokens, grammar and effect of the statements that are sent. Values are stored unchanged (no conversion to the type of a column). Findings: a delete with a value None removes nothing (`C85_delete_none`), and after an insert with None the two kinds of data source differ (`C85_missing_value`)."
  },
  {
   "property": "C86",
   "status": "proved",
   "theorems": [
    "Verif.C86_answered",
    "Verif.C86_quantified",
    "Verif.C86_not_understood"
   ],
   "note": "\"Returns\" is: there is a number such that with this number of steps, or more, the model does not run out of steps. C86_answered is with and without the optimiser; C86_quantified is without it. The answers are those of C70 and C77."
  },
  {
   "property": "C87",
   "status": "proved",
   "theorems": [
    "Verif.C87_no_exception",
    "Verif.C87_answers",
    "Verif.C87_text",
    "Verif.C87_predicates",
    "Verif.C87_order_raises",
    "Verif.C87_all_raises",
    "Verif.C87_all_raises_inside"
   ],
   "note": "The conditions are `FormsCalm` (on the query), `NoListsIn` (on tables and rules) and those of C71. C87_text is C86_quantified without the alternative that the solver raises."
  },
  {
   "property": "C88",
   "status": "proved",
   "theorems": [
    "Verif.C88_answers",
    "Verif.C88_text_to_answers",
    "Verif.C88_returns"
   ],
   "note": "The query is required to be `Orderly`: its order does not matter (C84; C84_negation_first and C84_alternatives_first show that this is needed) and it binds the root variables it has. `orderlyText_of` reduces this to one run of the parser."
  },
  {
   "property": "C89",
   "status": "proved",
   "theorems": [
    "Verif.C89_aggregate_raises",
    "Verif.C89_sum_nothing",
    "Verif.C89_all",
    "Verif.C89_find_all_empty",
    "Verif.C89_find_one_nothing",
    "Verif.C89_find_raises",
    "Verif.C89_find_all_combination",
    "Verif.C89_no_name",
    "Verif.C89_rule_value",
    "Verif.C89_rule_given"
   ],
   "note": "Counting itself is C14 and C15. In C89_rule_value the value asked for is the first argument of the head."
  },
  {
   "property": "C90",
   "status": "proved",
   "theorems": [
    "Verif.Sql.C90_stored",
    "Verif.Sql.C90_read_back",
    "Verif.Sql.C90_list_raises",
    "Verif.Sql.C90_same_module"
   ],
   "note": "The counterpart of C18 for modules on a database. The engine compares values exactly and stores them unchanged: that SQLite turns a number into a text in a TEXT column is not modelled."
  },
  {
   "property": "C91",
   "status": "proved",
   "theorems": [
    "Verif.C91_answers",
    "Verif.C91_text",
    "Verif.Sql.C91_database"
   ],
   "note": "Without failures this is C71, C77 and C88. The engine compares values exactly, as in C90. The modules do not catch exceptions of the solver themselves (`Forwards`)."
  },
  {
   "property": "C92",
   "status": "proved",
   "theorems": [
    "Verif.C92_returns_iff",
    "Verif.C92_recursive_returns",
    "Verif.C92_transitive_iff",
    "Verif.C92_transitive_answers",
    "Verif.C92_transitive_descends",
    "Verif.C92_left_recursion"
   ],
   "note": "Extends C10. `Descends` is the condition of the other theorems about returning (C48, C71, C86, C87, C88)."
  },
  {
   "property": "C93",
   "status": "proved",
   "theorems": [
    "Verif.C93_list",
    "Verif.C93_value",
    "Verif.C93_yes_no",
    "Verif.C93_determined",
    "Verif.C93_returns",
    "Verif.C93_list_forms",
    "Verif.C93_yes_no_forms"
   ],
   "note": "Puts C71 and C78 together with C16, C18, C55 and C56. The intents are rules in an inference module of their own, as in `tests/integration/chat80/intents.pl:3-16`; the variables of the query are not those of the intents, which holds for what the composer makes."
  },
  {
   "property": "C94",
   "status": "proved",
   "theorems": [
    "Verif.C94_reply",
    "Verif.C94_dialog",
    "Verif.C94_returns"
   ],
   "note": "Puts C29, C30, C38, C76 and C93 together. The root rules are as in `tests/integration/chat80/read_grammar.py:12-39`: an intent around the content; roots do not occur inside sentences, and the variables of the content are arguments of constituents of the root rule. Without the optimiser."
  },
  {
   "property": "C95",
   "status": "proved",
   "theorems": [
    "Verif.C95_reply",
    "Verif.C95_dialog",
    "Verif.C95_returns"
   ],
   "note": "C94 with C84. The condition on the order (`Sortable`) is that of C84; it is about the query that the composer makes of the first tree, and it is computed in the example. That it is needed is C84_negation_first and C84_alternatives_first."
  },
  {
   "property": "C96",
   "status": "proved",
   "theorems": [
    "Verif.C96_turn",
    "Verif.C96_dialog",
    "Verif.C96_refused",
    "Verif.C96_refused_returns"
   ],
   "note": "Puts C34, C72, C94 and C95 together. That a text that can be read, but is no sentence, raises is part of C96_refused_returns (see also C72_not_understood_raises); in a dialog test it can not pass."
  },
  {
   "property": "C97",
   "status": "proved",
   "theorems": [
    "Verif.C97_turn",
    "Verif.C97_dialog",
    "Verif.C97_left_out"
   ],
   "note": "Extends C33 from the parser to the whole turn. The pipeline is that of parser, composer and executor, as in the tests."
  },
  {
   "property": "C98",
   "status": "proved",
   "theorems": [
    "Verif.C98_same_outcome",
    "Verif.C98_same_writes",
    "Verif.C98_library",
    "Verif.C98_executor",
    "Verif.C98_anew",
    "Verif.C98_off"
   ],
   "note": "The statistics are a part of the world that only the solver uses."
  },
  {
   "property": "C99",
   "status": "proved",
   "theorems": [
    "Verif.C99_counts",
    "Verif.C99_tables",
    "Verif.C99_not",
    "Verif.C99_disjunction",
    "Verif.C99_list_atom",
    "Verif.C99_logged"
   ],
   "note": "The numbers are for queries over tables. That calls inside calls are counted too is stated for negation and for alternatives, over any modules."
  },
  {
   "property": "C100",
   "status": "proved",
   "theorems": [
    "Verif.C100_turn",
    "Verif.C100_first",
    "Verif.C100_reply",
    "Verif.C100_dialog"
   ],
   "note": "The pipeline is language selector, multilingual parser, composer and executor. The languages share the composer, the executor and the write grammar."
  },
  {
   "property": "C101",
   "status": "proved",
   "theorems": [
    "Verif.C101_returns",
    "Verif.C101_conditions",
    "Verif.C101_output",
    "Verif.C101_forever",
    "Verif.C101_sticky"
   ],
   "note": "Returning is: a bound on the depth of calls that depends on the grammar only. Exceptions are allowed. The two limits show that the condition on the order of the rules is needed."
  },
  {
   "property": "C102",
   "status": "proved",
   "theorems": [
    "Verif.C102_text",
    "Verif.C102_determines",
    "Verif.C102_quotes",
    "Verif.C102_gap"
   ],
   "note": "Words that are a single space are not visible. The limits show where the line does not tell."
  },
  {
   "property": "C103",
   "status": "proved",
   "theorems": [
    "Verif.C103_first",
    "Verif.C103_counted",
    "Verif.C103_exception",
    "Verif.C103_tables",
    "Verif.C103_not_truthy"
   ],
   "note": "The last one is a limit: callers have to compare with None."
  },
  {
   "property": "C104",
   "status": "proved",
   "theorems": [
    "Verif.C104_answers",
    "Verif.C104_no_exception",
    "Verif.C104_returns",
    "Verif.C104_kept",
    "Verif.C104_fact",
    "Verif.Ex.C104_learns_no_more"
   ],
   "note": "The last one is a limit: a rule for learn_rule itself switches learning off."
  },
  {
   "property": "C105",
   "status": "proved",
   "theorems": [
    "Verif.C105_session",
    "Verif.C105_no_exception",
    "Verif.C105_sentence",
    "Verif.Ex.C105_capture"
   ],
   "note": "The last one is a limit: variables named Head or Body in the taught rule are replaced."
  },
  {
   "property": "C106",
   "status": "proved",
   "theorems": [
    "Verif.C106_steady",
    "Verif.C106_programs",
    "Verif.C106_sessions",
    "Verif.Ex.C106_added"
   ],
   "note": "The last one shows the difference."
  },
  {
   "property": "C107",
   "status": "proved",
   "theorems": [
    "Verif.C107_session",
    "Verif.C107_no_exception",
    "Verif.C107_sentence",
    "Verif.Ex.C107_lost",
    "Verif.Ex.C107_unknown"
   ],
   "note": "The last two are limits: a fact whose predicate has only rules is lost, and one without any relation raises an exception."
  },
  {
   "property": "C108",
   "status": "proved",
   "theorems": [
    "Verif.C108_session",
    "Verif.C108_no_exception"
   ],
   "note": "The limits of C105 and C107 apply."
  },
  {
   "property": "C109",
   "status": "proved",
   "theorems": [
    "Verif.C109_refused",
    "Verif.C109_accepted",
    "Verif.Ex.C109_order",
    "Verif.Ex.C109_first_only",
    "Verif.Ex.C109_other_relation"
   ],
   "note": "The check may be any relation or rules, as long as it returns, leaves the world alone and does not depend on the output buffer. The other order of the rules, claims of two facts and claims about another relation have witnesses."
  },
  {
   "property": "C110",
   "status": "proved",
   "theorems": [
    "Verif.C110_session",
    "Verif.C110_consistent",
    "Verif.Ex.placer_run"
   ],
   "note": "The relation is in the memory module only, without rules and tables, and what is claimed is about names (texts). A name may be claimed to stand in the relation to itself, and a circle of three claims is accepted (Ex.placer_run), because the check looks at stored facts only."
  },
  {
   "property": "C111",
   "status": "proved",
   "theorems": [
    "Verif.C111_cases",
    "Verif.C111_no_case",
    "Verif.C111_intent",
    "Verif.C111_session",
    "Verif.Ex.C111_twice"
   ],
   "note": "C111_cases and C111_no_case are about the body of the intent rule, C111_intent about the sentence, C111_session about sessions in which some case applies to each question."
  }
 ]
}
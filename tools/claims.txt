C01 | proved | C01_solve_extends_binding | every module list, world and depth
C02 | proved | C02_solve_binds_variables | every module list, world and depth
C03 | proved | C03_conjunction_composes C03_empty_conjunction | for modules that leave the world alone
C04 | partial | C04_no_duplicates_partial C04_single_atom_duplicates | proved for two or more atoms; false for a single atom, with a witness
C07 | proved | C07_printed_form_determines_row C07_dedup_exact C07_text_printed | for rows whose variables have legal names
C12 | proved | C12_disjunction_first_success |
C19 | proved | C19_unknown_predicate_raises C19_unknown_predicate_write_raises C19_unknown_predicate_no_answer |
C22 | proved | C22_outcome_independent_of_depth C22_library_modules |
C13 | proved | C13_not C13_none C13_scoped C13_not_not |
C14 | partial | C14_count C14_count_constant C14_det_equals C14_det_greater_than C14_det_less_than C14_count_bound_not_checked | the three determiners and count into a fresh variable or constant are proved; a variable that is already bound is not compared, with a witness
C15 | proved | C15_sum C15_avg C15_percentage C15_no_answers C15_unbound C15_percentage_no_answers C15_arg_min C15_arg_max C15_reified |
C16 | proved | C16_find_all C16_find_all_list C16_find_one C16_no_name C16_unhashable |
C17 | proved | C17_all |
C20 | proved | C20_leaves C20_structure C20_variables C20_remaining_variables C20_unbound C20_idempotent |
C21 | partial | C21_destructure_match_partial C21_destructure_mismatch | the matching case is proved; in the other case the code succeeds with the pattern variables bound to None instead of failing
C60 | proved | C60_equals_bound C60_equals_binds_left C60_equals_binds_right C60_equals_unbound C60_compare_numbers C60_compare_unbound C60_let C60_multiply C60_missing_argument |
C05 | proved | C05_tables_exact | for tables, constants and bindings of proper values (not None, no Variable objects)
C06 | proved | C06_order_irrelevant C06_order_irrelevant_rules | also for rules, whenever both orders return
C08 | proved | C08_inference_sound C08_arity_not_checked | for predicates used with one number of arguments; C08_arity_not_checked shows the code answers wrongly without this
C09 | proved | C09_inference_complete C09_no_duplicates |
C10 | proved | C10_nonrecursive_terminates C10_no_exception C10_recursion_may_not_return |
C11 | proved | C11_rules_persist C11_insert_succeeds C11_learn_rule |
C18 | proved | C18_store C18_read_back C18_order | For stores of plain values (no None, no unbound variables) as many as the relation has columns, into memory modules on a SimpleDataSource.
C23 | proved | C23_select_log C23_found_iff C23_none_raises | C23_none_raises is the limit: a stored None is dropped and a later select of that column raises.
C24 | proved | C24_select_text C24_select_params C24_select_placeholders C24_insert C24_delete |
C25 | partial | C25_start C25_end C25_with_context C25_nested_partial C25_nested_same_name C25_outer_lost C25_raising_body C25_history | False in full: a context nested in itself, an outer context of the same name and a raising body are witnesses. Proved for all nestings of distinct contexts that end normally.
C26 | proved | C26_cache_text_injective C26_repeat C26_no_cache C26_transparent C26_at_most_once | For an injective hash and table names without '['. The key contains neither the url nor the language, so it is about one source per cache directory.
C27 | proved | C27_rows C27_query_variables C27_question C27_refused |
C28 | proved | C28_csv_import C28_cells |
C49 | proved | C49_find_one C49_success_iff C49_processor_error C49_current C49_last_error | C49_last_error: the reported error is that of the last product tried (the docstring says the first); a processor with zero products and no error succeeds.
C50 | proved | C50_find_all |
C51 | proved | C51_try_first C51_no_products |
C52 | proved | C52_first_language C52_missing_parser C52_none_accepts | For parsers that only read the text of the request and a single follow-up block.
C53 | partial | C53_error_stored_partial C53_unregistered_raises C53_not_understood | False in full: not_understood and no_sentence store relations that no module of the repository registers, so the error report itself raises.
C54 | proved | C54_order C54_exception C54_last_iteration |
C35 | proved | C35_words C35_same_words C35_parsed C35_idempotent C35_no_adjacent C35_white_space |
C57 | proved | C57_ordered_set C57_index C57_new |
C58 | proved | C58_items C58_len C58_second_loop | C58_second_loop is the limit: a second loop over the same iterator yields nothing.
C36 | partial | C36_no_optional C36_mandatory C36_variants_partial C36_separators_partial C36_leading_optionals C36_optional_separator C36_empty_variant | False in full: several leading optional constituents give leading and doubled separators, an optional separator next to an optional constituent is not independent (both witnessed). Proved exactly for rules with at most the first constituent optional before a mandatory one and any later ones.
C37 | proved | C37_lookup C37_lookup_after |
C38 | proved | C38_permutation C38_order C38_stable |
C29 | proved | C29_derivation C29_root C29_leaves | Includes what is attached to leaves. For rules that use no reserved names (delta, gamma, terminal), and texts whose lower-case form has the same length.
C30 | proved | C30_complete | Same conditions as C29; derivations are compared up to rules with the same syntax, as in the statement.
C31 | proved | C31_terminates C31_no_exception C31_empty_rule C31_long_lower | The last two are witnesses that the conditions (no empty rules, lower() keeps the length) are needed.
C32 | proved | C32_no_exception | For the whole parse.
C33 | proved | C33_no_memory C33_no_memory_block |
C34 | proved | C34_error C34_names | "Consumed" is specified by leftmost derivations; needs consistent names, C34_names is a witness that this is needed.
C39 | partial | C39_false C39_partial C39_prefix_closed | False in full (C39_false). Proved: a leaf is a non-empty initial part of a match; and the claim itself for expressions that match all initial parts of their matches.
C61 | proved | C61_returns C61_cycle_never_returns |
C42 | proved | C42_distinct C42_fresh |
C43 | partial | C43_identified_iff_linked C43_top_level_generated C43_all_generated_partial C43_child_unchanged C43_capture | Proved for the formal variables of all nodes and for the top level of the meaning. False for variables that an attachment uses only inside a nested list: they are not renamed and can be captured (C43_capture); for attachments without such variables all variables at all depths are generated.
C44 | proved | C44_apply C44_fewer_values C44_more_values C44_values_with_slots | Slots nested in a template inside the template are not part of the model's notion of "occurs", as the code does not enter them.
C45 | proved | C45_front C45_returns C45_idempotent | The lists the pass goes through: the composition, lists in it, and lists that are arguments of atoms other than name resolvers.
C46 | proved | C46_greedy C46_permutation C46_terminates C46_raises C46_cost_unique | Costs are exact rationals, the code computes floats.
C47 | proved | C47_isolate C47_isolate_rules C47_first_atom_must_bind | Over fact tables both forms return; over rules (recursive ones included) the answers agree whenever both return. Constants in the query have no variables inside, and no module other than the core module defines `scoped`. The last theorem is a witness that the first atom must bind its variables.
C48 | proved | C48_optimize C48_optimize_rules C48_optimize_ranked | Over fact tables and over rules whose calls go down (C92; without recursion they do) both forms return; over other rules the answers agree whenever both return. Constants are no lists and have no variables inside; relations tell either no size or a non-zero size for every argument (otherwise the code raises, see C46).
C55 | partial | C55_first_unused_partial C55_chosen C55_all_used C55_no_rule C55_used_kept C55_start_binding C55_used_rule_taken | Proved when the failing rules come before the used ones that apply. False as stated: a rule that applies but has been used, followed by one that does not apply, is taken again, with the binding of the latter (C55_used_rule_taken). C55_chosen says which rule is taken in all cases.
C56 | proved | C56_output C56_concatenation C56_nothing_left | When generation raises the buffer keeps its content (C56_kept_on_exception).
C40 | partial | C40_round_trip_partial C40_injective C40_backslash | Missing: words and regular expressions that end in a backslash, or are empty, are not read back (C40_backslash).
C41 | partial | C41_round_trip_partial C41_zero C41_negative C41_end C41_single_alternative C41_comments C41_comment_at_end | Missing: zero, negative numbers, empty texts and texts that end in a backslash, predicates that start with a digit, disjunctions with one alternative; the code does not read these back.
C59 | partial | C59_never_learns C59_add_rule_partial | False as stated: learn_grammar_rule calls parse_simple_rule with an argument missing and always raises a TypeError (C59_never_learns). C59_add_rule_partial is what holds of the two calls it consists of.
C62 | partial | C62_question_determines_values_partial C62_injection C62_number_or_text | False as stated: quotes in texts are not escaped (C62_injection), and in constant columns numbers and texts are written alike (C62_number_or_text). The partial theorem covers open positions, texts without the character that ends them, and numbers in other columns.
C63 | partial | C63_exact_partial C63_same_syntax_lost | False as stated: of two rules with the same syntax only the first is used (C63_same_syntax_lost). The partial theorem covers grammars in which no two rules have the same syntax.
C64 | proved | C64_distinct C64_distinct_ranked |
C65 | proved | C65_more_knowledge | For runs that return; the variables of rule heads occur in the bodies of the larger rule base.
C66 | proved | C66_order_of_knowledge | For runs that return; the variables of rule heads occur in the bodies.
C67 | proved | C67_bound_variables | For runs that return; the variables of rule heads occur in the bodies.
C68 | proved | C68_query_renamed C68_rules_renamed | For runs that return; the variables of rule heads occur in the bodies.
C69 | proved | C69_composed_iff_means C69_answers | For rules that conjoin their parts, over facts and rules; rules with quantifiers, negation or nested queries are not covered.
C70 | proved | C70_text_to_answers | For grammars whose rules conjoin their parts and have no `exec` or `dialog`; runs that return without an exception.
C71 | proved | C71_first_order C71_returns | For runs that return without an exception; the other modules do not redefine the core relations used; alternatives bind the same variables, quantified variables are new.
C72 | partial | C72_message C72_unknown_word_partial C72_not_understood_raises | False when all of the text can be read but it is no sentence (or is empty): the turn raises, because output_not_understood and output_no_sentence are not relations of the buffer. The message follows only if the output is read after the exception.
C73 | proved | C73_buffer_empty C73_passes C73_fails C73_unreadable_dialog C73_stale_buffer | After a turn that raised the buffer is not empty: `C73_stale_buffer` shows that the next message is then about the earlier text.
C74 | partial | C74_collected C74_names_partial C74_capture | Which atoms and in which order is proved in full. That variables are named as in the meaning of the node is false for a variable that occurs neither in the rule's constituents nor as an argument in its meaning: `C74_capture`.
C75 | proved | C75_reported C75_blame | Attached functions are pure functions of the meanings of the children.
C76 | proved | C76_composed_iff_true C76_answers C76_yes_no C76_counts_pairs | Parts must fit together (`fitsRule`): among others, the body of a numeral may leave no other variable with several values. `C76_counts_pairs` shows that this is needed: in the grammar of the repository's own test a numeral around `every` counts pairs.
C77 | proved | C77_text_to_answers | Without the query optimiser. The rules may not attach exec or dialog atoms. Example: the sentence of tests/unit/Quantifier_test.py.
C78 | proved | C78_rules C78_returns C78_stratified C78_agree C78_horn C78_alternatives_depend_on_call C78_negation_depends_on_call | How a predicate may be asked (which arguments are known) is a parameter; rules have to be proper for each way. `C78_alternatives_depend_on_call` and `C78_negation_depends_on_call` show why. Alternatives have to bind the same variables.
C79 | proved | C79_enter C79_silent C79_run | The statistics of the solver are not modelled. Logging a `ResultIterator` uses it up in the code (its items are not modelled).
C80 | proved | C80_transcript C80_none C80_last C80_repeated C80_wrong C80_result C80_locale C80_iterations C80_answers C80_settings C80_text C80_fresh C80_shown C80_separator C80_narrow | Findings: with "only the last test" earlier tests that are equal to it are logged too (`C80_repeated`); a locale is logged letter by letter (`C80_locale`); a separator is longer than the line in a very narrow terminal (`C80_narrow`).
C81 | proved | C81_lines C81_determines C81_logged | `inline_str` is not modelled.
C82 | partial | C82_determines_partial C82_list_of_numbers C82_apostrophe | False in general: elements of lists are printed without separator and apostrophes are not escaped. Proved for texts without apostrophes, legal variable names and lists of tuples, lists and texts.
C83 | proved | C83_inference_rule C83_grammar_rule C83_reread C83_not_read_back C83_text_atom | Words and regular expressions that need no escapes. Finding: a printed grammar rule with more than one consequent is not read back as the same rule (`C83_not_read_back`).
C84 | proved | C84_optimize_meaning C84_optimize_answers C84_optimize_returns C84_alternatives_first C84_negation_first | The condition on the order is `Ordered`, at every depth `FormsTidy` (in Verif/QueryOrder.lean). Arguments are variables, numbers and texts; no names are resolved (moving those to the front is C45). Answers are compared for runs that return, as over recursive rules they need not. Findings: `C84_alternatives_first` (alternatives cost nothing, are moved to the front and lose answers), `C84_negation_first`.
C85 | proved | Sql.C85_select Sql.C85_insert Sql.C85_delete Sql.C85_delete_none Sql.C85_no_columns Sql.C85_unknown_table Sql.C85_insert_raises Sql.C85_like_memory Sql.C85_memory_effects Sql.C85_missing_value | The engine is a small specification of SQL (Verif/Sql.lean): tokens, grammar and effect of the statements that are sent. Values are stored unchanged (no conversion to the type of a column). Findings: a delete with a value None removes nothing (`C85_delete_none`), and after an insert with None the two kinds of data source differ (`C85_missing_value`).
C86 | proved | C86_answered C86_quantified C86_not_understood | "Returns" is: there is a number such that with this number of steps, or more, the model does not run out of steps. C86_answered is with and without the optimiser; C86_quantified is without it. The answers are those of C70 and C77.
C87 | proved | C87_no_exception C87_answers C87_text C87_predicates C87_order_raises C87_all_raises C87_all_raises_inside | The conditions are `FormsCalm` (on the query), `NoListsIn` (on tables and rules) and those of C71. C87_text is C86_quantified without the alternative that the solver raises.
C88 | proved | C88_answers C88_text_to_answers C88_returns | The query is required to be `Orderly`: its order does not matter (C84; C84_negation_first and C84_alternatives_first show that this is needed) and it binds the root variables it has. `orderlyText_of` reduces this to one run of the parser.
C89 | proved | C89_aggregate_raises C89_sum_nothing C89_all C89_find_all_empty C89_find_one_nothing C89_find_raises C89_find_all_combination C89_no_name C89_rule_value C89_rule_given | Counting itself is C14 and C15. In C89_rule_value the value asked for is the first argument of the head.
C90 | proved | Sql.C90_stored Sql.C90_read_back Sql.C90_list_raises Sql.C90_same_module | The counterpart of C18 for modules on a database. The engine compares values exactly and stores them unchanged: that SQLite turns a number into a text in a TEXT column is not modelled.
C91 | proved | C91_answers C91_text Sql.C91_database | Without failures this is C71, C77 and C88. The engine compares values exactly, as in C90. The modules do not catch exceptions of the solver themselves (`Forwards`).
C92 | proved | C92_returns_iff C92_recursive_returns C92_transitive_iff C92_transitive_answers C92_transitive_descends C92_left_recursion | Extends C10. `Descends` is the condition of the other theorems about returning (C48, C71, C86, C87, C88).
C93 | proved | C93_list C93_value C93_yes_no C93_determined C93_returns C93_list_forms C93_yes_no_forms | Puts C71 and C78 together with C16, C18, C55 and C56. The intents are rules in an inference module of their own, as in `tests/integration/chat80/intents.pl:3-16`; the variables of the query are not those of the intents, which holds for what the composer makes.
C94 | proved | C94_reply C94_dialog C94_returns | Puts C29, C30, C38, C76 and C93 together. The root rules are as in `tests/integration/chat80/read_grammar.py:12-39`: an intent around the content; roots do not occur inside sentences, and the variables of the content are arguments of constituents of the root rule. Without the optimiser.
C95 | proved | C95_reply C95_dialog C95_returns | C94 with C84. The condition on the order (`Sortable`) is that of C84; it is about the query that the composer makes of the first tree, and it is computed in the example. That it is needed is C84_negation_first and C84_alternatives_first.
C96 | proved | C96_turn C96_dialog C96_refused C96_refused_returns | Puts C34, C72, C94 and C95 together. That a text that can be read, but is no sentence, raises is part of C96_refused_returns (see also C72_not_understood_raises); in a dialog test it can not pass.
C97 | proved | C97_turn C97_dialog C97_left_out | Extends C33 from the parser to the whole turn. The pipeline is that of parser, composer and executor, as in the tests.
C98 | proved | C98_same_outcome C98_same_writes C98_library C98_executor C98_anew C98_off | The statistics are a part of the world that only the solver uses.
C99 | proved | C99_counts C99_tables C99_not C99_disjunction C99_list_atom C99_logged | The numbers are for queries over tables. That calls inside calls are counted too is stated for negation and for alternatives, over any modules.
C100 | proved | C100_turn C100_first C100_reply C100_dialog | The pipeline is language selector, multilingual parser, composer and executor. The languages share the composer, the executor and the write grammar.
C101 | proved | C101_returns C101_conditions C101_output C101_forever C101_sticky | Returning is: a bound on the depth of calls that depends on the grammar only. Exceptions are allowed. The two limits show that the condition on the order of the rules is needed.
C102 | proved | C102_text C102_determines C102_quotes C102_gap | Words that are a single space are not visible. The limits show where the line does not tell.
C103 | proved | C103_first C103_counted C103_exception C103_tables C103_not_truthy | The last one is a limit: callers have to compare with None.
C104 | proved | C104_answers C104_no_exception C104_returns C104_kept C104_fact Ex.C104_learns_no_more | The last one is a limit: a rule for learn_rule itself switches learning off.
C105 | proved | C105_session C105_no_exception C105_sentence Ex.C105_capture | The last one is a limit: variables named Head or Body in the taught rule are replaced.
C106 | proved | C106_steady C106_programs C106_sessions Ex.C106_added | The last one shows the difference.
C107 | proved | C107_session C107_no_exception C107_sentence Ex.C107_lost Ex.C107_unknown | The last two are limits: a fact whose predicate has only rules is lost, and one without any relation raises an exception.
C108 | proved | C108_session C108_no_exception | The limits of C105 and C107 apply.
C109 | proved | C109_refused C109_accepted Ex.C109_order Ex.C109_first_only Ex.C109_other_relation | The check may be any relation or rules, as long as it returns, leaves the world alone and does not depend on the output buffer. The other order of the rules, claims of two facts and claims about another relation have witnesses.
C110 | proved | C110_session C110_consistent Ex.placer_run | The relation is in the memory module only, without rules and tables, and what is claimed is about names (texts). A name may be claimed to stand in the relation to itself, and a circle of three claims is accepted (Ex.placer_run), because the check looks at stored facts only.
C111 | proved | C111_cases C111_no_case C111_intent C111_session Ex.C111_twice | C111_cases and C111_no_case are about the body of the intent rule, C111_intent about the sentence, C111_session about sessions in which some case applies to each question.

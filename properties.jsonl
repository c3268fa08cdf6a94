{"id": "C01", "title": "solve only extends the caller's binding", "statement": "Every binding returned by Solver.solve(atoms, binding) contains every key of the given binding with the same value; no relation, rule or built-in can rewrite or drop a variable the caller already bound.", "quantifier": "all models (any list of modules with arbitrary, possibly side-effecting relations), all worlds, all lists of atoms, all incoming bindings", "why_tests_cant": "A test fixes one model and a few bindings; the guarantee has to hold whatever rows a user-written relation returns.", "anchors": ["richard/core/Solver.py:Solver.solve", "richard/core/Solver.py:Solver.create_solve_single_results"]}
{"id": "C02", "title": "solve binds every variable it was asked about", "statement": "In every binding returned by solve, each variable that occurs as a direct argument of one of the (non-disjunction) atoms is bound.", "quantifier": "all models, worlds, atom lists and incoming bindings", "why_tests_cant": "Callers index result[var] without checking; a single missing key is a KeyError at run time for some unlucky model.", "anchors": ["richard/core/Solver.py:Solver.create_solve_single_results"]}
{"id": "C03", "title": "conjunction composes", "statement": "The empty conjunction returns exactly the given binding, and solving A followed by B returns exactly the bindings obtained by solving B from each result of solving A, for side-effect free relations.", "quantifier": "all pure models, all pairs of atom lists, all incoming bindings", "why_tests_cant": "Splitting of a conjunction is possible at unboundedly many places and nesting depths.", "anchors": ["richard/core/Solver.py:Solver.solve"]}
{"id": "C04", "title": "no duplicate answers", "statement": "solve never returns the same binding twice.", "quantifier": "all models, all atom lists, all incoming bindings", "why_tests_cant": "Duplicates only appear for particular combinations of rows, constants and bound variables.", "anchors": ["richard/core/Solver.py:Solver.solve", "richard/core/Solver.py:Solver.find_relation_values"]}
{"id": "C05", "title": "a query over fact tables returns exactly the satisfying assignments", "statement": "When every predicate in the query is backed by stored rows, the returned bindings are, one for one, the assignments of the query's variables under which every atom is a stored row and which agree with the incoming binding: nothing missing, nothing invented.", "quantifier": "all finite tables, all conjunctions (any length, repeated variables, constants), all incoming bindings", "why_tests_cant": "The space of table contents and join shapes is unbounded; tests cover a handful of joins.", "anchors": ["richard/core/Solver.py:Solver.solve", "richard/core/Solver.py:Solver.solve_single", "richard/core/Solver.py:Solver.model_values_2_db_values"]}
{"id": "C06", "title": "answers do not depend on the order of the atoms", "statement": "Over fact tables, reordering the atoms of a query never changes the set of answers.", "quantifier": "all finite tables, all conjunctions, all permutations of the atoms", "why_tests_cant": "n! orders for each of unboundedly many queries.", "anchors": ["richard/core/Solver.py:Solver.solve", "richard/processor/semantic_composer/optimizer/SortByCost.py:SortByCost.sort"]}
{"id": "C07", "title": "row deduplication never merges different rows", "statement": "The solver removes duplicate rows by comparing their printed form; two rows are merged only if they are equal rows.", "quantifier": "all rows built from None, numbers, strings (with any quotes, backslashes, control characters), nested lists and tuples and variables with legal names", "why_tests_cant": "Collisions of printed forms live in odd corners of quoting and escaping.", "anchors": ["richard/core/Solver.py:Solver.find_relation_values"]}
{"id": "C08", "title": "inference is sound", "statement": "Every answer returned for a query over inference rules is a logical consequence of the rules and facts.", "quantifier": "all finite sets of Prolog-style rules and facts (recursive ones included), all queries, all incoming bindings, all runs that return", "why_tests_cant": "Proof trees are unbounded in depth and variable names of caller and rule can clash in unboundedly many ways.", "anchors": ["richard/module/InferenceModule.py:InferenceModule.handle_rule", "richard/module/InferenceModule.py:InferenceModule.solve_rule"]}
{"id": "C09", "title": "inference is complete whenever it returns", "statement": "If a query over inference rules whose head variables all occur in the body returns at all, then it returns every logical consequence that matches the query.", "quantifier": "all finite range-restricted rule sets (recursive ones included), all queries, all runs that return", "why_tests_cant": "Missing answers are invisible to tests that do not know the full answer set.", "anchors": ["richard/module/InferenceModule.py:InferenceModule.handle_rule", "richard/module/InferenceModule.py:InferenceModule.solve_rule", "richard/core/Solver.py:Solver.solve"]}
{"id": "C10", "title": "queries over non-recursive rules always return", "statement": "If the rules do not depend on themselves (directly or indirectly), every query over them terminates and raises no exception.", "quantifier": "all finite non-recursive rule sets of any depth, all queries, all incoming bindings", "why_tests_cant": "Termination is a statement about all inputs.", "anchors": ["richard/module/InferenceModule.py:InferenceModule.solve_rule", "richard/core/Solver.py:Solver.solve"]}
{"id": "C11", "title": "learned rules persist, in order", "statement": "After learn_rule (or insert_rule / import_rules) the rules stored for a predicate are exactly those inserted for it, in insertion order, and each of them contributes to every later query; earlier rules are never lost.", "quantifier": "all histories of rule insertions, interleaved over any number of predicates", "why_tests_cant": "History-quantified: the order and interleaving of insertions is unbounded.", "anchors": ["richard/module/InferenceModule.py:InferenceModule.insert_rule", "richard/module/InferenceModule.py:InferenceModule.learn_rule", "richard/module/InferenceModule.py:InferenceModule.handle_rule"]}
{"id": "C12", "title": "disjunction takes the first alternative that has answers", "statement": "A disjunction in a rule body yields precisely the answers of its first alternative that has any; it yields none only if no alternative has any.", "quantifier": "all models, all lists of alternatives, all incoming bindings", "why_tests_cant": "Number and nesting of alternatives is unbounded.", "anchors": ["richard/core/Solver.py:Solver.solve_disjunction"]}
{"id": "C13", "title": "negation and scoping succeed exactly when they should and bind nothing", "statement": "'not' and 'none' succeed iff the body has no answers, 'scoped' iff it has one; all three leave the binding as it was, so body variables never leak; and not(not(B)) behaves like scoped(B).", "quantifier": "all models, all bodies, all incoming bindings", "why_tests_cant": "Leaks depend on which names the body happens to use.", "anchors": ["richard/module/CoreModule.py:CoreModule.not_function", "richard/module/CoreModule.py:CoreModule.determiner_none", "richard/module/CoreModule.py:CoreModule.scoped"]}
{"id": "C14", "title": "counting determiners are exact", "statement": "'count' binds the number of answers of its body, and det_equals / det_greater_than / det_less_than succeed iff that number is equal to / above / below the given one; also when the body yields a ResultIterator.", "quantifier": "all models, bodies, numbers and incoming bindings", "why_tests_cant": "Off-by-one and boundary behaviour over all counts.", "anchors": ["richard/module/CoreModule.py:CoreModule.count", "richard/module/CoreModule.py:CoreModule.determiner_equals", "richard/module/CoreModule.py:CoreModule.determiner_greater_than", "richard/module/CoreModule.py:CoreModule.determiner_less_than"]}
{"id": "C15", "title": "aggregates are exact", "statement": "'sum' and 'avg' return the exact sum and mean of the element variable over the answers of the body; 'arg_min'/'arg_max' return an entity whose element value is minimal/maximal, the first such in answer order; 'percentage' is 100 times the ratio of the two answer counts; avg, arg_min, arg_max, percentage fail on no answers.", "quantifier": "all answer lists of any length", "why_tests_cant": "Ties, order and empty answer lists of every length.", "anchors": ["richard/module/CoreModule.py:CoreModule.sum", "richard/module/CoreModule.py:CoreModule.avg", "richard/module/CoreModule.py:CoreModule.arg_min", "richard/module/CoreModule.py:CoreModule.arg_max", "richard/module/CoreModule.py:CoreModule.percentage"]}
{"id": "C16", "title": "find_all returns the distinct values in first-seen order", "statement": "find_all returns each distinct value (or tuple of values) of the requested variable(s) exactly once, in the order of first appearance, and find_one its first element, failing iff there is none.", "quantifier": "all models, bodies, variables and incoming bindings", "why_tests_cant": "All multiplicities and orders of the answer list.", "anchors": ["richard/module/CoreModule.py:CoreModule.find_all", "richard/module/CoreModule.py:CoreModule.find_one"]}
{"id": "C17", "title": "universal quantification is exact", "statement": "'all' yields the distinct entities of the range, each once and in order, if the body has an answer for every one of them, and yields nothing otherwise.", "quantifier": "all models, ranges, bodies and incoming bindings", "why_tests_cant": "A quantifier over a set of unbounded size.", "anchors": ["richard/module/CoreModule.py:CoreModule.determiner_all", "richard/type/OrderedSet.py:OrderedSet"]}
{"id": "C18", "title": "stored facts can be read back", "statement": "After any sequence of 'store' calls on a memory module, querying the relation returns exactly the stored tuples that match, in the order they were stored; bound variables are replaced by their values at store time.", "quantifier": "all histories of stores over any relations, all later queries", "why_tests_cant": "Quantifies over histories.", "anchors": ["richard/module/CoreModule.py:CoreModule.store", "richard/core/Solver.py:Solver.write_atom", "richard/module/SimpleMemoryModule.py:SimpleMemoryModule", "richard/data_source/SimpleDataSource.py:SimpleDataSource"]}
{"id": "C19", "title": "an unknown predicate is reported, never treated as false", "statement": "Solving or storing an atom whose predicate no module defines raises an exception; it never returns an empty answer.", "quantifier": "all models, worlds, predicates, arguments and bindings", "why_tests_cant": "Silent failure would look like a correct 'no' in a test.", "anchors": ["richard/core/Solver.py:Solver.find_relation_values", "richard/core/Solver.py:Solver.write_atom", "richard/core/Model.py:Model.find_relations"]}
{"id": "C20", "title": "variable substitution is correct", "statement": "bind_variables replaces exactly the bound variables at any depth, leaves everything else and the list/tuple structure unchanged; get_atom_variables reports exactly the variables that occur; afterwards the remaining variables are exactly the unbound ones plus those in the inserted values; substituting twice equals substituting once when the values are closed.", "quantifier": "all nested list/tuple terms of any depth, all bindings", "why_tests_cant": "Depth and shape of terms is unbounded.", "anchors": ["richard/core/atoms.py:bind_variables", "richard/core/atoms.py:get_atom_variables"]}
{"id": "C21", "title": "destructure takes an atom apart faithfully", "statement": "If 'destructure' matches, putting its result back under the pattern gives the original atom; on any mismatch of length or constant it reports no match.", "quantifier": "all atoms and patterns of any length", "why_tests_cant": "All lengths and constant/variable patterns.", "anchors": ["richard/module/CoreModule.py:CoreModule.destructure"]}
{"id": "C22", "title": "more search depth never changes an answer", "statement": "Solver.solve is deterministic: two runs from the same world with any recursion budgets that suffice return the same answers, the same final world, or the same exception.", "quantifier": "all models, worlds, atoms, bindings and recursion budgets", "why_tests_cant": "Runs can be arbitrarily deep.", "anchors": ["richard/core/Solver.py:Solver.solve"]}
{"id": "C23", "title": "the in-memory data source behaves like a log of records", "statement": "After any sequence of insert and clear, SimpleDataSource.select returns, in insertion order, the projections of exactly those records inserted since the last clear that agree with every given (non-None) value.", "quantifier": "all histories of inserts and clears over any tables, all selects", "why_tests_cant": "Quantifies over histories.", "anchors": ["richard/data_source/SimpleDataSource.py:SimpleDataSource"]}
{"id": "C24", "title": "SQL text never contains data", "statement": "In the sqlite, MySQL and Postgres adapters the text of every SQL statement depends only on the table, the columns and on which values are None; it has exactly as many placeholders as parameters, and the parameters are the non-None values in column order.", "quantifier": "all tables, columns and value lists, of any content", "why_tests_cant": "Injection safety is a statement about every possible value.", "anchors": ["richard/data_source/Sqlite3DataSource.py", "richard/data_source/MySqlDataSource.py", "richard/data_source/PsycoPg2DataSource.py", "richard/data_source/PsycoPg3DataSource.py"]}
{"id": "C25", "title": "dialog contexts are restored", "statement": "with_context makes the context active during the body and leaves exactly the contexts active that were active before; end_context after start_context leaves the context inactive.", "quantifier": "all histories of context operations, all nestings, all bodies including ones that raise", "why_tests_cant": "Nesting depth and exception points are unbounded.", "anchors": ["richard/module/BasicDialogContext.py:BasicDialogContext"]}
{"id": "C26", "title": "the SPARQL result cache is transparent and queries at most once", "statement": "With a result cache, a repeated select returns what the first one returned without contacting the server again, and different requests never share a cache entry (up to SHA-1 collisions).", "quantifier": "all histories of selects, all server behaviours", "why_tests_cant": "Quantifies over histories and over all request strings.", "anchors": ["richard/data_source/SparqlDataSource.py:SparqlDataSource.select"]}
{"id": "C27", "title": "SPARQL rows echo the request", "statement": "Every row returned by the SPARQL source has two columns; a column whose value was given holds that value and the other columns hold the server's value for that column's own variable.", "quantifier": "all requests and all server responses", "why_tests_cant": "All response contents.", "anchors": ["richard/data_source/SparqlDataSource.py:SparqlDataSource.prepare_results"]}
{"id": "C28", "title": "CSV import loads every data line", "statement": "Importing a CSV file inserts exactly one record per non-empty line after the header, in file order, pairing each header with its cell.", "quantifier": "all files (any number of lines, blank lines anywhere)", "why_tests_cant": "All file shapes.", "anchors": ["richard/data_source/CsvImporter.py:CsvImporter"]}
{"id": "C29", "title": "every parse tree is a derivation of the sentence", "statement": "Every tree returned by the Earley parser is rooted in 's', each inner node applies a rule (variant) of the grammar to its children, and its leaves spell out the whole input text in order.", "quantifier": "all grammars without empty rules (any size, ambiguous, left- or right-recursive), all texts", "why_tests_cant": "Chart parsers fail on rare grammar shapes; the set of grammars and texts is infinite.", "anchors": ["richard/processor/parser/earley/EarleyParser.py:EarleyParser.parse", "richard/processor/parser/earley/tree_extract.py:extract_tree_roots", "richard/processor/parser/earley/tree_extract.py:find_state_sequences"]}
{"id": "C30", "title": "every derivation of the sentence is found", "statement": "If the text can be derived from 's', the parser returns a tree for each derivation (identifying rules with the same syntax).", "quantifier": "all grammars without empty rules, all texts, all derivations, whenever tree extraction returns", "why_tests_cant": "Completeness of a chart parser depends on the agenda order for every grammar.", "anchors": ["richard/processor/parser/earley/EarleyParser.py:EarleyParser.buildChart", "richard/processor/parser/earley/EarleyParser.py:EarleyParser.predict", "richard/processor/parser/earley/EarleyParser.py:EarleyParser.scan", "richard/processor/parser/earley/EarleyParser.py:EarleyParser.complete", "richard/processor/parser/earley/tree_extract.py:create_trees_for_state"]}
{"id": "C31", "title": "chart construction terminates without an exception", "statement": "For a grammar without empty rules or empty words, building the chart terminates and raises no exception for any text, even for left-recursive and cyclic grammars.", "quantifier": "all such grammars, all texts", "why_tests_cant": "Termination over all inputs.", "anchors": ["richard/processor/parser/earley/EarleyParser.py:EarleyParser.buildChart", "richard/processor/parser/earley/entity/Chart.py:Chart.enqueue"]}
{"id": "C32", "title": "tree extraction never looks up a missing chart entry", "statement": "While extracting trees the parser never hits a KeyError or IndexError on the chart.", "quantifier": "all grammars without empty rules, all texts", "why_tests_cant": "An invariant over all reachable charts.", "anchors": ["richard/processor/parser/earley/tree_extract.py:find_state_sequences", "richard/processor/parser/earley/entity/Chart.py:Chart.index_completed_state"]}
{"id": "C33", "title": "parsing has no memory", "statement": "Parsing a sentence gives the same trees in the same order no matter which sentences were parsed before with the same grammar object, although each parse adds a rule to that grammar.", "quantifier": "all grammars, all histories of parsed texts", "why_tests_cant": "Quantifies over histories.", "anchors": ["richard/processor/parser/earley/EarleyParser.py:EarleyParser.buildChart", "richard/entity/GrammarRules.py:GrammarRules.add_rule"]}
{"id": "C34", "title": "a parse either succeeds or reports one reason", "statement": "The parser reports an error iff it returns no tree; the error is 'unknown_word' with the first characters that could not be consumed (the text following the longest consumed prefix, cut at nine characters) if there are any, otherwise 'no_sentence' for the empty text and 'not_understood' for any other.", "quantifier": "all grammars and texts", "why_tests_cant": "All failure positions.", "anchors": ["richard/processor/parser/earley/EarleyParser.py:EarleyParser.parse", "richard/processor/parser/earley/unknown_word.py:find_unknown_word"]}
{"id": "C35", "title": "whitespace does not matter", "statement": "Two texts that differ only in the amount or kind of whitespace between words are parsed identically; normalisation is idempotent and its result has no two adjacent whitespace characters.", "quantifier": "all texts", "why_tests_cant": "All whitespace patterns.", "anchors": ["richard/processor/parser/BasicParser.py:BasicParser.process"]}
{"id": "C36", "title": "optional constituents are expanded to exactly the intended variants", "statement": "The variants of a grammar rule keep all mandatory non-separator constituents in order, each optional constituent is independently present or absent, an absent one takes its separator with it (no doubled, leading or trailing separators), and a rule without optional parts has itself as only variant.", "quantifier": "all rules of any length with any placement of optional constituents", "why_tests_cant": "2^k variants for every rule shape.", "anchors": ["richard/entity/GrammarRules.py:GrammarRules.create_rule_variants", "richard/entity/GrammarRules.py:GrammarRules.create_rule_variants_rest"]}
{"id": "C37", "title": "grammar lookup returns exactly the rules added", "statement": "find_rules(category, n) returns, in the order of addition, all variants of exactly the rules added with that antecedent category and number of arguments.", "quantifier": "all histories of add_rule", "why_tests_cant": "Quantifies over histories.", "anchors": ["richard/entity/GrammarRules.py:GrammarRules.add_rule", "richard/entity/GrammarRules.py:GrammarRules.find_rules"]}
{"id": "C38", "title": "parse trees are ranked by boost, then fewest regular expressions, then depth", "statement": "sort_trees returns a permutation of the trees, ordered lexicographically by descending total boost, ascending number of regular-expression nodes and descending depth, and trees that tie on all three keep their order.", "quantifier": "all lists of trees", "why_tests_cant": "All list lengths and tie patterns.", "anchors": ["richard/processor/parser/tree_sort_heuristics/BasicParseTreeSortHeuristics.py", "richard/processor/parser/tree_sort_heuristics/SortByBoost.py", "richard/processor/parser/tree_sort_heuristics/SortByRegExpCount.py", "richard/processor/parser/tree_sort_heuristics/SortByTreeDepth.py"]}
{"id": "C39", "title": "a regular-expression leaf matches its expression", "statement": "The text covered by a regular-expression constituent in a parse tree is matched by that expression.", "quantifier": "all grammars, regular expressions and texts", "why_tests_cant": "All matches and sub-matches.", "anchors": ["richard/processor/parser/earley/EarleyParser.py:EarleyParser.scan"]}
{"id": "C40", "title": "grammar syntax round-trips", "statement": "Parsing the printed form of a grammar rule yields that rule again: category, argument names, words (with quotes), regular expressions, separators and optional markers.", "quantifier": "all rules of any length", "why_tests_cant": "Encoder/decoder law over all rules.", "anchors": ["richard/processor/parser/helper/SimpleGrammarRulesParser.py:SimpleGrammarRulesParser.parse_syntax"]}
{"id": "C41", "title": "inference rule syntax round-trips", "statement": "Parsing the printed form of a list of inference rules yields those rules: heads, bodies, nested bodies, disjunctions, strings with quotes, numbers and variables.", "quantifier": "all rule lists of any length and nesting depth", "why_tests_cant": "Encoder/decoder law over all rules.", "anchors": ["richard/module/helper/SimpleInferenceRuleParser.py:SimpleInferenceRuleParser.parse"]}
{"id": "C42", "title": "generated variables are never reused", "statement": "All variables handed out by a composer during its lifetime, over all sentences, are pairwise different and recognisable by their prefix.", "quantifier": "all histories of composed sentences", "why_tests_cant": "Quantifies over histories.", "anchors": ["richard/processor/semantic_composer/helper/VariableGenerator.py:VariableGenerator"]}
{"id": "C43", "title": "composition keeps variables apart", "statement": "In the meaning of a sentence two variables of different parse tree nodes are identified only if the grammar rules connect them; every variable at the top level of the composed atoms is a generated one.", "quantifier": "all parse trees of any size and all semantic attachments that build atom lists", "why_tests_cant": "Variable capture depends on name coincidences anywhere in the tree.", "anchors": ["richard/processor/semantic_composer/SemanticComposer.py:SemanticComposer.compose", "richard/processor/semantic_composer/SemanticComposer.py:SemanticComposer.create_map", "richard/processor/semantic_composer/SemanticComposer.py:SemanticComposer.unify_variables"]}
{"id": "C44", "title": "template application fills every slot", "statement": "After apply(template, v1, ..., vn) none of the template's placeholders is left anywhere in the result, every occurrence is replaced by the supplied atoms and everything else is unchanged, provided the supplied values do not themselves contain placeholders.", "quantifier": "all templates of any nesting depth, all values", "why_tests_cant": "All nestings.", "anchors": ["richard/processor/parser/helper/grammar_functions.py:apply", "richard/processor/parser/helper/grammar_functions.py:replace"]}
{"id": "C45", "title": "name resolution is moved to the front and nothing is lost", "statement": "FrontResolveName moves all resolve_name atoms out of (nested) atom lists to the front in their original order, leaves no resolve_name atom behind in any list, keeps all other atoms in order, and is idempotent.", "quantifier": "all nested atom lists of any depth", "why_tests_cant": "All nestings.", "anchors": ["richard/processor/semantic_composer/optimizer/FrontResolveName.py:FrontResolveName"]}
{"id": "C46", "title": "cost sorting is a greedy permutation", "statement": "SortByCost returns a permutation of the atoms (inner lists sorted likewise) in which every atom has minimal cost among those not yet placed, given the variables bound by the ones before it.", "quantifier": "all atom lists of any length and nesting, all models", "why_tests_cant": "All permutations and cost assignments.", "anchors": ["richard/processor/semantic_composer/optimizer/SortByCost.py:SortByCost"]}
{"id": "C47", "title": "isolating independent parts preserves the answers", "statement": "Over fact tables and rules, IsolateIndependentParts does not change the set of answers restricted to the root variables.", "quantifier": "all conjunctions of any length, all root variables, all finite tables, all rules (for runs that return)", "why_tests_cant": "All variable-sharing patterns.", "anchors": ["richard/processor/semantic_composer/optimizer/IsolateIndependentParts.py:IsolateIndependentParts"]}
{"id": "C48", "title": "query optimisation preserves the answers", "statement": "Over fact tables and rules, executing the optimised form of a query (all three passes) gives the same set of answers for the root variables as executing the original.", "quantifier": "all conjunctions, root variables, finite tables and rules (for runs that return)", "why_tests_cant": "Composition of three rewrites over all queries.", "anchors": ["richard/processor/semantic_composer/optimizer/BasicQueryOptimizer.py:BasicQueryOptimizer.optimize"]}
{"id": "C49", "title": "FindOne stops at the first alternative that works", "statement": "A FindOne block succeeds iff one of its processor's products leads to success downstream; it tries products in order, none after the first successful one, and leaves that product current; if all fail it reports an error of the downstream block (documented: the first one).", "quantifier": "all processors, all numbers of products, all downstream blocks with side effects", "why_tests_cant": "All alternatives and failure patterns.", "anchors": ["richard/block/FindOne.py:FindOne.process"]}
{"id": "C50", "title": "FindAll tries every alternative", "statement": "A FindAll block runs the downstream block exactly once for each product, in order, and accumulates the products; it succeeds iff some product succeeds and otherwise reports the first error.", "quantifier": "all processors, all numbers of products, all downstream blocks with side effects", "why_tests_cant": "All alternatives and failure patterns.", "anchors": ["richard/block/FindAll.py:FindAll.process"]}
{"id": "C51", "title": "TryFirst tries only the first alternative", "statement": "A TryFirst block runs the downstream block for the first product only and returns its outcome.", "quantifier": "all processors, products and downstream blocks", "why_tests_cant": "All alternatives.", "anchors": ["richard/block/TryFirst.py:TryFirst.process"]}
{"id": "C52", "title": "the first language that parses the sentence wins", "statement": "In a pipeline FindOne(LanguageSelector), FindOne(Multilingual), the sentence is parsed with the first listed locale whose parser accepts it and later locales are not tried.", "quantifier": "all lists of locales, all parsers, all sentences", "why_tests_cant": "All locale lists and failure patterns.", "anchors": ["richard/processor/language_selector/LanguageSelector.py", "richard/processor/language_selector/Multilingual.py", "richard/block/FindOne.py:FindOne.process"]}
{"id": "C53", "title": "every processing error reaches the output buffer", "statement": "When the pipeline reports an error, System.enter stores its type and arguments in the output buffer so that the generator can report it; it does not raise.", "quantifier": "all pipelines and all error types the library produces", "why_tests_cant": "Each error type travels a different path.", "anchors": ["richard/core/System.py:System.enter", "richard/module/BasicOutputBuffer.py:BasicOutputBuffer", "richard/processor/parser/earley/EarleyParser.py:EarleyParser.parse"]}
{"id": "C54", "title": "execution order inside a sentence", "statement": "AtomExecutor first stores the inferences, then runs the executable atoms, then solves the semantics, each once and each seeing the effects of the previous ones; if a step raises, later steps do not run.", "quantifier": "all models, worlds and composed sentences", "why_tests_cant": "All interleavings of effects.", "anchors": ["richard/processor/semantic_executor/AtomExecutor.py:AtomExecutor.process"]}
{"id": "C55", "title": "the generator uses the first applicable rule", "statement": "For a category, the generator applies the first write rule whose condition holds and has not been used yet, with the first solution of its condition, and raises if no rule applies to a mandatory constituent; an optional one produces nothing.", "quantifier": "all write grammars, worlds and argument values", "why_tests_cant": "All rule lists and usage histories.", "anchors": ["richard/core/BasicGenerator.py:BasicGenerator.find_rule", "richard/core/BasicGenerator.py:BasicGenerator.generate_node"]}
{"id": "C56", "title": "generated output concatenates the parts in order and the buffer is emptied", "statement": "generate_output returns the concatenation of the words of the derivation it built, and afterwards the output buffer holds nothing, so one answer never leaks into the next.", "quantifier": "all write grammars and buffer contents", "why_tests_cant": "All derivations and histories.", "anchors": ["richard/core/BasicGenerator.py:BasicGenerator.generate_output", "richard/module/BasicOutputBuffer.py:BasicOutputBuffer.clear"]}
{"id": "C57", "title": "the ordered set is a set that remembers insertion order", "statement": "Under any sequence of add, discard and clear, an OrderedSet contains exactly the elements added and not removed since, iterates them once each in order of (last) first insertion, and indexing agrees with iteration.", "quantifier": "all histories of operations", "why_tests_cant": "Quantifies over histories.", "anchors": ["richard/type/OrderedSet.py:OrderedSet"]}
{"id": "C58", "title": "a result iterator yields exactly its number of items", "statement": "Iterating a ResultIterator of size n yields exactly n pairwise different items and its length stays n.", "quantifier": "all sizes and partial iterations", "why_tests_cant": "All n.", "anchors": ["richard/entity/ResultIterator.py:ResultIterator"]}
{"id": "C59", "title": "grammar rules can be learned at run time", "statement": "learn_grammar_rule adds the rule to the grammar so that later sentences can use it.", "quantifier": "all rules", "why_tests_cant": "Depends on every path through the rule parser.", "anchors": ["richard/module/GrammarModule.py:GrammarModule.learn_grammar_rule", "richard/processor/parser/helper/SimpleGrammarRulesParser.py:SimpleGrammarRulesParser.parse_simple_rule"]}
{"id": "C60", "title": "arithmetic comparison predicates mean what they say", "statement": "equals, greater_than and less_than succeed iff the relation holds between the (bound) values, equals and let bind an unbound side to the other value, multiply binds the product, and using an unbound operand of a comparison raises.", "quantifier": "all values and bindings", "why_tests_cant": "All operand combinations.", "anchors": ["richard/module/CoreModule.py:CoreModule.equals", "richard/module/CoreModule.py:CoreModule.greater_than", "richard/module/CoreModule.py:CoreModule.less_than", "richard/module/CoreModule.py:CoreModule.multiply", "richard/module/CoreModule.py:CoreModule.let"]}
{"id": "C61", "title": "parsing returns unless unit rules form a cycle", "statement": "For a grammar without empty rules in which no category can be rewritten to itself by rules with a single constituent, parsing any text returns a result; with a cycle such as s -> s the extraction of trees never ends.", "quantifier": "all such grammars (left-recursive and ambiguous ones included), all texts", "why_tests_cant": "Termination over all grammars and texts; non-termination cannot be observed by a test.", "anchors": ["richard/processor/parser/earley/tree_extract.py:create_trees_for_state", "richard/processor/parser/earley/EarleyParser.py:EarleyParser.parse"]}
{"id": "C62", "title": "different SPARQL requests ask different questions", "statement": "Two requests for the same table and columns whose query texts are equal have equal values: no value can imitate another one in the text of the query.", "quantifier": "all requests, all values", "why_tests_cant": "Depends on every character a value may contain (quotes, angle brackets, spaces).", "anchors": ["richard/data_source/SparqlDataSource.py:SparqlDataSource.prepare_term", "richard/data_source/SparqlDataSource.py:SparqlDataSource.create_query"]}
{"id": "C63", "title": "every derivation has its own parse tree", "statement": "For every derivation of the sentence by the rules of the grammar the parser returns a tree made of exactly those rules, so that no meaning of the sentence is lost.", "quantifier": "all grammars without empty rules, all sentences, all derivations", "why_tests_cant": "Unboundedly many grammars, and rules are merged in the chart by a comparison that ignores their meaning.", "anchors": ["richard/processor/parser/earley/EarleyParser.py:EarleyParser.predict", "richard/entity/GrammarRule.py:GrammarRule.equals", "richard/processor/parser/earley/entity/Chart.py:Chart.enqueue"]}
{"id": "C64", "title": "no parse tree is returned twice", "statement": "The trees that the parser returns for a sentence are pairwise different.", "quantifier": "all grammars without empty rules, all sentences", "why_tests_cant": "Duplicates could come from any combination of ways to reach a state.", "anchors": ["richard/processor/parser/earley/tree_extract.py:extract_tree_roots", "richard/processor/parser/earley/tree_extract.py:find_state_sequences", "richard/processor/parser/earley/entity/Chart.py:Chart.index_completed_state"]}
{"id": "C65", "title": "more knowledge never removes answers", "statement": "If every stored row and every rule of one knowledge base is also in another, then every answer to a query from the first is an answer from the second, whatever the modules, tables and order in which they are stored.", "quantifier": "all fact tables, all rule bases with bound heads (recursive ones included), all queries, all runs that return", "why_tests_cant": "Compares unboundedly many pairs of rule bases; a rule with side effects on others (a shared variable, an early exit) would only show for some of them.", "anchors": ["richard/module/InferenceModule.py:InferenceModule.handle_rule", "richard/core/Solver.py:Solver.solve_single"]}
{"id": "C66", "title": "the order of facts and rules does not matter", "statement": "Two knowledge bases with the same rows and the same rules, in any order, with any repetitions and any distribution over tables and modules, give the same answers, each equally often.", "quantifier": "all fact tables, all rule bases with bound heads, all queries, all runs that return", "why_tests_cant": "All permutations and repetitions.", "anchors": ["richard/module/InferenceModule.py:InferenceModule.handle_rule", "richard/module/InferenceModule.py:InferenceModule.insert_rule", "richard/core/Solver.py:Solver.solve_single"]}
{"id": "C67", "title": "a bound variable acts like its value", "statement": "Solving a query with a binding gives the other variables the same values, in equally many answers, as solving the query with the bound variables replaced by their values.", "quantifier": "all facts and rules, all queries, all bindings, all runs that return", "why_tests_cant": "Every combination of bound and unbound arguments, at every depth of rule application.", "anchors": ["richard/core/Solver.py:Solver.solve_single", "richard/module/InferenceModule.py:InferenceModule.handle_rule"]}
{"id": "C68", "title": "variable names do not matter", "statement": "Renaming the variables of a query renames the variables of its answers and changes nothing else; renaming the variables of stored rules, each rule on its own, changes nothing, even when a rule uses the names of the query.", "quantifier": "all facts and rules, all queries, all injective renamings, all runs that return", "why_tests_cant": "Variable capture only shows for particular names at particular depths.", "anchors": ["richard/module/InferenceModule.py:InferenceModule.handle_rule", "richard/core/Solver.py:Solver.solve_single"]}
{"id": "C69", "title": "the composed query means what the tree means", "statement": "If the rules of a parse tree conjoin the meanings of their parts, then the composed query, evaluated over facts and rules, has an answer with given values of the root variables exactly when the sentence is true of those values: when the variables of each rule can be given values such that the atoms of the rule follow from the facts and rules and every part is true of the values of its arguments.", "quantifier": "all parse trees of any size, all states of the variable generator, all facts and rules with bound heads, all runs that return", "why_tests_cant": "Whether two occurrences of a variable are rightly identified or kept apart depends on the whole tree; tests compare the text of a few composed queries.", "anchors": ["richard/processor/semantic_composer/SemanticComposer.py:SemanticComposer.compose", "richard/processor/semantic_composer/SemanticComposer.py:SemanticComposer.create_map", "richard/processor/semantic_composer/SemanticComposer.py:SemanticComposer.extend_map_with_semantics", "richard/processor/semantic_composer/SemanticComposer.py:SemanticComposer.unify_variables"]}
{"id": "C70", "title": "answers to a sentence are what its best derivation says", "statement": "Entering a text, after any earlier texts, gives no result exactly when the text has no derivation from the grammar; otherwise the answers are exactly the values that the best ranked derivation is true of, given the stored facts and rules, with and without query optimisation, and nothing stored is changed.", "quantifier": "all grammars whose rules conjoin, all texts and histories of texts, all facts and rules with bound heads, all runs that return", "why_tests_cant": "Runs the whole pipeline: parser, ranking, composer, optimiser, solver and inference, each with its own state.", "anchors": ["richard/core/System.py:System.enter", "richard/processor/parser/BasicParser.py:BasicParser.process", "richard/processor/semantic_composer/SemanticComposer.py:SemanticComposer.process", "richard/processor/semantic_executor/AtomExecutor.py:AtomExecutor.process", "richard/processor/semantic_composer/optimizer/BasicQueryOptimizer.py:BasicQueryOptimizer.optimize"]}
{"id": "C71", "title": "queries with negation, quantifiers, numbers and alternatives have exactly the right answers", "statement": "Over stored rows and (possibly recursive) rules, a query built by any nesting of conjunction, not, none, scoped, all, count, the number determiners, alternatives, equals, greater_than, less_than, let and multiply has as its answers exactly the ways to satisfy it, each once, where satisfaction is defined on the query's structure alone: variables that are not yet known inside a nested query are quantified there, a count is the number of different ways to satisfy the nested query, alternatives stand for the first that can be satisfied. Over rules that can be ranked the query returns.", "quantifier": "all facts, all rules with bound heads, all well-formed queries of any size and nesting, all incoming bindings, all runs that return", "why_tests_cant": "The meaning of a nested query depends on which variables are bound when it is reached and on whether inner answers are complete and free of duplicates; tests check single operators on a few rows.", "anchors": ["richard/core/Solver.py:Solver.solve", "richard/core/Solver.py:Solver.solve_disjunction", "richard/module/CoreModule.py:CoreModule.not_function", "richard/module/CoreModule.py:CoreModule.determiner_all", "richard/module/CoreModule.py:CoreModule.count", "richard/module/CoreModule.py:CoreModule.determiner_equals", "richard/module/CoreModule.py:CoreModule.equals", "richard/module/InferenceModule.py:InferenceModule.handle_rule"]}
{"id": "C72", "title": "a text that can not be parsed is answered with a message", "statement": "When a text has no derivation from the grammar, the turn ends with a message of the write grammar en_us_write that tells what is wrong: the start of the part that could not be read, that there was no sentence, or that it was not understood; nothing but the parser's bookkeeping changes.", "quantifier": "all grammars without empty rules and unit cycles, all texts, all histories of texts, all contents of the output buffer", "why_tests_cant": "Joins the parser's error position, the report in the output buffer, the conditions of the write rules and the generator; the tests look at single messages.", "anchors": ["richard/grammar/en_us_write.py:get_en_us_write_grammar", "richard/core/System.py:System.enter", "richard/core/System.py:System.read_output", "richard/processor/parser/earley/EarleyParser.py:EarleyParser.parse"]}
{"id": "C73", "title": "the turns of a dialog do not disturb each other", "statement": "After each turn that ends without an exception the output buffer is empty; a dialog test passes exactly when each output is the expected one, and raises exactly at the first turn that raises or whose output differs; in a dialog of unreadable texts of any length each text is answered with its own message.", "quantifier": "all systems, all dialogs of any length, all states", "why_tests_cant": "Leftovers of one turn only show in later turns of long dialogs.", "anchors": ["richard/core/DialogTester.py:DialogTester.do_run", "richard/core/System.py:System.read_output", "richard/core/BasicGenerator.py:BasicGenerator.generate_output"]}
{"id": "C74", "title": "what rules attach to a sentence is collected completely", "statement": "The dialog atoms of a sentence are those of all its nodes, children before parents and left to right; the atoms to be executed are those of the topmost nodes whose rule has any. A rule's sem, dialog and exec are applied to the same meanings of the children, and the variables of the attached atoms get the same names as in the meaning of their node.", "quantifier": "all parse trees of any size, all rules, all states of the variable generator", "why_tests_cant": "Dropped or misnamed atoms show only for particular shapes of trees and particular names at different depths.", "anchors": ["richard/processor/semantic_composer/SemanticComposer.py:SemanticComposer.compose", "richard/processor/semantic_composer/SemanticComposer.py:SemanticComposer.unify_variables"]}
{"id": "C75", "title": "composition fails only for a reason in the rules", "statement": "A rule without sem, at any depth, is reported before anything is composed. If all rules have a sem, composition returns, or raises an exception that a function of some rule raised, an IndexError for a constituent with fewer arguments than the rule used for it, or a TypeError for an element of a meaning that is not an atom.", "quantifier": "all parse trees of any size, all rules, all states of the variable generator", "why_tests_cant": "All the places where a lookup or a call may fail, in trees of any depth.", "anchors": ["richard/processor/semantic_composer/SemanticComposer.py:SemanticComposer.check_for_sem", "richard/processor/semantic_composer/SemanticComposer.py:SemanticComposer.process", "richard/processor/semantic_composer/SemanticComposer.py:SemanticComposer.compose", "richard/processor/semantic_composer/SemanticComposer.py:SemanticComposer.create_map"]}
{"id": "C76", "title": "sentences with quantifiers mean what their trees say", "statement": "If the rules of a parse tree build their meanings from atoms, comparisons, not, none, scoped, numerals, all, and templates applied to meanings of parts or to slots, then the composed query can be evaluated from scratch, and has an answer with given values of the root variables exactly when the sentence is true of these values, where a noun phrase stands for a generalised quantifier: what it says of the property put into its slot.", "quantifier": "all parse trees of any size and nesting of templates, all states of the variable generator, all facts and (recursive) rules with bound heads, all runs that return", "why_tests_cant": "Names of variables, filling of templates, scope of the quantifiers and the order of evaluation interact; tests look at a few sentences over a few rows.", "anchors": ["richard/processor/semantic_composer/SemanticComposer.py:SemanticComposer.compose", "richard/processor/semantic_composer/SemanticComposer.py:SemanticComposer.unify_variables", "richard/processor/parser/helper/grammar_functions.py:apply", "richard/module/CoreModule.py:CoreModule.determiner_all", "richard/module/CoreModule.py:CoreModule.determiner_equals", "richard/module/CoreModule.py:CoreModule.not_function"]}
{"id": "C77", "title": "answers to a text with quantifiers are what its best derivation says", "statement": "Entering a text in a system whose grammar has determiners and noun phrases, after any earlier texts, gives no result exactly when the text has no derivation; otherwise the answers are exactly the values that the best ranked derivation is true of, there are answers exactly when the sentence is true of some values, and nothing stored is changed.", "quantifier": "all grammars whose rules build meanings from parts that fit together, all texts and histories of texts, all facts and (recursive) rules with bound heads, all runs that return", "why_tests_cant": "Runs the whole pipeline with nested quantifiers, over grammars and knowledge of any size.", "anchors": ["richard/core/System.py:System.enter", "richard/processor/parser/BasicParser.py:BasicParser.process", "richard/processor/semantic_composer/SemanticComposer.py:SemanticComposer.process", "richard/processor/semantic_executor/AtomExecutor.py:AtomExecutor.process"]}
{"id": "C78", "title": "rules with negation, quantifiers, numbers and alternatives in their bodies answer what they say", "statement": "When the bodies of inference rules contain negation, quantifiers, numbers, arithmetic and alternatives, the answers to a query that returns are exactly the ways to satisfy it in every interpretation in which an atom is true precisely if it is stored or a rule says so; rules that are not recursive through these constructs have such an interpretation, queries over ranked rules return, and nothing stored is changed.", "quantifier": "all tables, all rule sets whose predicates are asked in the ways their rules allow, all queries and bindings, all supported interpretations, all runs that return", "why_tests_cant": "Quantifies over all rule bases with nested negation and quantification and over all interpretations of their predicates.", "anchors": ["richard/module/InferenceModule.py:InferenceModule.handle_rule", "richard/module/InferenceModule.py:InferenceModule.solve_rule", "richard/core/Solver.py:Solver.solve_single", "richard/module/CoreModule.py:CoreModule.not_function"]}
{"id": "C79", "title": "logging changes nothing but the log", "statement": "With any logger, in any setting, a request goes through the pipeline and a dialog is tested with the same result, the same exception and the same effects as without logging; the settings of the logger stay, its earlier entries stay in front, and a logger that is not active gets no entries from the pipeline.", "quantifier": "all pipelines of any length, all processors, all requests, all loggers, all dialogs of any length, all states", "why_tests_cant": "Quantifies over all pipelines, processors and settings of the logger.", "anchors": ["richard/entity/SentenceRequest.py:SentenceRequest.exec_process", "richard/core/Logger.py:Logger.add_process_result", "richard/core/Logger.py:Logger.is_active", "richard/core/DialogTester.py:DialogTester.do_run"]}
{"id": "C80", "title": "the log of a dialog has the tests that were asked for", "statement": "After a dialog without failures the log has, in order, the tests that are to be shown, each with its number, its question, the results of the processors that were asked for, its answer and its time, and nothing else: all tests, none, or those that are equal to the last. A wrong answer is always logged. The logged answers of a query determine the answers. In a terminal the entries are shown in their colours, the separator with the number of the test over the width of the terminal, and the colour is the usual one after each of them.", "quantifier": "all dialogs of any length, all settings of the logger, all pipelines", "why_tests_cant": "Which entries appear depends on the combination of settings, position of the test and processors, over dialogs of any length.", "anchors": ["richard/core/DialogTester.py:DialogTester.do_run", "richard/core/Logger.py:Logger.add_process_result", "richard/core/Logger.py:Logger.add_test_separator", "richard/core/Logger.py:Logger.add_key_value", "richard/core/Logger.py:Logger.log_products", "richard/processor/language_selector/LanguageSelectorProduct.py:LanguageSelectorProduct.log"]}
{"id": "C81", "title": "a printed parse tree shows the tree", "statement": "A parse tree is printed with one line for each node, parents before children and children from left to right, with a mark for each ancestor that tells whether it has a next sibling; two trees that are printed the same show the same nodes at the same places. The log has the printed tree unchanged.", "quantifier": "all parse trees of any size and depth", "why_tests_cant": "Trees of any depth; that no two different trees look the same can not be tested.", "anchors": ["richard/entity/ParseTreeNode.py:ParseTreeNode.__str__", "richard/processor/parser/BasicParserProduct.py:BasicParserProduct.log"]}
{"id": "C82", "title": "a printed meaning determines the meaning", "statement": "What format_value prints determines the value.", "quantifier": "all values of any size and nesting", "why_tests_cant": "That no two different values are printed the same can not be tested.", "anchors": ["richard/core/atoms.py:format_value", "richard/processor/semantic_composer/SemanticComposerProduct.py:SemanticComposerProduct.log"]}
{"id": "C83", "title": "printed rules can be told apart", "statement": "Two inference rules that are printed the same are the same; two grammar rules that are printed the same have the same category, variables and consequents up to marks that are not printed; the grammar notation reads a printed rule back with these parts, and with separators between all consequents.", "quantifier": "all inference rules and grammar rules of any size with proper names", "why_tests_cant": "That no two different rules are printed the same can not be tested.", "anchors": ["richard/entity/GrammarRule.py:GrammarRule.__str__", "richard/entity/RuleConstituent.py:RuleConstituent.__str__", "richard/type/InferenceRule.py:InferenceRule.__str__"]}
{"id": "C84", "title": "optimising keeps the answers of queries with negation and quantifiers", "statement": "For a query with negation, quantifiers, determiners, counts, comparisons and alternatives in which every part that is not a fact comes after what binds the variables it shares: the optimiser does not raise and changes nothing, and the optimised query has the same answers as the query, as far as the root variables are concerned. Where a negation precedes what binds its variables, or alternatives share variables with facts, the answers can change.", "quantifier": "all queries of any size and nesting of this kind, all facts, rules (recursive ones included), relation sizes below the one that stands for infinite, and root variables", "why_tests_cant": "Sorting and isolating interact with scoping at any depth; samples do not show that no query of this kind changes meaning.", "anchors": ["richard/processor/semantic_composer/optimizer/BasicQueryOptimizer.py:BasicQueryOptimizer.optimize", "richard/processor/semantic_composer/optimizer/SortByCost.py:SortByCost.sort", "richard/processor/semantic_composer/optimizer/IsolateIndependentParts.py:IsolateIndependentParts.isolate"]}
{"id": "C85", "title": "SQL data sources do what the in-memory data source does", "statement": "Read by the grammar of SQL, the statements that the data sources put together do what they are for: a select finds exactly the rows that have the values asked for, in the order of the table and with the columns in the order asked for; an insert adds one row, with the values in their columns and nothing in the others, unless a constraint refuses it; a delete removes exactly the rows that have all the values. Any history of complete inserts and selects gives the same results with a database as with the in-memory data source. Without columns, with an unknown table, a wrong number of values or a list as value, an exception is raised.", "quantifier": "all tables, rows, constraints, table and column names that are words of SQL, values, both styles of placeholders, all engines (their reserved words and their notion of equal values), all histories of any length", "why_tests_cant": "The tests send a few statements to one engine; that no name, combination of open values or history goes wrong can not be tested.", "anchors": ["richard/data_source/Sqlite3DataSource.py:Sqlite3DataSource.select", "richard/data_source/Sqlite3DataSource.py:Sqlite3DataSource.insert", "richard/data_source/Sqlite3DataSource.py:Sqlite3DataSource.delete", "richard/data_source/MySqlDataSource.py:MySqlDataSource.select", "richard/data_source/PsycoPg2DataSource.py:PsycoPg2DataSource.select", "richard/data_source/PsycoPg3DataSource.py:PsycoPg3DataSource.select", "richard/data_source/SimpleDataSource.py:SimpleDataSource.select", "richard/data_source/SimpleDataSource.py:SimpleDataSource.insert"]}
{"id": "C86", "title": "entering a text returns", "statement": "Whenever a text is derived by the grammar, entering it returns: the parser, the composer, the optimiser and the solver all come to an end, and what is returned are the answers to the sentence (for grammars with quantifiers: these, or an exception of the solver). When it is not derived, entering it returns as well, after the error of the parser has been stored. Needed are: functions of grammar rules that return for the values they can get, no cycle of unit rules in the grammar, and rules of the knowledge base whose calls go down (no recursion, or recursion as in C92).", "quantifier": "all such grammars and knowledge bases, texts of any length, sessions with any history", "why_tests_cant": "That no text makes the system run forever or fail can not be tested.", "anchors": ["richard/core/System.py:System.enter", "richard/processor/parser/BasicParser.py:BasicParser.process", "richard/processor/semantic_composer/SemanticComposer.py:SemanticComposer.process", "richard/processor/semantic_executor/AtomExecutor.py:AtomExecutor.process", "richard/core/Solver.py:Solver.solve"]}
{"id": "C87", "title": "nothing raises where nothing can go wrong", "statement": "A query raises no exception, over any rules and at any depth, when the arguments of its comparisons are numbers (constants, counts, products or copies of these), one side of each equality has a value, and no value that is stored, or that it assigns or equates, is a list or a template. So without recursion, or with recursion whose calls go down (C92), it returns answers. A text of which the query is of this kind, which it is when the functions of the grammar rules only make other predicates than comparisons, equals, let and multiply, is always answered. Ordering a text and a number does raise, and so does all with lists in its range.", "quantifier": "all knowledge bases, queries of any shape and nesting, bindings, grammars and texts", "why_tests_cant": "Absence of exceptions for all queries and all data is not observable by running examples.", "anchors": ["richard/core/Solver.py:Solver.solve", "richard/module/CoreModule.py:CoreModule.determiner_all", "richard/module/CoreModule.py:CoreModule.equals", "richard/module/CoreModule.py:CoreModule.greater_than", "richard/module/CoreModule.py:CoreModule.multiply", "richard/module/CoreModule.py:CoreModule.let", "richard/core/System.py:System.enter"]}
{"id": "C88", "title": "a text whose query is optimised gets the right answers", "statement": "When the semantic composer has the query optimiser, entering a text with negation, quantifiers, numerals and comparisons, of which the query is one whose order does not matter and that binds its root variables, gives for the root variables exactly the values that the sentence is true of, and leaves the world as it was; there is no result exactly if the text has no derivation. When the calls of the rules go down (C92; without recursion they do) and with enough steps this returns answers, or the exception of the optimised query; the optimiser itself raises nothing.", "quantifier": "all such grammars, knowledge bases with rules (recursive ones for what is returned), stated sizes of relations, texts, sessions with any history", "why_tests_cant": "The optimiser changes queries depending on sizes of relations and on what the sentence is made of; the tests try a few sentences over fixed data.", "anchors": ["richard/core/System.py:System.enter", "richard/processor/semantic_composer/SemanticComposer.py:SemanticComposer.process", "richard/processor/semantic_composer/optimizer/BasicQueryOptimizer.py:BasicQueryOptimizer.optimize", "richard/core/Solver.py:Solver.solve"]}
{"id": "C89", "title": "answers that are only counted can not be looked into", "statement": "When the answers of a body are only counted (a ResultIterator): the predicates that look for values in them raise a TypeError if there are any (sum, avg, arg_min, arg_max, all); find_all and find_one find nothing, however many there are, unless the name of the variable is by accident a part of the text of an answer, then they raise as well; for several variables find_all gives one combination of nothing. A rule with such a body has no answer when a value is asked for, and as many as there are counted when all arguments are given.", "quantifier": "all models, bodies, variables, bindings, rules and numbers of answers", "why_tests_cant": "The tests only count such answers.", "anchors": ["richard/entity/ResultIterator.py:ResultIterator.__next__", "richard/module/CoreModule.py:CoreModule.find_all", "richard/module/CoreModule.py:CoreModule.find_one", "richard/module/CoreModule.py:CoreModule.sum", "richard/module/CoreModule.py:CoreModule.avg", "richard/module/CoreModule.py:CoreModule.arg_min", "richard/module/CoreModule.py:CoreModule.arg_max", "richard/module/CoreModule.py:CoreModule.determiner_all", "richard/module/InferenceModule.py:InferenceModule.solve_rule", "richard/core/Solver.py:Solver.solve_single"]}
{"id": "C90", "title": "what is stored in a database is found", "statement": "When the relations of a memory module are tables of an SQL database: store adds to the tables exactly its atoms with their variables replaced, in order and after all that was there, and raises nothing; after any history of stores a query finds exactly the answers that the stored facts have, and changes nothing. Storing a list raises and changes nothing. The relations of the dialog context do the same as the statements for their tables.", "quantifier": "all relations whose names are words of SQL, all histories of any length, all values that are texts or numbers, all queries over these relations, engines that compare values exactly", "why_tests_cant": "The tests store and read back a few facts; that no history of stores loses or mixes up a fact in its way through the texts of the statements can not be tested.", "anchors": ["richard/module/SimpleMemoryModule.py:SimpleMemoryModule.query", "richard/module/SimpleMemoryModule.py:SimpleMemoryModule.write", "richard/module/SimpleMemoryModule.py:SimpleMemoryModule.add_relation", "richard/data_source/Sqlite3DataSource.py:Sqlite3DataSource.select", "richard/data_source/Sqlite3DataSource.py:Sqlite3DataSource.insert", "richard/module/CoreModule.py:CoreModule.store", "richard/core/Solver.py:Solver.write_atom"]}
{"id": "C91", "title": "data sources that may fail give an exception or the right answer", "statement": "When the modules with the facts may raise an exception, or not answer, on any query and at any moment (a server that is down, a value that the database can not take), then still whatever a query returns is right: the answers are sound and complete over the rows and the rules and none is there twice, and the same holds for what is returned for a whole text, with the optimiser or without. A failure is never taken for the absence of facts, also not inside negation, quantifiers, counting or rules. A module that reads tables of an SQL database with the select function of the data sources is such a module.", "quantifier": "all modules that may fail, all rule sets, all queries of C71 and all texts of C77 and C88, all databases and tables, all ways of failing", "why_tests_cant": "A test can make one query to a failing source raise; that no failure at any depth of any query is turned into a wrong answer can not be tested.", "anchors": ["richard/core/Solver.py:Solver.solve", "richard/core/Solver.py:Solver.solve_single", "richard/core/Solver.py:Solver.find_relation_values", "richard/core/System.py:System.enter", "richard/module/CoreModule.py:CoreModule.not_function", "richard/module/CoreModule.py:CoreModule.determiner_all", "richard/module/InferenceModule.py:InferenceModule.handle_rule", "richard/data_source/Sqlite3DataSource.py:Sqlite3DataSource.select", "richard/data_source/MySqlDataSource.py:MySqlDataSource.select", "richard/data_source/PsycoPg2DataSource.py:PsycoPg2DataSource.select", "richard/data_source/PsycoPg3DataSource.py:PsycoPg3DataSource.select"]}
{"id": "C92", "title": "recursive rules return exactly if the calls come to an end", "statement": "A query over stored rows and rules, recursive or not, returns exactly if there is no endless chain of calls that begins with one of its atoms, where an atom of the body of a rule is called with the values that are known after the atoms before it have an answer. When the calls go down in some level, the depth that is needed is bounded by that level. So for the usual rules of a transitive relation and every table: a question returns exactly if there is no endless path of stored pairs from the value asked for; over a table without cycles it returns and gives exactly the pairs that are connected by a path. With the recursive atom in front no question ever returns.", "quantifier": "all rule sets with bound heads, all queries and bindings, all tables; all depths for what does not return", "why_tests_cant": "That a query never returns can not be observed, and that recursion returns for all tables neither.", "anchors": ["richard/module/InferenceModule.py:InferenceModule.solve_rule", "richard/module/InferenceModule.py:InferenceModule.handle_rule", "richard/core/Solver.py:Solver.solve", "richard/core/Solver.py:Solver.find_relation_values"]}
{"id": "C93", "title": "the reply to a question lists exactly what satisfies it", "statement": "When a sentence has the meaning intent_list(x, q), intent_value(x, q) or intent_yn(q), with the rules for these intents that the example systems use, and the intent returns, then the output that is generated from it is right: for intent_list the format function is applied to a list in which every value of x with which q can be satisfied over the rows and the rules occurs precisely once; for intent_value the output is such a value, and if there is none the intent fails and nothing is stored; for intent_yn the output is the text for yes if q can be satisfied and the text for no if it can not. If the format does not depend on the order of its elements then the output is a function of what satisfies q alone. Generating the output empties the output buffer again, so that nothing of a reply is left for the next turn. Over rules that go down the intent returns or raises.", "quantifier": "all knowledge bases, queries with negation, quantifiers, numbers and alternatives, variables, write grammars in which the first rule for the type of output has the usual form, all format functions", "why_tests_cant": "The tests compare a few replies with their texts; that no reply lacks an answer or has one too many can not be tested.", "anchors": ["richard/module/CoreModule.py:CoreModule.find_all", "richard/module/CoreModule.py:CoreModule.find_one", "richard/module/CoreModule.py:CoreModule.scoped", "richard/module/CoreModule.py:CoreModule.store", "richard/module/InferenceModule.py:InferenceModule.solve_rule", "richard/core/BasicGenerator.py:BasicGenerator.find_rule", "richard/core/BasicGenerator.py:BasicGenerator.generate_output", "richard/module/BasicOutputBuffer.py:BasicOutputBuffer.clear", "richard/core/Solver.py:Solver.solve"]}
{"id": "C94", "title": "a typed question gets the right reply", "statement": "When a text that can be derived from a grammar whose sentences are questions for a list, questions for a value and yes/no questions is entered, at any point of a session, and a reply is generated, then the reply is right for the first of the ranked trees of the text: for a list, it is the format of a list that holds every value that the content of the question is true of precisely once; for a value, it is such a value; for a yes/no question it is the text for yes if the content is true and the text for no if it is not. The content is what the parts of the sentence mean together, with its determiners and numerals. The world is as it was before, so this holds for every question of a dialog, and a dialog test that passes has right replies. When the functions of the grammar return and the calls of the rules go down, then with enough steps there always is such a reply, or the exception that the query raises, or that the format raises, or that no rule is found for a value that is not there.", "quantifier": "all grammars in which only roots are questions and all other rules build their meanings from the meanings of their parts, all texts, sessions, rows, (recursive) rules, formats and dialogs", "why_tests_cant": "A test compares one reply over one set of facts; the parser, the composer, the solver, the intents, the buffer and the generator all have to be right for all sentences and facts for this to hold.", "anchors": ["richard/core/System.py:System.enter", "richard/core/System.py:System.read_output", "richard/core/DialogTester.py:DialogTester.do_run", "richard/processor/semantic_composer/SemanticComposer.py:SemanticComposer.process", "richard/processor/parser/BasicParser.py:BasicParser.process", "richard/core/Solver.py:Solver.solve", "richard/module/CoreModule.py:CoreModule.find_all", "richard/module/CoreModule.py:CoreModule.find_one", "richard/module/CoreModule.py:CoreModule.store", "richard/core/BasicGenerator.py:BasicGenerator.generate_output"]}
{"id": "C95", "title": "a typed question gets the right reply when its query is optimised", "statement": "The example systems give the composer a query optimiser. It sees a question as one atom, the intent, and sorts the content that is its argument. If what comes earlier or later in the content does not matter, also inside its parts, then everything that holds for a typed question without the optimiser (C94) holds with it: the reply is right, the world is as it was before, a dialog test that passes has right replies, and with enough steps there always is such a reply or an exception of the kinds that C94 gives. The optimiser itself does not raise, if the sizes of the relations are given for all arguments or not at all.", "quantifier": "all grammars, texts, sessions, rows, (recursive) rules, formats and dialogs of C94, and all sizes of relations", "why_tests_cant": "Whether the order matters depends on the sizes of the relations and on the whole of the query; a test has one query and one set of sizes.", "anchors": ["richard/processor/semantic_composer/optimizer/BasicQueryOptimizer.py:BasicQueryOptimizer.optimize", "richard/processor/semantic_composer/SemanticComposer.py:SemanticComposer.process", "richard/core/System.py:System.enter", "richard/core/System.py:System.read_output", "richard/core/DialogTester.py:DialogTester.do_run"]}
{"id": "C96", "title": "in a dialog with questions and unreadable texts each gets its reply", "statement": "The write grammar of a system has the rules of en_us_write and rules for replies to questions. Whatever text is entered, at any point of a session, with or without the optimiser: if the turn returns, then a text that can be derived from the grammar has got the right reply (C94, C95), and a text that can not be derived has got the message that it could not be understood, with the first nine characters after the longest part that can be read from the left. A text that is not understood changes nothing but the memory of the parser, not the facts, not the output buffer and not the names of variables, so that the questions after it get the replies they would have got without it. A dialog test that passes expects such a reply for each of its texts. With enough steps, a text without a derivation always gets that message, unless all of it can be read; in that case the turn raises, because there is no relation for that error.", "quantifier": "all grammars, texts, sessions, rows, (recursive) rules, formats, optimisers and dialogs of C94 and C95, and all texts that are no questions of the grammar", "why_tests_cant": "A test has one dialog; that a text that is not understood leaves no traces in later replies has to hold for all dialogs.", "anchors": ["richard/core/System.py:System.enter", "richard/core/System.py:System.read_output", "richard/core/DialogTester.py:DialogTester.do_run", "richard/grammar/en_us_write.py:get_en_us_write_grammar", "richard/processor/parser/BasicParser.py:BasicParser.process", "richard/core/BasicGenerator.py:BasicGenerator.generate_output", "richard/module/CoreModule.py:CoreModule.store"]}
{"id": "C97", "title": "what was parsed before does not matter for a turn", "statement": "Every parse leaves a start rule behind in the grammar. Whatever texts were parsed before: a turn with a text has the same outcome, the same reply or the same exception, with the same facts, rules, output buffer and names of variables after it. The same holds for a dialog test. So texts that were not understood can be left out of a dialog: if a dialog test passes, then the test with only the texts that can be derived from the grammar passes too, and ends with the same facts and names.", "quantifier": "all grammars, texts, histories of texts, models, write grammars, optimisers and sessions; for leaving texts out, those of C96", "why_tests_cant": "The memory of the parser grows with every text; a test has a few texts, in one order.", "anchors": ["richard/processor/parser/earley/EarleyParser.py:EarleyParser.parse", "richard/processor/parser/BasicParser.py:BasicParser.process", "richard/core/System.py:System.enter", "richard/core/DialogTester.py:DialogTester.do_run", "richard/block/FindOne.py:FindOne.process", "richard/block/TryFirst.py:TryFirst.process"]}
{"id": "C98", "title": "statistics do not change answers", "statement": "The solver can count how often each predicate is asked for. Whether it counts or not: a query and a write have the same outcome, the same answers or the same exception, and leave the same facts, rules and memories behind, for every model whose modules do not look at the statistics. This holds for the modules of the library. The executor of sentences has the same outcome with statistics as without, starts them anew for each sentence, and adds to its product the statistics of its solver when it is done. Without the flag nothing is counted.", "quantifier": "all models of library modules, worlds, queries, bindings, depths and statistics that are there before", "why_tests_cant": "Tests are run with or without statistics, on some queries; that the two never differ is about all queries.", "anchors": ["richard/core/Solver.py:Solver.solve_single", "richard/core/Solver.py:Solver.solve", "richard/processor/semantic_executor/AtomExecutor.py:AtomExecutor.process", "richard/core/Logger.py:Logger.should_log_stats"]}
{"id": "C99", "title": "what the numbers in the statistics say", "statement": "For a query over stored facts the number of a predicate in the statistics goes up by the sum, over the occurrences of the predicate in the query, of the number of ways to satisfy the atoms before that occurrence. A predicate that is not reached keeps its number, or has none. What is asked for inside a negation or an alternative is counted too, after the negation or the disjunction itself. What is logged of the statistics determines them, with the predicates in their order.", "quantifier": "all tables, queries, bindings, depths and statistics that are there before; for the log all statistics of predicates whose names are on one line", "why_tests_cant": "The numbers are products of the sizes of intermediate results; a test has one set of tables.", "anchors": ["richard/core/Solver.py:Solver.solve_single", "richard/core/Solver.py:Solver.solve", "richard/processor/semantic_executor/AtomExecutorProduct.py:AtomExecutorProduct.log"]}
{"id": "C100", "title": "several languages", "statement": "In a system with a parser for each of several languages, a turn with a text is the turn of the first language whose parser understands the text, or of the last language if there is none, with the same reply or exception, the same facts, rules and names of variables; the parsers of the languages before it have only been tried. So a question that can be derived in one of the languages gets the right reply, for the first language in which it can be derived, and a text that can be derived in none gets the message about it of the last language. The same holds for dialogs in which the languages alternate.", "quantifier": "all lists of languages, grammars, texts, models, write grammars, optimisers and sessions; for the replies, grammars of questions as in C96 for every language", "why_tests_cant": "The test has two languages and two sentences, and checks only the parse trees.", "anchors": ["richard/processor/language_selector/LanguageSelector.py:LanguageSelector.process", "richard/processor/language_selector/Multilingual.py:Multilingual.process", "richard/block/FindOne.py:FindOne.process", "richard/core/System.py:System.enter", "richard/core/DialogTester.py:DialogTester.do_run"]}
{"id": "C101", "title": "generating output returns", "statement": "If in a write grammar every rule needs only categories of a lower rank, or is followed in its category by other rules that all have no condition, and the conditions return, then generating output returns, with a text, another value or an exception: the depth of the calls is at most the number of rules plus one, times the number of ranks. Conditions about the output buffer return, whatever the buffer contains. Without this order of the rules generation can go on for ever, also when a rule that would end it is present and applies.", "quantifier": "all write grammars with such an order, of any size, all solvers, contents of the output buffer, values and states of the world", "why_tests_cant": "That something returns for all contents of the buffer cannot be observed; a test shows it for one.", "anchors": ["richard/core/BasicGenerator.py:BasicGenerator.generate_output", "richard/core/BasicGenerator.py:BasicGenerator.generate_node", "richard/core/BasicGenerator.py:BasicGenerator.find_rule", "richard/module/BasicOutputBuffer.py:BasicOutputBuffer"]}
{"id": "C102", "title": "parse trees on one line", "statement": "A parse tree is written on one line as its category with its parts in brackets, separated by single spaces, words with their category and in quotes; words that are a single space are left out. Two trees have the same line exactly if the same is visible of them, provided that categories have no spaces, quotes and brackets, and words no quotes. So an assertion about the line is an assertion about the tree.", "quantifier": "all parse trees of any size and depth", "why_tests_cant": "The tests of the parser compare such lines; that different trees never look the same is about all pairs of trees.", "anchors": ["richard/entity/ParseTreeNode.py:ParseTreeNode.inline_str"]}
{"id": "C103", "title": "asking for one answer", "statement": "Asking the solver for one answer gives the first of all answers, and None exactly if there are none; over fact tables this is an assignment under which all atoms are stored, or None if there is none. Exceptions are passed on, and answers that are only counted can not be taken. A query without variables that holds gives the empty dictionary, which counts as false.", "quantifier": "all solvers, queries, bindings and worlds; for the tables all fact tables and conjunctive queries over them", "why_tests_cant": "The two modules that use it ask one kind of query each.", "anchors": ["richard/interface/SomeSolver.py:SomeSolver.solve1"]}
{"id": "C104", "title": "rules taught between questions", "statement": "In a session in which rules are taught and questions are asked in any order, each question gets exactly the answers that follow from the stored rows, the initial rules and the rules taught before it, each once. No step raises an exception, answers given once are given again later, a fact that was taught is known from then on, and the session returns if the rules are not recursive. At the end the inference module holds the initial and the taught rules in order, with the variables that were bound filled in. Teaching a rule for learn_rule itself switches learning off.", "quantifier": "all sessions of any length, tables, rules, questions and bindings", "why_tests_cant": "The tests teach a handful of rules in one dialog.", "anchors": ["richard/module/InferenceModule.py:InferenceModule.learn_rule", "richard/module/InferenceModule.py:InferenceModule.insert_rule", "richard/module/InferenceModule.py:InferenceModule.handle_rule", "richard/core/Solver.py:Solver.solve"]}
{"id": "C105", "title": "sentences that teach a rule", "statement": "With the intent that learns a rule and replies OK, a sentence that teaches a rule always returns with the text for ok, stores the rule behind the rules that were there with the given values filled in, and leaves the output buffer empty and everything else as it was. In a session of such sentences and questions in any order each question gets exactly the answers that follow from the stored rows, the initial rules and the rules taught before it, each once, and no turn raises an exception. The rule may not have variables with the names that the intent uses: these are replaced by the head or the body.", "quantifier": "all sessions of any length, tables, rules, values, questions and bindings, all write grammars with a text for ok", "why_tests_cant": "The test teaches some forty sentences in one dialog, with one set of variable names.", "anchors": ["richard/module/InferenceModule.py:InferenceModule.learn_rule", "richard/module/InferenceModule.py:InferenceModule.solve_rule", "richard/module/CoreModule.py:CoreModule.let", "richard/module/CoreModule.py:CoreModule.store", "richard/core/BasicGenerator.py:BasicGenerator.generate_output"]}
{"id": "C106", "title": "rules learned while rules are tried", "statement": "The loop over the rules of a predicate also visits rules that are added to the predicate while the loop runs. As long as no rule is added to a predicate whose rules are being tried, this makes no difference: whatever is returned is what a loop over the rules as they were at the start returns. For questions to a program of tables and rules, and for sessions in which rules are taught by sentences, both loops have the same outcome. A rule that adds to its own predicate shows the difference.", "quantifier": "all modules that pass on exceptions, all queries, bindings and worlds; for programs all tables, rules and questions", "why_tests_cant": "No test learns a rule while rules of the same predicate are being tried.", "anchors": ["richard/module/InferenceModule.py:InferenceModule.handle_rule", "richard/module/InferenceModule.py:InferenceModule.insert_rule", "richard/module/InferenceModule.py:InferenceModule.learn_rule"]}
{"id": "C107", "title": "sentences that tell facts", "statement": "With the intent that stores what is told and replies OK, a sentence that tells facts always returns with the text for ok, stores the facts behind what was stored with the given values filled in, and leaves the output buffer empty and everything else as it was; rows in tables and rules for the same predicates are no hindrance. In a session of such sentences and questions in any order each question gets exactly the answers that follow from the tables, the rules, what was known at the start and what was told before it, each once, and no turn raises an exception. A fact whose predicate only has rules is lost although the reply is OK; a fact without any relation raises an exception, and the facts before it in the sentence stay.", "quantifier": "all sessions of any length, tables, rules, memory relations, facts, values, questions and bindings, all write grammars with a text for ok", "why_tests_cant": "The tests tell some facts in one dialog, and none about a predicate with rules.", "anchors": ["richard/module/CoreModule.py:CoreModule.store", "richard/core/Solver.py:Solver.write_atom", "richard/module/SimpleMemoryModule.py:SimpleMemoryModule.write", "richard/module/InferenceModule.py:InferenceModule.solve_rule", "richard/core/BasicGenerator.py:BasicGenerator.generate_output"]}
{"id": "C108", "title": "sessions in which rules are taught and facts are told", "statement": "In a session in which sentences teach rules, sentences tell facts and questions are asked, in any order, each sentence that teaches or tells gets the text for ok and each question exactly the answers that follow from the tables, the rules and facts of the start, and what was taught and told before it, each once. No turn raises an exception. At the end the inference module holds the intents, the rules of the start and the taught rules in order, the memory module the facts of the start and the told facts in order, and nothing else has changed.", "quantifier": "all sessions of any length, tables, rules, memory relations, facts, values, questions and bindings, all write grammars with a text for ok", "why_tests_cant": "The tests have one dialog of this kind.", "anchors": ["richard/module/InferenceModule.py:InferenceModule.learn_rule", "richard/module/InferenceModule.py:InferenceModule.handle_rule", "richard/module/CoreModule.py:CoreModule.store", "richard/core/Solver.py:Solver.write_atom", "richard/module/SimpleMemoryModule.py:SimpleMemoryModule.write", "richard/core/BasicGenerator.py:BasicGenerator.generate_output"]}
{"id": "C109", "title": "a claim is checked before it is stored", "statement": "With the two rules for claims in their order (refuse a claim whose check fails; store a claim whose check succeeds), a claim whose check has no answers gets the text for impossible, and nothing is stored. A claim whose check has an answer gets the text for understand, its facts are stored in order behind what was stored, and nothing else has changed. Each claim gets just one of the two replies, although both rules are tried and the first changes the output and the second what is known.", "quantifier": "all worlds, tables, memory relations, facts, values and checks that do not depend on the output buffer, all write grammars with texts for the two types", "why_tests_cant": "The tests have one claim that is refused, and none that changes the outcome of its own check.", "anchors": ["richard/module/InferenceModule.py:InferenceModule.handle_rule", "richard/module/CoreModule.py:CoreModule.not_function", "richard/module/CoreModule.py:CoreModule.store", "richard/core/Solver.py:Solver.write_atom", "richard/core/BasicGenerator.py:BasicGenerator.generate_output", "tests/integration/sir/intents.pl"]}
{"id": "C110", "title": "claims never make the memory contradict itself", "statement": "In a session of claims about a relation, with a check that refuses a claim whose converse is stored, each claim gets the text for impossible if its converse was stored at the start or accepted before, and else the text for understand, and is stored. No claim raises an exception and nothing else changes. So, however many claims are made, the memory never holds a record and its converse for two different names, if it did not at the start.", "quantifier": "all sessions of any length, names, relations, worlds, tables, facts of the start, all write grammars with texts for the two types", "why_tests_cant": "A test has a few claims in one order; contradictions may come from any two claims of a long session.", "anchors": ["richard/module/InferenceModule.py:InferenceModule.handle_rule", "richard/module/CoreModule.py:CoreModule.destructure", "richard/module/CoreModule.py:CoreModule.not_function", "richard/module/CoreModule.py:CoreModule.store", "richard/module/SimpleMemoryModule.py:SimpleMemoryModule.query", "richard/core/BasicGenerator.py:BasicGenerator.generate_output", "tests/integration/sir/intents.pl", "tests/integration/sir/inferences.pl"]}
{"id": "C111", "title": "the reply to a question with several cases", "statement": "If an intent is a list of cases, each with conditions and a type of reply, the reply is the text for the first case whose conditions have an answer, however many answers they have and although the type is stored once for each of them; later cases have no effect, and afterwards nothing has changed. So in a session of such questions each gets its own reply, whatever was asked before. If no case applies there are no answers, nothing has changed, and generating the reply raises an exception.", "quantifier": "all sessions, lists of cases, conditions that return and do not depend on the output buffer, bindings, worlds and modules, all write grammars with a text for the type", "why_tests_cant": "Tests have single questions for a few cases, where the conditions have few answers.", "anchors": ["richard/core/Solver.py:Solver.solve_disjunction", "richard/core/Solver.py:Solver.solve", "richard/module/CoreModule.py:CoreModule.store", "richard/core/BasicGenerator.py:BasicGenerator.generate_output", "tests/integration/sir/intents.pl"]}

#!/usr/bin/env python3
"""Writes /verif/properties.jsonl (one JSON object per property)."""
import json, pathlib
P = []
def p(id, title, statement, quantifier, why, anchors):
    P.append(dict(id=id, title=title, statement=statement, quantifier=quantifier, why_tests_cant=why, anchors=anchors))
R = "richard/"
S = R+"core/Solver.py"
CM = R+"module/CoreModule.py"
IM = R+"module/InferenceModule.py"
EP = R+"processor/parser/earley/EarleyParser.py"
TE = R+"processor/parser/earley/tree_extract.py"

p("C01", "solve only extends the caller's binding",
  "Every binding returned by Solver.solve(atoms, binding) contains every key of the given binding with the same value; no relation, rule or built-in can rewrite or drop a variable the caller already bound.",
  "all models (any list of modules with arbitrary, possibly side-effecting relations), all worlds, all lists of atoms, all incoming bindings",
  "A test fixes one model and a few bindings; the guarantee has to hold whatever rows a user-written relation returns.",
  [S+":Solver.solve", S+":Solver.create_solve_single_results"])
p("C02", "solve binds every variable it was asked about",
  "In every binding returned by solve, each variable that occurs as a direct argument of one of the (non-disjunction) atoms is bound.",
  "all models, worlds, atom lists and incoming bindings",
  "Callers index result[var] without checking; a single missing key is a KeyError at run time for some unlucky model.",
  [S+":Solver.create_solve_single_results"])
p("C03", "conjunction composes",
  "The empty conjunction returns exactly the given binding, and solving A followed by B returns exactly the bindings obtained by solving B from each result of solving A, for side-effect free relations.",
  "all pure models, all pairs of atom lists, all incoming bindings",
  "Splitting of a conjunction is possible at unboundedly many places and nesting depths.",
  [S+":Solver.solve"])
p("C04", "no duplicate answers",
  "solve never returns the same binding twice.",
  "all models, all atom lists, all incoming bindings",
  "Duplicates only appear for particular combinations of rows, constants and bound variables.",
  [S+":Solver.solve", S+":Solver.find_relation_values"])
p("C05", "a query over fact tables returns exactly the satisfying assignments",
  "When every predicate in the query is backed by stored rows, the returned bindings are, one for one, the assignments of the query's variables under which every atom is a stored row and which agree with the incoming binding: nothing missing, nothing invented.",
  "all finite tables, all conjunctions (any length, repeated variables, constants), all incoming bindings",
  "The space of table contents and join shapes is unbounded; tests cover a handful of joins.",
  [S+":Solver.solve", S+":Solver.solve_single", S+":Solver.model_values_2_db_values"])
p("C06", "answers do not depend on the order of the atoms",
  "Over fact tables, reordering the atoms of a query never changes the set of answers.",
  "all finite tables, all conjunctions, all permutations of the atoms",
  "n! orders for each of unboundedly many queries.",
  [S+":Solver.solve", R+"processor/semantic_composer/optimizer/SortByCost.py:SortByCost.sort"])
p("C07", "row deduplication never merges different rows",
  "The solver removes duplicate rows by comparing their printed form; two rows are merged only if they are equal rows.",
  "all rows built from None, numbers, strings (with any quotes, backslashes, control characters), nested lists and tuples and variables with legal names",
  "Collisions of printed forms live in odd corners of quoting and escaping.",
  [S+":Solver.find_relation_values"])
p("C08", "inference is sound",
  "Every answer returned for a query over inference rules is a logical consequence of the rules and facts.",
  "all finite sets of Prolog-style rules and facts (recursive ones included), all queries, all incoming bindings, all runs that return",
  "Proof trees are unbounded in depth and variable names of caller and rule can clash in unboundedly many ways.",
  [IM+":InferenceModule.handle_rule", IM+":InferenceModule.solve_rule"])
p("C09", "inference is complete whenever it returns",
  "If a query over inference rules whose head variables all occur in the body returns at all, then it returns every logical consequence that matches the query.",
  "all finite range-restricted rule sets (recursive ones included), all queries, all runs that return",
  "Missing answers are invisible to tests that do not know the full answer set.",
  [IM+":InferenceModule.handle_rule", IM+":InferenceModule.solve_rule", S+":Solver.solve"])
p("C10", "queries over non-recursive rules always return",
  "If the rules do not depend on themselves (directly or indirectly), every query over them terminates and raises no exception.",
  "all finite non-recursive rule sets of any depth, all queries, all incoming bindings",
  "Termination is a statement about all inputs.",
  [IM+":InferenceModule.solve_rule", S+":Solver.solve"])
p("C11", "learned rules persist, in order",
  "After learn_rule (or insert_rule / import_rules) the rules stored for a predicate are exactly those inserted for it, in insertion order, and each of them contributes to every later query; earlier rules are never lost.",
  "all histories of rule insertions, interleaved over any number of predicates",
  "History-quantified: the order and interleaving of insertions is unbounded.",
  [IM+":InferenceModule.insert_rule", IM+":InferenceModule.learn_rule", IM+":InferenceModule.handle_rule"])
p("C12", "disjunction takes the first alternative that has answers",
  "A disjunction in a rule body yields precisely the answers of its first alternative that has any; it yields none only if no alternative has any.",
  "all models, all lists of alternatives, all incoming bindings",
  "Number and nesting of alternatives is unbounded.",
  [S+":Solver.solve_disjunction"])
p("C13", "negation and scoping succeed exactly when they should and bind nothing",
  "'not' and 'none' succeed iff the body has no answers, 'scoped' iff it has one; all three leave the binding as it was, so body variables never leak; and not(not(B)) behaves like scoped(B).",
  "all models, all bodies, all incoming bindings",
  "Leaks depend on which names the body happens to use.",
  [CM+":CoreModule.not_function", CM+":CoreModule.determiner_none", CM+":CoreModule.scoped"])
p("C14", "counting determiners are exact",
  "'count' binds the number of answers of its body, and det_equals / det_greater_than / det_less_than succeed iff that number is equal to / above / below the given one; also when the body yields a ResultIterator.",
  "all models, bodies, numbers and incoming bindings",
  "Off-by-one and boundary behaviour over all counts.",
  [CM+":CoreModule.count", CM+":CoreModule.determiner_equals", CM+":CoreModule.determiner_greater_than", CM+":CoreModule.determiner_less_than"])
p("C15", "aggregates are exact",
  "'sum' and 'avg' return the exact sum and mean of the element variable over the answers of the body; 'arg_min'/'arg_max' return an entity whose element value is minimal/maximal, the first such in answer order; 'percentage' is 100 times the ratio of the two answer counts; avg, arg_min, arg_max, percentage fail on no answers.",
  "all answer lists of any length",
  "Ties, order and empty answer lists of every length.",
  [CM+":CoreModule.sum", CM+":CoreModule.avg", CM+":CoreModule.arg_min", CM+":CoreModule.arg_max", CM+":CoreModule.percentage"])
p("C16", "find_all returns the distinct values in first-seen order",
  "find_all returns each distinct value (or tuple of values) of the requested variable(s) exactly once, in the order of first appearance, and find_one its first element, failing iff there is none.",
  "all models, bodies, variables and incoming bindings",
  "All multiplicities and orders of the answer list.",
  [CM+":CoreModule.find_all", CM+":CoreModule.find_one"])
p("C17", "universal quantification is exact",
  "'all' yields the distinct entities of the range, each once and in order, if the body has an answer for every one of them, and yields nothing otherwise.",
  "all models, ranges, bodies and incoming bindings",
  "A quantifier over a set of unbounded size.",
  [CM+":CoreModule.determiner_all", R+"type/OrderedSet.py:OrderedSet"])
p("C18", "stored facts can be read back",
  "After any sequence of 'store' calls on a memory module, querying the relation returns exactly the stored tuples that match, in the order they were stored; bound variables are replaced by their values at store time.",
  "all histories of stores over any relations, all later queries",
  "Quantifies over histories.",
  [CM+":CoreModule.store", S+":Solver.write_atom", R+"module/SimpleMemoryModule.py:SimpleMemoryModule", R+"data_source/SimpleDataSource.py:SimpleDataSource"])
p("C19", "an unknown predicate is reported, never treated as false",
  "Solving or storing an atom whose predicate no module defines raises an exception; it never returns an empty answer.",
  "all models, worlds, predicates, arguments and bindings",
  "Silent failure would look like a correct 'no' in a test.",
  [S+":Solver.find_relation_values", S+":Solver.write_atom", R+"core/Model.py:Model.find_relations"])
p("C20", "variable substitution is correct",
  "bind_variables replaces exactly the bound variables at any depth, leaves everything else and the list/tuple structure unchanged; get_atom_variables reports exactly the variables that occur; afterwards the remaining variables are exactly the unbound ones plus those in the inserted values; substituting twice equals substituting once when the values are closed.",
  "all nested list/tuple terms of any depth, all bindings",
  "Depth and shape of terms is unbounded.",
  [R+"core/atoms.py:bind_variables", R+"core/atoms.py:get_atom_variables"])
p("C21", "destructure takes an atom apart faithfully",
  "If 'destructure' matches, putting its result back under the pattern gives the original atom; on any mismatch of length or constant it reports no match.",
  "all atoms and patterns of any length",
  "All lengths and constant/variable patterns.",
  [CM+":CoreModule.destructure"])
p("C22", "more search depth never changes an answer",
  "Solver.solve is deterministic: two runs from the same world with any recursion budgets that suffice return the same answers, the same final world, or the same exception.",
  "all models, worlds, atoms, bindings and recursion budgets",
  "Runs can be arbitrarily deep.",
  [S+":Solver.solve"])
p("C23", "the in-memory data source behaves like a log of records",
  "After any sequence of insert and clear, SimpleDataSource.select returns, in insertion order, the projections of exactly those records inserted since the last clear that agree with every given (non-None) value.",
  "all histories of inserts and clears over any tables, all selects",
  "Quantifies over histories.",
  [R+"data_source/SimpleDataSource.py:SimpleDataSource"])
p("C24", "SQL text never contains data",
  "In the sqlite, MySQL and Postgres adapters the text of every SQL statement depends only on the table, the columns and on which values are None; it has exactly as many placeholders as parameters, and the parameters are the non-None values in column order.",
  "all tables, columns and value lists, of any content",
  "Injection safety is a statement about every possible value.",
  [R+"data_source/Sqlite3DataSource.py", R+"data_source/MySqlDataSource.py", R+"data_source/PsycoPg2DataSource.py", R+"data_source/PsycoPg3DataSource.py"])
p("C25", "dialog contexts are restored",
  "with_context makes the context active during the body and leaves exactly the contexts active that were active before; end_context after start_context leaves the context inactive.",
  "all histories of context operations, all nestings, all bodies including ones that raise",
  "Nesting depth and exception points are unbounded.",
  [R+"module/BasicDialogContext.py:BasicDialogContext"])
p("C26", "the SPARQL result cache is transparent and queries at most once",
  "With a result cache, a repeated select returns what the first one returned without contacting the server again, and different requests never share a cache entry (up to SHA-1 collisions).",
  "all histories of selects, all server behaviours",
  "Quantifies over histories and over all request strings.",
  [R+"data_source/SparqlDataSource.py:SparqlDataSource.select"])
p("C27", "SPARQL rows echo the request",
  "Every row returned by the SPARQL source has two columns; a column whose value was given holds that value and the other columns hold the server's value for that column's own variable.",
  "all requests and all server responses",
  "All response contents.",
  [R+"data_source/SparqlDataSource.py:SparqlDataSource.prepare_results"])
p("C28", "CSV import loads every data line",
  "Importing a CSV file inserts exactly one record per non-empty line after the header, in file order, pairing each header with its cell.",
  "all files (any number of lines, blank lines anywhere)",
  "All file shapes.",
  [R+"data_source/CsvImporter.py:CsvImporter"])
p("C29", "every parse tree is a derivation of the sentence",
  "Every tree returned by the Earley parser is rooted in 's', each inner node applies a rule (variant) of the grammar to its children, and its leaves spell out the whole input text in order.",
  "all grammars without empty rules (any size, ambiguous, left- or right-recursive), all texts",
  "Chart parsers fail on rare grammar shapes; the set of grammars and texts is infinite.",
  [EP+":EarleyParser.parse", TE+":extract_tree_roots", TE+":find_state_sequences"])
p("C30", "every derivation of the sentence is found",
  "If the text can be derived from 's', the parser returns a tree for each derivation (identifying rules with the same syntax).",
  "all grammars without empty rules, all texts, all derivations, whenever tree extraction returns",
  "Completeness of a chart parser depends on the agenda order for every grammar.",
  [EP+":EarleyParser.buildChart", EP+":EarleyParser.predict", EP+":EarleyParser.scan", EP+":EarleyParser.complete", TE+":create_trees_for_state"])
p("C31", "chart construction terminates without an exception",
  "For a grammar without empty rules or empty words, building the chart terminates and raises no exception for any text, even for left-recursive and cyclic grammars.",
  "all such grammars, all texts",
  "Termination over all inputs.",
  [EP+":EarleyParser.buildChart", R+"processor/parser/earley/entity/Chart.py:Chart.enqueue"])
p("C32", "tree extraction never looks up a missing chart entry",
  "While extracting trees the parser never hits a KeyError or IndexError on the chart.",
  "all grammars without empty rules, all texts",
  "An invariant over all reachable charts.",
  [TE+":find_state_sequences", R+"processor/parser/earley/entity/Chart.py:Chart.index_completed_state"])
p("C33", "parsing has no memory",
  "Parsing a sentence gives the same trees in the same order no matter which sentences were parsed before with the same grammar object, although each parse adds a rule to that grammar.",
  "all grammars, all histories of parsed texts",
  "Quantifies over histories.",
  [EP+":EarleyParser.buildChart", R+"entity/GrammarRules.py:GrammarRules.add_rule"])
p("C34", "a parse either succeeds or reports one reason",
  "The parser reports an error iff it returns no tree; the error is 'unknown_word' with the first characters that could not be consumed (the text following the longest consumed prefix, cut at nine characters) if there are any, otherwise 'no_sentence' for the empty text and 'not_understood' for any other.",
  "all grammars and texts",
  "All failure positions.",
  [EP+":EarleyParser.parse", R+"processor/parser/earley/unknown_word.py:find_unknown_word"])
p("C35", "whitespace does not matter",
  "Two texts that differ only in the amount or kind of whitespace between words are parsed identically; normalisation is idempotent and its result has no two adjacent whitespace characters.",
  "all texts",
  "All whitespace patterns.",
  [R+"processor/parser/BasicParser.py:BasicParser.process"])
p("C36", "optional constituents are expanded to exactly the intended variants",
  "The variants of a grammar rule keep all mandatory non-separator constituents in order, each optional constituent is independently present or absent, an absent one takes its separator with it (no doubled, leading or trailing separators), and a rule without optional parts has itself as only variant.",
  "all rules of any length with any placement of optional constituents",
  "2^k variants for every rule shape.",
  [R+"entity/GrammarRules.py:GrammarRules.create_rule_variants", R+"entity/GrammarRules.py:GrammarRules.create_rule_variants_rest"])
p("C37", "grammar lookup returns exactly the rules added",
  "find_rules(category, n) returns, in the order of addition, all variants of exactly the rules added with that antecedent category and number of arguments.",
  "all histories of add_rule",
  "Quantifies over histories.",
  [R+"entity/GrammarRules.py:GrammarRules.add_rule", R+"entity/GrammarRules.py:GrammarRules.find_rules"])
p("C38", "parse trees are ranked by boost, then fewest regular expressions, then depth",
  "sort_trees returns a permutation of the trees, ordered lexicographically by descending total boost, ascending number of regular-expression nodes and descending depth, and trees that tie on all three keep their order.",
  "all lists of trees",
  "All list lengths and tie patterns.",
  [R+"processor/parser/tree_sort_heuristics/BasicParseTreeSortHeuristics.py", R+"processor/parser/tree_sort_heuristics/SortByBoost.py", R+"processor/parser/tree_sort_heuristics/SortByRegExpCount.py", R+"processor/parser/tree_sort_heuristics/SortByTreeDepth.py"])
p("C39", "a regular-expression leaf matches its expression",
  "The text covered by a regular-expression constituent in a parse tree is matched by that expression.",
  "all grammars, regular expressions and texts",
  "All matches and sub-matches.",
  [EP+":EarleyParser.scan"])
p("C40", "grammar syntax round-trips",
  "Parsing the printed form of a grammar rule yields that rule again: category, argument names, words (with quotes), regular expressions, separators and optional markers.",
  "all rules of any length",
  "Encoder/decoder law over all rules.",
  [R+"processor/parser/helper/SimpleGrammarRulesParser.py:SimpleGrammarRulesParser.parse_syntax"])
p("C41", "inference rule syntax round-trips",
  "Parsing the printed form of a list of inference rules yields those rules: heads, bodies, nested bodies, disjunctions, strings with quotes, numbers and variables.",
  "all rule lists of any length and nesting depth",
  "Encoder/decoder law over all rules.",
  [R+"module/helper/SimpleInferenceRuleParser.py:SimpleInferenceRuleParser.parse"])
p("C42", "generated variables are never reused",
  "All variables handed out by a composer during its lifetime, over all sentences, are pairwise different and recognisable by their prefix.",
  "all histories of composed sentences",
  "Quantifies over histories.",
  [R+"processor/semantic_composer/helper/VariableGenerator.py:VariableGenerator"])
p("C43", "composition keeps variables apart",
  "In the meaning of a sentence two variables of different parse tree nodes are identified only if the grammar rules connect them; every variable at the top level of the composed atoms is a generated one.",
  "all parse trees of any size and all semantic attachments that build atom lists",
  "Variable capture depends on name coincidences anywhere in the tree.",
  [R+"processor/semantic_composer/SemanticComposer.py:SemanticComposer.compose", R+"processor/semantic_composer/SemanticComposer.py:SemanticComposer.create_map", R+"processor/semantic_composer/SemanticComposer.py:SemanticComposer.unify_variables"])
p("C44", "template application fills every slot",
  "After apply(template, v1, ..., vn) none of the template's placeholders is left anywhere in the result, every occurrence is replaced by the supplied atoms and everything else is unchanged, provided the supplied values do not themselves contain placeholders.",
  "all templates of any nesting depth, all values",
  "All nestings.",
  [R+"processor/parser/helper/grammar_functions.py:apply", R+"processor/parser/helper/grammar_functions.py:replace"])
p("C45", "name resolution is moved to the front and nothing is lost",
  "FrontResolveName moves all resolve_name atoms out of (nested) atom lists to the front in their original order, leaves no resolve_name atom behind in any list, keeps all other atoms in order, and is idempotent.",
  "all nested atom lists of any depth",
  "All nestings.",
  [R+"processor/semantic_composer/optimizer/FrontResolveName.py:FrontResolveName"])
p("C46", "cost sorting is a greedy permutation",
  "SortByCost returns a permutation of the atoms (inner lists sorted likewise) in which every atom has minimal cost among those not yet placed, given the variables bound by the ones before it.",
  "all atom lists of any length and nesting, all models",
  "All permutations and cost assignments.",
  [R+"processor/semantic_composer/optimizer/SortByCost.py:SortByCost"])
p("C47", "isolating independent parts preserves the answers",
  "Over fact tables and rules, IsolateIndependentParts does not change the set of answers restricted to the root variables.",
  "all conjunctions of any length, all root variables, all finite tables, all rules (for runs that return)",
  "All variable-sharing patterns.",
  [R+"processor/semantic_composer/optimizer/IsolateIndependentParts.py:IsolateIndependentParts"])
p("C48", "query optimisation preserves the answers",
  "Over fact tables and rules, executing the optimised form of a query (all three passes) gives the same set of answers for the root variables as executing the original.",
  "all conjunctions, root variables, finite tables and rules (for runs that return)",
  "Composition of three rewrites over all queries.",
  [R+"processor/semantic_composer/optimizer/BasicQueryOptimizer.py:BasicQueryOptimizer.optimize"])
p("C49", "FindOne stops at the first alternative that works",
  "A FindOne block succeeds iff one of its processor's products leads to success downstream; it tries products in order, none after the first successful one, and leaves that product current; if all fail it reports an error of the downstream block (documented: the first one).",
  "all processors, all numbers of products, all downstream blocks with side effects",
  "All alternatives and failure patterns.",
  [R+"block/FindOne.py:FindOne.process"])
p("C50", "FindAll tries every alternative",
  "A FindAll block runs the downstream block exactly once for each product, in order, and accumulates the products; it succeeds iff some product succeeds and otherwise reports the first error.",
  "all processors, all numbers of products, all downstream blocks with side effects",
  "All alternatives and failure patterns.",
  [R+"block/FindAll.py:FindAll.process"])
p("C51", "TryFirst tries only the first alternative",
  "A TryFirst block runs the downstream block for the first product only and returns its outcome.",
  "all processors, products and downstream blocks",
  "All alternatives.",
  [R+"block/TryFirst.py:TryFirst.process"])
p("C52", "the first language that parses the sentence wins",
  "In a pipeline FindOne(LanguageSelector), FindOne(Multilingual), the sentence is parsed with the first listed locale whose parser accepts it and later locales are not tried.",
  "all lists of locales, all parsers, all sentences",
  "All locale lists and failure patterns.",
  [R+"processor/language_selector/LanguageSelector.py", R+"processor/language_selector/Multilingual.py", R+"block/FindOne.py:FindOne.process"])
p("C53", "every processing error reaches the output buffer",
  "When the pipeline reports an error, System.enter stores its type and arguments in the output buffer so that the generator can report it; it does not raise.",
  "all pipelines and all error types the library produces",
  "Each error type travels a different path.",
  [R+"core/System.py:System.enter", R+"module/BasicOutputBuffer.py:BasicOutputBuffer", EP+":EarleyParser.parse"])
p("C54", "execution order inside a sentence",
  "AtomExecutor first stores the inferences, then runs the executable atoms, then solves the semantics, each once and each seeing the effects of the previous ones; if a step raises, later steps do not run.",
  "all models, worlds and composed sentences",
  "All interleavings of effects.",
  [R+"processor/semantic_executor/AtomExecutor.py:AtomExecutor.process"])
p("C55", "the generator uses the first applicable rule",
  "For a category, the generator applies the first write rule whose condition holds and has not been used yet, with the first solution of its condition, and raises if no rule applies to a mandatory constituent; an optional one produces nothing.",
  "all write grammars, worlds and argument values",
  "All rule lists and usage histories.",
  [R+"core/BasicGenerator.py:BasicGenerator.find_rule", R+"core/BasicGenerator.py:BasicGenerator.generate_node"])
p("C56", "generated output concatenates the parts in order and the buffer is emptied",
  "generate_output returns the concatenation of the words of the derivation it built, and afterwards the output buffer holds nothing, so one answer never leaks into the next.",
  "all write grammars and buffer contents",
  "All derivations and histories.",
  [R+"core/BasicGenerator.py:BasicGenerator.generate_output", R+"module/BasicOutputBuffer.py:BasicOutputBuffer.clear"])
p("C57", "the ordered set is a set that remembers insertion order",
  "Under any sequence of add, discard and clear, an OrderedSet contains exactly the elements added and not removed since, iterates them once each in order of (last) first insertion, and indexing agrees with iteration.",
  "all histories of operations",
  "Quantifies over histories.",
  [R+"type/OrderedSet.py:OrderedSet"])
p("C58", "a result iterator yields exactly its number of items",
  "Iterating a ResultIterator of size n yields exactly n pairwise different items and its length stays n.",
  "all sizes and partial iterations",
  "All n.",
  [R+"entity/ResultIterator.py:ResultIterator"])
p("C59", "grammar rules can be learned at run time",
  "learn_grammar_rule adds the rule to the grammar so that later sentences can use it.",
  "all rules",
  "Depends on every path through the rule parser.",
  [R+"module/GrammarModule.py:GrammarModule.learn_grammar_rule", R+"processor/parser/helper/SimpleGrammarRulesParser.py:SimpleGrammarRulesParser.parse_simple_rule"])
p("C60", "arithmetic comparison predicates mean what they say",
  "equals, greater_than and less_than succeed iff the relation holds between the (bound) values, equals and let bind an unbound side to the other value, multiply binds the product, and using an unbound operand of a comparison raises.",
  "all values and bindings",
  "All operand combinations.",
  [CM+":CoreModule.equals", CM+":CoreModule.greater_than", CM+":CoreModule.less_than", CM+":CoreModule.multiply", CM+":CoreModule.let"])
exec(open(pathlib.Path(__file__).parent / "props_extra.py").read()) if (pathlib.Path(__file__).parent / "props_extra.py").exists() else None
out = pathlib.Path(__file__).parent.parent / "properties.jsonl"
out.write_text("".join(json.dumps(x) + "\n" for x in P))
print(len(P))

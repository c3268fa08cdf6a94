p('C61', 'parsing returns unless unit rules form a cycle',
  'For a grammar without empty rules in which no category can be rewritten to itself by rules with a single constituent, parsing any text returns a result; with a cycle such as s -> s the extraction of trees never ends.',
  'all such grammars (left-recursive and ambiguous ones included), all texts',
  'Termination over all grammars and texts; non-termination cannot be observed by a test.',
  ['richard/processor/parser/earley/tree_extract.py:create_trees_for_state', 'richard/processor/parser/earley/EarleyParser.py:EarleyParser.parse'])
p("C62", "different SPARQL requests ask different questions",
  "Two requests for the same table and columns whose query texts are equal have equal values: no value can imitate another one in the text of the query.",
  "all requests, all values",
  "Depends on every character a value may contain (quotes, angle brackets, spaces).",
  [R+"data_source/SparqlDataSource.py:SparqlDataSource.prepare_term", R+"data_source/SparqlDataSource.py:SparqlDataSource.create_query"])
p("C63", "every derivation has its own parse tree",
  "For every derivation of the sentence by the rules of the grammar the parser returns a tree made of exactly those rules, so that no meaning of the sentence is lost.",
  "all grammars without empty rules, all sentences, all derivations",
  "Unboundedly many grammars, and rules are merged in the chart by a comparison that ignores their meaning.",
  [EP+":EarleyParser.predict", R+"entity/GrammarRule.py:GrammarRule.equals", R+"processor/parser/earley/entity/Chart.py:Chart.enqueue"])
p("C64", "no parse tree is returned twice",
  "The trees that the parser returns for a sentence are pairwise different.",
  "all grammars without empty rules, all sentences",
  "Duplicates could come from any combination of ways to reach a state.",
  [TE+":extract_tree_roots", TE+":find_state_sequences", R+"processor/parser/earley/entity/Chart.py:Chart.index_completed_state"])
INF = R+"module/InferenceModule.py:InferenceModule.handle_rule"
p("C65", "more knowledge never removes answers",
  "If every stored row and every rule of one knowledge base is also in another, then every answer to a query from the first is an answer from the second, whatever the modules, tables and order in which they are stored.",
  "all fact tables, all rule bases with bound heads (recursive ones included), all queries, all runs that return",
  "Compares unboundedly many pairs of rule bases; a rule with side effects on others (a shared variable, an early exit) would only show for some of them.",
  [INF, R+"core/Solver.py:Solver.solve_single"])
p("C66", "the order of facts and rules does not matter",
  "Two knowledge bases with the same rows and the same rules, in any order, with any repetitions and any distribution over tables and modules, give the same answers, each equally often.",
  "all fact tables, all rule bases with bound heads, all queries, all runs that return",
  "All permutations and repetitions.",
  [INF, R+"module/InferenceModule.py:InferenceModule.insert_rule", R+"core/Solver.py:Solver.solve_single"])
p("C67", "a bound variable acts like its value",
  "Solving a query with a binding gives the other variables the same values, in equally many answers, as solving the query with the bound variables replaced by their values.",
  "all facts and rules, all queries, all bindings, all runs that return",
  "Every combination of bound and unbound arguments, at every depth of rule application.",
  [R+"core/Solver.py:Solver.solve_single", INF])
p("C68", "variable names do not matter",
  "Renaming the variables of a query renames the variables of its answers and changes nothing else; renaming the variables of stored rules, each rule on its own, changes nothing, even when a rule uses the names of the query.",
  "all facts and rules, all queries, all injective renamings, all runs that return",
  "Variable capture only shows for particular names at particular depths.",
  [INF, R+"core/Solver.py:Solver.solve_single"])
SC = R+"processor/semantic_composer/SemanticComposer.py:SemanticComposer"
p("C69", "the composed query means what the tree means",
  "If the rules of a parse tree conjoin the meanings of their parts, then the composed query, evaluated over facts and rules, has an answer with given values of the root variables exactly when the sentence is true of those values: when the variables of each rule can be given values such that the atoms of the rule follow from the facts and rules and every part is true of the values of its arguments.",
  "all parse trees of any size, all states of the variable generator, all facts and rules with bound heads, all runs that return",
  "Whether two occurrences of a variable are rightly identified or kept apart depends on the whole tree; tests compare the text of a few composed queries.",
  [SC+".compose", SC+".create_map", SC+".extend_map_with_semantics", SC+".unify_variables"])
p("C70", "answers to a sentence are what its best derivation says",
  "Entering a text, after any earlier texts, gives no result exactly when the text has no derivation from the grammar; otherwise the answers are exactly the values that the best ranked derivation is true of, given the stored facts and rules, with and without query optimisation, and nothing stored is changed.",
  "all grammars whose rules conjoin, all texts and histories of texts, all facts and rules with bound heads, all runs that return",
  "Runs the whole pipeline: parser, ranking, composer, optimiser, solver and inference, each with its own state.",
  [R+"core/System.py:System.enter", R+"processor/parser/BasicParser.py:BasicParser.process", SC+".process",
   R+"processor/semantic_executor/AtomExecutor.py:AtomExecutor.process", R+"processor/semantic_composer/optimizer/BasicQueryOptimizer.py:BasicQueryOptimizer.optimize"])
p("C71", "queries with negation, quantifiers, numbers and alternatives have exactly the right answers",
  "Over stored rows and (possibly recursive) rules, a query built by any nesting of conjunction, not, none, scoped, all, count, the number determiners, alternatives, equals, greater_than, less_than, let and multiply has as its answers exactly the ways to satisfy it, each once, where satisfaction is defined on the query's structure alone: variables that are not yet known inside a nested query are quantified there, a count is the number of different ways to satisfy the nested query, alternatives stand for the first that can be satisfied. Over rules that can be ranked the query returns.",
  "all facts, all rules with bound heads, all well-formed queries of any size and nesting, all incoming bindings, all runs that return",
  "The meaning of a nested query depends on which variables are bound when it is reached and on whether inner answers are complete and free of duplicates; tests check single operators on a few rows.",
  [R+"core/Solver.py:Solver.solve", R+"core/Solver.py:Solver.solve_disjunction", CM+":CoreModule.not_function", CM+":CoreModule.determiner_all", CM+":CoreModule.count", CM+":CoreModule.determiner_equals", CM+":CoreModule.equals", INF])
p("C72", "a text that can not be parsed is answered with a message",
  "When a text has no derivation from the grammar, the turn ends with a message of the write grammar en_us_write that tells what is wrong: the start of the part that could not be read, that there was no sentence, or that it was not understood; nothing but the parser's bookkeeping changes.",
  "all grammars without empty rules and unit cycles, all texts, all histories of texts, all contents of the output buffer",
  "Joins the parser's error position, the report in the output buffer, the conditions of the write rules and the generator; the tests look at single messages.",
  [R+"grammar/en_us_write.py:get_en_us_write_grammar", R+"core/System.py:System.enter", R+"core/System.py:System.read_output", EP+":EarleyParser.parse"])
p("C73", "the turns of a dialog do not disturb each other",
  "After each turn that ends without an exception the output buffer is empty; a dialog test passes exactly when each output is the expected one, and raises exactly at the first turn that raises or whose output differs; in a dialog of unreadable texts of any length each text is answered with its own message.",
  "all systems, all dialogs of any length, all states",
  "Leftovers of one turn only show in later turns of long dialogs.",
  [R+"core/DialogTester.py:DialogTester.do_run", R+"core/System.py:System.read_output", R+"core/BasicGenerator.py:BasicGenerator.generate_output"])
p("C74", "what rules attach to a sentence is collected completely",
  "The dialog atoms of a sentence are those of all its nodes, children before parents and left to right; the atoms to be executed are those of the topmost nodes whose rule has any. A rule's sem, dialog and exec are applied to the same meanings of the children, and the variables of the attached atoms get the same names as in the meaning of their node.",
  "all parse trees of any size, all rules, all states of the variable generator",
  "Dropped or misnamed atoms show only for particular shapes of trees and particular names at different depths.",
  [SC+".compose", SC+".unify_variables"])
p("C75", "composition fails only for a reason in the rules",
  "A rule without sem, at any depth, is reported before anything is composed. If all rules have a sem, composition returns, or raises an exception that a function of some rule raised, an IndexError for a constituent with fewer arguments than the rule used for it, or a TypeError for an element of a meaning that is not an atom.",
  "all parse trees of any size, all rules, all states of the variable generator",
  "All the places where a lookup or a call may fail, in trees of any depth.",
  [SC+".check_for_sem", SC+".process", SC+".compose", SC+".create_map"])
p("C76", "sentences with quantifiers mean what their trees say",
  "If the rules of a parse tree build their meanings from atoms, comparisons, not, none, scoped, numerals, all, and templates applied to meanings of parts or to slots, then the composed query can be evaluated from scratch, and has an answer with given values of the root variables exactly when the sentence is true of these values, where a noun phrase stands for a generalised quantifier: what it says of the property put into its slot.",
  "all parse trees of any size and nesting of templates, all states of the variable generator, all facts and (recursive) rules with bound heads, all runs that return",
  "Names of variables, filling of templates, scope of the quantifiers and the order of evaluation interact; tests look at a few sentences over a few rows.",
  [SC+".compose", SC+".unify_variables", R+"processor/parser/helper/grammar_functions.py:apply", CM+":CoreModule.determiner_all", CM+":CoreModule.determiner_equals", CM+":CoreModule.not_function"])
p("C77", "answers to a text with quantifiers are what its best derivation says",
  "Entering a text in a system whose grammar has determiners and noun phrases, after any earlier texts, gives no result exactly when the text has no derivation; otherwise the answers are exactly the values that the best ranked derivation is true of, there are answers exactly when the sentence is true of some values, and nothing stored is changed.",
  "all grammars whose rules build meanings from parts that fit together, all texts and histories of texts, all facts and (recursive) rules with bound heads, all runs that return",
  "Runs the whole pipeline with nested quantifiers, over grammars and knowledge of any size.",
  [R+"core/System.py:System.enter", R+"processor/parser/BasicParser.py:BasicParser.process", SC+".process", R+"processor/semantic_executor/AtomExecutor.py:AtomExecutor.process"])

p("C78", "rules with negation, quantifiers, numbers and alternatives in their bodies answer what they say",
  "When the bodies of inference rules contain negation, quantifiers, numbers, arithmetic and alternatives, the answers to a query that returns are exactly the ways to satisfy it in every interpretation in which an atom is true precisely if it is stored or a rule says so; rules that are not recursive through these constructs have such an interpretation, queries over ranked rules return, and nothing stored is changed.",
  "all tables, all rule sets whose predicates are asked in the ways their rules allow, all queries and bindings, all supported interpretations, all runs that return",
  "Quantifies over all rule bases with nested negation and quantification and over all interpretations of their predicates.",
  [IM+":InferenceModule.handle_rule", IM+":InferenceModule.solve_rule", R+"core/Solver.py:Solver.solve_single", CM+":CoreModule.not_function"])
LG = R+"core/Logger.py"
p("C79", "logging changes nothing but the log",
  "With any logger, in any setting, a request goes through the pipeline and a dialog is tested with the same result, the same exception and the same effects as without logging; the settings of the logger stay, its earlier entries stay in front, and a logger that is not active gets no entries from the pipeline.",
  "all pipelines of any length, all processors, all requests, all loggers, all dialogs of any length, all states",
  "Quantifies over all pipelines, processors and settings of the logger.",
  [R+"entity/SentenceRequest.py:SentenceRequest.exec_process", LG+":Logger.add_process_result", LG+":Logger.is_active", R+"core/DialogTester.py:DialogTester.do_run"])
p("C80", "the log of a dialog has the tests that were asked for",
  "After a dialog without failures the log has, in order, the tests that are to be shown, each with its number, its question, the results of the processors that were asked for, its answer and its time, and nothing else: all tests, none, or those that are equal to the last. A wrong answer is always logged. The logged answers of a query determine the answers. In a terminal the entries are shown in their colours, the separator with the number of the test over the width of the terminal, and the colour is the usual one after each of them.",
  "all dialogs of any length, all settings of the logger, all pipelines",
  "Which entries appear depends on the combination of settings, position of the test and processors, over dialogs of any length.",
  [R+"core/DialogTester.py:DialogTester.do_run", LG+":Logger.add_process_result", LG+":Logger.add_test_separator", LG+":Logger.add_key_value", LG+":Logger.log_products", R+"processor/language_selector/LanguageSelectorProduct.py:LanguageSelectorProduct.log"])
p("C81", "a printed parse tree shows the tree",
  "A parse tree is printed with one line for each node, parents before children and children from left to right, with a mark for each ancestor that tells whether it has a next sibling; two trees that are printed the same show the same nodes at the same places. The log has the printed tree unchanged.",
  "all parse trees of any size and depth",
  "Trees of any depth; that no two different trees look the same can not be tested.",
  [R+"entity/ParseTreeNode.py:ParseTreeNode.__str__", R+"processor/parser/BasicParserProduct.py:BasicParserProduct.log"])
p("C82", "a printed meaning determines the meaning",
  "What format_value prints determines the value.",
  "all values of any size and nesting",
  "That no two different values are printed the same can not be tested.",
  [R+"core/atoms.py:format_value", R+"processor/semantic_composer/SemanticComposerProduct.py:SemanticComposerProduct.log"])
p("C83", "printed rules can be told apart",
  "Two inference rules that are printed the same are the same; two grammar rules that are printed the same have the same category, variables and consequents up to marks that are not printed; the grammar notation reads a printed rule back with these parts, and with separators between all consequents.",
  "all inference rules and grammar rules of any size with proper names",
  "That no two different rules are printed the same can not be tested.",
  [R+"entity/GrammarRule.py:GrammarRule.__str__", R+"entity/RuleConstituent.py:RuleConstituent.__str__", R+"type/InferenceRule.py:InferenceRule.__str__"])
p("C84", "optimising keeps the answers of queries with negation and quantifiers",
  "For a query with negation, quantifiers, determiners, counts, comparisons and alternatives in which every part that is not a fact comes after what binds the variables it shares: the optimiser does not raise and changes nothing, and the optimised query has the same answers as the query, as far as the root variables are concerned. Where a negation precedes what binds its variables, or alternatives share variables with facts, the answers can change.",
  "all queries of any size and nesting of this kind, all facts, rules (recursive ones included), relation sizes below the one that stands for infinite, and root variables",
  "Sorting and isolating interact with scoping at any depth; samples do not show that no query of this kind changes meaning.",
  [R+"processor/semantic_composer/optimizer/BasicQueryOptimizer.py:BasicQueryOptimizer.optimize", R+"processor/semantic_composer/optimizer/SortByCost.py:SortByCost.sort", R+"processor/semantic_composer/optimizer/IsolateIndependentParts.py:IsolateIndependentParts.isolate"])
DS = R+"data_source/"
p("C85", "SQL data sources do what the in-memory data source does",
  "Read by the grammar of SQL, the statements that the data sources put together do what they are for: a select finds exactly the rows that have the values asked for, in the order of the table and with the columns in the order asked for; an insert adds one row, with the values in their columns and nothing in the others, unless a constraint refuses it; a delete removes exactly the rows that have all the values. Any history of complete inserts and selects gives the same results with a database as with the in-memory data source. Without columns, with an unknown table, a wrong number of values or a list as value, an exception is raised.",
  "all tables, rows, constraints, table and column names that are words of SQL, values, both styles of placeholders, all engines (their reserved words and their notion of equal values), all histories of any length",
  "The tests send a few statements to one engine; that no name, combination of open values or history goes wrong can not be tested.",
  [DS+"Sqlite3DataSource.py:Sqlite3DataSource.select", DS+"Sqlite3DataSource.py:Sqlite3DataSource.insert", DS+"Sqlite3DataSource.py:Sqlite3DataSource.delete", DS+"MySqlDataSource.py:MySqlDataSource.select", DS+"PsycoPg2DataSource.py:PsycoPg2DataSource.select", DS+"PsycoPg3DataSource.py:PsycoPg3DataSource.select", DS+"SimpleDataSource.py:SimpleDataSource.select", DS+"SimpleDataSource.py:SimpleDataSource.insert"])
p("C86", "entering a text returns",
  "Whenever a text is derived by the grammar, entering it returns: the parser, the composer, the optimiser and the solver all come to an end, and what is returned are the answers to the sentence (for grammars with quantifiers: these, or an exception of the solver). When it is not derived, entering it returns as well, after the error of the parser has been stored. Needed are: functions of grammar rules that return for the values they can get, no cycle of unit rules in the grammar, and rules of the knowledge base whose calls go down (no recursion, or recursion as in C92).",
  "all such grammars and knowledge bases, texts of any length, sessions with any history",
  "That no text makes the system run forever or fail can not be tested.",
  [R+"core/System.py:System.enter", R+"processor/parser/BasicParser.py:BasicParser.process", R+"processor/semantic_composer/SemanticComposer.py:SemanticComposer.process", R+"processor/semantic_executor/AtomExecutor.py:AtomExecutor.process", R+"core/Solver.py:Solver.solve"])

p("C87", "nothing raises where nothing can go wrong",
  "A query raises no exception, over any rules and at any depth, when the arguments of its comparisons are numbers (constants, counts, products or copies of these), one side of each equality has a value, and no value that is stored, or that it assigns or equates, is a list or a template. So without recursion, or with recursion whose calls go down (C92), it returns answers. A text of which the query is of this kind, which it is when the functions of the grammar rules only make other predicates than comparisons, equals, let and multiply, is always answered. Ordering a text and a number does raise, and so does all with lists in its range.",
  "all knowledge bases, queries of any shape and nesting, bindings, grammars and texts",
  "Absence of exceptions for all queries and all data is not observable by running examples.",
  [R+"core/Solver.py:Solver.solve", CM+":CoreModule.determiner_all", CM+":CoreModule.equals", CM+":CoreModule.greater_than", CM+":CoreModule.multiply", CM+":CoreModule.let", R+"core/System.py:System.enter"])
p("C88", "a text whose query is optimised gets the right answers",
  "When the semantic composer has the query optimiser, entering a text with negation, quantifiers, numerals and comparisons, of which the query is one whose order does not matter and that binds its root variables, gives for the root variables exactly the values that the sentence is true of, and leaves the world as it was; there is no result exactly if the text has no derivation. When the calls of the rules go down (C92; without recursion they do) and with enough steps this returns answers, or the exception of the optimised query; the optimiser itself raises nothing.",
  "all such grammars, knowledge bases with rules (recursive ones for what is returned), stated sizes of relations, texts, sessions with any history",
  "The optimiser changes queries depending on sizes of relations and on what the sentence is made of; the tests try a few sentences over fixed data.",
  [R+"core/System.py:System.enter", R+"processor/semantic_composer/SemanticComposer.py:SemanticComposer.process", R+"processor/semantic_composer/optimizer/BasicQueryOptimizer.py:BasicQueryOptimizer.optimize", R+"core/Solver.py:Solver.solve"])

p("C89", "answers that are only counted can not be looked into",
  "When the answers of a body are only counted (a ResultIterator): the predicates that look for values in them raise a TypeError if there are any (sum, avg, arg_min, arg_max, all); find_all and find_one find nothing, however many there are, unless the name of the variable is by accident a part of the text of an answer, then they raise as well; for several variables find_all gives one combination of nothing. A rule with such a body has no answer when a value is asked for, and as many as there are counted when all arguments are given.",
  "all models, bodies, variables, bindings, rules and numbers of answers",
  "The tests only count such answers.",
  [R+"entity/ResultIterator.py:ResultIterator.__next__", CM+":CoreModule.find_all", CM+":CoreModule.find_one", CM+":CoreModule.sum", CM+":CoreModule.avg", CM+":CoreModule.arg_min", CM+":CoreModule.arg_max", CM+":CoreModule.determiner_all", R+"module/InferenceModule.py:InferenceModule.solve_rule", R+"core/Solver.py:Solver.solve_single"])
p("C90", "what is stored in a database is found",
  "When the relations of a memory module are tables of an SQL database: store adds to the tables exactly its atoms with their variables replaced, in order and after all that was there, and raises nothing; after any history of stores a query finds exactly the answers that the stored facts have, and changes nothing. Storing a list raises and changes nothing. The relations of the dialog context do the same as the statements for their tables.",
  "all relations whose names are words of SQL, all histories of any length, all values that are texts or numbers, all queries over these relations, engines that compare values exactly",
  "The tests store and read back a few facts; that no history of stores loses or mixes up a fact in its way through the texts of the statements can not be tested.",
  [R+"module/SimpleMemoryModule.py:SimpleMemoryModule.query", R+"module/SimpleMemoryModule.py:SimpleMemoryModule.write", R+"module/SimpleMemoryModule.py:SimpleMemoryModule.add_relation", DS+"Sqlite3DataSource.py:Sqlite3DataSource.select", DS+"Sqlite3DataSource.py:Sqlite3DataSource.insert", CM+":CoreModule.store", R+"core/Solver.py:Solver.write_atom"])
p("C91", "data sources that may fail give an exception or the right answer",
  "When the modules with the facts may raise an exception, or not answer, on any query and at any moment (a server that is down, a value that the database can not take), then still whatever a query returns is right: the answers are sound and complete over the rows and the rules and none is there twice, and the same holds for what is returned for a whole text, with the optimiser or without. A failure is never taken for the absence of facts, also not inside negation, quantifiers, counting or rules. A module that reads tables of an SQL database with the select function of the data sources is such a module.",
  "all modules that may fail, all rule sets, all queries of C71 and all texts of C77 and C88, all databases and tables, all ways of failing",
  "A test can make one query to a failing source raise; that no failure at any depth of any query is turned into a wrong answer can not be tested.",
  [R+"core/Solver.py:Solver.solve", R+"core/Solver.py:Solver.solve_single", R+"core/Solver.py:Solver.find_relation_values", R+"core/System.py:System.enter", CM+":CoreModule.not_function", CM+":CoreModule.determiner_all", IM+":InferenceModule.handle_rule", DS+"Sqlite3DataSource.py:Sqlite3DataSource.select", DS+"MySqlDataSource.py:MySqlDataSource.select", DS+"PsycoPg2DataSource.py:PsycoPg2DataSource.select", DS+"PsycoPg3DataSource.py:PsycoPg3DataSource.select"])
p("C92", "recursive rules return exactly if the calls come to an end",
  "A query over stored rows and rules, recursive or not, returns exactly if there is no endless chain of calls that begins with one of its atoms, where an atom of the body of a rule is called with the values that are known after the atoms before it have an answer. When the calls go down in some level, the depth that is needed is bounded by that level. So for the usual rules of a transitive relation and every table: a question returns exactly if there is no endless path of stored pairs from the value asked for; over a table without cycles it returns and gives exactly the pairs that are connected by a path. With the recursive atom in front no question ever returns.",
  "all rule sets with bound heads, all queries and bindings, all tables; all depths for what does not return",
  "That a query never returns can not be observed, and that recursion returns for all tables neither.",
  [IM+":InferenceModule.solve_rule", IM+":InferenceModule.handle_rule", R+"core/Solver.py:Solver.solve", R+"core/Solver.py:Solver.find_relation_values"])
p("C93", "the reply to a question lists exactly what satisfies it",
  "When a sentence has the meaning intent_list(x, q), intent_value(x, q) or intent_yn(q), with the rules for these intents that the example systems use, and the intent returns, then the output that is generated from it is right: for intent_list the format function is applied to a list in which every value of x with which q can be satisfied over the rows and the rules occurs precisely once; for intent_value the output is such a value, and if there is none the intent fails and nothing is stored; for intent_yn the output is the text for yes if q can be satisfied and the text for no if it can not. If the format does not depend on the order of its elements then the output is a function of what satisfies q alone. Generating the output empties the output buffer again, so that nothing of a reply is left for the next turn. Over rules that go down the intent returns or raises.",
  "all knowledge bases, queries with negation, quantifiers, numbers and alternatives, variables, write grammars in which the first rule for the type of output has the usual form, all format functions",
  "The tests compare a few replies with their texts; that no reply lacks an answer or has one too many can not be tested.",
  [CM+":CoreModule.find_all", CM+":CoreModule.find_one", CM+":CoreModule.scoped", CM+":CoreModule.store", IM+":InferenceModule.solve_rule", R+"core/BasicGenerator.py:BasicGenerator.find_rule", R+"core/BasicGenerator.py:BasicGenerator.generate_output", R+"module/BasicOutputBuffer.py:BasicOutputBuffer.clear", R+"core/Solver.py:Solver.solve"])
p("C94", "a typed question gets the right reply",
  "When a text that can be derived from a grammar whose sentences are questions for a list, questions for a value and yes/no questions is entered, at any point of a session, and a reply is generated, then the reply is right for the first of the ranked trees of the text: for a list, it is the format of a list that holds every value that the content of the question is true of precisely once; for a value, it is such a value; for a yes/no question it is the text for yes if the content is true and the text for no if it is not. The content is what the parts of the sentence mean together, with its determiners and numerals. The world is as it was before, so this holds for every question of a dialog, and a dialog test that passes has right replies. When the functions of the grammar return and the calls of the rules go down, then with enough steps there always is such a reply, or the exception that the query raises, or that the format raises, or that no rule is found for a value that is not there.",
  "all grammars in which only roots are questions and all other rules build their meanings from the meanings of their parts, all texts, sessions, rows, (recursive) rules, formats and dialogs",
  "A test compares one reply over one set of facts; the parser, the composer, the solver, the intents, the buffer and the generator all have to be right for all sentences and facts for this to hold.",
  [R+"core/System.py:System.enter", R+"core/System.py:System.read_output", R+"core/DialogTester.py:DialogTester.do_run", R+"processor/semantic_composer/SemanticComposer.py:SemanticComposer.process", R+"processor/parser/BasicParser.py:BasicParser.process", R+"core/Solver.py:Solver.solve", CM+":CoreModule.find_all", CM+":CoreModule.find_one", CM+":CoreModule.store", R+"core/BasicGenerator.py:BasicGenerator.generate_output"])

p("C95", "a typed question gets the right reply when its query is optimised",
  "The example systems give the composer a query optimiser. It sees a question as one atom, the intent, and sorts the content that is its argument. If what comes earlier or later in the content does not matter, also inside its parts, then everything that holds for a typed question without the optimiser (C94) holds with it: the reply is right, the world is as it was before, a dialog test that passes has right replies, and with enough steps there always is such a reply or an exception of the kinds that C94 gives. The optimiser itself does not raise, if the sizes of the relations are given for all arguments or not at all.",
  "all grammars, texts, sessions, rows, (recursive) rules, formats and dialogs of C94, and all sizes of relations",
  "Whether the order matters depends on the sizes of the relations and on the whole of the query; a test has one query and one set of sizes.",
  [R+"processor/semantic_composer/optimizer/BasicQueryOptimizer.py:BasicQueryOptimizer.optimize", R+"processor/semantic_composer/SemanticComposer.py:SemanticComposer.process", R+"core/System.py:System.enter", R+"core/System.py:System.read_output", R+"core/DialogTester.py:DialogTester.do_run"])
p("C96", "in a dialog with questions and unreadable texts each gets its reply",
  "The write grammar of a system has the rules of en_us_write and rules for replies to questions. Whatever text is entered, at any point of a session, with or without the optimiser: if the turn returns, then a text that can be derived from the grammar has got the right reply (C94, C95), and a text that can not be derived has got the message that it could not be understood, with the first nine characters after the longest part that can be read from the left. A text that is not understood changes nothing but the memory of the parser, not the facts, not the output buffer and not the names of variables, so that the questions after it get the replies they would have got without it. A dialog test that passes expects such a reply for each of its texts. With enough steps, a text without a derivation always gets that message, unless all of it can be read; in that case the turn raises, because there is no relation for that error.",
  "all grammars, texts, sessions, rows, (recursive) rules, formats, optimisers and dialogs of C94 and C95, and all texts that are no questions of the grammar",
  "A test has one dialog; that a text that is not understood leaves no traces in later replies has to hold for all dialogs.",
  [R+"core/System.py:System.enter", R+"core/System.py:System.read_output", R+"core/DialogTester.py:DialogTester.do_run", R+"grammar/en_us_write.py:get_en_us_write_grammar", R+"processor/parser/BasicParser.py:BasicParser.process", R+"core/BasicGenerator.py:BasicGenerator.generate_output", CM+":CoreModule.store"])
p("C97", "what was parsed before does not matter for a turn",
  "Every parse leaves a start rule behind in the grammar. Whatever texts were parsed before: a turn with a text has the same outcome, the same reply or the same exception, with the same facts, rules, output buffer and names of variables after it. The same holds for a dialog test. So texts that were not understood can be left out of a dialog: if a dialog test passes, then the test with only the texts that can be derived from the grammar passes too, and ends with the same facts and names.",
  "all grammars, texts, histories of texts, models, write grammars, optimisers and sessions; for leaving texts out, those of C96",
  "The memory of the parser grows with every text; a test has a few texts, in one order.",
  [R+"processor/parser/earley/EarleyParser.py:EarleyParser.parse", R+"processor/parser/BasicParser.py:BasicParser.process", R+"core/System.py:System.enter", R+"core/DialogTester.py:DialogTester.do_run", R+"block/FindOne.py:FindOne.process", R+"block/TryFirst.py:TryFirst.process"])
p("C98", "statistics do not change answers",
  "The solver can count how often each predicate is asked for. Whether it counts or not: a query and a write have the same outcome, the same answers or the same exception, and leave the same facts, rules and memories behind, for every model whose modules do not look at the statistics. This holds for the modules of the library. The executor of sentences has the same outcome with statistics as without, starts them anew for each sentence, and adds to its product the statistics of its solver when it is done. Without the flag nothing is counted.",
  "all models of library modules, worlds, queries, bindings, depths and statistics that are there before",
  "Tests are run with or without statistics, on some queries; that the two never differ is about all queries.",
  [R+"core/Solver.py:Solver.solve_single", R+"core/Solver.py:Solver.solve", R+"processor/semantic_executor/AtomExecutor.py:AtomExecutor.process", LG+":Logger.should_log_stats"])
p("C99", "what the numbers in the statistics say",
  "For a query over stored facts the number of a predicate in the statistics goes up by the sum, over the occurrences of the predicate in the query, of the number of ways to satisfy the atoms before that occurrence. A predicate that is not reached keeps its number, or has none. What is asked for inside a negation or an alternative is counted too, after the negation or the disjunction itself. What is logged of the statistics determines them, with the predicates in their order.",
  "all tables, queries, bindings, depths and statistics that are there before; for the log all statistics of predicates whose names are on one line",
  "The numbers are products of the sizes of intermediate results; a test has one set of tables.",
  [R+"core/Solver.py:Solver.solve_single", R+"core/Solver.py:Solver.solve", R+"processor/semantic_executor/AtomExecutorProduct.py:AtomExecutorProduct.log"])
p("C100", "several languages",
  "In a system with a parser for each of several languages, a turn with a text is the turn of the first language whose parser understands the text, or of the last language if there is none, with the same reply or exception, the same facts, rules and names of variables; the parsers of the languages before it have only been tried. So a question that can be derived in one of the languages gets the right reply, for the first language in which it can be derived, and a text that can be derived in none gets the message about it of the last language. The same holds for dialogs in which the languages alternate.",
  "all lists of languages, grammars, texts, models, write grammars, optimisers and sessions; for the replies, grammars of questions as in C96 for every language",
  "The test has two languages and two sentences, and checks only the parse trees.",
  [R+"processor/language_selector/LanguageSelector.py:LanguageSelector.process", R+"processor/language_selector/Multilingual.py:Multilingual.process", R+"block/FindOne.py:FindOne.process", R+"core/System.py:System.enter", R+"core/DialogTester.py:DialogTester.do_run"])
p("C101", "generating output returns",
  "If in a write grammar every rule needs only categories of a lower rank, or is followed in its category by other rules that all have no condition, and the conditions return, then generating output returns, with a text, another value or an exception: the depth of the calls is at most the number of rules plus one, times the number of ranks. Conditions about the output buffer return, whatever the buffer contains. Without this order of the rules generation can go on for ever, also when a rule that would end it is present and applies.",
  "all write grammars with such an order, of any size, all solvers, contents of the output buffer, values and states of the world",
  "That something returns for all contents of the buffer cannot be observed; a test shows it for one.",
  [R+"core/BasicGenerator.py:BasicGenerator.generate_output", R+"core/BasicGenerator.py:BasicGenerator.generate_node", R+"core/BasicGenerator.py:BasicGenerator.find_rule", R+"module/BasicOutputBuffer.py:BasicOutputBuffer"])
p("C102", "parse trees on one line",
  "A parse tree is written on one line as its category with its parts in brackets, separated by single spaces, words with their category and in quotes; words that are a single space are left out. Two trees have the same line exactly if the same is visible of them, provided that categories have no spaces, quotes and brackets, and words no quotes. So an assertion about the line is an assertion about the tree.",
  "all parse trees of any size and depth",
  "The tests of the parser compare such lines; that different trees never look the same is about all pairs of trees.",
  [R+"entity/ParseTreeNode.py:ParseTreeNode.inline_str"])
p("C103", "asking for one answer",
  "Asking the solver for one answer gives the first of all answers, and None exactly if there are none; over fact tables this is an assignment under which all atoms are stored, or None if there is none. Exceptions are passed on, and answers that are only counted can not be taken. A query without variables that holds gives the empty dictionary, which counts as false.",
  "all solvers, queries, bindings and worlds; for the tables all fact tables and conjunctive queries over them",
  "The two modules that use it ask one kind of query each.",
  [R+"interface/SomeSolver.py:SomeSolver.solve1"])
p("C104", "rules taught between questions",
  "In a session in which rules are taught and questions are asked in any order, each question gets exactly the answers that follow from the stored rows, the initial rules and the rules taught before it, each once. No step raises an exception, answers given once are given again later, a fact that was taught is known from then on, and the session returns if the rules are not recursive. At the end the inference module holds the initial and the taught rules in order, with the variables that were bound filled in. Teaching a rule for learn_rule itself switches learning off.",
  "all sessions of any length, tables, rules, questions and bindings",
  "The tests teach a handful of rules in one dialog.",
  [R+"module/InferenceModule.py:InferenceModule.learn_rule", R+"module/InferenceModule.py:InferenceModule.insert_rule", R+"module/InferenceModule.py:InferenceModule.handle_rule", R+"core/Solver.py:Solver.solve"])
p("C105", "sentences that teach a rule",
  "With the intent that learns a rule and replies OK, a sentence that teaches a rule always returns with the text for ok, stores the rule behind the rules that were there with the given values filled in, and leaves the output buffer empty and everything else as it was. In a session of such sentences and questions in any order each question gets exactly the answers that follow from the stored rows, the initial rules and the rules taught before it, each once, and no turn raises an exception. The rule may not have variables with the names that the intent uses: these are replaced by the head or the body.",
  "all sessions of any length, tables, rules, values, questions and bindings, all write grammars with a text for ok",
  "The test teaches some forty sentences in one dialog, with one set of variable names.",
  [R+"module/InferenceModule.py:InferenceModule.learn_rule", R+"module/InferenceModule.py:InferenceModule.solve_rule", R+"module/CoreModule.py:CoreModule.let", R+"module/CoreModule.py:CoreModule.store", R+"core/BasicGenerator.py:BasicGenerator.generate_output"])
p("C106", "rules learned while rules are tried",
  "The loop over the rules of a predicate also visits rules that are added to the predicate while the loop runs. As long as no rule is added to a predicate whose rules are being tried, this makes no difference: whatever is returned is what a loop over the rules as they were at the start returns. For questions to a program of tables and rules, and for sessions in which rules are taught by sentences, both loops have the same outcome. A rule that adds to its own predicate shows the difference.",
  "all modules that pass on exceptions, all queries, bindings and worlds; for programs all tables, rules and questions",
  "No test learns a rule while rules of the same predicate are being tried.",
  [R+"module/InferenceModule.py:InferenceModule.handle_rule", R+"module/InferenceModule.py:InferenceModule.insert_rule", R+"module/InferenceModule.py:InferenceModule.learn_rule"])
p("C107", "sentences that tell facts",
  "With the intent that stores what is told and replies OK, a sentence that tells facts always returns with the text for ok, stores the facts behind what was stored with the given values filled in, and leaves the output buffer empty and everything else as it was; rows in tables and rules for the same predicates are no hindrance. In a session of such sentences and questions in any order each question gets exactly the answers that follow from the tables, the rules, what was known at the start and what was told before it, each once, and no turn raises an exception. A fact whose predicate only has rules is lost although the reply is OK; a fact without any relation raises an exception, and the facts before it in the sentence stay.",
  "all sessions of any length, tables, rules, memory relations, facts, values, questions and bindings, all write grammars with a text for ok",
  "The tests tell some facts in one dialog, and none about a predicate with rules.",
  [R+"module/CoreModule.py:CoreModule.store", R+"core/Solver.py:Solver.write_atom", R+"module/SimpleMemoryModule.py:SimpleMemoryModule.write", R+"module/InferenceModule.py:InferenceModule.solve_rule", R+"core/BasicGenerator.py:BasicGenerator.generate_output"])
p("C108", "sessions in which rules are taught and facts are told",
  "In a session in which sentences teach rules, sentences tell facts and questions are asked, in any order, each sentence that teaches or tells gets the text for ok and each question exactly the answers that follow from the tables, the rules and facts of the start, and what was taught and told before it, each once. No turn raises an exception. At the end the inference module holds the intents, the rules of the start and the taught rules in order, the memory module the facts of the start and the told facts in order, and nothing else has changed.",
  "all sessions of any length, tables, rules, memory relations, facts, values, questions and bindings, all write grammars with a text for ok",
  "The tests have one dialog of this kind.",
  [R+"module/InferenceModule.py:InferenceModule.learn_rule", R+"module/InferenceModule.py:InferenceModule.handle_rule", R+"module/CoreModule.py:CoreModule.store", R+"core/Solver.py:Solver.write_atom", R+"module/SimpleMemoryModule.py:SimpleMemoryModule.write", R+"core/BasicGenerator.py:BasicGenerator.generate_output"])

p("C109", "a claim is checked before it is stored",
  "With the two rules for claims in their order (refuse a claim whose check fails; store a claim whose check succeeds), a claim whose check has no answers gets the text for impossible, and nothing is stored. A claim whose check has an answer gets the text for understand, its facts are stored in order behind what was stored, and nothing else has changed. Each claim gets just one of the two replies, although both rules are tried and the first changes the output and the second what is known.",
  "all worlds, tables, memory relations, facts, values and checks that do not depend on the output buffer, all write grammars with texts for the two types",
  "The tests have one claim that is refused, and none that changes the outcome of its own check.",
  [R+"module/InferenceModule.py:InferenceModule.handle_rule", R+"module/CoreModule.py:CoreModule.not_function", R+"module/CoreModule.py:CoreModule.store", R+"core/Solver.py:Solver.write_atom", R+"core/BasicGenerator.py:BasicGenerator.generate_output", "tests/integration/sir/intents.pl"])

p("C110", "claims never make the memory contradict itself",
  "In a session of claims about a relation, with a check that refuses a claim whose converse is stored, each claim gets the text for impossible if its converse was stored at the start or accepted before, and else the text for understand, and is stored. No claim raises an exception and nothing else changes. So, however many claims are made, the memory never holds a record and its converse for two different names, if it did not at the start.",
  "all sessions of any length, names, relations, worlds, tables, facts of the start, all write grammars with texts for the two types",
  "A test has a few claims in one order; contradictions may come from any two claims of a long session.",
  [R+"module/InferenceModule.py:InferenceModule.handle_rule", R+"module/CoreModule.py:CoreModule.destructure", R+"module/CoreModule.py:CoreModule.not_function", R+"module/CoreModule.py:CoreModule.store", R+"module/SimpleMemoryModule.py:SimpleMemoryModule.query", R+"core/BasicGenerator.py:BasicGenerator.generate_output", "tests/integration/sir/intents.pl", "tests/integration/sir/inferences.pl"])

p("C111", "the reply to a question with several cases",
  "If an intent is a list of cases, each with conditions and a type of reply, the reply is the text for the first case whose conditions have an answer, however many answers they have and although the type is stored once for each of them; later cases have no effect, and afterwards nothing has changed. So in a session of such questions each gets its own reply, whatever was asked before. If no case applies there are no answers, nothing has changed, and generating the reply raises an exception.",
  "all sessions, lists of cases, conditions that return and do not depend on the output buffer, bindings, worlds and modules, all write grammars with a text for the type",
  "Tests have single questions for a few cases, where the conditions have few answers.",
  [R+"core/Solver.py:Solver.solve_disjunction", R+"core/Solver.py:Solver.solve", R+"module/CoreModule.py:CoreModule.store", R+"core/BasicGenerator.py:BasicGenerator.generate_output", "tests/integration/sir/intents.pl"])

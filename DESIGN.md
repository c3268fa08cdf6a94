# Formal model of garfix/richard in Lean 4

Everything lives in `lean/Verif`. Python is read as text only; nothing of `/repo` is executed.

## 1. How the code is modelled

*Shallow embedding, function by function, exceptions as values.* Each Lean definition that models
Python code carries a comment with the file and lines it models and says where it simplifies.

| part of the code | Lean modules | main idea |
|---|---|---|
| values, atoms (`core/atoms.py`) | `Value`, `Atoms` | one inductive type `Value` (None, number, string, Variable, ReifiedVariable, list, tuple, SemanticTemplate) |
| bindings (Python `dict`) | `Dict` | association lists with Python's insert/lookup; equality is order-insensitive, as in Python |
| side effects, exceptions | `Monad` | `M W α = W → Res W α`, `Res = ok w a / err w e / oof`; `oof` (out of fuel) stands for "has not returned yet" and is never confused with an exception |
| `str`/`repr` of values, numbers | `Repr`, `ReprLemmas`, `Digits` | characters, with Python's quoting and escaping |
| `Solver`, `Model` | `Solver`, `SolverLemmas`, `Mono`, `MonoModules`, `DedupLemmas`, `Tables` | recursion over the atom list is structural; the nesting depth of relation calls is bounded by fuel; theorems quantify over all fuel |
| `CoreModule` | `Core`, `CoreLemmas` | one function per relation |
| `InferenceModule` | `Inference`, `RuleBase`, `Datalog*` | rule store inside the world `W`, accessed through a lens |
| data sources, memory modules, dialog context | `DataSource`, `MemoryLemmas` | states and histories of operations |
| blocks, `System`, executor, language selection | `Pipeline` | blocks as functions of the rest of the pipeline; request and world are the state |
| `OrderedSet`, `ResultIterator`, white space | `Small` | |
| `GrammarRules`, parse trees, ranking | `Grammar` | |
| Earley parser, tree extraction, error report | `Earley`, `EarleyLemmas`, `EarleyTrees`, `EarleyRoots`, `EarleyMore`, `EarleyDistinct` | chart as explicit state, agenda loop with fuel that is proved to suffice |
| semantic composition, templates | `Composer`, `ComposerLemmas`, `ComposerLinks` | structural recursion over trees with a variable generator as state |
| the parser and the composer as processors, the pipeline of the tests | `Processors` | grammar, variable generator and world are the state of a session |
| query optimiser | `Optimizer`, `IsolateLemmas` | three rewriting passes on values |
| `BasicGenerator`, output buffer | `Generator` | recursion to a depth; used rules threaded through |
| dialog tests, `grammar/en_us_write.py` | `Conversation` | a turn is a request followed by reading the output; the write grammar as data |
| tokenisers and parsers of rule notations, `GrammarModule` | `Lexer`, `GrammarSyntax`, `InferenceSyntax` | `re.findall` as a list of matchers; backtracking recursive descent with the depth of calls as fuel |
| systems of `tests/integration` (a test of the model, not proofs) | `Runs/*` | the model run on the project's own dialogs |

### The model run on the project's own tests

`Verif/Runs` encodes the systems of `tests/integration/{hello_world,cooper,chat80,sir}` on top of the model: their read and write grammars,
modules, rule files, tables and dialogs. `tools/runs.sh` compiles this and runs the dialogs: all 165 sentences get the reply that the
project's tests ask of the code. The texts (`Runs/Texts.lean`) are copied from the repository by `tools/runs.py`, which also checks
that every `"syn"` text of the four grammars is in the encoding. These runs are evidence that the definitions describe the code; they
are no part of any proof, and no theorem depends on these modules. The build checks the first sentences only (`#guard`).
`Runs/Units.lean` has the unit tests of `tests/unit` that need no database server (parser, Earley parser, composer, generator, solver,
quantifiers, inference, SQLite, independent parts, executor, several languages); the build checks all of them.

### Mutation tests

`seeded/LOG.jsonl` lists wrong versions of the model and the theorems that fail on them. `tools/mutate.py` applies edits made by hand,
`tools/automutate.py` makes random edits of definitions: swapped arguments, negated conditions, other constants, dropped parts.

Property theorems are kept apart from the helper lemmas, in `Verif/Props/*.lean`; each is followed by an
`example` that instantiates its hypotheses on a concrete non-trivial case, or is itself a statement about one.

### Simplifications that apply everywhere

* Python `int` and `float` are both exact rationals (`Rat`): no rounding, overflow, `nan`, `inf`. Booleans are not modelled.
* Unhashable / unorderable operands give an error value `typeError`; error texts are not modelled letter by letter.
* Relations obey their declared return type: a list of lists, or a `ResultIterator`. The lengths of the rows are not constrained.
* Identity, aliasing and in-place mutation of Python objects: only the mutable objects that the code shares on purpose
  (rule stores, data sources, caches, grammars, used-rule sets) are modelled as state.
* Iterating over a non-empty `ResultIterator` in the middle of a conjunction is an error in the model (Python would continue with strings instead of bindings).
* Memory exhaustion and the Python recursion limit are not modelled.
* Regular expressions *in grammars* are an oracle (`Str → Str → Option Nat`: length of the match at the start of the text); those
  of the two tokenisers are modelled.
* Python hashes and `str.lower` are arbitrary functions; nothing is assumed about them (collisions included), unless a theorem says so.
* SQL engines, the SPARQL endpoint, the csv module and SHA-1 are outside the model; they appear as parameters or as relational tables. For the
  statements that the data sources send, C85 has a specification of SQL (tokens, grammar, effect) that takes the place of the engine. Trusted there: that engines
  do what it says for these statements; values are stored unchanged (no conversion to the type of a column).

## 2. Trusted base

* Lean 4.33's kernel, and the axioms `propext`, `Classical.choice`, `Quot.sound`; no others, no `sorry`, no `native_decide`. The
  axioms of each theorem in the manifest are listed in section 6, written by `tools/axioms.py` from `#print axioms`.
* That the model follows the Python text: this is by reading. Section 4 lists what is not modelled.
* That the specifications (the statements in `Verif/Props`) say what the English in `properties.jsonl` says.

## 3. Plan per property

C01-C04, C12, C19, C22 — `Solver.py` for arbitrary modules `W → predicate → relation`; induction over fuel and atom list.
C01, C02: every result extends the binding and binds all direct variables. C03: conjunction of `A ++ B` for world-preserving runs.
C04: `Nodup` up to dict equality for two or more atoms; false for a single atom (witness), hence `_partial`.
C12: case analysis. C19: any model without the predicate. C22: flat order on results, relations monotone in the solver they call.

C05, C06 — spec: assignments `σ` with every instantiated atom a stored row; soundness and completeness by induction over the atoms. Needs C07 for the dedup.

C07 — model of `repr` with Python's quoting and escaping, prefix-code argument.

C08-C10 — spec: inductive `Derivable` (least Herbrand model). Soundness and completeness by induction over fuel; termination by a rank on predicates.

C11 — invariant over histories of `insert_rule`; each stored rule contributes to the result of `handle_rule`.

C13-C17, C21, C60 — specification lemmas for each function of `CoreModule`, for an arbitrary inner solver.

C18, C23, C25 — histories of operations against an abstract log; lenses into the world.

C20 — structural induction on values.

C24 — SQL statement builders as functions; text independent of values, placeholder count.

C26, C27 — cache as state, server as an arbitrary function of its own state. C28 — list recursion.
C62 — the question to the SPARQL server determines the values asked for, if texts contain no quote and numbers are not in constant columns; both are witnesses against the full claim.

C29-C34, C39, C61 — Earley: chart invariant (soundness), closure invariant (completeness), measure (termination). Spec: an
inductive notion of derivation over the grammar that does not mention the chart. C39 is false (a proper prefix of a match
need not match): witness plus `_partial`.
C63, C64 — each derivation has exactly one tree: extraction from the chart is injective, because a state is determined by the tree and its
position. Rules of the same syntax are one rule to the chart, hence C63 `_partial` and a witness.

C35 — function on character lists. C36, C37 — recursion over constituents, histories of `add_rule`. C36's separator part is false when a rule starts with two optional words: witness plus `_partial`.

C38 — insertion sort as Python's stable sort. C40, C41 — token-level and character-level round trip against a separate syntax tree with a printer; what the code does not read back is given by witnesses.

C42-C44 — composer state, structural induction over trees; nested local variables are a witness against the full C43.

C45-C48 — rewriting passes on values; answers compared through C05. C47, C48 also over rules, for runs that return.

C65-C68 — consequences of exactness (C08, C09): answers are compared by going from a run to `Derivable`, along a relation between two
programs or two queries, and back to the other run. C65: more facts and rules; C66: other order, repetitions; C67: a bound variable against
its value; C68: other variable names.

C69, C70 — spec: `Means`, truth of a parse tree for values of its arguments, by recursion over the tree, with one assignment per node and no
generated variables. C69: induction over the tree, with an invariant that splits assignments by the range of generated names. C70: C29, C30, C33,
C38 for the parser, C69 for the composer, C09 or C48 for the executor, and the normal form of a run through the blocks (`enter_sentence`).

C71 — spec: `Sat` in `Verif.FirstOrder`, by recursion over the query, with the set of known variables as a parameter. `Exact` (answers are sound,
complete, without duplicates and bind the right variables) is shown for each kind of part and carried through conjunction and nesting, by
induction over the depth of the solver; atoms by C08, C09; the number of answers is the number of ways because `Exact` lists are. Returning: by
induction over the depth of the query.

C49-C54 — blocks as functions of a state; C49's "first error" and C53 are false (witnesses).

C55, C56 — generator; C55 fails for used rules (witness); `C55_chosen` says which rule is taken in all cases. C57, C58 — histories. C59 — false (call with a missing argument), witness, and what holds of the two calls it consists of.

C72, C73 — `C72_message` is the decision table of the write grammar for all contents of the buffer; with C34 and C61 it gives the answer to
every text without derivation. False when all of the text is read (witness `C72_not_understood_raises`). C73 by induction over the dialog.

C74, C75 — information per position of the tree is constructed by induction over the tree; C74 gives the attached atoms as one list over all nodes.
The claim about names needs that an attached atom uses no other variables than the rule and its meaning (witness `C74_capture`).
C75 follows every place where the composer may raise.

C76, C77 — spec in `Verif.Quantified` and `Verif.QuantifiedGrammar`: a rule is given by *parts* (atoms, comparisons, `not`, `none`, `scoped`, numerals,
`all`, slots, templates of consequents applied to parts); `truth` says by recursion what the parts say about values, a phrase with slots being a
function from properties to properties (`phraseDen`), and `nodeMeaning` does this for a tree. Nothing in it depends on variable names made by the
composer. `fitsRule` is a decidable condition on a rule with signatures for its consequents: which arguments have to be known, which get a value, and
whether solutions are determined by the values (needed under a numeral). The proof: the composer's values are templates whose filling is a query of
`Verif.FirstOrder` (`QuantifiedValues`), plugged queries are well formed and say what the parts say (`QuantifiedMain`, `QuantifiedRule`), induction
over the tree (`QuantifiedTree`), then C71. C77 adds the parser (C29, C30, C38). Example: `every parent has two children`, where the meaning is
unfolded to: there are parents, and each of them has exactly two children (`Ex.kin_meaning`, `Ex.kin_holds`).

C78 — spec in `Verif.RuleForms`: a supported interpretation (a set of true ground atoms in which an atom is true precisely if it is stored or a rule says
so; the models of Clark's completion). `Supported` fixes no meaning for rules that are true only because of themselves; `C78_agree` says that queries
that return cannot tell such interpretations apart. `Calls` says with which arguments known a predicate may be asked; `FormRuleOk` requires for each
of these ways that the body is a proper query, that it makes no difference which head variables are known, and that the head gets values. The proof
(`RuleFormsMain`) is an induction over the depth of the solver around the one of C71. Existence (`RuleStrata`): level by level.
Finding: without such a discipline the answers depend on the call. For `part_of_number` (tests/integration/sir/inferences.pl) with two alternatives,
"how many" gets the answer of the first only, but a given number is accepted if the second has it; and a rule with only negated atoms confirms
names but does not find them.

C79, C80 — model in `Verif.Logging` (the logger is part of the world; `Processor.withLog` is `exec_process`, `doRunLogged` is `do_run`), spec:
the run without logging (`enter`, `doRun` of C49–C53 and C73) and `Transcript`, the log written down test by test. Proof: `Logs` (a simulation that
adds entries) is closed under sequencing, hence holds for blocks, pipelines and turns by induction (`Verif.LoggingLemmas`). The number of columns of the
terminal and the texts of the times are parameters. `C80_answers`: bindings are read back from what is logged, with the unique reading of printed
values of C07.

C81 — spec: a tree of labels and its lines with a flag for each ancestor. Proof: induction over the tree; lines are split at line breaks, marks at `+- `,
and the depths determine the tree.

C82 — spec: equality of values. `format_value` is a prefix code on the values without bare numbers in lists and without apostrophes.

C83 — spec: the notation of C40 and equality of rules. Proof: a printed grammar rule is a written rule with spaces as joints; a printed tuple is its
own end (`repr_unique_aux` of C07).

C84 — spec: `Sat` of C71, and `Ordered` for queries whose order does not matter (`Verif/QueryOrder.lean`). Proof in three steps: nothing to move to the front
(`frontSort_forms`); sorting moves sized facts and alternatives to the front and keeps the order of the rest, at every depth (`Adv`), which keeps
`Sat`; isolating divides the rest into parts that share only the variables of the first atom (`Iso`), witnesses of scoped parts are combined over their
disjoint variables. Truth depends only on which of a part's own variables are known and on their values (`sat_same`).

C85 — spec: a small SQL engine (`Verif/Sql.lean`): tokens, grammar, tables with constraints, `NULL`; parameters are the reserved words and the
equality of the engine. Proof: the tokens of the texts that are put together, the statement that they parse to, its effect. The histories by a
simulation between records and rows. `C85_memory_effects` ties the effects used in C18 and C25 (`SqlDb`) to the statements.

C86 — spec: `ReturnsRule`, what the functions of the rules must do: return for the values they may get, a value of the kind that the category has; the kinds `V`
are arbitrary. Parser: C31 gives the chart, C29/C30 the first tree. Composer: C75 (blame) leaves nothing to blame. Solver: C10, C47/C48 for optimised queries, C71
(returning) for quantified ones.

C87 — spec: `FormsCalm` says by recursion over the query what must be known to be a number, to have a value and not to be a list when each part is reached;
`NoListsIn` that tables and heads of rules have no lists. Proof: by induction over the query, together with the exactness of C71, which tells what the bindings
are that reach a part; over rules, that atoms raise nothing is C10. `OnlyPreds` is a check on values that implies `FormsCalm` and is kept by unification and by
filling slots.

C88 — spec: as C77, with `Orderly` (C84's conditions, and that the query binds the root variables it has). Proof: C76 relates the query to the sentence, C84's
steps relate the optimised query to the query; values that agree with an answer are completed to ones that satisfy the query. `forms_read` (a query can be read
in one way) makes the condition checkable.

C89 — spec: `PartOf` (one text is a part of another), `List.replicate`. Proof: by unfolding the predicates on a body that gives a `ResultIterator`.

C90 — spec: the tables of C85's engine contain exactly the rows of the log (`Contains`); answers are compared with `Answers` of C18. Proof: the simulation of C85 for each
store, then the same query over in-memory tables (`query_same`), for which C05 holds. `C90_same_module` is for the dialog context, which is modelled on `SqlDb`.

C91 — spec: that of C71 and of C77/C88, over the rows that a module reads when it does not fail (`FallibleModule`: only what is *returned* is constrained). Proof: the modules
are replaced by ones that give the rows in place of failing; a simulation over the whole solver, composer, optimiser and pipeline (`Verif/Refine.lean`: what is returned over
modules that may fail is returned over the mended ones) reduces it to the theorems without failures. It would not hold if anything in the solver caught an exception.

C92 — spec: `NextCall` (in `Verif/DatalogReturns.lean`) says which calls the rules make of which, from the consequences of the program (`Derivable`) only; `EndlessCalls` is an
infinite chain of these, `CallsDescend` a level that goes down (acceptable programs). Proof of the exact statement: without an infinite chain the call relation is accessible, by
induction over it each call returns from some depth on, because more depth does not change an outcome; with an infinite chain, by induction over the depth nothing on the chain has
returned yet, because all answers before a call are found (C09). The transitive relation: chains of calls are paths of stored pairs.

C93 — spec: `IsAnswer` and `Satisfiable` (in `Verif/Props/Replies.lean`) say in the first-order semantics of C71 what answers a question; `RepliesWith`, `ListRule`, `ValueRule` and
`TextRule` say what the first rule of a write grammar for a type of output looks like, `listIntent`, `valueIntent` and `ynIntent` are the rules of
`tests/integration/chat80/intents.pl:3-16` and `tests/integration/hello_world/intents.pl:6-9`. Proof: the exactness theorems of C71/C78 for the query inside the intent, then what
`find_all`, `find_one` and `scoped` make of the answers, what `store` adds to the empty buffer, and which rule of the write grammar meets its condition then.
`StoresIn` (which module holds the relations that are stored into) speaks of one world and what the stores make of it, not of all worlds: of all worlds it can not hold when
there is an inference module, as there are states of the rules in which `store` has a rule.

C94 — spec (in `Verif/Props/TypedQuestions.lean`): `Asked` is what is asked for, `TrueOfSome` and `TrueFor` say with the meanings of C76 (`SentenceTrue`) what the content of
a question is true of, `RightReply` what the reply should be, `Excused` when an exception is to be expected. `QuestionRule` says what a root rule looks like; the other rules are
those of C77 (`SpecRule`). Proof: the composer makes of the root the intent around a query with the meaning of the content (the lemmas of C76, for one node), whose
variables are all generated, so they are not those of the intents; then C93. `C94_dialog` is an induction over the tests of `DialogTester.do_run`.

C95 — spec (in `Verif/Props/OptimisedQuestions.lean`): `Meant` says what the composer makes of the tree that is parsed first, and `SortableText` and `SortableDialog` that
the contents of the questions are queries that the optimiser does not spoil (`Ordered` and `FormsTidy` of C84). Plan: the optimiser does not look for names or for
return variables in an intent with such a content, and `sort_by_cost` sorts a list with one atom by sorting the atoms in its arguments (`optimize_inside`). The sorted
content has the same answers (C84), the same variables, and is asked with the same legal names, so the reply is that of C94.

C96 — spec (in `Verif/Props/MixedDialogs.lean`): `Refusal` is the message for a text of which the longest part that can be read (`LongestRead`, C34) is not all of it;
`Answered` says what reply a text should get: the right one (C94) if it has a derivation, and a `Refusal` if it has none. `UnknownRule` is the form of the write rule of
`en_us_write` for the type `unknown_word`. Nothing is assumed about which texts of the dialog have derivations. In the example the write grammar is that of
`en_us_write` followed by the rules of chat80, and the dialog has a text that can not be read between two questions.

C97 — (in `Verif/Props/Forgetting.lean`) `Commutes` says that changing the state before or after a piece of code is the same. Plan: everything in the pipeline but the parser
commutes with changing the grammar of the session; the parser gives the same trees (C33) and leaves the grammar behind that belongs to the texts. `understood` is the
list of the tests whose texts have derivations. `C97_left_out` follows from C96 and `C97_dialog`.

C98 — (in `Verif/Props/Stats.lean`) The statistics are a part of the world, given by a lens. `M.Sim π x y` says that a computation `x` on a larger world and `y` on a
smaller one have the same outcome after `π`. Plan: every relation of the library, and the solver over modules that are related, keep this (`Verif/Simulate.lean`); the
solver with statistics is related to the one without, because the lens of the statistics is forgotten by `π`.

C99 — (in `Verif/Props/StatsCounts.lean`) `Ways tables q b k` says, without the solver, that there are `k` ways to give values to the variables of `q` that make its
atoms stored facts. Plan: the answers of an atom over tables are exactly the facts, each once (`single_tables`), so the number of ways of a longer query is the sum of those after
each answer (`ways_cons`); induction over the query, with the statistics as accumulator. `C99_logged`: the lines of the statistics can be read back, as the count is the
digits after the last blank of a line.

C100 — (in `Verif/Props/Languages.lean`, model in `Verif/Languages.lean`) The pipeline with several languages after the selector has chosen a locale simulates the pipeline with
one language (`M.Sim`): the map puts the grammar of the locale back among the others and adds the chosen locale to the request. Parser: by definition of `inLocale`. Composer and
executor: they do not look at the grammar (`Commutes`, from C97). The loop of the selector: induction over the locales that refuse the text; that the chosen one stops the loop
needs that composer and executor give no errors of blocks (`NoError`). `C100_reply` combines this with C96; that a parser refuses exactly the texts without derivation is C29 and C30.

C101 — (in `Verif/Props/GeneratorReturns.lean`) A measure that is lexicographic: first the number of rules that have not been used, then the rank of the category. A rule that does not go
down in rank is taken only when it has not been used, since the rules after it have no conditions: this is where the hypothesis `Grounded` is needed, and `C101_sticky` shows that
it cannot be left out. That conditions return is proved for relations of the output buffer, through the loops of the solver.

C102 — (in `Verif/Props/InlineTrees.lean`) `Visible` is the tree without spaces. That the text determines it is proved for texts followed by anything (no text of a tree
is the start of another), by recursion on the tree. With quotes in a word the line is ambiguous (`C102_quotes`); a space as first child leaves a gap (`C102_gap`).

C103 — (in `Verif/Props/SolveOne.lean`, model in `Verif/SolveOne.lean`) From C05. `C103_not_truthy` is about the test `if isa:` of `tests/integration/sir/SIRModule.py:125`.

C104 — (in `Verif/Props/Lessons.lean`) From C08, C09, C10 and C11. A session is any list of questions and taught rules; `taught` and `RightOutcomes` are the specification. Taught rules have variables and simple values as arguments, not lists or atoms. `C104_learns_no_more` shows that a rule for `learn_rule` itself switches learning off without an exception (`InferenceModule.py:25-30` replaces the relation).

C105 — (in `Verif/Props/Teaching.lean`) The intent `sentence_learn` of the Cooper dialog (`tests/integration/cooper/inferences.pl:5`) with meanings `let(...), ..., sentence_learn(head, body)`; a session is any list of such sentences and questions. The answers come from `solve_exact_others` (`Verif/RuleBaseOthers.lean`): the results of C08 and C09 when the inference module also holds rules of any form for other predicates. `C105_capture` shows that the variables of a taught rule may not be named like those of the intent: variables are not renamed when a rule is called with an atom as value.

C106 — (in `Verif/Props/LiveRules.lean`) `handleRule`, on which the other theorems rest, reads the rules of a predicate once. `Verif/LiveRules.lean` has the loop of Python, which goes on with rules that are added meanwhile (up to any number `k` of them). `C106_steady` compares both with a module that gives up when a rule is added to a predicate whose rules are being tried; by refinement (`Verif/Refine.lean`), for the whole solver. `C106_programs` says that for the questions of C08, C09, C104 and C105 both loops have the same outcome, `C106_sessions` for the whole sessions of C105.

C107 — (in `Verif/Props/Telling.lean`) The system has tables, a memory module for what is told, an inference module with the intent of `tests/integration/cooper/inferences.pl:4`, and an output buffer. `RightTells` says what the turns must give; its facts are the rows of the tables and the list of what was told (`toldProgram`), not the state of the memory module. Predicates may have rows, rules and told facts at the same time: `write_atom` skips relations that can not be written. The two limits are `C107_lost` and `C107_unknown`.

C108 — (in `Verif/Props/Dialogues.lean`) C105 and C107 together, with both intents in the order of `tests/integration/cooper/inferences.pl:4-5`. A question may use other predicates than the questions before it (`QuestionOk`), because rules may have been taught for new ones.

C109 — (in `Verif/Props/Claims.lean`) The two rules of `tests/integration/sir/intents.pl:59-61`, with any check that returns and leaves the world alone (`Checked`). Both rules are tried for each claim, so it must be shown that the second check has the same outcome as the first, at another depth and with a reply in the output buffer (`Checked.deeper` uses C22). Witnesses: with the rules in the other order a claim is stored and gets both replies (`Ex.C109_order`); `destructure` in a check looks at the first fact of a claim only (`Ex.C109_first_only`); a claim about another relation than the check is for does not match, but goes on with unbound variables (`Ex.C109_other_relation`).

C110 — (in `Verif/Props/ClaimSessions.lean`) C109 with the check of `tests/integration/sir/inferences.pl:55,61` (the two rules for `left_of` taken together, without the rules by which `left_of` follows from other facts). The check is computed for any state from C21, C13 and `select_complete`; the depth needed does not depend on the session, so all sessions return. The invariant is stated on the records of the store.

C111 — (in `Verif/Props/Cases.lean`) Intents like those of `tests/integration/sir/intents.pl:5-27`. `CondYields` says whether conditions have an answer, one condition after the other, because the `store` of one answer happens before the next answer is looked for. By induction on it the buffer holds just the type of the case, any number of times; the disjunction is C12. `C111_intent` lifts this from the body of the rule to a sentence whose arguments are values and whose intent has this one rule, `C111_session` by induction to sessions of such sentences.

## 4. Not modelled

`OrderedSet.__str__`, `ChartState.to_string`,
`interface/*` (abstract classes only), drivers of databases, network, file access,
`WikidataDataSource` (a `SparqlDataSource` with a fixed address), profiling in `DialogTester`, the example systems in `tests`.

## 5. Disagreements between the code and what a user would expect

Found while modelling; the theorem that shows it is given where there is one.

Solver and modules
* A query with a single atom can return the same binding twice; only conjunctions remove duplicates (`C04_single_atom_duplicates`).
* `count` does not compare with a variable that is bound already (`C14_count_bound_not_checked`).
* `destructure` of an atom of another shape succeeds with `None` values (`C21_destructure_mismatch`).
* The number of arguments is not checked when an atom is resolved with a rule (`C08_arity_not_checked`).
* Recursive rules may not return (`C10_recursion_may_not_return`); exactly when they do is C92. Left-recursive rules never do (`C92_left_recursion`).
* `SimpleDataSource`: a record stored with `None` lacks the column; selecting it raises a `KeyError` (`C23_none_raises`).
* `with_context` nested with the same name, or around an outer context of the same name, removes both (`C25_nested_same_name`,
  `C25_outer_lost`); when the body raises, the context stays (`C25_raising_body`).
* The SPARQL cache key does not contain the address of the server or the language; strings are put into queries unescaped,
  so that two different values can ask the same question (`C62_injection`; a number and its text in a constant column, `C62_number_or_text`).

Pipeline
* `FindOne` reports the last error, not the first (`C49_last_error`); a processor without products counts as success (`C51_no_products`).
* `output_not_understood` and `output_no_sentence` are not registered in the output buffer, so storing these errors raises
  (`C53_unregistered_raises`, `C53_not_understood`). So two of the three messages of `en_us_write` are never the answer of a turn that started with an
  empty buffer (`C72_not_understood_raises`), and after the exception the next message is about the earlier text (`C73_stale_buffer`).
* A `ResultIterator` yields nothing in a second loop (`C58_second_loop`). Its items are texts: what looks into them raises, and `find_all` over many answers
  finds nothing, or one combination of `None`s (`C89_find_all_empty`, `C89_find_all_combination`); it raises when the variable is called `N` and the row
  of the iterator is `[None, None]` (`C89_find_raises`).

Grammar and parser
* A rule that starts with two optional words, or has an optional separator, gets variants with stray separators
  (`C36_leading_optionals`, `C36_optional_separator`); a rule may get an empty variant (`C36_empty_variant`), with which parsing raises (`C31_empty_rule`).
* A text whose lower-case form is longer raises an `IndexError` (`C31_long_lower`). Unit rules that form a cycle make tree
  extraction recurse forever (`C61_cycle_never_returns`).
* A regular expression also yields leaves for every prefix of its match, which need not match it (`C39_false`).
* Rules with the same categories and words but other argument names or semantics are the same to the chart: the second is dropped (`C63_same_syntax_lost`).
* Prediction ignores the kind of the constituent, completion the number of arguments. Every parse adds start rules to the grammar.

Data sources
* `delete` with a value `None` removes nothing, as `column = NULL` is never true, whereas `select` takes `None` to ask for nothing (`C85_delete_none`). After an
  `insert` with `None`, `Sqlite3DataSource.select` returns the row and `SimpleDataSource.select` raises a `KeyError` (`C85_missing_value`). `select` and
  `delete` without columns are not SQL (`C85_no_columns`), while `SimpleDataSource.select` returns empty rows.

Composition and optimisation
* A numeral counts solutions, not entities, when its body leaves more than one variable open: with the grammar of `tests/unit/Quantifier_test.py`
  the sentence `two parent has every children` is true when one parent has two children, as `all` gives a solution for each child (`C76_counts_pairs`).
* Variables that a meaning uses only inside a nested list are not renamed and can be captured (`C43_capture`). The same holds for the variables of attached dialog atoms and of atoms to be executed (`C74_capture`).
* A template value that contains a later slot is filled again (`C44_values_with_slots`).
* `isolate` changes the answers when its first atom does not bind its variables (`C47_first_atom_must_bind`). Duplicate atoms
  without variables are multiplied by `restore_atom_order`.
* Alternatives (`$disjunction`) have no relation, so they cost nothing and are sorted to the front, before the facts that bind their variables. As only
  the first alternative that holds counts, answers get lost (`C84_alternatives_first`). A negation that precedes the fact that binds its variable is moved after it
  and then means something else (`C84_negation_first`).
* An argument size 0 raises a `ZeroDivisionError`, a wrong number of argument sizes raises.

Generator and notations
* A write rule that has been used is used again when a later one does not apply, with the binding of the latter
  (`C55_used_rule_taken`). So a grammar with a rule that ends can still generate for ever (`C101_sticky`). When generation raises, the buffer keeps its content (`C56_kept_on_exception`).
* `learn_grammar_rule` always raises (`C59_never_learns`).
* A word or text that ends in a backslash is not read back (`C40_backslash`). In inference rules the number 0 is not understood (`C41_zero`), the sign of a
  negative number is dropped (`C41_negative`), an open parenthesis at the end raises a `TypeError` (`C41_end`), and a comment
  at the end of the text without a line end is not seen as one (`C41_comment_at_end`).

Logging
* "Only the last test" logs every test that is equal to the last one (`C80_repeated`). A locale is logged letter by letter, `e, n` (`C80_locale`).
* `format_value` prints the elements of a list without separators and texts without escapes: `[1, 2]` looks like `[12]` (`C82_list_of_numbers`,
  `C82_apostrophe`).
* A printed grammar rule with more than one consequent is not read back as the same rule (`C83_not_read_back`).
* `AtomExecutorProduct.log` iterates over the bindings; a `ResultIterator` does not start again, so after logging its items are gone (not modelled).

## 6. Axioms of the theorems in the manifest

<!-- axioms: begin (tools/axioms.py) -->
* no axioms: C36_leading_optionals, C36_optional_separator, C38_permutation, C80_narrow.
* `propext`: C20_leaves, C23_none_raises, C24_select_placeholders, C27_query_variables, C31_empty_rule, C31_long_lower, C34_names, C35_words, C36_no_optional, C39_false, C40_backslash, C49_processor_error, C51_no_products, C57_new, C58_len, C59_never_learns, C80_text, C80_shown, C103_first, C103_counted, C103_exception.
* `Quot.sound`, `propext`: C20_structure, C20_variables, C20_remaining_variables, C20_unbound, C20_idempotent, C24_select_text, C24_select_params, C24_delete, C25_start, C25_end, C25_with_context, C28_cells, C35_same_words, C35_parsed, C35_idempotent, C35_no_adjacent, C36_mandatory, C36_variants_partial, C36_separators_partial, C36_empty_variant, C37_lookup, C37_lookup_after, C40_round_trip_partial, C40_injective, C45_front, C45_returns, C45_idempotent, C49_find_one, C49_success_iff, C49_last_error, C51_try_first, C52_first_language, C52_missing_parser, C52_none_accepts, C54_order, C54_exception, C54_last_iteration, C55_first_unused_partial, C55_chosen, C55_all_used, C55_used_rule_taken, C57_index, C58_second_loop, C59_add_rule_partial, C63_same_syntax_lost, C80_settings, C80_fresh, C80_separator, C81_lines, C81_determines, C83_grammar_rule, C83_reread, C83_not_read_back, Sql.C85_select, Sql.C85_no_columns, Sql.C85_unknown_table, Sql.C85_insert_raises.
* `Classical.choice`, `Quot.sound`, `propext`: C01_solve_extends_binding, C02_solve_binds_variables, C03_conjunction_composes, C03_empty_conjunction, C04_no_duplicates_partial, C04_single_atom_duplicates, C05_tables_exact, C06_order_irrelevant, C06_order_irrelevant_rules, C07_printed_form_determines_row, C07_dedup_exact, C07_text_printed, C08_inference_sound, C08_arity_not_checked, C09_inference_complete, C09_no_duplicates, C10_nonrecursive_terminates, C10_no_exception, C10_recursion_may_not_return, C11_rules_persist, C11_insert_succeeds, C11_learn_rule, C12_disjunction_first_success, C13_not, C13_none, C13_scoped, C13_not_not, C14_count, C14_count_constant, C14_det_equals, C14_det_greater_than, C14_det_less_than, C14_count_bound_not_checked, C15_sum, C15_avg, C15_percentage, C15_no_answers, C15_unbound, C15_percentage_no_answers, C15_arg_min, C15_arg_max, C15_reified, C16_find_all, C16_find_all_list, C16_find_one, C16_no_name, C16_unhashable, C17_all, C18_store, C18_read_back, C18_order, C19_unknown_predicate_raises, C19_unknown_predicate_write_raises, C19_unknown_predicate_no_answer, C21_destructure_match_partial, C21_destructure_mismatch, C22_outcome_independent_of_depth, C22_library_modules, C23_select_log, C23_found_iff, C24_insert, C25_nested_partial, C25_nested_same_name, C25_outer_lost, C25_raising_body, C25_history, C26_cache_text_injective, C26_repeat, C26_no_cache, C26_transparent, C26_at_most_once, C27_rows, C27_question, C27_refused, C28_csv_import, C29_derivation, C29_root, C29_leaves, C30_complete, C31_terminates, C31_no_exception, C32_no_exception, C33_no_memory, C33_no_memory_block, C34_error, C35_white_space, C38_order, C38_stable, C39_partial, C39_prefix_closed, C41_round_trip_partial, C41_zero, C41_negative, C41_end, C41_single_alternative, C41_comments, C41_comment_at_end, C42_distinct, C42_fresh, C43_identified_iff_linked, C43_top_level_generated, C43_all_generated_partial, C43_child_unchanged, C43_capture, C44_apply, C44_fewer_values, C44_more_values, C44_values_with_slots, C46_greedy, C46_permutation, C46_terminates, C46_raises, C46_cost_unique, C47_isolate, C47_isolate_rules, C47_first_atom_must_bind, C48_optimize, C48_optimize_rules, C48_optimize_ranked, C49_current, C50_find_all, C53_error_stored_partial, C53_unregistered_raises, C53_not_understood, C55_no_rule, C55_used_kept, C55_start_binding, C56_output, C56_concatenation, C56_nothing_left, C57_ordered_set, C58_items, C60_equals_bound, C60_equals_binds_left, C60_equals_binds_right, C60_equals_unbound, C60_compare_numbers, C60_compare_unbound, C60_let, C60_multiply, C60_missing_argument, C61_returns, C61_cycle_never_returns, C62_question_determines_values_partial, C62_injection, C62_number_or_text, C63_exact_partial, C64_distinct, C64_distinct_ranked, C65_more_knowledge, C66_order_of_knowledge, C67_bound_variables, C68_query_renamed, C68_rules_renamed, C69_composed_iff_means, C69_answers, C70_text_to_answers, C71_first_order, C71_returns, C72_message, C72_unknown_word_partial, C72_not_understood_raises, C73_buffer_empty, C73_passes, C73_fails, C73_unreadable_dialog, C73_stale_buffer, C74_collected, C74_names_partial, C74_capture, C75_reported, C75_blame, C76_composed_iff_true, C76_answers, C76_yes_no, C76_counts_pairs, C77_text_to_answers, C78_rules, C78_returns, C78_stratified, C78_agree, C78_horn, C78_alternatives_depend_on_call, C78_negation_depends_on_call, C79_enter, C79_silent, C79_run, C80_transcript, C80_none, C80_last, C80_repeated, C80_wrong, C80_result, C80_locale, C80_iterations, C80_answers, C81_logged, C82_determines_partial, C82_list_of_numbers, C82_apostrophe, C83_inference_rule, C83_text_atom, C84_optimize_meaning, C84_optimize_answers, C84_optimize_returns, C84_alternatives_first, C84_negation_first, Sql.C85_insert, Sql.C85_delete, Sql.C85_delete_none, Sql.C85_like_memory, Sql.C85_memory_effects, Sql.C85_missing_value, C86_answered, C86_quantified, C86_not_understood, C87_no_exception, C87_answers, C87_text, C87_predicates, C87_order_raises, C87_all_raises, C87_all_raises_inside, C88_answers, C88_text_to_answers, C88_returns, C89_aggregate_raises, C89_sum_nothing, C89_all, C89_find_all_empty, C89_find_one_nothing, C89_find_raises, C89_find_all_combination, C89_no_name, C89_rule_value, C89_rule_given, Sql.C90_stored, Sql.C90_read_back, Sql.C90_list_raises, Sql.C90_same_module, C91_answers, C91_text, Sql.C91_database, C92_returns_iff, C92_recursive_returns, C92_transitive_iff, C92_transitive_answers, C92_transitive_descends, C92_left_recursion, C93_list, C93_value, C93_yes_no, C93_determined, C93_returns, C93_list_forms, C93_yes_no_forms, C94_reply, C94_dialog, C94_returns, C95_reply, C95_dialog, C95_returns, C96_turn, C96_dialog, C96_refused, C96_refused_returns, C97_turn, C97_dialog, C97_left_out, C98_same_outcome, C98_same_writes, C98_library, C98_executor, C98_anew, C98_off, C99_counts, C99_tables, C99_not, C99_disjunction, C99_list_atom, C99_logged, C100_turn, C100_first, C100_reply, C100_dialog, C101_returns, C101_conditions, C101_output, C101_forever, C101_sticky, C102_text, C102_determines, C102_quotes, C102_gap, C103_tables, C103_not_truthy, C104_answers, C104_no_exception, C104_returns, C104_kept, C104_fact, Ex.C104_learns_no_more, C105_session, C105_no_exception, C105_sentence, Ex.C105_capture, C106_steady, C106_programs, C106_sessions, Ex.C106_added, C107_session, C107_no_exception, C107_sentence, Ex.C107_lost, Ex.C107_unknown, C108_session, C108_no_exception, C109_refused, C109_accepted, Ex.C109_order, Ex.C109_first_only, Ex.C109_other_relation, C110_session, C110_consistent, Ex.placer_run, C111_cases, C111_no_case, C111_intent, C111_session, Ex.C111_twice.
<!-- axioms: end -->

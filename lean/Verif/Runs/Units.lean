import Verif.Runs.Chat80
import Verif.RuleText
import Verif.Optimizer
import Verif.Languages
import Verif.SqlSources

/-!
# The unit tests of the project, on the model

A test of the model, see `Verif.Runs.Tools`: the inputs of `tests/unit` with the outputs that those tests ask of the code.
-/

namespace Verif.Runs.Units
open Verif.Runs.Chat80 (ap Body Range tm plus2 npTv tvNp li lo ld World)

/-- A text as a list of characters. -/
def t (s : String) : List Char := s.toList

/-- A rule without `"sem"`. -/
def r' (syn : String) : SimpleRule Attachment := ⟨some (t syn), .none, none⟩

/-- Python's functions, with `\w+` as the only regular expression, but for `\w+ \w+`. -/
def E : Oracles := oracles fun p s =>
  if p = t "\\w+ \\w+" then
    match longest isW s with
    | some n => match s.drop n with
      | ' ' :: rest => (longest isW rest).map fun m => n + 1 + m
      | _ => none
    | none => none
  else longest isW s

/-- The grammar for the rules. -/
def grammar (rs : List (SimpleRule Attachment)) : Except Err (Grammar Attachment) := parseGrammarRules uni E.ruleHash rs false

/-! ## `tests/unit/Parser_test.py` -/

/-- `Parser_test.py:62-65`: the printed variants of the rule. -/
def variants (syn : String) : List String :=
  match grammar [r' syn] with
  | .ok g => (g.findRules ['s'] 1).map fun r => String.ofList r.text
  | .error _ => []

#guard variants "s(V) -> np(E1) vp(V, E1)" = ["s(V) -> np(E1) ' ' vp(V, E1)"]
#guard variants "s(V) -> np(E1) + vp(V, E1)" = ["s(V) -> np(E1) vp(V, E1)"]
#guard variants "s(V) -> np(E1) ~ vp(V, E1)" = ["s(V) -> np(E1) ' ' vp(V, E1)", "s(V) -> np(E1) vp(V, E1)"]
#guard variants "s(V) -> np(E1) 'too'? vp(V, E1)" = ["s(V) -> np(E1) ' ' 'too' ' ' vp(V, E1)", "s(V) -> np(E1) ' ' vp(V, E1)"]
#guard variants "s(V) -> np(E1)+'too'? vp(V, E1)" = ["s(V) -> np(E1) 'too' ' ' vp(V, E1)", "s(V) -> np(E1) ' ' vp(V, E1)"]
#guard variants "s(V) -> 'too'? np(E1) vp(V, E1)" = ["s(V) -> 'too' ' ' np(E1) ' ' vp(V, E1)", "s(V) -> np(E1) ' ' vp(V, E1)"]

/-- The printed trees for a sentence. -/
def trees (rs : List (SimpleRule Attachment)) (text : String) : List String :=
  match grammar rs with
  | .ok g => match (basicParse E 10000 1000 g (t text)).1 with
    | .ok p => p.1.map fun x => String.ofList (inlineText x)
    | _ => ["?"]
  | .error _ => ["??"]

/-- `Parser_test.py:70-78`. -/
def loves : List (SimpleRule Attachment) := [r' "s(V) -> np(E1) vp(V, E1)", r' "vp(V, E1) -> verb(V) np(E1)", r' "np(E1) -> noun(E1)",
  r' "noun(E1) -> proper_noun(E1)", r' "proper_noun(E1) -> 'john'", r' "proper_noun(E1) -> 'mary'", r' "verb(V) -> 'loves'"]

#guard (trees loves "John loves Mary").head? =
  some "s(np(noun(proper_noun(john 'john'))) vp(verb(loves 'loves') np(noun(proper_noun(mary 'mary')))))"

#guard (trees [r' "s(V) -> np(E1)+'\\''+'s' np(E2)", r' "np(E1) -> 'john'", r' "np(E1) -> 'shoe'"] "John's  shoe").head? =
  some "s(np(john 'john') ' ''' s 's' np(shoe 'shoe'))"

/-- `Parser_test.py:135-139`. -/
def walks : List (SimpleRule Attachment) := [r' "s(V) -> proper_noun(E1) verb(V)", r' "proper_noun(E1) -> 'mary'", r' "verb(V) -> 'walks'"]

#guard (match grammar (r' "s(V) => proper_noun(E1) verb(V)" :: walks.tail) with | .error _ => true | .ok _ => false)

#guard (match grammar walks with
  | .ok g => match (basicParse E 10000 1000 g (t "Mary talks")).1 with
    | .ok p => p.2 = .unknownWord (t "talks ...")
    | _ => false
  | .error _ => false)

/-! ## `tests/unit/EarleyParser_test.py` -/

/-- `POS_TYPE_RELATION`. -/
def c (p : String) (args : List String) : Constituent := ⟨t p, args.map t, .relation, false, false⟩
/-- `POS_TYPE_WORD_FORM`. -/
def w (p : String) : Constituent := ⟨t p, [], .word, false, false⟩

/-- `EarleyParser_test.py:13-69`. -/
def ambiguous : Grammar Attachment := Grammar.new ([
  (c "s" ["P1"], [c "np" ["E1"], w " ", c "vp" ["P1", "E2"]]),
  (c "vp" ["P1", "E1"], [c "verb" ["P1"], w " ", c "np" ["E1"]]),
  (c "s" ["P1"], [c "np" ["E1"], w " ", c "verb" ["P1"], w " ", c "np" ["E2"]]),
  (c "np" ["E1"], [c "noun" ["E1"]]),
  (c "noun" ["E1"], [c "proper_noun" ["E1"]]),
  (c "verb" ["P1"], [w "loves"]),
  (c "proper_noun" ["E1"], [w "john"]),
  (c "proper_noun" ["E1"], [w "mary"]),
  (c "noun" ["E1"], [w "john"])].map fun x => GRule.new E.ruleHash x.1 x.2 .none)

#guard (match (parse E 10000 1000 ambiguous (t "John loves Mary")).1 with
  | .ok p => p.1.map fun x => String.ofList (inlineText x)
  | _ => []) = [
    "s(np(noun(john 'john')) verb(loves 'loves') np(noun(proper_noun(mary 'mary'))))",
    "s(np(noun(proper_noun(john 'john'))) verb(loves 'loves') np(noun(proper_noun(mary 'mary'))))",
    "s(np(noun(john 'john')) vp(verb(loves 'loves') np(noun(proper_noun(mary 'mary')))))",
    "s(np(noun(proper_noun(john 'john'))) vp(verb(loves 'loves') np(noun(proper_noun(mary 'mary')))))"]

/-! ## `tests/unit/Composer_test.py` -/

/-- The meanings of the readings of a sentence in turn, with the names of the root variables; `none` when the composer raises. -/
def readings (rs : List (SimpleRule Attachment)) (text : String) : List (Option (List String × Value)) :=
  match grammar rs with
  | .ok g => match (basicParse E 10000 1000 g (t text)).1 with
    | .ok p => (p.1.foldl (fun (acc : Gen × List (Option (List String × Value))) x => match composeSentence x acc.1 with
      | .ok g' c => (g', acc.2 ++ [some (c.1, c.2.sem)])
      | .err g' _ => (g', acc.2 ++ [none])
      | .oof => (acc.1, acc.2 ++ [none])) (⟨0, []⟩, [])).2
    | _ => []
  | .error _ => []

#guard (readings [r "s(E1) -> proper_noun(E1) verb(V)" plus2, r' "proper_noun(E1) -> 'mary'", r' "verb(E1) -> 'walks'"] "Mary walks").head? = some none

/-- The variable with a name of the composer. -/
def v (n : String) : Value := .var n

#guard (readings [
    r "s(E1) -> np(E1) vp(E1)" npTv, r "vp(E1) -> verb(E1, E2) np(E2)" tvNp,
    r "verb(E1, E2) -> 'flows' 'to'" (s0 (l [atom "flows" [E1, E2]])),
    r "np(E1) -> det(E1) nbar(E1)" (s2 fun det nbar => do return tm [Body] (← ap det [← ls nbar, Body])),
    r "det(E1) -> 'the'" (s0 (tm [Range, Body] (Range ++ Body))), r "nbar(E1) -> noun(E1)" (s1 .ok),
    r "noun(E1) -> 'river'" (s0 (l [atom "river" [E1]])), r "noun(E1) -> 'sea'" (s0 (l [atom "sea" [E1]]))]
  "The river flows to the sea").head? =
  some (some (["$1"], l [atom "river" [v "$1"], atom "sea" [v "$2"], atom "flows" [v "$1", v "$2"]]))

/-- `Composer_test.py:75-80`. -/
def sleeps : List (SimpleRule Attachment) := [r "s(V) -> np(E1) 'sleeps'" (s1 .ok), r "np(E1) -> proper_noun(E1)" (s1 .ok),
  r "proper_noun(E1) -> /\\w+/" (s1 .ok), r "proper_noun(E1) -> /\\w+ \\w+/" (s1 .ok)]

#guard (trees sleeps "John sleeps").head? = some "s(np(proper_noun(\\w+ 'John')) sleeps 'sleeps')"
#guard (readings sleeps "John sleeps").head?.map (·.map (·.2)) = some (some (.str "John"))
#guard (readings sleeps "John Walker sleeps").head?.map (·.map (·.2)) = some (some (.str "John Walker"))

#guard (readings [r "s(E1, E2) -> np(E1) vp(E2)" (s2 fun np vp => do return .str ((← str np) ++ (← str vp))),
    r "np(E1) -> 'john'" (s0 (.str "john")), r "vp(E1) -> 'sleeps'" (s0 (.str "sleeps"))] "John sleeps").head?.map (·.map (·.1)) =
  some (some ["$1", "$2"])

#guard (readings [r "s(V) -> 'does' np(E1) 'sleep'~'?'" (s1 .ok), r "np(E1) -> proper_noun(E1)" (s1 .ok), r "proper_noun(E1) -> /\\w+/" (s1 .ok)]
  "Does John sleep?").head?.map (·.map (·.2)) = some (some (.str "John"))

/-! ## `tests/unit/FunctionApplication_test.py` -/

/-- `operator(term1, term2)`; the operators are texts here, the model has no functions as values. -/
def operate : Sem := s3 fun a op b => match a, op, b with
  | .num a, .str "plus", .num b => .ok (.num (a + b))
  | .num a, .str "minus", .num b => .ok (.num (a - b))
  | .num a, .str "times", .num b => .ok (.num (a * b))
  | .num a, .str "divided", .num b => .ok (.num (a / b))
  | _, _, _ => .error .typeError

/-- `FunctionApplication_test.py:20-35`. -/
def calculator : List (SimpleRule Attachment) := [
  r "s(E1) -> 'what' 'is' term(E1)" (s1 .ok), r "s(E1) -> 'calculate' term(E1)" (s1 .ok),
  r "term(E1) -> term(E2) operator(E3) term(E4)" operate,
  r "operator(E1) -> 'plus'" (s0 (.str "plus")), r "operator(E1) -> 'minus'" (s0 (.str "minus")), r "operator(E1) -> 'times'" (s0 (.str "times")),
  r "operator(E1) -> 'divided' 'by'" (s0 (.str "divided")),
  r "term(E1) -> 'one'" (s0 (.num 1)), r "term(E1) -> 'two'" (s0 (.num 2)), r "term(E1) -> 'three'" (s0 (.num 3)), r "term(E1) -> 'four'" (s0 (.num 4))]

#guard (readings calculator "What is three plus four").head?.map (·.map (·.2)) = some (some (.num 7))
#guard (readings calculator "Calculate three plus four times two").map (·.map (·.2)) = [some (.num 14), some (.num 11)]

/-! ## `tests/unit/IsolateIndependentParts_test.py` -/

#guard isolate [atom "a" [E1], atom "b" [E1, E2]] [] = [atom "a" [E1], atom "scoped" [l [atom "b" [E1, E2]]]]
#guard isolate [atom "a" [E1], atom "b" [E1, E2], atom "c" [E2], atom "d" [E1, E3], atom "e" [E3]] [] =
  [atom "a" [E1], atom "scoped" [l [atom "b" [E1, E2], atom "scoped" [l [atom "c" [E2]]]]],
   atom "scoped" [l [atom "d" [E1, E3], atom "scoped" [l [atom "e" [E3]]]]]]
#guard isolate [atom "a" [E1], atom "b" [E1, E2]] ["E2"] = [atom "a" [E1], atom "b" [E1, E2]]
#guard isolate [atom "contains" [E4, E1], atom "city" [E1], atom "has_population" [E1, E2], atom "=" [E3, .num 1000000], atom ">" [E2, E3]] [] =
  [atom "contains" [E4, E1], atom "scoped" [l [atom "city" [E1]]],
   atom "scoped" [l [atom "has_population" [E1, E2], atom "scoped" [l [atom "=" [E3, .num 1000000], atom "scoped" [l [atom ">" [E2, E3]]]]]]]]
#guard isolate [atom "resolve_name" [.str "magnesium", E1], atom "resolve_name" [.str "metal", E2], atom "isa" [E1, E2, E3], atom "not_3v" [E3, E4]] ["E4"] =
  [atom "resolve_name" [.str "magnesium", E1], atom "resolve_name" [.str "metal", E2], atom "isa" [E1, E2, E3], atom "not_3v" [E3, E4]]
#guard isolate [atom "resolve_name" [.str "Equator", E2], atom "resolve_name" [.str "Australasia", E3], atom "not" [l [atom "in" [E1, E3]]]] [] =
  [atom "resolve_name" [.str "Equator", E2],
   atom "scoped" [l [atom "resolve_name" [.str "Australasia", E3], atom "scoped" [l [atom "not" [l [atom "in" [E1, E3]]]]]]]]

/-! ## `tests/unit/InferenceEngine_test.py` -/

/-- The rules of a text. -/
def rules (text : String) : Option (List Rule) := match parseRuleText uni 1000 (t text) with
  | .ok r => r
  | _ => none

/-- A text as a value. -/
def q (s : String) : Value := .str s

#guard rules "river('amazon')." = some [⟨[q "river", q "amazon"], l []⟩]
#guard rules "river('amazon')\n\t#remark\n." = some [⟨[q "river", q "amazon"], l []⟩]
#guard rules "mountain('Dante\\'s peak')." = some [⟨[q "mountain", q "Dante's peak"], l []⟩]
#guard rules "person(\"Robert \\\"Bobby\\\" Brown\")." = some [⟨[q "person", q "Robert \"Bobby\" Brown"], l []⟩]
#guard rules "river()." = some [⟨[q "river"], l []⟩]
#guard rules "population('france', 43)." = some [⟨[q "population", q "france", .num 43], l []⟩]
#guard rules "constant('pi', 3.14159265359)." = some [⟨[q "constant", q "pi", .num (314159265359 / 100000000000)], l []⟩]
#guard rules "father(E1, E2) :- parent(E1, E2), father(E1)." =
  some [⟨[q "father", E1, E2], l [atom "parent" [E1, E2], atom "father" [E1]]⟩]
#guard rules "childless(E1) :- not(parent(E1, E2))." = some [⟨[q "childless", E1], l [atom "not" [l [atom "parent" [E1, E2]]]]⟩]
#guard rules "switch(E1) :- or((a(1), b(2)), (c(3), d(4)))." =
  some [⟨[q "switch", E1], l [atom "or" [l [atom "a" [.num 1], atom "b" [.num 2]], l [atom "c" [.num 3], atom "d" [.num 4]]]]⟩]

/-- `tests/unit/inference/rules.pl`. -/
def rulesPl : String := "river('amazon').
river('brahma_putra').
parent('robert', 'martha').
parent('martha', 'william').
parent('william', 'beatrice').
parent('william', 'antonio').
grand_parent(X, Y) :- parent(X, Z), parent(Z, Y).
knows(A, \"true\") :- scoped(A).
ancestor(X, Y) :- parent(X, Y).
ancestor(X, Y) :- parent(X, Z), ancestor(Z, Y).
related(X, Y) :- ancestor(X, Y).
related(X, X).
related('jennifer', 'jennifer').
related('jennifer', 'david').
family(X, Y) :- (
    grand_parent(X, Y)
;   parent(X, Y)
).
sister('spike', 'suzy').
brother('james', 'george').
sibling(X, Y) :- equals(X, X), ( brother(X, Y) ; sister(X, Y) ).
"

/-- `InferenceEngine_test.py:91-92`: the answers to a question under a binding. -/
def infer (question : List Value) (b : Binding) : Option (List Binding) :=
  match importRules rulesPl .init with
  | .ok s => match (solverAt (modelOf [inferenceModule (Lens.id InfState)]) 100).solve (l question) b s with
    | .ok _ (.rows bs) => some bs
    | _ => none
  | .error _ => none

#guard infer [atom "river" [E1]] [] = some [[("E1", q "amazon")], [("E1", q "brahma_putra")]]
#guard infer [atom "river" [E1]] [("E1", q "brahma_putra"), ("E2", q "keep")] = some [[("E1", q "brahma_putra"), ("E2", q "keep")]]
#guard infer [atom "river" [q "amazon"]] [] = some [[]]
#guard infer [atom "grand_parent" [E1, E2]] [] =
  some [[("E1", q "robert"), ("E2", q "william")], [("E1", q "martha"), ("E2", q "beatrice")], [("E1", q "martha"), ("E2", q "antonio")]]
#guard infer [atom "grand_parent" [E1, E2]] [("E1", q "robert"), ("E2", q "william")] = some [[("E1", q "robert"), ("E2", q "william")]]
#guard infer [atom "grand_parent" [E1, E2]] [("E1", q "martha")] =
  some [[("E1", q "martha"), ("E2", q "beatrice")], [("E1", q "martha"), ("E2", q "antonio")]]
#guard infer [atom "grand_parent" [E1, q "antonio"]] [] = some [[("E1", q "martha")]]
#guard infer [atom "grand_parent" [q "martha", q "antonio"]] [("E1", q "keep")] = some [[("E1", q "keep")]]
#guard infer [atom "grand_parent" [q "martha", q "edward"]] [] = some []
#guard infer [atom "knows" [l [atom "parent" [E1, E2]], q "true"]] [("E1", q "martha")] = some [[("E1", q "martha")]]
#guard infer [atom "knows" [l [atom "parent" [E1, E2]], q "true"]] [("E1", q "magdalena")] = some []
#guard infer [atom "ancestor" [q "robert", q "antonio"]] [("E1", q "robert")] = some [[("E1", q "robert")]]
#guard infer [atom "related" [q "robert", q "antonio"]] [("A", .num 1)] = some [[("A", .num 1)]]
#guard infer [atom "related" [q "robert", q "robert"]] [("A", .num 2)] = some [[("A", .num 2)]]
#guard infer [atom "related" [q "robert", q "xantippe"]] [("A", .num 3)] = some []
#guard infer [atom "related" [E1, E1]] [] = some [[("E1", q "jennifer")]]
#guard infer [atom "related" [E1, E1]] [("E1", q "jennifer")] = some [[("E1", q "jennifer")]]
#guard infer [atom "related" [E1, E1]] [("E1", q "robert")] = some [[("E1", q "robert")]]
#guard infer [atom "family" [E1, q "martha"]] [] = some [[("E1", q "robert")]]
#guard infer [atom "family" [E1, q "william"]] [] = some [[("E1", q "robert")]]
#guard infer [atom "sibling" [q "spike", E1]] [] = some [[("E1", q "suzy")]]

/-! ## `tests/unit/Sqlite3_test.py` -/

/-- Stands for SQLite. -/
def lite : Sql.Dialect := ⟨fun _ => false, fun v u => decide (v = u)⟩

/-- A database with the given tables. -/
def tables (ts : List (String × List String × List (List Value))) : Sql.Db :=
  ts.foldl (fun db x => db.put (t x.1) ⟨x.2.1.map t, x.2.2, fun _ _ => false⟩) fun _ => none

/-- `Sqlite3DataSource.select`. -/
def sel (db : Sql.Db) (table : String) (columns : List String) (values : List Value) : Except Err (List (List Value)) :=
  Sql.select lite .qmark (t table) (columns.map t) values db

/-- `Sqlite3_test.py:18-33`. -/
def customers : Sql.Db := tables [("customer", ["id", "name"], [[.num 1, q "John"], [.num 2, q "Jack"]])]

#guard (match sel customers "customer" ["id", "name"] [.none, .none] with | .ok rows => rows.map (·.head?) | .error _ => []) = [some (.num 1), some (.num 2)]
#guard (match sel customers "customer" ["id", "name"] [.num 1, .none] with | .ok rows => rows | .error _ => []) = [[.num 1, q "John"]]

/-! ## `tests/unit/Solver_test.py` -/

/-- `Solver_test.py:58-74`. -/
def rivers : Sql.Db := tables [("river", ["id"], [[q "amazon"], [q "brahmaputra"]]), ("country", ["id"], [[q "brasil"], [q "india"]]),
  ("contains", ["country", "river"], [[q "brasil", q "amazon"], [q "india", q "brahmaputra"]])]

/-- A relation that selects from a table. -/
def table {W : Type} (db : Sql.Db) (p table : String) (columns : List String) : Option (Relation W) :=
  some { predicate := p, query := fun values _ => do return .rows (← M.lift (sel db table columns values)) }

/-- `Solver_test.py:20-48`. -/
def testModule : Module Unit := ⟨fun _ p => match p with
  | "river" => table rivers p p ["id"]
  | "country" => table rivers p p ["id"]
  | "contains" => table rivers p "contains" ["country", "river"]
  | "number_of" => some { predicate := p, query := fun _ _ => pure (.rows [[.none, .num 2]]) }
  | "return_iterator" => some { predicate := p, query := fun _ _ => pure (.iter [.none, .num 2] 100000000) }
  | _ => none⟩

/-- The answers to a question. -/
def answers (question : List Value) : Option (List Binding) :=
  match (solverAt (modelOf [testModule]) 100).solve (l question) [] () with
  | .ok _ (.rows bs) => some bs
  | _ => none

#guard answers [atom "river" [E1]] = some [[("E1", q "amazon")], [("E1", q "brahmaputra")]]
#guard answers [atom "river" [E1], atom "contains" [q "india", E1]] = some [[("E1", q "brahmaputra")]]
#guard answers [atom "contains" [E1, E2], atom "country" [E1]] =
  some [[("E1", q "brasil"), ("E2", q "amazon")], [("E1", q "india"), ("E2", q "brahmaputra")]]
#guard answers [atom "contains" [E1, E1]] = some []
#guard answers [atom "number_of" [q "river", .num 3]] = some []
#guard answers [atom "number_of" [q "river", .num 2]] = some [[]]
#guard answers [atom "count" [E1, l [atom "return_iterator" []]]] = some [[("E1", .num 100000000)]]

/-! ## `tests/unit/Quantifier_test.py` -/

/-- `Quantifier_test.py:58-65`. -/
def children : Sql.Db := tables [("has_child", ["parent", "child"], [[q "mary", q "lucy"], [q "mary", q "bonny"], [q "barbara", q "john"],
  [q "barbara", q "chuck"], [q "william", q "oswald"], [q "william", q "bertrand"]])]

/-- `Quantifier_test.py:24-46`. -/
def family : Module Unit := ⟨fun _ p => match p with
  | "parent" => table children p "has_child" ["parent"]
  | "child" => table children p "has_child" ["child"]
  | "have" => table children p "has_child" ["parent", "child"]
  | _ => none⟩

/-- `Quantifier_test.py:69-103`. -/
def quantifiers : List (SimpleRule Attachment) := [
  r "s(V1) -> np(E1) vp_no_sub(E1)" npTv, r "vp_no_sub(E1) -> tv(E1, E2) np(E2)" tvNp, r "tv(E1, E2) -> 'has'" (s0 (l [atom "have" [E1, E2]])),
  r "np(E1) -> det(E1) nbar(E1)" (s2 fun det nbar => do return tm [Body] (← ap det [← ls nbar, Body])), r "nbar(E1) -> noun(E1)" (s1 .ok),
  r "det(E1) -> 'every'" (s0 (tm [Range, Body] [atom "all" [E1, l Range, l Body]])),
  r "det(E1) -> number(E1)" (s1 fun number => .ok (tm [Range, Body] [atom "det_equals" [l (Range ++ Body), number]])),
  r "number(D1) -> 'two'" (s0 (.num 2)), r "number(D1) -> 'three'" (s0 (.num 3)),
  r "noun(E1) -> 'parent'" (s0 (l [atom "parent" [E1]])), r "noun(E1) -> 'children'" (s0 (l [atom "child" [E1]]))]

/-- Parser, composer without optimizer, executor: `Quantifier_test.py:105-118`, `AtomExecutor_test.py:43-58`, `AtomExecutor_test.py:97-109`. -/
def blocks {W : Type} (modules : List (Module W)) : List (Block (Product (ParseTree Attachment)) (Session W)) :=
  [⟨.findOne, basicParser 0 E 10000 1000⟩, ⟨.tryFirst, semanticComposer 1 0 none⟩, ⟨.tryFirst, atomExecutor 2 1 (solverAt (modelOf modules) 100).inSession⟩]

/-- `system.enter(SentenceRequest(text))`: the last product, and the session afterwards. -/
def enters {W : Type} (modules : List (Module W)) (text : String) (s : Session W) : Option (Option (Product (ParseTree Attachment)) × Session W) :=
  match enter (solverAt (modelOf modules) 100).inSession (blocks modules) (Request.new (t text), s) with
  | .ok s' p => some (p, s'.2)
  | _ => none

/-- The number of bindings for a sentence. -/
def bindings (text : String) : Option Nat :=
  match grammar quantifiers with
  | .ok g => match enters [family] text ⟨g, ⟨0, []⟩, ()⟩ with
    | some (some (.executed out), _) => some out.len
    | _ => none
  | .error _ => none

#guard bindings "Every parent has two children" = some 3
#guard bindings "Every parent has three children" = some 0

/-! ## `tests/unit/Generator_test.py` -/

/-- `Generator_test.py:27-60`. -/
def writeRules : List WriteDict := [
  wr "s() -> 'OK'" [ot "ok"], wr "s() -> 'The above sentence is impossible'" [ot "impossible"],
  wr "s() -> np(E2) vp(E1)" [ot "declarative", atom "output_subject" [E1, E2]],
  wr "s() -> named_number(E1)" [ot "scalar", atom "output_value" [E1]],
  wr "vp(E1) -> verb(E1) np(E2)" [atom "output_object" [E1, E2]], wr "np(E1) -> text(E2)" [atom "resolve_name" [E2, E1]],
  wr "verb(E1) -> 'married'" [atom "output_predicate" [E1, q "marry"]],
  wr "named_number(E1) -> 'one'" [atom "equals" [E1, .num 1]], wr "named_number(E1) -> 'two'" [atom "equals" [E1, .num 2]]]

/-- `tests/unit/generator/TestOutputBuffer.py:5-14`. -/
def testBuffer : Module (InfState × SimpleStore) := memoryModule (Lens.snd InfState SimpleStore) (outputRelations ++
  [("output_predicate", ["predication", "predicate"]), ("output_subject", ["predication", "subject"]), ("output_object", ["predication", "object"])])

/-- `Generator_test.py:87-92`: write the atoms, then generate. -/
def generates (atoms : List Value) : Option Value :=
  let api := solverAt (modelOf [inferenceModule (Lens.fst InfState SimpleStore), testBuffer]) 100
  match importRules "resolve_name('Jane', '10892').\nresolve_name('John', '37216').\n" .init, parseWriteGrammar uni E.ruleHash writeRules with
  | .ok i, .ok g => match (do writeAll api atoms; generateOutput api g (Lens.snd InfState SimpleStore) 100) (i, []) with
    | .ok _ v => some v
    | _ => none
  | _, _ => none

#guard generates [ot "ok"] = some (q "OK")
#guard generates [ot "impossible"] = some (q "The above sentence is impossible")
#guard generates [ot "declarative", atom "output_predicate" [q "5", q "marry"], atom "output_subject" [q "5", q "10892"],
  atom "output_object" [q "5", q "37216"]] = some (q "Jane married John")
#guard generates [ot "scalar", atom "output_value" [.num 2]] = some (q "two")

/-! ## `tests/unit/AtomExecutor_test.py` -/

/-- `tests/unit/atom_executor/TestModule.py:6-18`. -/
def nameModule {W : Type} : Module W := ⟨fun _ p => match p with
  | "resolve_name" => some { predicate := p, query := fun values ctx => match values with
    | .str name :: _ => do
      let _ ← ctx.solver.solve (l [atom "store" [l [ot "name_not_found", atom "output_name_not_found" [.str name.toLower]]]]) []
      pure (.rows [])
    | _ => M.throw .attributeError }
  | _ => none⟩

/-- `AtomExecutor_test.py:28-33`. -/
def nameRules : List (SimpleRule Attachment) := [r "s(E1) -> noun(E1) verb(V)" plus2,
  r "noun(E1) -> proper_noun(E1)" (s1 fun n => .ok (l [atom "resolve_name" [n, E1]])), r "proper_noun(E1) -> /\\w+/" (s1 .ok),
  r "verb(E1) -> 'walks'" (s0 (l [atom "walks" [E1]]))]

/-- `AtomExecutor_test.py:43-62`, with `tests/unit/atom_executor/write_grammar.py:4-11`. -/
def nameNotFound : Option Value :=
  let modules : List (Module SimpleStore) := [nameModule, outputBuffer (Lens.id SimpleStore)]
  match grammar nameRules, parseWriteGrammar uni E.ruleHash
      [wr "s() -> 'Name not found:' text(E1)" [ot "name_not_found", atom "output_name_not_found" [E1]]] with
  | .ok g, .ok wg => match enters modules "John walks" ⟨g, ⟨0, []⟩, []⟩ with
    | some (_, s) => match generateOutput (solverAt (modelOf modules) 100) wg (Lens.id SimpleStore) 100 s.world with
      | .ok _ v => some v
      | _ => none
    | none => none
  | _, _ => none

#guard nameNotFound = some (q "Name not found: john")

/-- `AtomExecutor_test.py:71-86`. -/
def storeRules : List (SimpleRule Attachment) := [
  r "s(E1) -> noun(E1) 'be'" (s1 .ok),
  ⟨some (t "s(E1) -> /\\w+/ 'exist'"), .user
    { sem := some (s1 fun _ => .ok (l []))
      exec := some fun a => match a with
        | [token] => do return [atom "store" [l [atom "concept" [.str (← str token).toLower]]]]
        | _ => .error .typeError }, none⟩,
  rd "noun(E1) -> 'continents'" (s0 (l [atom "continent" [E1]])) [atom "isa" [e1, q "continent"]]]

/-- `tests/unit/atom_executor/TestDialogContext.py:5-17`. -/
def testContext : Module SqlDb := ⟨fun _ p => (Dict.get [("isa", ["entity", "type"]), ("continent", ["entity"]), ("concept", ["type"])] p).map fun columns =>
  { predicate := p, columns := columns, query := sqlQuery (Lens.id SqlDb), write := some (sqlWrite (Lens.id SqlDb)) }⟩

/-- `AtomExecutor_test.py:111-119`: the rows of `isa` after the first sentence, those of `concept` after the second. -/
def stored : Option (List (List Value) × List (List Value)) :=
  match grammar storeRules with
  | .ok g => match enters [nameModule, testContext] "Continents be" ⟨g, ⟨0, []⟩, [("isa", []), ("continent", []), ("concept", [])]⟩ with
    | some (_, s) => match enters [nameModule, testContext] "Continents exist" s with
      | some (_, s') => match s.world.select "isa" [.none, .none], s'.world.select "concept" [.none] with
        | .ok a, .ok b => some (a, b)
        | _, _ => none
      | none => none
    | none => none
  | .error _ => none

#guard stored = some ([[q "$1", q "continent"]], [[q "continents"]])

/-! ## `tests/unit/Multilingual_test.py` -/

/-- `Multilingual_test.py:30-38`. -/
def houdtVan : List (SimpleRule Attachment) := [r' "s(V) -> np(E1) vp(V, E1)", r' "vp(V, E1) -> verb(V) np(E1)", r' "np(E1) -> noun(E1)",
  r' "noun(E1) -> proper_noun(E1)", r' "proper_noun(E1) -> 'jan'", r' "proper_noun(E1) -> 'marie'", r' "verb(V) -> 'houdt' 'van'"]

/-- The trees for the sentences, entered one after the other, `Multilingual_test.py:41-60`. -/
def multi : List String → Sessions Unit → List (Option String)
  | [], _ => []
  | x :: xs, s => match enter (solverAt (modelOf []) 10).inLocales ((languagesPipeline ["en_US", "nl_NL"] ["nl_NL", "en_US"] E 10000 1000 none
      (solverAt (modelOf []) 10)).take 2) (Request.new (t x), s) with
    | .ok s' (some (.parse tree)) => some (String.ofList (inlineText tree)) :: multi xs s'.2
    | .ok s' _ => none :: multi xs s'.2
    | _ => [none]

#guard (match grammar loves, grammar houdtVan with
  | .ok g, .ok h => multi ["John loves Mary", "Jan houdt van Marie"] ⟨fun l => if l = "nl_NL" then g else h, ⟨0, []⟩, ()⟩
  | _, _ => []) = [
    some "s(np(noun(proper_noun(john 'john'))) vp(verb(loves 'loves') np(noun(proper_noun(mary 'mary')))))",
    some "s(np(noun(proper_noun(jan 'jan'))) vp(verb(houdt 'houdt' van 'van') np(noun(proper_noun(marie 'marie')))))"]

end Verif.Runs.Units

import Verif.Runs.Tools
import Verif.SolveOne

/-!
# The CHAT-80 dialog (`tests/integration/chat80`)

A test of the model, see `Verif.Runs.Tools`.
-/

namespace Verif.Runs.Chat80

/-- `apply`. -/
def ap (t : Value) (vs : List (List Value)) : Except Err (List Value) := applyTemplate t vs
/-- `richard/core/constants.py:44`. -/
def Body : List Value := [.str "__$Body$__"]
/-- `richard/core/constants.py:43`. -/
def Range : List Value := [.str "__$Range$__"]
/-- `SemanticTemplate(args, body)`. -/
def tm (args : List (List Value)) (body : List Value) : Value := .tmpl (args.map .list) body
/-- `lambda x, y: x + y`. -/
def plus2 : Sem := s2 plus
/-- `lambda np, tv: apply(np, tv)`. -/
def npTv : Sem := s2 fun np tv => do return l (← ap np [← ls tv])
/-- `lambda tv, np: apply(np, tv)`. -/
def tvNp : Sem := s2 fun tv np => do return l (← ap np [← ls tv])
/-- The rules of `tests/integration/chat80/read_grammar.py:225-226`. -/
def plural (syn ending : String) : SimpleRule Attachment := ⟨some syn.toList, .user
  { sem := some (s1 fun t => do return l [.tuple [.str ((← str t) ++ ending), E1]])
    dialog := fun a => match a with
      | [t] => do return [atom "dialog_isa" [e1, .str ((← str t) ++ ending)]]
      | _ => .error .typeError }, none⟩

/-- `tests/integration/chat80/read_grammar.py:8-234`. -/
def readRules : List (SimpleRule Attachment) := [
  r "s(E1) -> 'does' np(E1) vp_nosub_obj(E1) + '?'" (s2 fun np vp => do return l [atom "intent_yn" [l (← ap np [← ls vp])]]),
  r "s(E1) -> 'is' 'there' np(E1) + '?'" (s1 fun np => do return l [atom "intent_yn" [l (← ap np [[]])]]),
  r "s(E2) -> 'is' 'there' np(E1) preposition(E1, E2) 'each' nbar(E2) + '?'"
    (s3 fun np p nbar => do return l [atom "intent_yn" [l [atom "all" [E2, nbar, l (← ap np [← ls p])]]]]),
  r "s(E1) -> 'what' nbar(E1) 'are' 'there' + '?'" (s1 fun nbar => .ok (l [atom "intent_list" [e1, nbar]])),
  r "s(E1) -> 'what' nbar(E1) 'are' 'there' pp(E1) + '?'" (s2 fun nbar pp => do return l [atom "intent_list" [e1, l ((← ls nbar) ++ (← ls pp))]]),
  r "s(E1) -> 'what' 'is' np(E1) + '?'" (s1 fun np => do return l [atom "intent_list" [e1, l (← ap np [[]])]]),
  r "s(E1) -> 'what' 'are' np(E1) + '?'" (s1 fun np => do return l [atom "intent_list" [e1, l (← ap np [[]])]]),
  r "s(E1) -> 'what' 'are' np(E1) vp_noobj_sub_iob(E1) + '?'" (s2 fun np vp => do return l [atom "intent_list" [e1, l (← ap np [← ls vp])]]),
  rb "s(E1, E2) -> 'what' 'are' 'the' noun(E1) 'of' np(E2) + '?'" (s2 fun noun np => do
     return l [atom "intent_table" [l [e2, e1], l [.str "", .str ""], l ((← ls noun) ++ [atom "of" [E1, E2]] ++ (← ap np [[]]))]]) 1,
  r "s(E1) -> 'what' 'is' 'the' 'total' 'area' 'of' np(E2) + '?'" (s1 fun np => do
    return l [atom "intent_value_with_unit" [e1, .str "ksqmiles", l [atom "sum" [E1, E3, l ((← ap np [[]]) ++ [atom "size_of" [E2, E3]])]]]]),
  r "s(E1, E3) -> 'what' 'is' 'the' 'average' 'area' 'of' np(E2) preposition(E2, E3) 'each' nbar(E3) + '?'" (s3 fun np p nbar => do
    return l [atom "intent_table" [l [e3, e1], l [.str "", .str "ksqmiles"],
      l ((← ls nbar) ++ [atom "avg" [E1, E4, l ((← ap np [← ls p]) ++ [atom "size_of" [E2, E4]])]])]]),
  r "s(E2, E3) -> 'what' 'percentage' 'of' np(E1) tv(E1, E2) 'each' nbar(E2) + '?'" (s3 fun np tv nbar => do
    return l [atom "intent_table" [l [e2, e3], l [.str "", .str ""],
      l ((← ls nbar) ++ [atom "percentage" [E3, l (← ap np [← ls tv]), l (← ap np [[]])]])]]),
  r "s(E2) -> 'where' 'is' np(E1) + '?'" (s1 fun np => do return l [atom "intent_list" [e2, l ((← ap np [[]]) ++ [atom "where" [E1, E2]])]]),
  r "s(E2) -> 'how' 'large' 'is' np(E1) + '?'" (s1 fun np => do
    return l [atom "intent_value_with_unit" [e2, .str "ksqmiles", l ((← ap np [[]]) ++ [atom "size_of" [E1, E2]])]]),
  r "s(E1) -> 'which' nbar(E1) 'are' adjp(E1) + '?'" (s2 fun nbar x => do return l [atom "intent_list" [e1, l ((← ls nbar) ++ (← ls x))]]),
  r "s(E1) -> 'which' nbar(E1) 'are' vp_noobj_sub(E1) + '?'" (s2 fun nbar x => do return l [atom "intent_list" [e1, l ((← ls nbar) ++ (← ls x))]]),
  r "s(E1) -> 'which' 'is' np(E1) + '?'" (s1 fun np => do return l [atom "intent_list" [e1, l (← ap np [[]])]]),
  r "s(E1) -> 'which' nbar(E1)+'\\''+'s' np(E2) 'is' np(E3) + '?'" (s3 fun nbar np1 np2 => do
    return l [atom "intent_list" [e1, l ((← ls nbar) ++ (← ap np1 [[atom "of" [E2, E1]] ++ (← ap np2 [[atom "equals" [E2, E3]]])]))]]),
  r "s(E1) -> 'which' np(E1) vp_nosub_obj(E1) + '?'" (s2 fun np vp => do return l [atom "intent_list" [e1, l (← ap np [← ls vp])]]),
  r "s(E1) -> 'how' 'many' nbar(E2) vp_noobj_sub(E2) + '?'" (s2 fun nbar vp => do
    return l [atom "intent_value" [e1, l [atom "count" [E1, l ((← ls nbar) ++ (← ls vp))]]]]),
  r "s(E1) -> 'bye' + '.'?" (s0 (l [atom "intent_close_conversation" []])),
  r "vp_nosub_obj(E1) -> tv(E1, E2) np(E2)" tvNp,
  r "vp_nosub_obj(E1) -> 'does' 'not' vp_nosub_obj(E1)" (s1 fun v => .ok (l [atom "not" [v]])),
  r "vp_nosub_obj(E1) -> 'have' 'a' attr(E1, E2)" (s1 .ok),
  r "vp_noobj_sub(E1) -> tv(E2, E1) 'by' np(E2)" tvNp,
  r "vp_noobj_sub(E1) -> 'does' np(E2) tv(E2, E1)" npTv,
  r "vp_noobj_sub(E1) -> 'is' tv(E2, E1) 'by' np(E2)" tvNp,
  r "vp_nosub_obj_continuous(E1) -> tv_continuous(E1, E2) np(E2)" tvNp,
  r "vp_noobj_sub_iob(E1) -> 'from' 'which' np(E2) vp_noobj_nosub_iob(E1, E2)" npTv,
  r "vp_noobj_nosub_iob(E1, E2) -> dtv(E2, E1, E3) np(E3)" tvNp,
  r "tv(E1, E2) -> 'border'" (s0 (l [atom "borders" [E1, E2]])),
  r "tv(E1, E2) -> 'borders'" (s0 (l [atom "borders" [E1, E2]])),
  r "tv(E1, E2) -> 'bordered'" (s0 (l [atom "borders" [E1, E2]])),
  r "tv(E1, E2) -> 'contains'" (s0 (l [atom "contains" [E1, E2]])),
  r "tv(E1, E2) -> 'flow' 'through'" (s0 (l [atom "flows_through" [E1, E2]])),
  r "tv(E1, E2) -> 'exceeds'" (s0 (l [atom "greater_than" [E1, E2]])),
  r "tv_continuous(E1, E2) -> 'bordering'" (s0 (l [atom "borders" [E1, E2]])),
  r "tv_continuous(E1, E2) -> 'exceeding'" (s0 (l [atom "greater_than" [E1, E2]])),
  r "dtv(E1, E2, E3) -> 'flows' 'into'" (s0 (l [atom "flows_from_to" [E1, E2, E3]])),
  r "nbar(E1) -> adj(E1) nbar(E1)" plus2,
  r "nbar(E1) -> noun(E1)" (s1 .ok),
  r "nbar(E1) -> nbar(E1) pp(E1)" plus2,
  r "nbar(E1) -> superlative(E1) nbar(E1)" (s2 fun s nbar => do return l (← ap s [← ls nbar])),
  r "nbar(E1) -> nbar(E1) relative_clause(E1)" plus2,
  r "nbar(E1) -> nbar(E1) pp(E1)" plus2,
  r "relative_clause(E1) -> 'that' vp_nosub_obj(E1)" (s1 .ok),
  r "relative_clause(E1) -> 'that' vp_noobj_sub(E1)" (s1 .ok),
  r "relative_clause(E1) -> relative_clause(E1) 'and' relative_clause(E1)" plus2,
  r "relative_clause(E1) -> vp_nosub_obj_continuous(E1)" (s1 .ok),
  r "relative_clause(E1) -> np(E2) preposition(E2, E1) 'which' vp_nosub_obj(E2)" (s3 fun np p vp => do return l (← ap np [(← ls p) ++ (← ls vp)])),
  r "relative_clause(E1) -> 'whose' attr(E1, E2) vp_nosub_obj(E2)" plus2,
  r "relative_clause(E1) -> 'with' 'a' attr(E1, E2) vp_nosub_obj_continuous(E2)" plus2,
  r "np(E1) -> nbar(E1)" (s1 fun nbar => do return tm [Body] ((← ls nbar) ++ Body)),
  r "np(E1) -> det(E1) nbar(E1)" (s2 fun det nbar => do return tm [Body] (← ap det [← ls nbar, Body])),
  r "np(E1) -> det(E1) attr(E2, E1) 'of' nbar(E2)" (s3 fun det attr nbar => do return tm [Body] (← ap det [(← ls nbar) ++ (← ls attr), Body])),
  r "np(E1) -> number(E1)" (s1 fun n => .ok (tm [Body] ([atom "let" [E1, n]] ++ Body))),
  r "det(E1) -> 'a'" (s0 (tm [Range, Body] (Range ++ Body))),
  r "det(E1) -> 'the'" (s0 (tm [Range, Body] (Range ++ Body))),
  r "det(E1) -> 'some'" (s0 (tm [Range, Body] (Range ++ Body))),
  r "det(E1) -> 'any'" (s0 (tm [Range, Body] (Range ++ Body))),
  r "det(E1) -> 'no'" (s0 (tm [Range, Body] [atom "none" [l (Range ++ Body)]])),
  r "det(E1) -> number(E1)" (s1 fun n => .ok (tm [Range, Body] [atom "det_equals" [l (Range ++ Body), n]])),
  r "det(E1) -> 'more' 'than' number(E1)" (s1 fun n => .ok (tm [Range, Body] [atom "det_greater_than" [l (Range ++ Body), n]])),
  r "superlative(E1) -> 'largest'" (s0 (tm [Body] [atom "arg_max" [E1, E2, l (Body ++ [atom "size_of" [E1, E2]])]])),
  r "superlative(E1) -> 'smallest'" (s0 (tm [Body] [atom "arg_min" [E1, E2, l (Body ++ [atom "size_of" [E1, E2]])]])),
  r "attr(E1, E2) -> 'population'" (s0 (l [atom "has_population" [E1, E2]])),
  r "attr(E1, E2) -> attr(E1, E2) relative_clause(E2)" plus2,
  r "number(E1) -> 'one'" (s0 (.num 1)),
  r "number(E1) -> 'two'" (s0 (.num 2)),
  r "number(E1) -> 'three'" (s0 (.num 3)),
  r "number(E1) -> 'four'" (s0 (.num 4)),
  r "number(E1) -> 'five'" (s0 (.num 5)),
  r "number(E1) -> 'six'" (s0 (.num 6)),
  r "number(E1) -> 'seven'" (s0 (.num 7)),
  r "number(E1) -> 'eight'" (s0 (.num 8)),
  r "number(E1) -> 'nine'" (s0 (.num 9)),
  r "number(E1) -> 'ten'" (s0 (.num 10)),
  r "number(E1) -> /\\d+/" (s1 fun t => do match (← str t).toNat? with | some n => .ok (.num n) | none => .error .typeError),
  r "number(E1) -> number(E1) 'million'" (s1 fun n => match n with | .num q => .ok (.num (q * 1000000)) | _ => .error .typeError),
  r "pp(E1) -> 'not' pp(E1)" (s1 fun v => .ok (l [atom "not" [v]])),
  r "pp(E1) -> preposition(E1, E2) np(E2)" tvNp,
  r "pp(E1) -> 'south' 'of' np(E2)" (s1 fun np => do return l (← ap np [[atom "south_of" [E1, E2]]])),
  r "pp(E1) -> pp(E1) 'and' pp(E1)" plus2,
  r "preposition(E1, E2) -> 'in'" (s0 (l [atom "in" [E1, E2]])),
  r "preposition(E1, E2) -> 'of'" (s0 (l [atom "of" [E1, E2]])),
  r "adjp(E1) -> adj(E1)" (s1 .ok),
  r "adj(E1) -> 'european'" (s0 (l [atom "european" [E1]])),
  r "adj(E1) -> 'african'" (s0 (l [atom "african" [E1]])),
  r "adj(E1) -> 'american'" (s0 (l [atom "american" [E1]])),
  r "adj(E1) -> 'asian'" (s0 (l [atom "asian" [E1]])),
  rd "noun(E1) -> 'river'" (s0 (l [atom "river" [E1]])) [atom "dialog_isa" [e1, .str "river"]],
  rd "noun(E1) -> 'capital'" (s0 (l [atom "capital" [E1]])) [atom "dialog_isa" [e1, .str "city"]],
  rd "noun(E1) -> 'ocean'" (s0 (l [atom "ocean" [E1]])) [atom "dialog_isa" [e1, .str "ocean"]],
  rd "noun(E1) -> 'country'" (s0 (l [atom "country" [E1]])) [atom "dialog_isa" [e1, .str "country"]],
  rd "noun(E1) -> 'sea'" (s0 (l [atom "sea" [E1]])) [atom "dialog_isa" [e1, .str "sea"]],
  rd "noun(E1) -> 'city'" (s0 (l [atom "city" [E1]])) [atom "dialog_isa" [e1, .str "city"]],
  rd "noun(E1) -> 'continent'" (s0 (l [atom "continent" [E1]])) [atom "dialog_isa" [e1, .str "continent"]],
  r "noun(E1) -> plural_noun(E1)'" (s1 .ok),
  plural "plural_noun(E1) -> /\\w+/+'s'" "",
  plural "plural_noun(E1) -> /\\w+/+'ies'" "y",
  r "noun(E1) -> proper_noun(E1)" (s1 .ok),
  rb "proper_noun(E1) -> /\\w+/" (s1 fun t => .ok (l [atom "resolve_name" [t, E1]])) (-1)]

/-- `tests/integration/chat80/write_grammar.py:43-45` (`format_list`). -/
def formatElements : Sem := s1 fun v => do
  let texts ← (← ls v).mapM str
  return .str (joinComma (texts.mergeSort fun a b => !(decide (b < a))))
/-- `write_grammar.py:60-71` (`format_cell`); the numbers in the tables of the dialog are floats. -/
def formatCell (v u : Value) : Except Err Value := do
  let s ← match v with
    | .num q => .ok (toString (if q < 0 then -((-q).floor) else q.floor))
    | .str s => .ok s
    | _ => .error .typeError
  let unit ← str u
  return .str (if unit = "" then s else s ++ " " ++ unit)
/-- The inner loop of `write_grammar.py:53-55`. -/
def formatRow : List Value → List Value → Except Err (List Value)
  | [], _ => .ok []
  | v :: vs, u :: us => do return (← formatCell v u) :: (← formatRow vs us)
  | _, [] => .error .indexError
/-- `row[0]`. -/
def rowKey : Value → String
  | .list (.str s :: _) => s
  | _ => ""
/-- `write_grammar.py:48-57` (`format_table`). -/
def formatTable : Sem := s2 fun t u => do
  let rows := (← ls t).mergeSort fun a b => !(decide (rowKey b < rowKey a))
  let us ← ls u
  return l (← rows.mapM fun row => do return l (← formatRow (← ls row) us))

/-- `tests/integration/chat80/write_grammar.py:4-40`. -/
def writeDicts : List WriteDict := [
  wr "s() -> 'OK'" [ot "ok"], wr "s() -> 'yes'" [ot "yes"], wr "s() -> 'no'" [ot "no"],
  wr "s() -> value(E1)" [ot "value", atom "output_value" [E1]],
  wr "s() -> text(E1) text(E2)" [ot "value_with_unit", atom "output_value_with_unit" [E1, E2]],
  ⟨some "s() -> format(E1)".toList, some [ot "list", atom "output_list" [E1]], some formatElements, none, none⟩,
  ⟨some "s() -> format(E1, E2)".toList, some [ot "table", atom "output_table" [E1, E2]], some formatTable, none, none⟩,
  wr "s() -> 'Cheerio.'" [ot "close_conversation"]]

/-- The data that change: the rules, the output buffer and the dialog context. -/
structure World where
  inf : InfState
  out : SimpleStore
  dialog : SqlDb
/-- The rules. -/
def li : Lens World InfState := ⟨World.inf, fun s w => { w with inf := s }, fun _ _ => rfl, fun _ => rfl, fun _ _ _ => rfl⟩
/-- The output buffer. -/
def lo : Lens World SimpleStore := ⟨World.out, fun s w => { w with out := s }, fun _ _ => rfl, fun _ => rfl, fun _ _ _ => rfl⟩
/-- The dialog context. -/
def ld : Lens World SqlDb := ⟨World.dialog, fun s w => { w with dialog := s }, fun _ _ => rfl, fun _ => rfl, fun _ _ _ => rfl⟩

/-- The numeric columns, `tests/integration/chat80/Chat80DB.py:18-27`. -/
def numeric : List (String × String) := [("country", "lat"), ("country", "long"), ("country", "area_div_1000"), ("country", "area_mod_1000"),
  ("country", "population"), ("country", "population_mod_1000000_div_1000"), ("city", "population")]

/-- A value in a column; numbers in the columns that are declared so, `tests/integration/chat80/Chat80DB.py:19-27`. -/
def cell (t c s : String) : Value := if numeric.contains (t, c) then match s.toInt? with
  | some i => .num i
  | none => .str s
  else .str s
/-- A table of the database, from the text of a CSV file, `richard/data_source/CsvImporter.py:6-30`. Rows with the key of an earlier one are
left out (`INSERT OR IGNORE`) when the first column is the primary key. -/
def table (t : String) (key : Bool) (txt : String) : String × List (Dict Value) :=
  match (txt.splitOn "\n").map (·.splitOn ",") with
  | [] => (t, [])
  | h :: rows => (t, rows.foldl (fun acc row =>
      let record := (h.zip row).map fun (c, s) => (c, cell t c s)
      if key && acc.any (fun other => other.head? == record.head?) then acc else acc ++ [record]) [])

/-- `tests/integration/chat80/Chat80DB.py:14-46`. -/
def db : List (String × List (Dict Value)) := [table "continent" true chatContinent, table "ocean" true chatOcean, table "sea" true chatSea,
  table "river" true chatRiver, table "city" true chatCity, table "country" true chatCountry, table "contains" false chatContains,
  table "borders" false chatBorders]

/-- `richard/data_source/Sqlite3DataSource.py:12-24` (`select`). -/
def select (t : String) (cols : List String) (vals : List Value) : List (List Value) :=
  let rows := (db.lookup t).getD []
  (rows.filter fun row => (cols.zip vals).all fun (c, v) => v = .none || row.lookup c = some v).map fun row => cols.map fun c => (row.lookup c).getD .none

/-- The type of query functions. -/
abbrev Q := List Value → Ctx World → M World QOut
/-- A query function that selects. -/
def sel (t : String) (cols : List String) : Q := fun v _ => pure (.rows (select t cols v))

/-- `tests/integration/chat80/Chat80Module.py:70-75`. -/
def regions : List (String × List String) := [
  ("european", ["southern_europe", "western_europe", "eastern_europe", "scandinavia"]),
  ("asian", ["middle_east", "indian_subcontinent", "southeast_east", "far_east", "northern_asia"]),
  ("american", ["north_america", "central_america", "caribbean", "south_america"]),
  ("african", ["north_africa", "west_africa", "central_africa", "east_africa", "southern_africa"])]
/-- `Chat80Module.py:66-83` (`some_continent`). -/
def someContinent (p : String) : Q := fun v _ => do
  let c ← nth v 0
  pure (.rows (((regions.lookup p).getD []).flatMap fun reg => (select "country" ["id", "region"] [c, .str reg]).map fun row => row.take 1))
/-- `Chat80Module.py:90-113` (`south_of`). -/
def southOf : Q := fun v _ => do
  let id1 ← nth v 0
  let id2 ← nth v 1
  let lats := select "country" ["id", "lat"] [.none, .none] ++ [[.str "equator", .num 0]]
  let lat (i : Value) : Option Rat := (lats.filterMap fun row => match row with | [j, .num q] => if i = j then some q else none | _ => none).getLast?
  if id2 = .none then M.throw (.exception "Unhandled case") else
  match lat id2 with
  | none => M.throw .typeError
  | some q2 =>
    if id1 ≠ .none then match lat id1 with
      | none => M.throw .typeError
      | some q1 => pure (.rows (if q1 < q2 then [[id1, id2]] else []))
    else pure (.rows (lats.filterMap fun row => match row with | [j, .num q] => if q < q2 then some [j, id2] else none | _ => none))
/-- `Chat80Module.py:126-142` (`flows_from_to`). -/
def flowsFromTo : Q := fun v _ => do
  let qr ← nth v 0
  let qf ← nth v 1
  let qt ← nth v 2
  pure (.rows ((select "river" ["id", "flows_through"] [.none, .none]).flatMap fun row => match row with
    | [id, .str f] =>
      let els := (f.splitOn "|").map Value.str
      let to := els.headD .none
      let fr := (els.drop 1).take 1
      if (qr = .none ∨ qr = id) ∧ (qt = .none ∨ qt = to) ∧ (qf = .none ∨ qf ∈ fr) then fr.map fun f => [id, f, to] else []
    | _ => []))
/-- `Chat80Module.py:149-163` (`has_population`). -/
def hasPopulation : Q := fun v ctx => do
  let term ← nth ctx.arguments 0
  let t ← match term with
    | .var n => do
      match ← solve1 ctx.solver (l [atom "dialog_isa" [.str n, .var "Type"]]) [] with
      | some b => pure ((b.get "Type").getD .none)
      | none => pure (.str "")
    | _ => pure (.str "")
  let (tb, k) : String × Rat := if t = .str "city" then ("city", 1000) else ("country", 1000000)
  pure (.rows ((select tb ["id", "population"] v).map fun row => match row with
    | [i, .num q] => [i, .num (q * k)]
    | row => row))
/-- The loop of `Chat80Module.py:169-180`. -/
def resolveLoop (name : Value) (ctx : Ctx World) : List String → M World QOut
  | [] => if name = .str "equator" then pure (.rows [[.none, name]]) else do
    let _ ← ctx.solver.solve (l [atom "store" [l [ot "name_not_found", atom "output_name_not_found" [name]]]]) []
    pure (.rows [])
  | t :: ts => match select t ["id", "id"] [name, .none] with
    | [] => resolveLoop name ctx ts
    | rows => do
      match ← nth ctx.arguments 1 with
      | .var n => do
        ctx.solver.writeAtom (atom "dialog_isa" [.str n, .str t])
        pure (.rows (rows.map fun row => [.none, row.getD 1 .none]))
      | _ => M.throw .attributeError
/-- `Chat80Module.py:166-180` (`resolve_name`). -/
def resolveName : Q := fun v ctx => do
  let n ← nth v 0
  resolveLoop (.str (← M.lift (str n)).toLower) ctx ["country", "city", "sea", "river", "ocean", "continent"]

/-- A relation. -/
def rel (p : String) (q : Q) (size : Option Nat) (sizes : List (Option Nat)) : String × Relation World :=
  (p, { predicate := p, query := q, relationSize := size, argumentSizes := sizes })
/-- `SMALL`, `richard/core/constants.py:47`. -/
def S : Option Nat := some 10
/-- `MEDIUM`, `richard/core/constants.py:48`. -/
def Md : Option Nat := some 100
/-- `LARGE`, `richard/core/constants.py:49`. -/
def Lg : Option Nat := some 1000
/-- `Chat80Module.py:14-37`. -/
def relations : Dict (Relation World) := [
  rel "river" (sel "river" ["id"]) S [S], rel "country" (sel "country" ["id"]) Md [Md], rel "ocean" (sel "ocean" ["id"]) S [S],
  rel "sea" (sel "sea" ["id"]) S [S], rel "city" (sel "city" ["id"]) Md [Md], rel "continent" (sel "continent" ["id"]) S [S],
  rel "capital" (sel "country" ["capital"]) Md [Md],
  rel "borders" (fun v _ => pure (.rows (select "borders" ["country_id1", "country_id2"] v ++ select "borders" ["country_id2", "country_id1"] v))) Lg [Md, Md],
  rel "resolve_name" resolveName Lg [Lg, Lg], rel "of" (sel "country" ["capital", "id"]) Lg [Md, Md],
  rel "size_of" (sel "country" ["id", "area_div_1000"]) none [Md, none], rel "where" (sel "country" ["id", "region"]) none [Md, Md],
  rel "european" (someContinent "european") Md [Md], rel "asian" (someContinent "asian") Md [Md], rel "african" (someContinent "african") Md [Md],
  rel "american" (someContinent "american") Md [Md], rel "flows_through" (sel "contains" ["part", "whole"]) Md [S, Md],
  rel "south_of" southOf none [Md, Md], rel "flows_from_to" flowsFromTo Md [Md, Md, Md], rel "contains" (sel "contains" ["whole", "part"]) Md [Md, Md],
  rel "has_population" hasPopulation Md [Md, none]]

/-- `tests/integration/chat80/Chat80Module.py`. -/
def facts : Module World := ⟨fun _ p => relations.get p⟩

/-- `tests/integration/chat80/test.py:48-98`. -/
def system : Sys World where
  read := readRules
  write := writeDicts
  regex p s := if p = "\\d+".toList then longest Char.isDigit s else longest isW s
  modules := [facts, inferenceModule li, outputBuffer lo, dialogContext ld]
  out := lo

/-- The world at the start, `test.py:55-64`. -/
def world : Except String World := do
  let i ← importRules chatInferences .init
  let j ← importRules chatIntents i
  return ⟨j, [], dialogInit⟩

/-- Whether the replies to the first `n` sentences are those of the test. -/
def passes (n : Nat) : Bool :=
  match world with
  | .ok w => (system.test (chatTests.take n) w).isSome
  | .error _ => false

#guard passes 1

/-- The dialog with a report. -/
def play : IO Nat := do
  match world with
  | .ok w => return (← system.play chatTests w).1
  | .error e => IO.println e; return 1

end Verif.Runs.Chat80

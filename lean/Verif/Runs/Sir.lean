import Verif.Runs.Tools
import Verif.SolveOne

/-!
# The SIR dialog (`tests/integration/sir`)

A test of the model, see `Verif.Runs.Tools`.
-/

namespace Verif.Runs.Sir

/-- Python's `+` on lists. -/
def cats : List Value → Except Err Value
  | [] => .ok (.list [])
  | v :: vs => do plus v (← cats vs)

/-- `tests/integration/sir/read_grammar.py:4-194`. -/
def readRules : List (SimpleRule Attachment) := [
  r "s() -> statement()" (s1 .ok),
  r "s() -> yes_no()" (s1 .ok),
  r "statement() -> 'every' common_noun_name() 'is' a() common_noun_name()" (s3 fun n1 _ n2 => .ok (l [atom "intent_claim" [l [atom "isa" [n1, n2]]]])),
  r "statement() -> 'any' common_noun_name() 'is' 'an' 'example' 'of' a() common_noun_name()" (s3 fun n1 _ n2 => .ok (l [atom "intent_claim" [l [atom "isa" [n1, n2]]]])),
  r "statement() -> a() common_noun_name() 'is' a() common_noun_name()" (s4 fun _ n1 _ n2 => .ok (l [atom "intent_teach" [l [atom "isa" [n1, n2]]]])),
  r "statement() -> a() common_noun_name() 'is' 'a'? 'part' 'of' a() common_noun_name()" (s4 fun _ n1 _ n2 => .ok (l [atom "intent_teach" [l [atom "part_of" [n1, n2]]]])),
  r "statement() -> a() common_noun_name() 'is' 'a'? 'part' 'of' 'every' common_noun_name()" (s3 fun _ n1 n2 => .ok (l [atom "intent_teach" [l [atom "part_of" [n1, n2]]]])),
  r "statement() -> a() common_noun_name() 'is' 'a'? 'part' 'of' proper_noun(E1)" (s3 fun _ n p => cats [p, l [atom "intent_teach" [l [atom "part_of" [n, E1]]]]]),
  r "statement() -> 'there' 'are' number(E1) common_noun_name() 'on' 'each' common_noun_name()"
    (s3 fun k n1 n2 => .ok (l [atom "intent_teach" [l [atom "part_of" [n1, n2], atom "part_of_n" [n1, n2, k]]]])),
  r "statement() -> proper_noun(E1) 'is' a() common_noun_name()" (s3 fun p _ n => cats [p, l [atom "intent_teach" [l [atom "isa" [E1, n]]]]]),
  r "statement() -> 'every' common_noun_name() 'has' number(E1) common_noun_name()"
    (s3 fun n1 k n2 => .ok (l [atom "intent_teach" [l [atom "part_of" [n2, n1], atom "part_of_n" [n2, n1, k]]]])),
  r "statement() -> proper_noun(E1) 'has' number(E1) common_noun_name()"
    (s3 fun p k n => cats [p, l [atom "intent_teach" [l [atom "part_of" [n, E1], atom "part_of_n" [n, E1, k]]]]]),
  r "statement() -> proper_noun(E1) 'is' proper_noun(E2)" (s2 fun p q => cats [p, q, l [atom "intent_teach" [l [atom "identical" [E1, E2]]]]]),
  r "statement() -> 'every' common_noun_name() own() a() common_noun_name()" (s4 fun n1 _ _ n2 => .ok (l [atom "intent_teach" [l [atom "own" [n1, n2]]]])),
  r "statement() -> proper_noun(E1) own() a() common_noun_name()" (s4 fun p _ _ n => cats [p, l [atom "intent_teach" [l [atom "own" [E1, n]]]]]),
  r "s(E3) -> proper_noun(E1) 'is' preposition(E1, E2) proper_noun(E2)" (s3 fun p c q => cats [p, q, l [atom "intent_claim" [c]]]),
  r "s() -> 'how' 'many' common_noun(E1) 'does' proper_noun(E2) 'have'+'?'" (s2 fun c p => cats [c, p, l [atom "intent_count" [l [atom "have" [E2, E1]]]]]),
  r "s() -> 'is' a() common_noun_name() a() common_noun_name()~'?'" (s4 fun _ n1 _ n2 => .ok (l [atom "intent_isa" [n1, n2]])),
  r "s() -> 'is' a() common_noun_name() 'a'? 'part' 'of' a() common_noun_name()~'?'" (s4 fun _ n1 _ n2 => .ok (l [atom "intent_part_of" [n1, n2]])),
  r "s() -> 'is' a() common_noun_name() 'a'? 'part' 'of' proper_noun(E2)~'?'" (s3 fun _ n p => cats [p, l [atom "intent_part_of" [n, E2]]]),
  r "s() -> 'is' proper_noun(E1) a() common_noun_name()~'?'" (s3 fun p _ n => cats [p, l [atom "intent_isa" [E1, n]]]),
  r "yes_no() -> 'does' proper_noun(E1) own() a() common_noun_name()~'?'" (s4 fun p _ _ n => cats [p, l [atom "intent_own" [E1, n]]]),
  r "s() -> 'does' a() common_noun_name() own() a() common_noun_name()~'?'" (s5 fun _ n1 _ _ n2 => .ok (l [atom "intent_some_own" [n1, n2]])),
  r "s() -> 'is' proper_noun(E1) preposition(E1, E2) proper_noun(E2)~'?'"
    (s3 fun p c q => (cats [p, q, c]).bind fun b => .ok (l [atom "with_context" [.str "question", l [atom "intent_yn" [b]]]])),
  r "s() -> 'where' 'is' proper_noun(E1)~'?'" (s1 fun p => .ok (l [atom "intent_where" [.rvar "E1", p]])),
  r "s() -> 'what' 'is' 'the' 'position' 'of' proper_noun(E1)~'?'" (s1 fun _ => .ok (l [atom "intent_position" []])),
  r "number(E1) -> 'one'" (s0 (.num 1)),
  r "number(E1) -> 'two'" (s0 (.num 2)),
  r "number(E1) -> 'nine'" (s0 (.num 9)),
  r "number(E1) -> '5'" (s0 (.num 5)),
  r "a() -> 'a'" (s0 (l [])),
  r "a() -> 'an'" (s0 (l [])),
  r "own() -> 'own'" (s0 (l [])),
  r "own() -> 'owns'" (s0 (l [])),
  ⟨some "common_noun(E1) -> common_noun_name()".toList, .user
    { sem := some (s1 fun n => .ok (l [.tuple [n, E1]]))
      dialog := fun a => match a with | [n] => .ok [atom "isa" [.rvar "E1", n]] | _ => .error .typeError }, none⟩,
  r "preposition(E1, E2) -> 'just' 'to' 'the' 'left' 'of'" (s0 (l [atom "just_left_of" [E1, E2]])),
  r "preposition(E1, E2) -> 'just' 'to' 'the' 'right' 'of'" (s0 (l [atom "just_left_of" [E2, E1]])),
  r "preposition(E1, E2) -> 'to' 'the' 'left' 'of'" (s0 (l [atom "left_of" [E1, E2]])),
  r "preposition(E1, E2) -> 'to' 'the' 'right' 'of'" (s0 (l [atom "left_of" [E2, E1]])),
  r "proper_noun(E1) -> 'the'? name()" (s1 fun n => .ok (l [atom "resolve_name" [n, E1]])),
  r "common_noun_name() -> name()" (s1 .ok),
  rb "common_noun_name() -> common_noun_name()+'s'" (s1 .ok) 1,
  r "name() -> /\\w[\\w\\d]+(-[\\w\\d]+)*/" (s1 .ok)]

/-- `tests/integration/sir/write_grammar.py:94-95` (`format_list`). -/
def formatElements : Sem := s1 fun v => do
  let texts ← (← ls v).mapM str
  return .str ("(" ++ joinComma texts ++ ")")

/-- `str.strip`. -/
def strip (s : String) : String :=
  String.ofList ((s.toList.dropWhile Char.isWhitespace).reverse.dropWhile Char.isWhitespace).reverse

/-- `tests/integration/sir/write_grammar.py:6-91`. -/
def writeDicts : List WriteDict := [
  wr "s() -> 'I understand'" [ot "understand"],
  wr "s() -> 'Insufficient information'" [ot "unknown"],
  wr "s() -> 'No, they are the same'" [ot "no_same"],
  wr "s() -> 'No, part means proper subpart'" [ot "no_subpart"],
  wr "s() -> 'No, but the reverse is sometimes true'" [ot "reverse_sometimes"],
  wr "s() -> 'Sometimes'" [ot "sometimes"],
  wr "s() -> 'Yes'" [ot "yes"],
  wr "s() -> 'No'" [ot "no"],
  wr "s() -> 'The above statement is impossible'" [ot "impossible"],
  wr "s() -> 'The answer is' text(E1)" [ot "count", atom "output_count" [E1]],
  wr "s() -> 'How many' text(E1) 'per' text(E2)+'?'" [ot "how_many", atom "output_how_many" [E1, E2]],
  wr "s() -> 'Don\\'t know whether' text(E1) 'is part of' text(E2)" [ot "dont_know_part_of", atom "output_dont_know_part_of" [E1, E2]],
  ⟨some "s() -> custom()".toList, none, none, some fun v => match v with
    | .str s => .ok (.str (strip s))
    | _ => .error .attributeError, none⟩,
  wr "custom() -> just_left_of(E1)? just_right_of(E1)? left_of(E1)? right_of(E1)?" [ot "location", atom "output_location" [E1]],
  wr "just_left_of(E1) -> 'Just to the left of the' text(E2)+'.'" [atom "just_left_of" [E1, E2]],
  wr "just_right_of(E1) -> 'Just to the right of the' text(E2)+'.'" [atom "just_left_of" [E2, E1]],
  ⟨some "right_of(E1) -> 'Somewhere to the right of the following ..' format(List)".toList,
    some [atom "find_all" [.str "E2", l [atom "somewhere_left_of" [E2, E1]], .var "List"], atom "not" [l [atom "equals" [.var "List", l []]]]],
    some formatElements, none, none⟩,
  ⟨some "left_of(E1) -> 'Somewhere to the left of the following ..' format(List)".toList,
    some [atom "find_all" [.str "E2", l [atom "somewhere_left_of" [E1, E2]], .var "List"], atom "not" [l [atom "equals" [.var "List", l []]]]],
    some formatElements, none, none⟩,
  wr "custom() -> 'The left-to-right order is as follows:' text(E1)" [ot "position", atom "position_description" [E1]]]

/-- The data of the modules: the database (`tests/integration/sir/SIRDB.py:5-20`), the rules, the output buffer and the dialog context. -/
structure World where
  facts : SqlDb
  inf : InfState
  out : SimpleStore
  dialog : SqlDb

/-- The database. -/
def lf : Lens World SqlDb := ⟨World.facts, fun s w => { w with facts := s }, fun _ _ => rfl, fun _ => rfl, fun _ _ _ => rfl⟩
/-- The rules. -/
def li : Lens World InfState := ⟨World.inf, fun s w => { w with inf := s }, fun _ _ => rfl, fun _ => rfl, fun _ _ _ => rfl⟩
/-- The output buffer. -/
def lo : Lens World SimpleStore := ⟨World.out, fun s w => { w with out := s }, fun _ _ => rfl, fun _ => rfl, fun _ _ _ => rfl⟩
/-- The dialog context. -/
def ld : Lens World SqlDb := ⟨World.dialog, fun s w => { w with dialog := s }, fun _ _ => rfl, fun _ => rfl, fun _ _ _ => rfl⟩

/-- `tests/integration/sir/SIRModule.py:122-132` (`get_name`). -/
def getName (ctx : Ctx World) (id : String) (value : Value) : M World Value := do
  match ← solve1 ctx.solver (l [atom "isa" [.str id, .var "Type"]]) [] with
  | some b => match b.get "Type" with
    | some t => if t = .str "person" then pure value else pure t
    | none => M.throw .keyError
  | none => pure value

/-- `SIRModule.py:101-107`: the name of a variable argument. -/
def nameOrNone (ctx : Ctx World) (a value : Value) : M World Value :=
  match a with
  | .var n => getName ctx n value
  | _ => pure .none

/-- `SIRModule.py:41-58` (`part_of_n`). -/
def partOfN (values : List Value) (ctx : Ctx World) : M World QOut := do
  let pv ← nth ctx.arguments 0
  let wv ← nth ctx.arguments 1
  match ← sqlQuery lf values { ctx with predicate := "part_of_n" } with
  | .rows [] => do
    let v1 ← nth values 1
    let wt ← nameOrNone ctx wv v1
    let v0 ← nth values 0
    let pt ← nameOrNone ctx pv v0
    let _ ← ctx.solver.solve (l [atom "store" [l [ot "how_many", atom "output_how_many" [pt, wt]]]]) []
    pure (.rows [])
  | q => pure q

/-- `SIRModule.py:94-119` (`have`). -/
def have_ (values : List Value) (ctx : Ctx World) : M World QOut := do
  let wv ← nth ctx.arguments 0
  let pv ← nth ctx.arguments 1
  let v0 ← nth values 0
  let wt ← nameOrNone ctx wv v0
  let v1 ← nth values 1
  let pt ← nameOrNone ctx pv v1
  match ← ctx.solver.solve (l [atom "part_of_number" [pt, wt, .var "N"]]) [] with
  | .rows (b :: _) => match b.get "N" with
    | some (.num q) => pure (.iter [.none, .none] q.num.toNat)
    | _ => M.throw .typeError
  | _ => do
    let _ ← ctx.solver.solve (l [atom "store" [l [ot "dont_know_part_of", atom "output_dont_know_part_of" [pt, wt]]]]) []
    pure (.iter [.none, .none] 0)

/-- `SIRModule.py:75-80` (`resolve_name`). -/
def resolveName (values : List Value) (_ : Ctx World) : M World QOut := do
  let name ← nth values 0
  pure (.rows [[.none, name]])

/-- A relation with the functions of `SIRModule.py:32-38` (`common_query`, `common_write`) or another query. -/
def rel (p : String) (cols : List String) (q : List Value → Ctx World → M World QOut) (w : Bool) : String × Relation World :=
  (p, { predicate := p, columns := cols, query := fun v c => q v { c with predicate := p, columns := cols },
        write := if w then some fun v c => sqlWrite lf v { c with predicate := p, columns := cols } else none })

/-- `SIRModule.py:14-29`, with `finger` (84-89) and `position_description` (136-140). -/
def sirRelations : Dict (Relation World) := [
  rel "resolve_name" [] resolveName false,
  rel "finger" [] (fun _ _ => pure (.rows [[.str "a-finger"]])) false,
  rel "have" [] have_ false,
  rel "part_of" ["part", "whole"] (sqlQuery lf) true,
  rel "part_of_n" ["part", "whole", "number"] partOfN true,
  rel "isa" ["entity", "type"] (sqlQuery lf) true,
  rel "identical" ["entity1", "entity2"] (sqlQuery lf) true,
  rel "own" ["person", "thing"] (sqlQuery lf) true,
  rel "just_left_of" ["thing1", "thing2"] (sqlQuery lf) true,
  rel "left_of" ["thing1", "thing2"] (sqlQuery lf) true,
  rel "position_description" ["description"] (fun _ _ => pure (.rows [[.str "<the ordered list>"]])) false]

/-- `tests/integration/sir/SIRModule.py`. -/
def sirModule : Module World := ⟨fun _ p => sirRelations.get p⟩
/-- `tests/integration/sir/SIROutputBuffer.py:7-16`. -/
def sirOutput : Module World := memoryModule lo (outputRelations ++ [("output_count", ["number"]), ("output_how_many", ["type1", "type2"]),
  ("output_dont_know_part_of", ["type1", "type2"]), ("output_location", ["object"]), ("context", ["type"])])

/-- `(-[\w\d]+)*`, to depth `n`. -/
def groups : Nat → List Char → Nat
  | 0, _ => 0
  | n + 1, '-' :: t => match (t.takeWhile isW).length with
    | 0 => 0
    | k + 1 => k + 2 + groups n (t.drop (k + 1))
  | _, _ => 0

/-- The regular expression of `tests/integration/sir/read_grammar.py:192`. -/
def nameRegex (_ s : List Char) : Option Nat :=
  let n := (s.takeWhile isW).length
  if n < 2 then none else some (n + groups s.length (s.drop n))

/-- `tests/integration/sir/test.py:49-96`. -/
def system : Sys World where
  read := readRules
  write := writeDicts
  regex := nameRegex
  modules := [sirModule, inferenceModule li, sirOutput, dialogContext ld]
  out := lo
  first := .tryFirst

/-- The world at the start, `test.py:53-66`, `SIRDB.py:12-18`. -/
def world : Except String World := do
  let i ← importRules sirIntents .init
  let j ← importRules sirInferences i
  return ⟨["isa", "identical", "part_of", "part_of_n", "own", "just_left_of", "left_of"].map (·, []), j, [], dialogInit⟩

/-- Whether the replies to the first `n` sentences are those of the test. -/
def passes (n : Nat) : Bool :=
  match world with
  | .ok w => (system.test (sirTests.take n) w).isSome
  | .error _ => false

#guard passes 2

/-- The dialog with a report. -/
def play : IO Nat := do
  match world with
  | .ok w => return (← system.play sirTests w).1
  | .error e => IO.println e; return 1

end Verif.Runs.Sir

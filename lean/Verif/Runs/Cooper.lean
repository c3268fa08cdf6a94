import Verif.Runs.Tools

/-!
# Cooper's dialog (`tests/integration/cooper`)

A test of the model, see `Verif.Runs.Tools`.
-/

namespace Verif.Runs.Cooper

/-- `tests/integration/cooper/read_grammar2.py:6-11`. -/
def T1 : Value := .var "T1"
/-- `read_grammar2.py:7`. -/
def T2 : Value := .var "T2"
/-- `read_grammar2.py:8`. -/
def T3 : Value := .var "T3"
/-- `read_grammar2.py:9`. -/
def T4 : Value := .var "T4"
/-- `read_grammar2.py:10`. -/
def T5 : Value := .var "T5"
/-- `read_grammar2.py:11`. -/
def T6 : Value := .var "T6"
/-- `v[0]`. -/
def hd : Value → Except Err Value
  | .list (x :: _) => .ok x
  | .list [] => .error .indexError
  | _ => .error .typeError
/-- `'true'`. -/
def tt : Value := .str "true"
/-- `'false'`. -/
def ff : Value := .str "false"
/-- `[('let', T1, a), ('let', T2, b)]`. -/
def lets (a b : Value) : List Value := [atom "let" [T1, a], atom "let" [T2, b]]
/-- `lambda: [(p, E1, T1)]`. -/
def a2 (p : String) : Sem := s0 (l [atom p [E1, T1]])
/-- `lambda token: [('resolve_name', token, E1)]`. -/
def resolve1 : Sem := s1 fun t => .ok (l [atom "resolve_name" [t, E1]])
/-- `lambda token1, token2: [('resolve_name', token1 + " " + token2, E1)]`. -/
def resolve2 : Sem := s2 fun t u => do return l [atom "resolve_name" [.str ((← str t) ++ " " ++ (← str u)), E1]]

/-- `tests/integration/cooper/read_grammar1.py:11-135`. -/
def rules1 : List (SimpleRule Attachment) := [
  r "s() -> proper_noun(E1) is() a() np(E1, T1)" (s4 fun n _ _ np => do return l ([atom "let" [T1, tt]] ++ (← ls n) ++ [atom "sentence_tell" [np]])),
  r "s() -> proper_noun(E1) 'is' proper_noun(E1)" (s2 fun p q => do return l [atom "sentence_tell" [← plus p q]]),
  r "s() -> 'no' noun(E1, T1) is() a() np(E1, T2)" (s4 fun n _ _ np => do return l (lets tt ff ++ [atom "sentence_learn" [← hd np, n]])),
  r "s() -> a() noun(E1, T1) is() 'not' a() np(E1, T2)" (s5 fun _ n _ _ np => do return l (lets tt ff ++ [atom "sentence_learn" [← hd np, n]])),
  r "s() -> noun(E1, T1) verb(E1)" (s2 fun n v => do return l ((← ls n) ++ [atom "store" [v]])),
  r "s() -> np(E1, T1) verb(E1)" (s2 fun np v => do return l (lets tt tt ++ [atom "sentence_learn" [← hd v, np]])),
  r "s() -> np(E1, T1) are() 'not' adj(E1, T2)" (s3 fun np _ adj => do return l (lets tt ff ++ [atom "sentence_learn" [← hd adj, np]])),
  r "s() -> noun(E1, T1) 'is' adj(E1, T1)" (s2 fun n adj => do return l (lets tt tt ++ [atom "sentence_learn" [← hd adj, n]])),
  r "s() -> noun(E1, T1) are() 'not' np(E1, T2)" (s3 fun n _ np => do return l [
    atom "scoped" [l (lets ff tt ++ [atom "sentence_learn" [← hd n, np]])],
    atom "scoped" [l (lets tt ff ++ [atom "sentence_learn" [← hd np, n]])]]),
  r "s() -> noun(E1, T1) are() np(E1, T2)" (s3 fun n _ np => do return l (lets tt tt ++ [atom "sentence_learn" [← hd np, n]])),
  r "s() -> 'any' 'thing' 'that' verb(E1) verb(E1)" (s2 fun v w => do return l (lets tt tt ++ [atom "sentence_learn" [← hd w, v]])),
  r "np(E1, T1) -> noun(E1, T1)" (s1 .ok),
  r "np(E1, T1) -> adj(E1, T1) np(E1, T1)" (s2 plus),
  r "np(E1, T1) -> np(E1, T1) 'that' 'is' np(E1, T1)" (s2 plus),
  r "verb(E1) -> 'burn'" (s0 (l [atom "burns" [E1, tt]])),
  r "verb(E1) -> 'burns'" (s0 (l [atom "burns" [E1, tt]])),
  r "verb(E1) -> 'burns' 'rapidly'" (s0 (l [atom "burns_rapidly" [E1, tt]])),
  r "verb(E1) -> 'rapidly' 'burns'" (s0 (l [atom "burns_rapidly" [E1, tt]])),
  r "is() -> 'is'" (s0 (l [])), r "are() -> 'are'" (s0 (l [])), r "a() -> 'a'" (s0 (l [])), r "a() -> 'an'" (s0 (l [])),
  r "adj(E1, T1) -> 'white'" (a2 "white"), r "adj(E1, T1) -> 'dark-gray'" (a2 "dark_gray"), r "adj(E1, T1) -> 'metallic'" (a2 "metal"),
  r "adj(E1, T1) -> 'combustable'" (a2 "combustable"),
  r "noun(E1, T1) -> common_noun(E1, T1)" (s1 .ok), r "noun(E1, T1) -> proper_noun(E1)" (s1 .ok),
  r "common_noun(E1, T1) -> 'nonmetal'" (a2 "nonmetal"), r "common_noun(E1, T1) -> 'fuel'" (a2 "fuel"), r "common_noun(E1, T1) -> 'metal'" (a2 "metal"),
  r "common_noun(E1, T1) -> 'oxide'" (a2 "oxide"), r "common_noun(E1, T1) -> 'sulfide'" (a2 "sulfide"), r "common_noun(E1, T1) -> 'chloride'" (a2 "chloride"),
  r "common_noun(E1, T1) -> 'brittle'" (a2 "brittle"), r "common_noun(E1, T1) -> 'element'" (a2 "element"), r "common_noun(E1, T1) -> 'elements'" (a2 "element"),
  r "common_noun(E1, T1) -> 'compound'" (a2 "compound"), r "common_noun(E1, T1) -> 'compounds'" (a2 "compound"), r "common_noun(E1, T1) -> 'things'" (s0 (l [])),
  r "proper_noun(E1) -> /\\w+/" resolve1, r "proper_noun(E1) -> /\\w+/ /\\w+/" resolve2, r "proper_noun(E1) -> /\\w+/ main_noun(E1)" resolve2,
  rd "main_noun(E1) -> 'oxide'" (s0 (.str "oxide")) [atom "oxide" [e1, tt]],
  rd "main_noun(E1) -> 'chloride'" (s0 (.str "chloride")) [atom "chloride" [e1, tt]],
  rd "main_noun(E1) -> 'sulfide'" (s0 (.str "sulfide")) [atom "sulfide" [e1, tt]]]

/-- `tests/integration/cooper/read_grammar2.py:16-95`. -/
def rules2 : List (SimpleRule Attachment) := [
  r "s(T1) -> vp(E1, T1)" (s1 fun vp => do return l ((← ls vp) ++ [atom "sentence_check" [T1]])),
  r "vp(E1, T3) -> np(E1, T2) is() a() np(E1, T1)" (s4 fun p _ _ q => do return l ((← ls p) ++ (← ls q) ++ [atom "and_3v" [T1, T2, T3]])),
  r "vp(E1, T3) -> np(E1, T2) is() 'not' a() np(E1, T1)" (s4 fun p _ _ q => do return l ((← ls p) ++ (← ls q) ++ [atom "not_3v" [T1, T3]])),
  r "vp(E1, T3) -> vp(E1, T1) rel_clause(E1, T2)" (s2 fun p q => do return l ((← ls p) ++ (← ls q) ++ [atom "and_3v" [T1, T2, T3]])),
  r "vp(E1, T3) -> np(E1, T1) is() np(E1, T2)" (s3 fun p _ q => do return l ((← ls p) ++ (← ls q) ++ [atom "and_3v" [T1, T2, T3]])),
  r "vp(E1, T3) -> 'some' np(E1, T1) are() np(E1, T2)" (s3 fun p _ q => do return l ((← ls p) ++ (← ls q) ++ [atom "and_3v" [T1, T2, T3]])),
  r "vp(E1, T3) -> 'no' np(E1, T1) is() np(E1, T2)" (s3 fun p _ q => do return l (lets tt tt ++ (← ls p) ++ (← ls q) ++ [atom "not_3v" [T2, T3]])),
  r "vp(E1, T3) -> np(E1, T1) are() 'not' np(E1, T2)" (s3 fun p _ q => do return l (lets tt tt ++ (← ls p) ++ (← ls q) ++ [atom "not_3v" [T2, T3]])),
  r "vp(E1, T3) -> 'every' np(E1, T1) is() a() np(E1, T2)" (s4 fun p _ _ q => do return l (lets tt tt ++ (← ls p) ++ (← ls q) ++ [atom "and_3v" [T1, T2, T3]])),
  r "vp(E1, T6) -> np(E1, T1) is() 'not' a() np(E1, T2) 'that' is() 'not' np(E1, T3)" (s6 fun p _ _ q _ o => do
    return l ((← ls p) ++ (← ls q) ++ (← ls o) ++ [atom "not_3v" [T3, T4], atom "and_3v" [T2, T4, T5], atom "not_3v" [T5, T6]])),
  r "vp(E1, T4) -> np(E1, T1) is() 'not' np(E1, T2)" (s3 fun p _ q => do return l ((← ls p) ++ (← ls q) ++ [atom "and_3v" [T1, T2, T3], atom "not_3v" [T3, T4]])),
  r "vp(E1, T4) -> 'no' adj(E1, T1) 'thing' is() a() np(E1, T2)" (s4 fun p _ _ q => do
    return l ((← ls p) ++ (← ls q) ++ [atom "and_3v" [T1, T2, T3], atom "not_3v" [T3, T4]])),
  r "vp(E1, T5) -> np(E1, T1) is() a() np(E1, T2) 'that' verb(E1, T3)" (s5 fun p _ _ q v => do
    return l ((← ls p) ++ (← ls q) ++ (← ls v) ++ [atom "and" [T1, T2, T4], atom "and_3v" [T3, T4, T5]])),
  r "a() -> 'a'" (s0 (l [])), r "a() -> 'an'" (s0 (l [])),
  r "rel_clause(E1, T1) -> 'that' verb(E1, T1)" (s1 .ok),
  r "verb(E1, T1) -> 'burns'" (a2 "burns"), r "verb(E1, T1) -> 'burns' 'rapidly'" (a2 "burns_rapidly"),
  r "is() -> 'is'" (s0 (l [])), r "are() -> 'are'" (s0 (l [])),
  r "np(E1, T1) -> noun(E1, T1)" (s1 .ok), r "np(E1, T1) -> adj(E1, T1) np(E1, T1)" (s2 plus),
  r "np(E1, T1) -> proper_noun(E1)" (s1 fun p => do return l ((← ls p) ++ [atom "let" [T1, tt]])),
  r "np(E1, T2) -> 'anything' 'that' is() 'not' a() np(E1, T1)" (s3 fun _ _ np => do return l ((← ls np) ++ [atom "not_3v" [T1, T2]])),
  r "adj(E1, T1) -> 'brittle'" (a2 "brittle"), r "adj(E1, T1) -> 'dark-gray'" (a2 "dark_gray"),
  r "noun(E1, T1) -> 'metal'" (a2 "metal"), r "noun(E1, T1) -> 'nonmetal'" (a2 "nonmetal"), r "noun(E1, T1) -> 'compound'" (a2 "compound"),
  r "noun(E1, T1) -> 'element'" (a2 "element"), r "noun(E1, T1) -> 'white'" (a2 "white"), r "noun(E1, T1) -> 'dark-gray'" (a2 "dark_gray"),
  r "noun(E1, T1) -> 'oxide'" (a2 "oxide"), r "noun(E1, T1) -> 'oxides'" (a2 "oxide"), r "noun(E1, T1) -> 'sulfide'" (a2 "sulfide"),
  r "noun(E1, T1) -> 'sulfides'" (a2 "sulfide"), r "noun(E1, T1) -> 'brittle'" (a2 "brittle"), r "noun(E1, T1) -> 'fuel'" (a2 "fuel"),
  r "proper_noun(E1) -> /\\w+/" resolve1, r "proper_noun(E1) -> /\\w+/ /\\w+/" resolve2]

/-- `tests/integration/cooper/write_grammar.py:4-23`. -/
def writeDicts : List WriteDict := [wr "s() -> 'OK'" [ot "ok"], wr "s() -> 'True'" [ot "true"], wr "s() -> 'False'" [ot "false"],
  wr "s() -> 'Unable to answer'" [ot "unknown"]]

/-- The data of the modules. -/
structure World where
  facts : SqlDb
  inf : InfState
  out : SimpleStore
/-- The database. -/
def lf : Lens World SqlDb := ⟨World.facts, fun s w => { w with facts := s }, fun _ _ => rfl, fun _ => rfl, fun _ _ _ => rfl⟩
/-- The rules. -/
def li : Lens World InfState := ⟨World.inf, fun s w => { w with inf := s }, fun _ _ => rfl, fun _ => rfl, fun _ _ _ => rfl⟩
/-- The output buffer. -/
def lo : Lens World SimpleStore := ⟨World.out, fun s w => { w with out := s }, fun _ _ => rfl, fun _ => rfl, fun _ _ _ => rfl⟩

/-- The type of query functions. -/
abbrev Q := List Value → Ctx World → M World QOut

/-- `str.lower`. -/
def lower (v : Value) : M World Value := match v with
  | .str s => pure (.str s.toLower)
  | _ => M.throw .attributeError
/-- `tests/integration/cooper/CooperModule.py:35-50` (`resolve_name`); the table `entity` has the rows `[name, id]`. -/
def resolveName : Q := fun v ctx => do
  let name ← lower (← nth v 0)
  let id ← nth v 1
  let db ← M.gets lf.get
  match ← M.lift (db.select "entity" [name, .none]) with
  | [] => do
    let id ← if id = .none then do
        match ← nth ctx.arguments 1 with
        | .var n => pure (.str n)
        | _ => M.throw .attributeError
      else pure id
    sqlDo lf (SqlDb.insert "entity" [name, id])
    pure (.rows [[name, id]])
  | rows => pure (.rows rows)
/-- `CooperModule.py:54-69` (`not_3v`). -/
def not3 : Q := fun v _ => do
  let x ← nth v 0
  pure (.rows [[.none, if x = tt then ff else if x = ff then tt else .str "unknown"]])
/-- The third truth value. -/
def unk : Value := .str "unknown"
/-- `CooperModule.py:73-96` (`and_3v`). -/
def and3 : Q := fun v _ => match v with
  | [a, b, _] =>
    let o := if a = tt then (if b ∈ [tt, ff, unk] then some b else none)
      else if a = ff then (if b = ff then some ff else if b = unk then some unk else if b = tt then some ff else none)
      else if a = unk then (if b ∈ [tt, ff, unk] then some unk else none) else none
    match o with
    | some o => pure (.rows [[.none, .none, o]])
    | none => M.throw .typeError
  | _ => M.throw .valueError
/-- `CooperModule.py:99-106` (`common_query`). -/
def commonQuery (p : String) : Q := fun v _ => do
  let db ← M.gets lf.get
  match ← M.lift (db.select p v) with
  | [] => pure (.rows [v.dropLast ++ [unk]])
  | rows => pure (.rows rows)
/-- `CooperModule.py:109-110` (`common_write`): `INSERT OR IGNORE` with the entity as the primary key. -/
def commonWrite (p : String) (v : List Value) : M World Unit := do
  let db ← M.gets lf.get
  let e ← nth v 0
  match ← M.lift (db.select p [e, .none]) with
  | [] => sqlDo lf (SqlDb.insert p v)
  | _ => pure ()

/-- The tables of `tests/integration/cooper/CooperDB.py:16-30`. -/
def names : List String := ["metal", "element", "compound", "nonmetal", "white", "dark_gray", "brittle", "oxide", "sulfide", "chloride", "fuel", "burns",
  "burns_rapidly", "combustable", "gasoline"]
/-- `CooperModule.py:12-32`. -/
def relations : Dict (Relation World) :=
  [("resolve_name", { predicate := "resolve_name", query := resolveName }), ("not_3v", { predicate := "not_3v", query := not3 }),
   ("and_3v", { predicate := "and_3v", query := and3 })] ++
  names.map fun p => (p, { predicate := p, columns := ["entity", "truth"], query := commonQuery p, write := some fun v _ => commonWrite p v })
/-- `tests/integration/cooper/CooperModule.py`. -/
def facts : Module World := ⟨fun _ p => relations.get p⟩

/-- The two systems of `tests/integration/cooper/test.py:54-116`: they share the model. -/
def system (rules : List (SimpleRule Attachment)) : Sys World where
  read := rules
  write := writeDicts
  regex _ s := longest isW s
  modules := [facts, inferenceModule li, outputBuffer lo]
  out := lo

/-- The world at the start, `test.py:55-63`. -/
def world : Except String World := do
  let i ← importRules cooperInferences .init
  return ⟨("entity", []) :: names.map (·, []), i, []⟩

/-- Whether the replies to the first `m` statements and the first `n` questions are those of the test. -/
def passes (m n : Nat) : Bool :=
  match world with
  | .ok w => match (system rules1).test (cooperTests1.take m) w with
    | some w => ((system rules2).test (cooperTests2.take n) w).isSome
    | none => false
  | .error _ => false

#guard passes 1 1

/-- The dialogs with a report. -/
def play : IO Nat := do
  match world with
  | .ok w =>
    let (m, w) ← (system rules1).play cooperTests1 w
    return m + (← (system rules2).play cooperTests2 w).1
  | .error e => IO.println e; return 1

end Verif.Runs.Cooper

import Verif.Grammar
import Verif.Monad
import Verif.Small

/-!
# The Earley parser

Models `richard/processor/parser/earley` and `richard/processor/parser/BasicParser.py`.

Simplified: Python's `str.lower`, `re.match` and `hash` are parameters (`Oracles`) about which nothing is assumed unless a theorem says so;
regular expressions that do not compile are left out. Python's limit on the depth of recursion is left out: the extraction of trees has
a depth parameter and gives `oof` when it is too small.
-/

namespace Verif

/-- Result of a pure computation that may raise or run out of fuel. -/
inductive Out (α : Type) where
  | ok (a : α)
  | err (e : Err)
  | oof
deriving DecidableEq, Repr

/-- Sequencing. -/
def Out.bind {α β : Type} (x : Out α) (f : α → Out β) : Out β := match x with
  | .ok a => f a
  | .err e => .err e
  | .oof => .oof

/-- A loop that collects one result per element. -/
def Out.mapList {α β : Type} (f : α → Out β) : List α → Out (List β)
  | [] => .ok []
  | x :: xs => (f x).bind fun y => (Out.mapList f xs).bind fun ys => .ok (y :: ys)

/-- A loop that appends the results for each element. -/
def Out.flatMapList {α β : Type} (f : α → Out (List β)) : List α → Out (List β)
  | [] => .ok []
  | x :: xs => (f x).bind fun ys => (Out.flatMapList f xs).bind fun zs => .ok (ys ++ zs)

/-- Functions of the Python library that the parser uses. -/
structure Oracles where
  /-- the hash computed in `richard/entity/GrammarRule.py:34-35` -/
  ruleHash : Constituent → List Constituent → Nat
  /-- `hash((rule.hash, dot_position, start_char_index, end_char_index))` in `entity/ChartState.py:21-22` -/
  stateHash : Nat → Nat → Nat → Nat → Nat
  /-- `str.lower` -/
  lower : Str → Str
  /-- `re.match(regexp, part)`: the length of the match -/
  regex : Str → Str → Option Nat

variable {A : Type}

/-- Models `richard/processor/parser/earley/entity/ChartState.py:6-18`. -/
structure EState (A : Type) where
  rule : GRule A
  dot : Nat
  start : Nat
  fin : Nat
deriving DecidableEq, Repr

namespace EState

/-- Whether a dictionary takes two states for the same key: equal hashes (`entity/ChartState.py:21-22`) and equal by `__eq__`
(`entity/ChartState.py:25-29`). -/
def same (E : Oracles) (s t : EState A) : Bool :=
  E.stateHash s.rule.hash s.dot s.start s.fin == E.stateHash t.rule.hash t.dot t.start t.fin &&
  (s.rule.equals t.rule && decide (s.dot = t.dot) && decide (s.start = t.start) && decide (s.fin = t.fin))

/-- Models `entity/ChartState.py:38-39` (`is_complete`). -/
def isComplete (s : EState A) : Bool := decide (s.dot ≥ s.rule.cons.length + 1)

end EState

/-- `richard/core/constants.py` (`TERMINAL`). -/
def cTerminal : Str := ['t', 'e', 'r', 'm', 'i', 'n', 'a', 'l']
/-- `richard/core/constants.py` (`GAMMA`). -/
def cGamma : Str := ['g', 'a', 'm', 'm', 'a']
/-- `richard/core/constants.py` (`DELTA`). -/
def cDelta : Str := ['d', 'e', 'l', 't', 'a']
/-- `richard/core/constants.py` (`ROOT_CATEGORY`). -/
def cRoot : Str := ['s']

/-- Models `richard/processor/parser/earley/entity/Chart.py:8-20`. `states i` is for `0 ≤ i ≤ len(text)`. -/
structure Chart (A : Type) where
  states : Nat → List (EState A)
  completed : Nat → Option (List (EState A))

namespace Chart

/-- Models `entity/Chart.py:17-20` (`__init__`). -/
def new : Chart A := ⟨fun _ => [], fun _ => none⟩

/-- Models `entity/Chart.py:41-46` (`enqueue`) for a text of length `n`: an `IndexError` behind the end of the text. -/
def enqueue (E : Oracles) (n : Nat) (chart : Chart A) (state : EState A) (position : Nat) : Out (Chart A) :=
  if position > n then .err .indexError
  else if (chart.states position).any (fun s => s.same E state) then .ok chart
  else .ok { chart with states := fun i => if i = position then chart.states i ++ [state] else chart.states i }

/-- Models `entity/Chart.py:49-52` (`index_completed_state`). -/
def indexCompleted (chart : Chart A) (state : EState A) : Chart A :=
  { chart with completed := fun i =>
      if i = state.fin then some ((chart.completed i).getD [] ++ [state]) else chart.completed i }

/-- A loop that enqueues states at their end positions. -/
def enqueueAll (E : Oracles) (n : Nat) : Chart A → List (EState A) → Out (Chart A)
  | chart, [] => .ok chart
  | chart, s :: rest => (chart.enqueue E n s s.fin).bind fun chart => enqueueAll E n chart rest

end Chart

/-- The constituent `delta(D)`. -/
def deltaC : Constituent := ⟨cDelta, [['D']], .relation, false, false⟩
/-- The constituent `gamma(G)`. -/
def gammaC : Constituent := ⟨cGamma, [['G']], .relation, false, false⟩

/-- The rule in `entity/Chart.py:25-28` and `34-37`. -/
def gammaRule (E : Oracles) : GRule A := GRule.new E.ruleHash gammaC [deltaC] .none

/-- Models `entity/Chart.py:23-29` (`build_incomplete_gamma_state`). -/
def incompleteGamma (E : Oracles) : EState A := ⟨gammaRule E, 1, 0, 0⟩

/-- Models `entity/Chart.py:32-38` (`build_complete_gamma_state`). -/
def completeGamma (E : Oracles) (n : Nat) : EState A := ⟨gammaRule E, 2, 0, n⟩

/-- Models the rule in `richard/processor/parser/earley/EarleyParser.py:64-69`. -/
def deltaRule (E : Oracles) (count : Nat) : GRule A :=
  GRule.new E.ruleHash deltaC [⟨cRoot, (List.range count).map (fun j => 'P' :: showNat (j + 1)), .relation, false, false⟩] .ident

/-- Models `EarleyParser.py:63-69`: each parse adds the start rules to the grammar. -/
def addStartRules (E : Oracles) (g : Grammar A) : Grammar A :=
  (g.findArgumentCounts cRoot).foldl (fun g c => g.addRule (deltaRule E c)) g

/-- Models `EarleyParser.py:100-113` (`predict`). -/
def predict (E : Oracles) (n : Nat) (g : Grammar A) (chart : Chart A) (state : EState A) : Out (Chart A) :=
  match state.rule.cons[state.dot - 1]? with
  | none => .err .indexError
  | some c => chart.enqueueAll E n ((g.findRules c.predicate c.args.length).map fun rule => ⟨rule, 1, state.fin, state.fin⟩)

/-- Models `EarleyParser.py:148-160` (`add_scanned_state`) without the enqueuing. -/
def scannedState (E : Oracles) (c : Constituent) (fin : Nat) (word : Str) (sem : RuleSem A) : EState A :=
  ⟨GRule.new E.ruleHash ⟨c.predicate, c.args, c.pos, false, false⟩ [⟨word, [cTerminal], .word, false, false⟩] sem, 2, fin,
    fin + word.length⟩

/-- Models `EarleyParser.py:197-204` (`perform_regexp`). -/
def performRegexp (E : Oracles) (text : Str) (start : Nat) (regexp : Str) : Option Str :=
  let part := text.drop start
  (E.regex regexp part).map fun m => part.take m

/-- Models `EarleyParser.py:207-209` (`read_word`). -/
def readWord (E : Oracles) (text : Str) (start : Nat) (word : Str) : Bool :=
  let part := E.lower (text.drop start)
  part.take word.length == word

/-- Models `EarleyParser.py:123-141`: the states that `scan` enqueues. -/
def scanStates (E : Oracles) (text : Str) (fin : Nat) (c : Constituent) : List (EState A) :=
  (if c.pos = .regexp then
    match performRegexp E text fin c.predicate with
    | some word => (List.range word.length).map fun i =>
        let sub := word.take (i + 1)
        scannedState E c fin sub (.word sub)
    | none => []
   else []) ++
  (if c.pos = .word then
    if readWord E text fin c.predicate then [scannedState E c fin c.predicate .none] else []
   else [])

/-- Models `EarleyParser.py:116-141` (`scan`). -/
def scan (E : Oracles) (text : Str) (chart : Chart A) (state : EState A) : Out (Chart A) :=
  match state.rule.cons[state.dot - 1]? with
  | none => .err .indexError
  | some c => chart.enqueueAll E text.length (scanStates E text state.fin c)

/-- Models `EarleyParser.py:180-191`: the state that results when `completed` advances `charted`, if it does. There is no check of the
number of arguments. -/
def advance (completed charted : EState A) : Option (EState A) :=
  if charted.dot > charted.rule.cons.length then none
  else match charted.rule.cons[charted.dot - 1]? with
    | none => none
    | some c =>
      if c.predicate ≠ completed.rule.ante.predicate then none
      else if c.pos ≠ completed.rule.ante.pos then none
      else some ⟨charted.rule, charted.dot + 1, charted.start, completed.fin⟩

/-- Models `EarleyParser.py:163-194` (`complete`). The loop runs over the states at the start of the completed state while enqueuing at its
end; when these are the same and a state is added, Python raises a `RuntimeError` (dictionary changed size during iteration). -/
def complete (E : Oracles) (n : Nat) (chart : Chart A) (state : EState A) : Out (Chart A) :=
  let chart := chart.indexCompleted state
  if state.start > n then .err .indexError
  else
    (chart.enqueueAll E n ((chart.states state.start).filterMap (advance state))).bind fun chart' =>
      if state.start = state.fin ∧ (chart'.states state.start).length ≠ (chart.states state.start).length then .err .runtimeError
      else .ok chart'

/-- Models `EarleyParser.py:78-93`: the treatment of one state. -/
def step (E : Oracles) (g : Grammar A) (text : Str) (i : Nat) (chart : Chart A) (state : EState A) : Out (Chart A) :=
  if !state.isComplete then
    (predict E text.length g chart state).bind fun chart =>
      if i < text.length then scan E text chart state else .ok chart
  else complete E text.length chart state

/-- Models `EarleyParser.py:74-95`: the loop over the states at position `i`. -/
def innerLoop (E : Oracles) (g : Grammar A) (text : Str) (i : Nat) : Nat → Nat → Chart A → Out (Chart A)
  | fuel, j, chart =>
    match (chart.states i)[j]? with
    | none => .ok chart
    | some state => match fuel with
      | 0 => .oof
      | fuel + 1 => (step E g text i chart state).bind fun chart => innerLoop E g text i fuel (j + 1) chart

/-- Models `EarleyParser.py:72-97`: the loop over the positions from `i` on, `k` of them. -/
def outerLoop (E : Oracles) (g : Grammar A) (text : Str) (fuel : Nat) : Nat → Nat → Chart A → Out (Chart A)
  | 0, _, chart => .ok chart
  | k + 1, i, chart => (innerLoop E g text i fuel 0 chart).bind fun chart => outerLoop E g text fuel k (i + 1) chart

/-- Models `EarleyParser.py:48-97` (`buildChart`) after the start rules have been added. -/
def buildChart (E : Oracles) (fuel : Nat) (g : Grammar A) (text : Str) : Out (Chart A) :=
  ((Chart.new).enqueue E text.length (incompleteGamma E) 0).bind fun chart => outerLoop E g text fuel (text.length + 1) 0 chart

/-! ## Tree extraction (`richard/processor/parser/earley/tree_extract.py`) -/

/-- Models `tree_extract.py:51-69` (`find_state_sequences`) for the `k`th consequent. -/
def findSeqs (chart : Chart A) (parent : EState A) : Nat → Nat → Out (List (List (EState A)))
  | k, fin =>
    if fin = 0 then .ok []
    else match chart.completed fin with
      | none => .err .keyError
      | some states => states |> Out.flatMapList fun state =>
        match parent.rule.cons[k]? with
        | none => .err .indexError
        | some c =>
          if state.rule.ante.equals c then
            match k with
            | 0 => if state.start = parent.start then .ok [[state]] else .ok []
            | k + 1 => (findSeqs chart parent k state.start).bind fun prev => .ok (prev.map fun seq => seq ++ [state])
          else .ok []

/-- Models `tree_extract.py:79-84` (`create_permutations`, `itertools.product`). -/
def product {α : Type} : List (List α) → List (List α)
  | [] => [[]]
  | xs :: rest => xs.flatMap fun x => (product rest).map fun ys => x :: ys

/-- Models `tree_extract.py:19-48` and `72-76` (`create_trees_for_state`, `find_child_state_sequences`, `create_trees_for_states`). The first
argument bounds the depth of the recursion. -/
def createTrees (chart : Chart A) : Nat → EState A → Out (List (ParseTree A))
  | 0, _ => .oof
  | fuel + 1, state =>
    match state.rule.cons with
    | [] => .err .indexError
    | c :: cs =>
      if c.args.head? = some cTerminal then .ok [.node state.rule.ante.predicate [] c.predicate state.rule]
      else
        (findSeqs chart state cs.length state.fin).bind fun seqs =>
          seqs |> Out.flatMapList fun seq =>
            (Out.mapList (createTrees chart fuel) seq).bind fun trees =>
              .ok ((product trees).map fun children => .node state.rule.ante.predicate children [] state.rule)

/-- `gamma_node.children[0].children[0]` in `tree_extract.py:16`. -/
def stripRoot (t : ParseTree A) : Out (ParseTree A) :=
  match t.children with
  | [] => .err .indexError
  | d :: _ => match d.children with
    | [] => .err .indexError
    | s :: _ => .ok s

/-- Models `tree_extract.py:7-16` (`extract_tree_roots`). -/
def extractRoots (E : Oracles) (fuel : Nat) (chart : Chart A) (n : Nat) : Out (List (ParseTree A)) :=
  match chart.completed n with
  | none => .ok []
  | some _ => (createTrees chart fuel (completeGamma E n)).bind fun nodes => Out.mapList stripRoot nodes

/-! ## Errors -/

/-- Models the loops in `richard/processor/parser/earley/unknown_word.py:10-18`: the value of `last_understood_index` after positions
`i - 1, ..., 0`. -/
def lastUnderstood (chart : Chart A) : Nat → Int → Int
  | 0, last => last
  | i + 1, last =>
    lastUnderstood chart i ((chart.states i).foldl (fun last state =>
      if state.isComplete then (if (state.fin : Int) > last then (state.fin : Int) - 1 else last) else last) last)

/-- Models `unknown_word.py:5-25` (`find_unknown_word`). -/
def findUnknownWord (chart : Chart A) (text : Str) : Str :=
  let last := lastUnderstood chart (text.length + 1) (-1)
  if last + 1 < text.length then ((text.drop (last + 1).toNat).take 9) ++ [' ', '.', '.', '.'] else []

/-- The error types of `richard/core/constants.py` the parser uses. -/
inductive ParseError where
  | none
  | unknownWord (word : Str)
  | noSentence
  | notUnderstood
deriving DecidableEq, Repr

/-- Models `EarleyParser.py:20-45` (`parse`) on a grammar that has its start rules. -/
def parseWith (E : Oracles) (fuel depth : Nat) (g : Grammar A) (text : Str) : Out (List (ParseTree A) × ParseError) :=
  (buildChart E fuel g text).bind fun chart =>
    (extractRoots E depth chart text.length).bind fun roots =>
      .ok (roots,
        if roots.length = 0 then
          let next := findUnknownWord chart text
          if next ≠ [] then .unknownWord next
          else if text.length = 0 then .noSentence
          else .notUnderstood
        else .none)

/-- Models `EarleyParser.py:20-45` (`parse`): the result and the grammar afterwards. -/
def parse (E : Oracles) (fuel depth : Nat) (g : Grammar A) (text : Str) : Out (List (ParseTree A) × ParseError) × Grammar A :=
  (parseWith E fuel depth (addStartRules E g) text, addStartRules E g)

/-- Models `richard/processor/parser/BasicParser.py:29-41` (`process`): the products are the trees. -/
def basicParse (E : Oracles) (fuel depth : Nat) (g : Grammar A) (text : Str) : Out (List (ParseTree A) × ParseError) × Grammar A :=
  let (r, g) := parse E fuel depth g (normalizeSpace text)
  (r.bind fun p => .ok (sortTrees p.1, p.2), g)

end Verif

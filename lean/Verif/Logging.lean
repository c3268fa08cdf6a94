import Verif.Conversation
import Verif.Repr

/-!
# Printing and logging

Models `richard/core/Logger.py`, the `log` methods of the products, `richard/entity/ParseTreeNode.py:18-37` (`__str__`), `richard/core/atoms.py:4-24`
(`format_value`), and logging in `richard/entity/SentenceRequest.py:43-47` and `richard/core/DialogTester.py:44-80`. The statistics of the solver are
in `Verif.Stats`; here `show_stats` is not set.
-/

namespace Verif

/-- Python's `sep.join(texts)`. -/
def joinText (sep : Str) : List Str → Str
  | [] => []
  | [t] => t
  | t :: u :: ts => t ++ sep ++ joinText sep (u :: ts)

/-- Python's `text.strip()`. Simplified: white space is that of ASCII. -/
def stripText (t : Str) : Str := (((t.dropWhile Char.isWhitespace).reverse).dropWhile Char.isWhitespace).reverse

/-! ## Values -/

mutual
/-- Models `richard/core/atoms.py:4-24` (`format_value`). The other values than tuples, lists and texts are printed by `str`. -/
def formatValue : Value → Str → Str
  | .tuple vs, indent => indent ++ ['('] ++ formatTuple vs (indent ++ [' ', ' ', ' ', ' ']) ++ [')']
  | .list vs, indent => indent ++ ['['] ++ formatList vs (indent ++ [' ', ' ', ' ', ' ']) ++ indent ++ [']']
  | .str s, _ => ['\''] ++ s.toList ++ ['\'']
  | v, _ => reprV v
/-- The loop of `atoms.py:11-13`. -/
def formatTuple : List Value → Str → Str
  | [], _ => []
  | v :: vs, indent => formatValue v indent ++ (match vs with
    | [] => []
    | _ :: _ => [',', ' '] ++ formatTuple vs indent)
/-- The loop of `atoms.py:17-18`. -/
def formatList : List Value → Str → Str
  | [], _ => []
  | v :: vs, indent => formatValue v indent ++ formatList vs indent
end

/-- `str(d)` of a binding, `richard/processor/semantic_executor/AtomExecutorProduct.py:12`. -/
def reprBinding (b : Binding) : Str :=
  ['{'] ++ joinText [',', ' '] (b.map fun kv => reprStr kv.1.toList ++ [':', ' '] ++ reprV kv.2) ++ ['}']

/-! ## Parse trees -/

section
variable {A : Type}

mutual
/-- Models `richard/entity/ParseTreeNode.py:18-37` (`__str__`). -/
def treeText : ParseTree A → Str → Str
  | .node c cs _ _, indent => (if indent = [] then c ++ ['\n'] else []) ++ childrenText cs indent
/-- The loop of `ParseTreeNode.py:24-35`. -/
def childrenText : List (ParseTree A) → Str → Str
  | [], _ => []
  | .node c cs f r :: ts, indent =>
    (if f ≠ [] then indent ++ ['+', '-', ' '] ++ c ++ [' ', '\''] ++ f ++ ['\'', '\n']
     else indent ++ ['+', '-', ' '] ++ c ++ ['\n'] ++
       treeText (.node c cs f r) (indent ++ (if ts = [] then [' ', ' ', ' '] else ['|', ' ', ' ']))) ++ childrenText ts indent
end

mutual
/-- Models `richard/entity/ParseTreeNode.py:39-52` (`inline_str`). -/
def inlineText : ParseTree A → Str
  | .node c cs _ _ => c ++ ['('] ++ inlineChildren cs [] ++ [')']
/-- The loop of `ParseTreeNode.py:42-50`, with the variable `sep`. -/
def inlineChildren : List (ParseTree A) → Str → Str
  | [], _ => []
  | .node c cs f r :: ts, sep =>
    (if f = [' '] then []
     else if f ≠ [] then sep ++ c ++ [' ', '\''] ++ f ++ ['\'']
     else sep ++ inlineText (.node c cs f r)) ++ inlineChildren ts [' ']
end

end

/-! ## The logger -/

/-- The constants `NONE`, `LAST` and `ALL`, `richard/core/Logger.py:6-8`. -/
inductive Which where
  | no
  | last
  | all
  deriving DecidableEq, Repr

/-- Models `richard/core/Logger.py:19-40`: the fields. Processors are numbered. The field `show_products` is only `NONE` or `ALL`. The entries
`show_stats` and `show_stats_processors` are left out. -/
structure Logger where
  whichTests : Which
  isLastTest : Bool
  showProducts : Bool
  processors : List Nat
  entries : List Str
  deriving DecidableEq, Repr

/-- Models `richard/core/Logger.py:34-40` (`__init__`). -/
def Logger.new : Logger := ⟨.last, false, false, [], []⟩

/-- Models `richard/core/Logger.py:43-53` (`log_all_tests`, `log_only_last_test`, `log_no_tests`). -/
def Logger.logTests (which : Which) (lg : Logger) : Logger := { lg with whichTests := which }

/-- Models `richard/core/Logger.py:56-62` (`log_products`). -/
def Logger.logProducts (processors : List Nat) (lg : Logger) : Logger := { lg with showProducts := true, processors := processors }

/-- Models `richard/core/Logger.py:72-76` (`is_active`). -/
def Logger.isActive (lg : Logger) : Bool := lg.whichTests = .all || (lg.whichTests = .last && lg.isLastTest)

/-- `self.entries.append(...)`. -/
def Logger.append (lg : Logger) (es : List Str) : Logger := { lg with entries := lg.entries ++ es }

/-- A colour, `richard/core/Logger.py:10-17`. -/
def colour (code : Str) : Str := [Char.ofNat 27, '['] ++ code ++ ['m']
/-- `NO_COLOR`, `Logger.py:10`. -/
def noColour : Str := colour ['0']
/-- `HEADER_COLOR`, `Logger.py:11`. -/
def headerColour : Str := colour ['3', '3']
/-- `SUBHEADER_COLOR`, `Logger.py:12`. -/
def subheaderColour : Str := colour ['3', '6']
/-- `VALUE_COLOR`, `Logger.py:13`. -/
def valueColour : Str := colour ['3', '7']
/-- `SEPARATOR_COLOR`, `Logger.py:14`. -/
def separatorColour : Str := colour ['3', '3']
/-- `KEY_COLOR`, `Logger.py:15`. -/
def keyColour : Str := colour ['3', '4']
/-- `ERROR_COLOR`, `Logger.py:16`. -/
def errorColour : Str := colour ['3', '1']
/-- `COMMENT_COLOR`, `Logger.py:17`. -/
def commentColour : Str := colour ['9', '0']

/-- The entry of `richard/core/Logger.py:79-80` (`add`). -/
def entry (t : Str) : Str := t ++ ['\n']
/-- The entry of `Logger.py:83-88` (`add_test_separator`) in a terminal of the given width. -/
def separatorEntry (width test : Nat) : Str :=
  (separatorColour ++ ['~', '~', '['] ++ valueColour ++ [' '] ++ showNat test ++ [' '] ++ separatorColour ++ [']'] ++ List.replicate width '~').take
    (width + separatorColour.length + valueColour.length + separatorColour.length) ++ noColour ++ ['\n']
/-- The entry of `Logger.py:91-92` (`add_key_value`). -/
def keyValueEntry (key value : Str) : Str := keyColour ++ ['['] ++ key ++ [']'] ++ noColour ++ [' '] ++ value ++ ['\n']
/-- The entry of `Logger.py:95-96` (`add_header`). -/
def headerEntry (t : Str) : Str := headerColour ++ t ++ noColour ++ ['\n']
/-- The entry of `Logger.py:99-100` (`add_subheader`). -/
def subheaderEntry (t : Str) : Str := subheaderColour ++ t ++ noColour ++ ['\n']
/-- The entry of `Logger.py:103-104` (`add_comment`). -/
def commentEntry (t : Str) : Str := commentColour ++ t ++ noColour ++ ['\n']
/-- The entry of `Logger.py:107-108` (`add_error`). -/
def errorEntry (t : Str) : Str := errorColour ++ t ++ noColour ++ ['\n']

/-- Models `richard/core/Logger.py:111-119` (`add_process_result`); `log` gives the entries of a product. -/
def Logger.addProcessResult {P : Type} (name : Str) (log : P → List Str) (i : Nat) (result : ProcResult P) (lg : Logger) : Logger :=
  if lg.isActive && lg.showProducts then
    if lg.processors = [] ∨ i ∈ lg.processors then
      lg.append ([headerEntry name] ++ (if result.errorType ≠ "" then [errorEntry result.errorType.toList] else []) ++ result.products.flatMap log)
    else lg
  else lg

/-- Models `richard/core/Logger.py:126-130` (`__str__`). -/
def Logger.text (lg : Logger) : Str := lg.entries.flatMap fun e => e ++ ['\n']

/-! ## The entries of products -/

/-- The loop of `richard/processor/semantic_composer/SemanticComposerProduct.py:29-34`; `prev` is `None` at first. -/
def iterationEntries : List (String × Value) → Value → List Str
  | [], _ => []
  | (d, v) :: its, prev =>
    if v ≠ prev then subheaderEntry d.toList :: entry (stripText (formatValue v ['\n'])) :: iterationEntries its v
    else iterationEntries its prev

/-- The `log` methods: `richard/processor/language_selector/LanguageSelectorProduct.py:12-13`, `richard/processor/parser/BasicParserProduct.py:12-13`,
`richard/processor/semantic_composer/SemanticComposerProduct.py:21-34`, `richard/processor/semantic_executor/AtomExecutorProduct.py:11-16` (without
statistics; with them it is `executedEntries` in `Verif.Stats`). -/
def productEntries {A : Type} : Product (ParseTree A) → List Str
  | .locale l => [entry (joinText [',', ' '] (l.toList.map fun c => [c]))]
  | .parse t => [entry (stripText (treeText t []))]
  | .composed p =>
    [subheaderEntry ['E', 'x', 'e', 'c', 'u', 't', 'a', 'b', 'l', 'e'], entry (formatValue p.executable ['\n']),
     subheaderEntry ['I', 'n', 'f', 'e', 'r', 'e', 'n', 'c', 'e', 's'], entry (formatValue (.list p.inferences) ['\n']),
     subheaderEntry ['R', 'e', 't', 'u', 'r', 'n', ' ', 'v', 'a', 'r', 'i', 'a', 'b', 'l', 'e', 's'],
     entry (joinText [',', ' '] (p.returnVariables.map String.toList))] ++ iterationEntries p.iterations .none
  | .executed (.rows bs) => [entry (joinText ['\n'] (bs.map reprBinding))]
  | .executed (.iter single n) => [entry (joinText ['\n'] (resultItems single n))]

/-! ## Runs with logging -/

section
variable {P W : Type}

/-- What logging a processor's result needs: `get_name` of the processor with a number (`richard/interface/SomeProcessor.py:17-20`) and `log` of products. -/
structure LogTexts (P : Type) where
  name : Nat → Str
  log : P → List Str

/-- Models `richard/entity/SentenceRequest.py:43-47` (`exec_process`) with the logging: the processor of a block, followed by
`add_process_result`. The logger is part of the world. -/
def Processor.withLog (L : LogTexts P) (p : Processor P W) : Processor P (Logger × W) where
  id := p.id
  process := fun request s =>
    match p.process request s.2 with
    | .ok w result => .ok (s.1.addProcessResult (L.name p.id) L.log p.id result, w) result
    | .err w e => .err (s.1, w) e
    | .oof => .oof

/-- A block whose processor's results are logged. -/
def Block.withLog (L : LogTexts P) (b : Block P W) : Block P (Logger × W) := ⟨b.kind, b.processor.withLog L⟩

/-- The solver does not use the logger (`richard/core/Solver.py`). -/
def SolverApi.withLog (api : SolverApi W) : SolverApi (Logger × W) where
  solve := fun q b => onWorld (api.solve q b)
  writeAtom := fun a => onWorld (api.writeAtom a)

/-- Change the logger. -/
def onLogger (f : Logger → Logger) : M (Logger × W) Unit := M.modify fun s => (f s.1, s.2)

/-- What is printed for an output in `{}` of a format (`richard/core/Logger.py:92`). -/
def outputText : Value → Str
  | .str s => s.toList
  | v => reprV v

/-- The pipeline and the output of one test, with the results of the processors logged, `richard/core/DialogTester.py:53,62,66-68`. -/
def turnMiddle (L : LogTexts P) (api : SolverApi W) (blocks : List (Block P W)) (g : Grammar WriteSem) (l : Lens W SimpleStore) (n : Nat)
    (question : Str) : M (Logger × W) Value := fun s =>
  match enter api.withLog (blocks.map (Block.withLog L)) (Request.new question, s) with
  | .ok s' _ => onWorld (generateOutput api g l n) s'.2
  | .err s' e => .err s'.2 e
  | .oof => .oof

/-- One test with the logging, `richard/core/DialogTester.py:50-76`. `test` is its number; `time` is the text of line 74; `logThis` is the variable
`log_this` of line 50. -/
def turnLogged (L : LogTexts P) (width : Nat) (time : Nat → Str) (api : SolverApi W) (blocks : List (Block P W)) (g : Grammar WriteSem)
    (l : Lens W SimpleStore) (n : Nat) (logThis : Bool) (test : Nat) (question : Str) (expected : Value) : M (Logger × W) Unit := do
  onLogger fun lg => { lg with isLastTest := logThis }
  onLogger fun lg => if logThis then lg.append [separatorEntry width (test + 1), keyValueEntry ['H', 'u', 'm', 'a', 'n'] question] else lg
  let output ← turnMiddle L api blocks g l n question
  onLogger fun lg =>
    if logThis || decide (output ≠ expected) then
      lg.append [keyValueEntry ['C', 'o', 'm', 'p', 'u', 't', 'e', 'r'] (outputText output), commentEntry (time test)]
    else lg
  if output = expected then pure () else M.throw (.exception "AssertionError")

/-- The loop of `richard/core/DialogTester.py:46-80` from test number `i` on, when the last of all tests is `last`. Line 50: a test is logged if all
are, or if it equals the last one. -/
def doTests (L : LogTexts P) (width : Nat) (time : Nat → Str) (api : SolverApi W) (blocks : List (Block P W)) (g : Grammar WriteSem)
    (l : Lens W SimpleStore) (n : Nat) (last : Option (Str × Value)) : Nat → List (Str × Value) → M (Logger × W) Unit
  | _, [] => pure ()
  | i, t :: tests => do
    let lg ← M.gets Prod.fst
    turnLogged L width time api blocks g l n (lg.whichTests = .all || (lg.whichTests = .last && decide (last = some t))) i t.1 t.2
    doTests L width time api blocks g l n last (i + 1) tests

/-- Models `richard/core/DialogTester.py:44-80` (`do_run`) with the logging. -/
def doRunLogged (L : LogTexts P) (width : Nat) (time : Nat → Str) (api : SolverApi W) (blocks : List (Block P W)) (g : Grammar WriteSem)
    (l : Lens W SimpleStore) (n : Nat) (tests : List (Str × Value)) : M (Logger × W) Unit :=
  doTests L width time api blocks g l n tests.getLast? 0 tests

end

end Verif
